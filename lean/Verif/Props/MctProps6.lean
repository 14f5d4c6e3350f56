import Verif.Props.MctProps5
import Verif.Props.ChannelProps3

set_option linter.unusedSimpArgs false

/-!
# Gaussian constraints (C53) and purity of evaluations (C56)
-/

namespace TF.Spec

open Classical

noncomputable section

/-- value and error of the last call of `add_gaussian_constraint_on_yield` for process `p` -/
def lastCall (calls : List (String × ℝ × ℝ)) (p : String) : ℝ × ℝ :=
  match calls.reverse.find? (fun c => c.1 = p) with
  | some c => c.2
  | none => (0, 1)

/-- the Gaussian term `(x - v)² / (2 e²)` -/
def gaussTerm (x v e : ℝ) : ℝ := (x - v) ^ 2 / (2 * e ^ 2)

end

end TF.Spec

namespace TF.Props

open Classical Spec

noncomputable section

/-! ## C53 -/

/-- the API calls `add_gaussian_constraint_on_yield(p, v, e)` one after the other -/
def constrainOps (calls : List (String × ℝ × ℝ)) : List Op :=
  calls.map fun c => .constrain c.1 (.fin c.2.1) (.fin c.2.2)

theorem lastCall_snoc (calls : List (String × ℝ × ℝ)) (c : String × ℝ × ℝ) (p : String) :
    lastCall (calls ++ [c]) p = if c.1 = p then c.2 else lastCall calls p := by
  unfold lastCall
  by_cases h : c.1 = p <;> simp [h]

/-- state of the model after a sequence of constraint calls -/
theorem constrain_state (s : Sys) (calls : List (String × ℝ × ℝ)) :
    (s.run (constrainOps calls)).w = s.w ∧
    (s.run (constrainOps calls)).m.channels = s.m.channels ∧
    (s.run (constrainOps calls)).m.processes = s.m.processes ∧
    (s.run (constrainOps calls)).m.constrained =
      s.m.constrained ++ (calls.filter fun c => decide (c.1 ∈ s.m.processes)).map (·.1) ∧
    ∀ p ∈ s.m.processes, p ∈ calls.map (·.1) →
      dictGet (s.run (constrainOps calls)).m.cvals p = some (.fin (lastCall calls p).1) ∧
      dictGet (s.run (constrainOps calls)).m.cerrs p = some (.fin (lastCall calls p).2) := by
  induction calls using List.reverseRecOn with
  | nil => simp [constrainOps, Sys.run]
  | append_singleton calls c ih =>
    obtain ⟨h1, h2, h3, h4, h5⟩ := ih
    have hrun : s.run (constrainOps (calls ++ [c])) =
        (s.run (constrainOps calls)).step (.constrain c.1 (.fin c.2.1) (.fin c.2.2)) := by
      simp [Sys.run, constrainOps]
    rw [hrun]
    generalize s.run (constrainOps calls) = s1 at h1 h2 h3 h4 h5 ⊢
    simp only [Sys.step, Mct.addConstraint]
    by_cases hm : c.1 ∈ s1.m.processes
    · have hm' : c.1 ∈ s.m.processes := by rw [← h3]; exact hm
      rw [if_neg (not_not.mpr hm)]
      refine ⟨h1, h2, h3, ?_, ?_⟩
      · simp [h4, List.filter_append, hm']
      · intro p hp hpc
        simp only [lastCall_snoc]
        by_cases e : c.1 = p
        · subst e; simp [dictGet_set]
        · rw [dictGet_set_ne _ _ _ _ (Ne.symm e), dictGet_set_ne _ _ _ _ (Ne.symm e), if_neg e]
          apply h5 p hp
          simp only [List.map_append, List.mem_append, List.map_cons, List.map_nil, List.mem_singleton] at hpc
          rcases hpc with h | h
          · exact h
          · exact absurd h.symm e
    · have hm' : c.1 ∉ s.m.processes := by rw [← h3]; exact hm
      rw [if_pos hm]
      refine ⟨h1, h2, h3, ?_, ?_⟩
      · simp [h4, List.filter_append, hm']
      · intro p hp hpc
        have e : c.1 ≠ p := fun e => hm' (e ▸ hp)
        simp only [lastCall_snoc, if_neg e]
        apply h5 p hp
        simp only [List.map_append, List.mem_append, List.map_cons, List.map_nil, List.mem_singleton] at hpc
        rcases hpc with h | h
        · exact h
        · exact absurd h.symm e

theorem constraintTerm_fin (x v e : ℝ) (he : e ≠ 0) :
    constraintTerm (.fin x) (.fin v) (.fin e) = .fin (gaussTerm x v e) := by
  unfold constraintTerm gaussTerm
  rw [Fl.fin_sub, Fl.sq_fin, Fl.sq_fin, Fl.fin_mul, Fl.fin_div _ _ (pow_ne_zero 2 he)]
  congr 1
  field_simp

theorem constraintSum_eq (m : Mct) (x : Vec) (X V E : String → ℝ) (l : List String)
    (hl : ∀ p ∈ l, p ∈ m.processes ∧ x[m.processes.idxOf p]? = some (.fin (X p)) ∧
      dictGet m.cvals p = some (.fin (V p)) ∧ dictGet m.cerrs p = some (.fin (E p)) ∧ E p ≠ 0) :
    m.constraintSum x l = .ok (.fin (l.map fun p => gaussTerm (X p) (V p) (E p)).sum) := by
  induction l with
  | nil => simp [Mct.constraintSum, Fl.zero_def]
  | cons p l ih =>
    obtain ⟨h1, h2, h3, h4, h5⟩ := hl p (by simp)
    simp only [Mct.constraintSum, if_neg (not_not.mpr h1), h2, h3, h4, ih (fun q hq => hl q (by simp [hq])),
      constraintTerm_fin _ _ _ h5, Fl.fin_add, List.map_cons, List.sum_cons]

/-- the likelihood of the same model with other constraints -/
theorem nll_constraints (w : World) (m m' : Mct) (x : Vec) (hc : m'.channels = m.channels)
    (hp : m'.processes = m.processes) (h0 : m.constrained = []) (v k : Fl) (hv : (m.nll w x).1 = .ok v)
    (hk : m'.constraintSum x m'.constrained = .ok k) : (m'.nll w x).1 = .ok (v + k) := by
  have e1 : m'.perChannel w x = m.perChannel w x := by
    unfold Mct.perChannel Mct.numNui Mct.numProcesses Mct.chanIds; rw [hc, hp]
  have e2 : m'.chanIds = m.chanIds := by unfold Mct.chanIds; rw [hc]
  unfold Mct.nll at hv ⊢
  rw [e1, e2]
  generalize m.perChannel w x = r at hv ⊢
  obtain ⟨r1, w1⟩ := r
  cases r1 with
  | error e => simp at hv
  | ok q =>
    obtain ⟨ys, ns⟩ := q
    simp only at hv ⊢
    generalize w1.nllChannels m.chanIds ys ns = r at hv ⊢
    obtain ⟨r1, w2⟩ := r
    cases r1 with
    | error e => simp at hv
    | ok a =>
      simp only [h0, Mct.constraintSum] at hv
      simp only [hk]
      have := Except.ok.inj hv
      rw [← this]; simp

/-- **C53 (partial), the exact formula.** Take any model without constraints, any sequence of constraint
calls (finite values, non-zero errors) and any finite point `x` at which the likelihood was `v`. Afterwards
the likelihood is `v` plus one Gaussian term *per accepted call*; each term uses the value and error of the
*last* call for its process. Calls for undefined processes contribute nothing. -/
theorem C53_formula_partial (s : Sys) (h0 : s.m.constrained = []) (calls : List (String × ℝ × ℝ))
    (he : ∀ c ∈ calls, c.2.2 ≠ 0) (x : Vec) (X : String → ℝ)
    (hx : ∀ p ∈ s.m.processes, x[s.m.processes.idxOf p]? = some (.fin (X p))) (v : Fl)
    (hv : (s.m.nll s.w x).1 = .ok v) :
    ((s.run (constrainOps calls)).m.nll (s.run (constrainOps calls)).w x).1 = .ok (v + .fin
      ((calls.filter fun c => decide (c.1 ∈ s.m.processes)).map fun c =>
        gaussTerm (X c.1) (lastCall calls c.1).1 (lastCall calls c.1).2).sum) := by
  obtain ⟨h1, h2, h3, h4, h5⟩ := constrain_state s calls
  rw [h1]
  refine nll_constraints s.w s.m _ x h2 h3 h0 v _ hv ?_
  rw [constraintSum_eq _ x X (fun p => (lastCall calls p).1) (fun p => (lastCall calls p).2)]
  · rw [h4, h0, List.nil_append, List.map_map]; rfl
  · rw [h4, h0, List.nil_append]
    intro p hp
    obtain ⟨c, hc, rfl⟩ := List.mem_map.mp hp
    simp only [List.mem_filter, decide_eq_true_eq] at hc
    have hmem : c.1 ∈ calls.map (·.1) := List.mem_map_of_mem hc.1
    obtain ⟨a, b⟩ := h5 _ hc.2 hmem
    refine ⟨by rw [h3]; exact hc.2, by rw [h3]; exact hx _ hc.2, a, b, ?_⟩
    unfold lastCall
    cases hf : calls.reverse.find? (fun d => decide (d.1 = c.1)) with
    | none => simp
    | some d => simp only; exact he d (by simpa using List.mem_of_find?_eq_some hf)

theorem lastCall_nodup (calls : List (String × ℝ × ℝ)) (hn : (calls.map (·.1)).Nodup) (c : String × ℝ × ℝ)
    (hc : c ∈ calls) : lastCall calls c.1 = c.2 := by
  induction calls using List.reverseRecOn with
  | nil => simp at hc
  | append_singleton calls d ih =>
    rw [lastCall_snoc]
    rw [List.map_append, List.nodup_append] at hn
    simp only [List.mem_append, List.mem_singleton] at hc
    rcases hc with hc | rfl
    · rw [if_neg, ih hn.1 hc]
      exact (fun e => hn.2.2 _ (List.mem_map_of_mem hc) d.1 (by simp) e.symm)
    · rw [if_pos rfl]

/-- **C53 (partial).** When no process is constrained twice, every constrained process adds
`(x_p - value)² / (2 error²)` exactly once. Missing: repeated calls for one process, see `C53_refuted`. -/
theorem C53_once_partial (s : Sys) (h0 : s.m.constrained = []) (calls : List (String × ℝ × ℝ))
    (hn : (calls.map (·.1)).Nodup) (hd : ∀ c ∈ calls, c.1 ∈ s.m.processes)
    (he : ∀ c ∈ calls, c.2.2 ≠ 0) (x : Vec) (X : String → ℝ)
    (hx : ∀ p ∈ s.m.processes, x[s.m.processes.idxOf p]? = some (.fin (X p))) (v : Fl)
    (hv : (s.m.nll s.w x).1 = .ok v) :
    ((s.run (constrainOps calls)).m.nll (s.run (constrainOps calls)).w x).1 = .ok (v + .fin
      (calls.map fun c => (X c.1 - c.2.1) ^ 2 / (2 * c.2.2 ^ 2)).sum) := by
  rw [C53_formula_partial s h0 calls he x X hx v hv]
  have : (calls.filter fun c => decide (c.1 ∈ s.m.processes)) = calls := by
    rw [List.filter_eq_self]; intro c hc; simpa using hd c hc
  rw [this]
  congr 4
  apply List.map_congr_left
  intro c hc
  rw [lastCall_nodup calls hn c hc]
  rfl

/-- **C53**, undefined processes: the call raises RuntimeError and changes nothing. -/
theorem C53_undefined (m : Mct) (p : String) (v e : Fl) (h : p ∉ m.processes) :
    m.addConstraint p v e = (.error .runtimeError, m) := by
  unfold Mct.addConstraint; rw [if_pos h]

/-- **C53**, defined processes: the call succeeds and changes no object of the model. -/
theorem C53_accepted (m : Mct) (p : String) (v e : Fl) (h : p ∈ m.processes) :
    (m.addConstraint p v e).1 = .ok () ∧ (m.addConstraint p v e).2.channels = m.channels ∧
    (m.addConstraint p v e).2.processes = m.processes := by
  unfold Mct.addConstraint; rw [if_neg (not_not.mpr h)]; exact ⟨rfl, rfl, rfl⟩

theorem Ex.nllC : (Ex.mC.nll Ex.wC Ex.xC).1 = .ok (.fin 1) := by
  have hs := Ex.bt_shape "t" 0 ![1, 1] ![1, 1] (by intro i; fin_cases i <;> simp) (by intro i; fin_cases i <;> simp)
  have h0 : Ex.wC = (Ex.wS (Ex.bt "t" 0 ![1, 1] ![1, 1])).clear := rfl
  have h := Ex.evalS (Ex.bt "t" 0 ![1, 1] ![1, 1]) 1 zero_le_one (by simp [Ex.bt, vec, List.ofFn_succ])
    (by rw [hs.rel]; simp [vec, List.ofFn_succ])
  have hb : (⟨Ex.wC, Ex.mC⟩ : Sys).Built := by
    refine ⟨_, setupFirst_of_noEval ?_, Ex.runC⟩
    intro o hm
    simp only [Ex.opsC, List.mem_cons, List.not_mem_nil, or_false] at hm
    rcases hm with rfl | rfl | rfl | rfl | rfl | rfl <;> exact id
  have hS : Coherent (Ex.wS (Ex.bt "t" 0 ![1, 1] ![1, 1])) := by
    have h1 := Ex.firstEval (Ex.bt "t" 0 ![1, 1] ![1, 1]) 1 zero_le_one (by simp [Ex.bt, vec, List.ofFn_succ])
      (by rw [hs.rel]; simp [vec, List.ofFn_succ]) rfl
    rw [← h1, ← h0]
    exact (nll_coh hb.coherent _ (reachable_wf hb.reachable).lt _).2
  have e1 := (nll_coh hb.coherent Ex.mC (reachable_wf hb.reachable).lt Ex.xC).1
  have e2 := (nll_coh hS Ex.mC (by simp [Ex.mC, Mct.chanIds, Ex.wS, Ex.wC]) Ex.xC).1
  rw [h] at e2
  simp only at e1
  rw [e1, h0, (clear_cacheOnly _).nllPure, ← e2]

/-- **C53 is false of the code:** constrain the yield of one process to 4 ± 1 and correct the constraint
to 3 ± 1 afterwards. At yield 2 the likelihood (1 without constraint) becomes 2 instead of 3/2: the
corrected constraint is counted twice. -/
theorem C53_refuted : ∃ s : Sys, s.Reachable ∧ ∃ x : Vec, x[0]? = some (.fin 2) ∧
    (s.m.nll s.w x).1 = .ok (.fin 1) ∧
    ((s.run [.constrain "p" (.fin 4) (.fin 1), .constrain "p" (.fin 3) (.fin 1)]).m.nll
      (s.run [.constrain "p" (.fin 4) (.fin 1), .constrain "p" (.fin 3) (.fin 1)]).w x).1 = .ok (.fin 2) ∧
    ((s.run [.constrain "p" (.fin 3) (.fin 1)]).m.nll
      (s.run [.constrain "p" (.fin 3) (.fin 1)]).w x).1 = .ok (.fin (3/2)) := by
  refine ⟨⟨Ex.wC, Ex.mC⟩, ⟨_, Ex.runC⟩, Ex.xC, rfl, Ex.nllC, ?_, ?_⟩
  · have := C53_formula_partial ⟨Ex.wC, Ex.mC⟩ rfl [("p", 4, 1), ("p", 3, 1)] (by simp) Ex.xC (fun _ => 2)
      (by simp [Ex.mC, Ex.xC]) _ Ex.nllC
    rw [show constrainOps [("p", 4, 1), ("p", 3, 1)] =
      [.constrain "p" (.fin 4) (.fin 1), .constrain "p" (.fin 3) (.fin 1)] from rfl] at this
    rw [this]
    simp [Ex.mC, lastCall, gaussTerm]
    norm_num
  · have := C53_once_partial ⟨Ex.wC, Ex.mC⟩ rfl [("p", 3, 1)] (by simp) (by simp [Ex.mC]) (by simp) Ex.xC (fun _ => 2)
      (by simp [Ex.mC, Ex.xC]) _ Ex.nllC
    rw [show constrainOps [("p", 3, 1)] = [.constrain "p" (.fin 3) (.fin 1)] from rfl] at this
    rw [this]
    simp
    norm_num

/-! ## C56 -/

/-- **C56.** Evaluating the likelihood, for every model, point and cache state, whether it succeeds or
raises, changes no histogram (data), template or channel (hence no parameter, efficiency, data reference)
and no object is created; the model object itself (processes, constraints) is not touched. -/
theorem C56_nll (s : Sys) (x : Vec) :
    (s.step (.nll x)).w.hists = s.w.hists ∧ (s.step (.nll x)).w.tmpls = s.w.tmpls ∧
    (s.step (.nll x)).w.chans = s.w.chans ∧ (s.step (.nll x)).m = s.m ∧
    (s.step (.nll x)).w.nHists = s.w.nHists ∧ (s.step (.nll x)).w.nTmpls = s.w.nTmpls ∧
    (s.step (.nll x)).w.nChans = s.w.nChans := by
  have := nll_frame s.w s.m x
  exact ⟨this.hists, this.tmpls, this.chans, rfl, this.nHists, this.nTmpls, this.nChans⟩

/-- **C56**, consequences for what the API returns: after an evaluation `x0` and `param_names`, every
process yield, Asimov and toy data sets are what they were before. -/
theorem C56_observations (s : Sys) (x : Vec) :
    s.m.x0 (s.step (.nll x)).w = s.m.x0 s.w ∧ s.m.paramNames (s.step (.nll x)).w = s.m.paramNames s.w ∧
    (∀ p, s.m.getYield (s.step (.nll x)).w p = s.m.getYield s.w p) ∧
    (∀ i, s.m.asimov (s.step (.nll x)).w i = s.m.asimov s.w i) ∧
    (∀ d, s.m.toy (s.step (.nll x)).w d = s.m.toy s.w d) := by
  have h := nll_frame s.w s.m x
  have e : (s.step (.nll x)).w = (s.m.nll s.w x).2 := rfl
  rw [e]
  generalize hw' : (s.m.nll s.w x).2 = w' at h
  have hy : ∀ p cs (a : World) (b : World), a.tmpls = b.tmpls → a.chans = b.chans →
      World.processYield a p cs = b.processYield p cs := by
    intro p cs a b e1 e2
    induction cs with
    | nil => rfl
    | cons c cs ih => simp only [World.processYield, ih, e1, e2]
  have hy' : s.m.processYields w' = s.m.processYields s.w := by
    unfold Mct.processYields
    exact List.map_congr_left fun p _ => hy p s.m.chanIds _ s.w h.tmpls h.chans
  refine ⟨?_, ?_, ?_, fun i => ?_, fun d => ?_⟩
  · unfold Mct.x0
    rw [hy']
    unfold Mct.nuiParams Mct.allTmpls World.chanTmpls
    rw [h.tmpls, h.chans]
  · unfold Mct.paramNames World.channelNames
    rw [h.tmpls, h.chans]
  · intro p
    unfold Mct.getYield
    rw [hy']
  · unfold Mct.asimov World.asimov World.datasetFrom World.chanTmpls
    rw [h.tmpls, h.chans, h.hists]
  · unfold Mct.toy World.toy World.datasetFrom World.chanTmpls
    rw [h.tmpls, h.chans, h.hists]

/-- **C56**, repeated evaluation: the value at `x` is the same after any other evaluation (with the
templates registered before the first evaluation). -/
theorem C56_repeat (s : Sys) (h : s.Built) (x y : Vec) :
    (s.m.nll (s.step (.nll y)).w x).1 = (s.m.nll s.w x).1 := by
  have hlt := (reachable_wf h.reachable).lt
  have h1 := (nll_coh h.coherent s.m hlt x).1
  have h2 := (nll_coh h.coherent s.m hlt y).2
  have h3 := nll_frame s.w s.m y
  have e : (s.step (.nll y)).w = (s.m.nll s.w y).2 := rfl
  rw [e, h1, (nll_coh h2 s.m (by intro c hc; rw [h3.nChans]; exact hlt c hc) x).1, h3.nllPure]

/-- non-vacuity: in the example the likelihood succeeds at one point and raises at another -/
example : (Ex.mC.nll Ex.wC Ex.xC).1 = .ok (.fin 1) ∧ ∃ e, (Ex.mC.nll Ex.wC []).1 = .error e := by
  refine ⟨Ex.nllC, .indexError, ?_⟩
  simp [Mct.nll, Mct.perChannel, World.channelYields, Ex.mC, Mct.chanIds, World.processIndices, Ex.wC, Lru.call,
    dictGet, computeIndices, Channel.procs, Ex.chC, takeIdx, World.init]

end

end TF.Props
