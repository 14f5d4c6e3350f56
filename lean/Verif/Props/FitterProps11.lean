import Verif.Props.FitterProps10

set_option linter.unusedSimpArgs false

/-!
# Fitting again after a fit that updated the templates (C110)
-/

namespace TF.Props

open Classical Spec

noncomputable section

/-- storing parameters in the templates does not change the likelihood function -/
theorem objective_update {s : Sys} (h : s.Built) (x : Vec) :
    objective (s.m.updateParameters s.w x).2 s.m = objective s.w s.m := by
  have hw := reachable_wf h.reachable
  have hcs : ∀ c ∈ s.m.chanIds, c < s.w.nChans := hw.lt
  unfold Mct.updateParameters
  have h1 := perChannel_frame s.w s.m x
  obtain ⟨_, h2⟩ := perChannel_coh h.coherent s.m hcs x
  generalize s.m.perChannel s.w x = r at h1 h2 ⊢
  obtain ⟨r1, w1⟩ := r
  cases r1 with
  | error e => exact objective_cache h1 h.coherent h2 s.m hcs
  | ok p =>
    show objective (w1.updateChannels _ _ _).2 s.m = _
    have hn : w1.nChans = s.w.nChans := h1.nChans
    rw [objective_params (updateChannels_paramOnly _ _ _ _) h2 s.m (by
      intro c hc; show c < w1.nChans; rw [hn]; exact hcs c hc)]
    exact objective_cache h1 h.coherent h2 s.m hcs

/-- the names do not change either -/
theorem names_update (s : Sys) (x : Vec) :
    s.m.paramNames (s.m.updateParameters s.w x).2 = s.m.paramNames s.w ∧
      s.m.numNui (s.m.updateParameters s.w x).2 = s.m.numNui s.w := by
  unfold Mct.updateParameters
  have h1 := perChannel_frame s.w s.m x
  generalize s.m.perChannel s.w x = r at h1 ⊢
  obtain ⟨r1, w1⟩ := r
  cases r1 with
  | error e => exact names_cache h1 s.m
  | ok p =>
    have e1 := names_cache h1 s.m
    have e2 := names_params (updateChannels_paramOnly s.m.chanIds w1 p.1 p.2) s.m
    exact ⟨e2.1.trans e1.1, e2.2.trans e1.2⟩

/-- **C110.** The state after a fit that updated the templates: the likelihood function, the parameter names and the
configuration problem are those before the fit; the start values are the fitted nuisance parameters and, for each process,
the fitted yield times the sum of the efficiencies of the process over the channels. -/
theorem C110_state (s : Sys) (h : s.Built) (hne : s.m.channels ≠ []) (hc : Complete s) (hu : Unshared s) (hf : FiniteEffs s)
    (id : String) (hist : List FitOp) (o : Optim) (g fixNui : Bool) (lim : Option Bounds) (r : MinResult) (w1 : World)
    (hr : (fitRun id hist).doFit o s.w s.m true g fixNui lim = (.ok r, w1))
    (y : String → ℝ) (hy : ∀ p ∈ s.m.processes, r.params.values.getD (s.m.processes.idxOf p) 0 = .fin (y p)) :
    Sys.Built ⟨w1, s.m⟩ ∧ objective w1 s.m = objective s.w s.m ∧ s.m.paramNames w1 = s.m.paramNames s.w ∧
      s.m.numNui w1 = s.m.numNui s.w ∧
      s.m.x0 w1 = .ok ((s.m.processes.map fun p => Fl.fin (y p * effSum s p)) ++ r.params.values.drop s.m.numProcesses) := by
  rcases doFit_update_cases s h id hist o g fixNui lim with ⟨e', he, -⟩ | ⟨r', xs, hl, heq⟩
  · rw [hr] at he; cases he
  · have hfr := evalAll_frame s.m xs s.w
    have hcm := complete_cache hfr hc
    have hB := built_evalAll xs h
    have hum : Unshared ⟨evalAll s.w s.m xs, s.m⟩ := by
      unfold Unshared; simp only; rw [hfr.chans]; exact hu
    have hfm : FiniteEffs ⟨evalAll s.w s.m xs, s.m⟩ := by
      unfold FiniteEffs; simp only; rw [hfr.chans]; exact hf
    have hes : ∀ p, effSum ⟨evalAll s.w s.m xs, s.m⟩ p = effSum s p := by
      intro p; unfold effSum effOf; simp only; rw [hfr.chans]
    have hob := objective_update hB r'.params.values
    have hnm := names_update ⟨evalAll s.w s.m xs, s.m⟩ r'.params.values
    have hst := Sys.Built.step hB (o := .update r'.params.values) (by simp [Op.structural])
    have hx : r'.params.values.length = s.m.numProcesses + s.m.numNui (evalAll s.w s.m xs) := by
      rw [hl]; simp only [Mct.numNui]; rw [hfr.chans]
    have h49 := C49_formula_partial ⟨evalAll s.w s.m xs, s.m⟩ hB hne hcm hum hfm r'.params.values hx y
    simp only [Sys.step] at hst
    simp only at hob hnm h49
    rw [heq] at hr
    generalize s.m.updateParameters (evalAll s.w s.m xs) r'.params.values = q at hr hob hnm hst h49
    obtain ⟨q1, q2⟩ := q
    cases q1 with
    | error e => simp at hr
    | ok u =>
      obtain ⟨e1, e2⟩ := Prod.mk.inj hr
      obtain rfl := Except.ok.inj e1
      subst e2
      refine ⟨hst, ?_, hnm.1.trans (names_cache hfr s.m).1, hnm.2.trans (names_cache hfr s.m).2, ?_⟩
      · rw [hob]
        exact objective_cache hfr h.coherent hB.coherent s.m (reachable_wf h.reachable).lt
      · rw [h49 hy]
        simp only [hes]

/-- **C110 (partial).** Fit with an optimiser that finds true constrained minima, store the result in the templates, and fit
again with the same configuration (the second optimiser may be another one): the second fit finds the same minimum value, and
its result has this value under the likelihood of the first fit. This holds when every yield that is fixed in the fitter has
efficiencies that add up to 1 over the channels. Missing: other fixed yields, see `C110_refuted`. -/
theorem C110_refit_partial (s : Sys) (h : s.Built) (hne : s.m.channels ≠ []) (hc : Complete s) (hu : Unshared s)
    (hf : FiniteEffs s) (id : String) (hid : id.toLower = "iminuit") (hist : List FitOp)
    (hk : KnownIds (s.m.paramNames s.w) hist) (o o' : Optim) (ho : TrueMin o) (ho' : TrueMin o') (g fixNui : Bool)
    (lim : Option Bounds) (r : MinResult) (w1 : World)
    (hr : (fitRun id hist).doFit o s.w s.m true g fixNui lim = (.ok r, w1))
    (hfin : ∀ v ∈ r.params.values, ∃ a : ℝ, v = .fin a)
    (heff : ∀ p ∈ s.m.processes, FitFixed (s.m.paramNames s.w) hist (s.m.processes.idxOf p) → effSum s p = 1)
    (up' g' : Bool) (r' : MinResult) (hr' : ((fitRun id hist).doFit o' w1 s.m up' g' fixNui lim).1 = .ok r') :
    r'.fval = r.fval ∧ objective s.w s.m r'.params.values = .ok r.fval ∧
      ((∀ p ∈ s.m.processes, effSum s p = 1) → s.m.x0 w1 = .ok r.params.values) := by
  have hw := reachable_wf h.reachable
  have hal := C51_aligned s h.reachable
  have hm1 : minKindOf (fitRun id hist).minimizerId = .ok .iminuit := by rw [fitRun_id]; exact minKind_iminuit hid
  have hzw := minRun_wf .iminuit (s.m.paramNames s.w)
    (setupOps (fitRun id hist) s.m.numProcesses (s.m.numNui s.w) fixNui lim)
  have hz := setup_eq (kd := .iminuit) (id := id) hal.1.symm hk fixNui lim
  obtain ⟨x0, q, hx0, hq, hqf, hqv⟩ := doFit_minuit_inv' hm1 hz hzw.hk (r := r) (by rw [hr])
  obtain ⟨t1, t2, t3, t4⟩ := ho _ _ hq
  have hnames : ∀ x, ((minRun .iminuit (s.m.paramNames s.w)
    (setupOps (fitRun id hist) s.m.numProcesses (s.m.numNui s.w) fixNui lim)).minuitCall (objective s.w s.m) x).names =
      s.m.paramNames s.w := fun _ => hzw.hn
  have hlen : r.params.values.length = s.m.numProcesses + s.m.numNui s.w := by rw [hqv, t1.1, hnames, hal.1]
  -- the fitted yields
  have hy : ∀ p ∈ s.m.processes, ∃ a : ℝ, r.params.values.getD (s.m.processes.idxOf p) 0 = .fin a := by
    intro p hp
    have h1 := List.idxOf_lt_length_iff.mpr hp
    have hlt : s.m.processes.idxOf p < r.params.values.length := by
      rw [hlen]; unfold Mct.numProcesses; omega
    rw [List.getD_eq_getElem?_getD, List.getElem?_eq_getElem hlt]
    exact hfin _ (List.getElem_mem hlt)
  choose! y hy using hy
  obtain ⟨hB, hob, hnm, hnn, hx1⟩ := C110_state s h hne hc hu hf id hist o g fixNui lim r w1 hr y hy
  have hval : ∀ k (hkl : k < s.m.processes.length), r.params.values[k]? = some (.fin (y s.m.processes[k])) := by
    intro k hkl
    have := hy _ (List.getElem_mem hkl)
    rw [List.Nodup.idxOf_getElem hw.procs k hkl, List.getD_eq_getElem?_getD] at this
    have hlt : k < r.params.values.length := by rw [hlen]; unfold Mct.numProcesses; omega
    rw [List.getElem?_eq_getElem hlt, Option.getD_some] at this
    rw [List.getElem?_eq_getElem hlt, this]
  have hz' : (fitRun id hist).setup .iminuit (s.m.paramNames w1) s.m.numProcesses (s.m.numNui w1) fixNui lim =
      .ok (minRun .iminuit (s.m.paramNames s.w) (setupOps (fitRun id hist) s.m.numProcesses (s.m.numNui s.w) fixNui lim)) := by
    rw [hnm, hnn]; exact hz
  obtain ⟨x0', q', hx0', hq', hqf', hqv'⟩ := doFit_minuit_inv' hm1 hz' hzw.hk hr'
  rw [hob] at hq'
  obtain ⟨u1, u2, u3, u4⟩ := ho' _ _ hq'
  have hx0'e : x0' = (s.m.processes.map fun p => Fl.fin (y p * effSum s p)) ++ r.params.values.drop s.m.numProcesses := by
    rw [hx1] at hx0'; exact (Except.ok.inj hx0').symm
  -- fixed parameters start at the same value in both fits
  have hsame : ∀ k < (s.m.paramNames s.w).length, ((minRun .iminuit (s.m.paramNames s.w)
      (setupOps (fitRun id hist) s.m.numProcesses (s.m.numNui s.w) fixNui lim)).minuitCall (objective s.w s.m) x0).fix[k]? =
        some true → x0'[k]? = x0[k]? := by
    intro k hkn hfx
    have hv := (t1.2 k (by rw [hnames]; exact hkn)).1 hfx
    rw [← hqv] at hv
    have e : x0[k]? = r.params.values[k]? := hv.symm
    rw [e, hx0'e]
    by_cases hkl : k < s.m.processes.length
    · rw [List.getElem?_append_left (by simpa using hkl), List.getElem?_map, List.getElem?_eq_getElem hkl,
        Option.map_some, hval k hkl]
      rw [C58_iminuit, List.getElem?_map, List.getElem?_range hkn, Option.map_some] at hfx
      have hfx := Option.some.inj hfx
      rw [decide_eq_true_eq] at hfx
      have hfx := (setup_fixed hal.1.symm fixNui lim k hkn).mp hfx
      rcases hfx with hfx | ⟨-, hle⟩
      · rw [heff _ (List.getElem_mem hkl) (by rw [List.Nodup.idxOf_getElem hw.procs k hkl]; exact hfx), mul_one]
      · unfold Mct.numProcesses at hle; omega
    · rw [List.getElem?_append_right (by simpa using hkl), List.getElem?_drop]
      simp only [List.length_map, Mct.numProcesses]
      congr 1
      omega
  -- both problems have the same admissible points
  have hfe1 : MFeasible ((minRun .iminuit (s.m.paramNames s.w)
      (setupOps (fitRun id hist) s.m.numProcesses (s.m.numNui s.w) fixNui lim)).minuitCall (objective s.w s.m) x0')
      q.values := by
    refine ⟨t1.1, fun k hkn => ⟨fun hfx => ?_, (t1.2 k hkn).2⟩⟩
    exact ((t1.2 k hkn).1 hfx).trans (hsame k (by rw [hnames] at hkn; exact hkn) hfx).symm
  have hfe2 : MFeasible ((minRun .iminuit (s.m.paramNames s.w)
      (setupOps (fitRun id hist) s.m.numProcesses (s.m.numNui s.w) fixNui lim)).minuitCall (objective s.w s.m) x0)
      q'.values := by
    refine ⟨u1.1, fun k hkn => ⟨fun hfx => ?_, (u1.2 k hkn).2⟩⟩
    exact ((u1.2 k hkn).1 hfx).trans (hsame k (by rw [hnames] at hkn; exact hkn) hfx)
  have c1 : ¬ q.fval.lt q'.fval := u4 _ _ hfe1 t2
  have c2 : ¬ q'.fval.lt q.fval := t4 _ _ hfe2 u2
  have hqq : q'.fval = q.fval := Fl.eq_of_not_lt u3 t3 c2 c1
  refine ⟨by rw [hqf', hqf, hqq], ?_, fun hall => ?_⟩
  · rw [hqv', hqf, ← hqq]; exact u2
  · rw [hx1]
    congr 1
    apply List.ext_getElem?
    intro k
    by_cases hkl : k < s.m.processes.length
    · rw [List.getElem?_append_left (by simpa using hkl), List.getElem?_map, List.getElem?_eq_getElem hkl,
        Option.map_some, hval k hkl, hall _ (List.getElem_mem hkl), mul_one]
    · rw [List.getElem?_append_right (by simpa using hkl), List.getElem?_drop]
      simp only [List.length_map, Mct.numProcesses]
      congr 1
      omega

/-- a fit that succeeds also succeeds when it stores the result -/
theorem doFit_update_ok (s : Sys) (h : s.Built) (hne : s.m.channels ≠ []) (hc : Complete s) (hu : Unshared s)
    (id : String) (kd : MinKind) (hid : minKindOf id = .ok kd) (hist : List FitOp)
    (hk : KnownIds (s.m.paramNames s.w) hist) (o : Optim) (g fixNui : Bool) (lim : Option Bounds)
    (r : MinResult) (hr : ((fitRun id hist).doFit o s.w s.m false g fixNui lim).1 = .ok r) :
    ∃ w1, (fitRun id hist).doFit o s.w s.m true g fixNui lim = (.ok r, w1) := by
  rw [doFit_eq h.reachable hid hk] at hr ⊢
  have hw := minRun_wf kd (s.m.paramNames s.w)
    (setupOps (fitRun id hist) s.m.numProcesses (s.m.numNui s.w) fixNui lim)
  generalize minRun kd (s.m.paramNames s.w)
    (setupOps (fitRun id hist) s.m.numProcesses (s.m.numNui s.w) fixNui lim) = z at hw hr ⊢
  obtain ⟨xs, hxs⟩ := runMinimizer_evals o s.w s.m z g
  generalize hq : runMinimizer o s.w s.m z g = q at hr hxs ⊢
  obtain ⟨q1, q2⟩ := q
  cases q1 with
  | error e => simp at hr
  | ok v =>
    obtain ⟨v, z1⟩ := v
    simp only [Bool.false_eq_true, if_false, Except.ok.injEq] at hr
    subst hr
    simp only [if_true]
    simp only at hxs
    subst hxs
    have hfr := evalAll_frame s.m xs s.w
    have hl : v.params.values.length = s.m.numProcesses + s.m.numNui (evalAll s.w s.m xs) := by
      rw [(runMinimizer_ok hq (by rw [hw.hv, hw.hn]) (by rw [hw.he, hw.hn])).1, hw.hn, (C51_aligned s h.reachable).1, (names_cache hfr s.m).2]
    have hC := (C48_update ⟨evalAll s.w s.m xs, s.m⟩ (built_evalAll xs h) hne (complete_cache hfr hc) (by
      unfold Unshared; simp only; rw [hfr.chans]; exact hu) v.params.values hl).1
    simp only at hC
    generalize s.m.updateParameters (evalAll s.w s.m xs) v.params.values = p at hC
    obtain ⟨p1, p2⟩ := p
    simp only at hC
    subst hC
    exact ⟨p2, rfl⟩

/-! ### a fixed yield with efficiency 1/2 moves, so the second fit finds another minimum -/

namespace Ex

/-- `opsZ` (template contents 1, 1, no events in data) with efficiency 1/2 -/
def opsH : List Op :=
  [.binned1 ⟨[2], vec ![1, 1]⟩ ⟨true, [0, 1, 2]⟩ (some ⟨[2], vec ![1, 1]⟩),
   .binned1 ⟨[2], vec ![0, 0]⟩ ⟨true, [0, 1, 2]⟩ (some ⟨[2], vec ![1, 1]⟩), .newTmpl1 "t" 0,
   .defineChannel "a" (.int 2) (.d1 .tuple 0 2), .defineProcess "p", .addTemplate "a" "p" 0 (.fin (1 / 2)),
   .addData [("a", 1)]]

def chH : Channel :=
  ⟨"a", [2], .d1 .tuple 0 2, ["p"], [("p", 0)], [("p", .fin (1 / 2))], some 1, some 1, some .t1, some .h1⟩

def wH : World := { wZ with chans := Function.update (fun _ => dummyChan) 0 chH }

def sysH : Sys := ⟨wH, mZ⟩

theorem runH : Sys.init.run opsH = sysH := by
  simp only [opsH, Sys.run, List.foldl_cons, List.foldl_nil, Sys.step, bh_eq, Sys.allocHist, World.newHist,
    Sys.init, World.init, Sys.allocTmpl, World.newTmpl]
  simp [bt_eq, Sys.allocTmpl, World.newTmpl, Function.update_apply]
  simp [Mct.defineChannel, Mct.defineProcess,
    Mct.addTemplate, World.addTemplate, Mct.empty, World.newChan, dictSet, dictGet, Mct.addData, World.addData,
    World.setChan, Channel.new, Channel.addTemplate, Channel.checkTemplate, Channel.procs, bt, bh,
    Hist.setBinned, Hist.blank, ChanBins.toTuple, Channel.addData, Channel.checkHist, sysH, wH, wZ, mZ, chH,
    World.init, Function.update_apply]

theorem sysH_built : sysH.Built := by
  refine ⟨_, setupFirst_of_noEval ?_, runH⟩
  intro o ho
  simp only [opsH, List.mem_cons, List.not_mem_nil, or_false] at ho
  rcases ho with rfl | rfl | rfl | rfl | rfl | rfl | rfl <;> exact id

def SH : ℕ → ChanSpec := fun _ =>
  ⟨1, 2, fun _ => ![1, 1], fun _ i => (![1, 1] : Fin 2 → ℝ) i / (![1, 1] : Fin 2 → ℝ) i, fun _ => 1 / 2, fun _ => 1⟩

theorem modelH : ModelIs sysH SH := by
  intro k hk
  have : k = 0 := by simpa [sysH, mZ, Mct.chanIds] using hk
  subst this
  refine ⟨Nat.one_pos, Nat.two_pos, fun _ => Matrix.PosDef.one, ?_⟩
  exact chanIs_single wH 0 (by simp [wH, wZ]) "p" 0 (1 / 2) "t" 0 ![1, 1] ![1, 1] (by intro i; fin_cases i <;> simp)
      (by intro i; fin_cases i <;> simp) (by simp [wH, chH]) (by simp [wH, chH]) (by simp [wH, chH]) (by simp [wH, wZ])

theorem dataH : DataIs sysH SH (fun _ _ => 0) := by
  intro k hk
  have : k = 0 := by simpa [sysH, mZ, Mct.chanIds] using hk
  subst this
  refine ⟨1, by simp [sysH, mZ, Mct.chanIds, wH, chH], ?_⟩
  show (wZ.hists 1).counts.data = vec (fun _ : Fin 2 => (0 : ℝ))
  simp [wZ, bh, Hist.setBinned, vec, List.ofFn_succ]

/-- without nuisance variations and without data the likelihood is half the yield -/
theorem nllH (x : ℝ) (hx : 0 < x) : objective sysH.w sysH.m [.fin x, .fin 0, .fin 0] = .ok (.fin (x / 2)) := by
  have hexp : ∀ k (i : Fin (SH k).n), expectedIn sysH SH (fun _ => x) (fun _ _ _ => 0) k i = x / 4 := by
    intro k i
    show ∑ j : Fin 1, x * (1 / 2) * ((![1, 1] : Fin 2 → ℝ) i * _ / ∑ i' : Fin 2, (![1, 1] : Fin 2 → ℝ) i' * _) = _
    have : (![1, 1] : Fin 2 → ℝ) i = 1 := by revert i; show ∀ i : Fin 2, _; intro i; fin_cases i <;> rfl
    simp [this, Fin.sum_univ_two]
    norm_num
    ring
  obtain ⟨v, h1, -, h3⟩ := C54_closed sysH sysH_built (by simp [sysH, mZ]) SH modelH _ dataH (fun _ _ _ => .inl rfl)
    (fun _ => 0) (fun _ => 1) (by intro p hp; simp [sysH, mZ] at hp) (fun _ => x) (fun _ _ _ => 0) (by
      intro k hk j
      show ∑ i : Fin 2, (![1, 1] : Fin 2 → ℝ) i * _ ≠ 0
      simp [Fin.sum_univ_two]) (by
      intro k hk i
      rw [hexp]
      left; linarith)
  have e : paramVec sysH SH (fun _ => x) (fun _ _ _ => 0) = [.fin x, .fin 0, .fin 0] := by
    have : nuiVec (fun (_ : Fin (SH 0).K) (_ : Fin (SH 0).n) => (0 : ℝ)) = [.fin 0, .fin 0] := by
      show nuiVec (fun (_ : Fin 1) (_ : Fin 2) => (0 : ℝ)) = _
      simp [nuiVec, vec, List.ofFn_succ]
    simp [paramVec, sysH, mZ, Mct.chanIds, this]
  rw [e] at h1
  unfold objective
  rw [h1, h3]
  have hc : sysH.m.channels.length = 1 := by simp [sysH, mZ]
  have hco : sysH.m.constrained = [] := rfl
  rw [hc, hco]
  simp only [hexp, if_true, Finset.range_one, Finset.sum_singleton, List.map_nil, List.sum_nil]
  have h2 : ∑ _i : Fin (SH 0).n, x / 4 = x / 2 := by
    show ∑ _i : Fin 2, x / 4 = x / 2
    rw [Fin.sum_univ_two]; ring
  rw [h2]
  have h4 : ∀ j : Fin (SH 0).K, (fun _ : Fin (SH 0).n => (0:ℝ)) ⬝ᵥ (((SH 0).R j)⁻¹.mulVec fun _ => 0) = 0 := by
    intro j; simp [dotProduct]
  simp only [h4, Finset.sum_const_zero, mul_zero, add_zero]

theorem namesH : sysH.m.paramNames sysH.w = ["p_yield", "a_p_bin_0", "a_p_bin_1"] := by
  simp [sysH, mZ, Mct.paramNames, World.channelNames, wH, chH, wZ, bt, List.range_succ, nuiName]
  exact ⟨rfl, rfl⟩

theorem x0H : sysH.m.x0 sysH.w = .ok [.fin 2, .fin 0, .fin 0] := by
  simp [sysH, Mct.x0, Mct.nuiParams, Mct.allTmpls, World.chanTmpls, Template.nuiParams, mZ, Mct.processYields, Mct.chanIds,
    World.processYield, wH, chH, wZ, dictGet, Template.yieldParam, bt, initParams, bh, Hist.setBinned,
    npSum, vec, List.ofFn_succ, Fl.zero_def, List.replicate]
  norm_num

theorem sysH_hyps : Unshared sysH ∧ FiniteEffs sysH ∧ Complete sysH ∧ effSum sysH "p" = 1 / 2 := by
  refine ⟨?_, ?_, ?_, ?_⟩
  · simp [Unshared, sysH, mZ, Mct.chanIds, wH, chH]
  · intro c hc e he
    simp [sysH, mZ, Mct.chanIds] at hc
    subst hc
    simp [sysH, wH, chH] at he
    subst he
    exact ⟨_, rfl⟩
  · intro c hc
    simp [sysH, mZ, Mct.chanIds] at hc
    subst hc
    simp [sysH, wH, chH]
  · simp [effSum, effOf, sysH, mZ, Mct.chanIds, wH, chH, dictGet]

end Ex

/-- **C110 refuted.** One process with efficiency 1/2, no events in data, everything fixed (the yield at 2): the first fit
returns 1; stored in the templates and fitted again, the yield is fixed at 1 and the fit returns 1/2, although both times the
optimiser found the true constrained minimum. -/
theorem C110_refuted : ∃ (s : Sys) (o : Optim) (r r' : MinResult) (w1 : World), s.Built ∧ Unshared s ∧ FiniteEffs s ∧
    Complete s ∧ TrueMin o ∧
    (fitRun "iminuit" [.fix (.str "p_yield")]).doFit o s.w s.m true true true none = (.ok r, w1) ∧
    ((fitRun "iminuit" [.fix (.str "p_yield")]).doFit o w1 s.m false true true none).1 = .ok r' ∧
    r.fval = .fin 1 ∧ r'.fval = .fin (1 / 2) := by
  have hd : Denotes (Ex.sysH.m.paramNames Ex.sysH.w) (.str "p_yield") 0 := by
    rw [Ex.namesH, denotes_iff]; simp [idToIndex, List.idxOf_cons]
  have hlen : (Ex.sysH.m.paramNames Ex.sysH.w).length = 3 := by rw [Ex.namesH]; rfl
  have hnp : Ex.sysH.m.numProcesses = 1 := by simp [Ex.sysH, Ex.mZ, Mct.numProcesses]
  have hne : Ex.sysH.m.channels ≠ [] := by simp [Ex.sysH, Ex.mZ]
  have hwf : ∀ k < 3, ((List.range (Ex.sysH.m.paramNames Ex.sysH.w).length).map (fun k => decide (WantedFixed
        (Ex.sysH.m.paramNames Ex.sysH.w) [.fix (.str "p_yield")] Ex.sysH.m.numProcesses true k)))[k]? = some true := by
    intro k hk
    rw [hlen, List.getElem?_map, List.getElem?_range hk, Option.map_some]
    congr 1
    rw [decide_eq_true_eq, hnp]
    by_cases h0 : k = 0
    · subst h0; exact .inl ⟨_, by simp, hd⟩
    · exact .inr ⟨rfl, by omega⟩
  have hkn : KnownIds (Ex.sysH.m.paramNames Ex.sysH.w) [.fix (.str "p_yield")] := by
    constructor
    · intro pid hpid
      simp at hpid
      subst hpid
      exact ⟨0, hd⟩
    · intro pid b hb
      simp at hb
  obtain ⟨r, hr, hv, -, hvals⟩ := fit_optMin Ex.sysH Ex.sysH_built.reachable [.fix (.str "p_yield")] hkn _ Ex.x0H true
    (.fin 1) [.fin 2, .fin 0, .fin 0] (by
      intro c c1 c2 c3 c4 _
      rw [← c2]
      refine isMin_fixed (n := 3) (by rw [c3]; exact hlen) (by rw [c2]; rfl) ?_ ?_
      · rw [c4]; exact hwf
      · rw [c1, c2, Ex.nllH 2 (by norm_num)]; norm_num)
  obtain ⟨hu, hf, hc, hes⟩ := Ex.sysH_hyps
  obtain ⟨w1, hw1⟩ := doFit_update_ok Ex.sysH Ex.sysH_built hne hc hu "iminuit" _ (minKind_iminuit lower_iminuit) _ hkn _ _ _ _ r hr
  obtain ⟨hB, hob, hnm, hnn, hx1⟩ := C110_state Ex.sysH Ex.sysH_built hne hc hu hf _ _ _ _ _ _ r w1 hw1 (fun _ => 2) (by
    intro p hp
    have : p = "p" := by simpa [Ex.sysH, Ex.mZ] using hp
    subst this
    rw [hvals]
    simp [Ex.sysH, Ex.mZ])
  have hx1' : Ex.sysH.m.x0 w1 = .ok [.fin 1, .fin 0, .fin 0] := by
    rw [hx1, hvals, hnp]
    have : Ex.sysH.m.processes = ["p"] := rfl
    rw [this]
    simp [hes]
  obtain ⟨r', hr', hv', -, -⟩ := fit_optMin ⟨w1, Ex.sysH.m⟩ hB.reachable [.fix (.str "p_yield")] (by
      show KnownIds (Ex.sysH.m.paramNames w1) _
      rw [hnm]; exact hkn) _ hx1' true
    (.fin (1 / 2)) [.fin 1, .fin 0, .fin 0] (by
      intro c c1 c2 c3 c4 _
      rw [← c2]
      have c1 : c.fcn = objective w1 Ex.sysH.m := c1
      have c3 : c.names = Ex.sysH.m.paramNames w1 := c3
      have c4 : c.fix = (List.range (Ex.sysH.m.paramNames w1).length).map
        (fun k => decide (WantedFixed (Ex.sysH.m.paramNames w1) _ Ex.sysH.m.numProcesses true k)) := c4
      rw [hnm] at c3 c4
      refine isMin_fixed (n := 3) (by rw [c3]; exact hlen) (by rw [c2]; rfl) ?_ ?_
      · rw [c4]; exact hwf
      · rw [c1, c2, hob]; exact Ex.nllH 1 (by norm_num))
  exact ⟨Ex.sysH, Ex.optMin, r, r', w1, Ex.sysH_built, hu, hf, hc, Ex.optMin_true, hw1, hr', hv, hv'⟩

/-! ### non-vacuity: the example with data 4, 4, nothing fixed -/

theorem Ex.x044 : Ex.sys44.m.x0 Ex.sys44.w = .ok [.fin 2, .fin 0, .fin 0] := by
  simp [Ex.sys44, Mct.x0, Mct.nuiParams, Mct.allTmpls, World.chanTmpls, Template.nuiParams, Ex.mZ, Mct.processYields,
    Mct.chanIds, World.processYield, Ex.w44, Ex.chZ, dictGet, Template.yieldParam, Ex.bt, initParams, Ex.bh, Hist.setBinned,
    npSum, vec, List.ofFn_succ, Fl.zero_def, List.replicate]
  norm_num

theorem Ex.names44 : Ex.sys44.m.paramNames Ex.sys44.w = ["p_yield", "a_p_bin_0", "a_p_bin_1"] := by
  simp [Ex.sys44, Ex.mZ, Mct.paramNames, World.channelNames, Ex.w44, Ex.chZ, Ex.bt, List.range_succ, nuiName]
  exact ⟨rfl, rfl⟩

theorem Ex.sys44_hyps : Unshared Ex.sys44 ∧ FiniteEffs Ex.sys44 ∧ Complete Ex.sys44 ∧ effSum Ex.sys44 "p" = 1 := by
  refine ⟨?_, ?_, ?_, ?_⟩
  · simp [Unshared, Ex.sys44, Ex.mZ, Mct.chanIds, Ex.w44, Ex.chZ]
  · intro c hc e he
    simp [Ex.sys44, Ex.mZ, Mct.chanIds] at hc
    subst hc
    simp [Ex.sys44, Ex.w44, Ex.chZ] at he
    subst he
    exact ⟨_, rfl⟩
  · intro c hc
    simp [Ex.sys44, Ex.mZ, Mct.chanIds] at hc
    subst hc
    simp [Ex.sys44, Ex.w44, Ex.chZ]
  · simp [effSum, effOf, Ex.sys44, Ex.mZ, Mct.chanIds, Ex.w44, Ex.chZ, dictGet]

/-- a fit with nothing fixed and no bounds, given the unique minimum of the likelihood -/
theorem fit_optMin_free (s : Sys) (hs : s.Reachable) (x0 : Vec) (hx : s.m.x0 s.w = .ok x0)
    (hxl : x0.length = s.m.numProcesses + s.m.numNui s.w) (xs : Vec)
    (hl : xs.length = s.m.numProcesses + s.m.numNui s.w) (a : ℝ) (m1 : objective s.w s.m xs = .ok (.fin a))
    (m2 : ∀ x v, x.length = s.m.numProcesses + s.m.numNui s.w → objective s.w s.m x = .ok v →
      ¬ v.lt (.fin a) ∧ (v = .fin a → x = xs)) :
    ∃ r, ((fitRun "iminuit" []).doFit Ex.optMin s.w s.m false true false none).1 = .ok r ∧ r.fval = .fin a ∧
      r.params.values = xs := by
  have hal := C51_aligned s hs
  obtain ⟨r, hr, hv, -, hvals⟩ := fit_optMin s hs [] ⟨by simp, by simp⟩ _ hx false (.fin a) xs (by
      intro c c1 c2 c3 c4 c5
      have hfeas : MFeasible c xs := by
        refine ⟨by rw [c3, hal.1, hl], fun k hk => ⟨fun hfx => ?_, fun _ b v hb hv => ?_⟩⟩
        · rw [c4, List.getElem?_map, List.getElem?_range (by rw [← c3]; exact hk), Option.map_some] at hfx
          have hfx := Option.some.inj hfx
          rw [decide_eq_true_eq] at hfx
          rcases hfx with ⟨_, h, _⟩ | ⟨h, _⟩
          · simp at h
          · simp at h
        · obtain ⟨b', w1, w2⟩ := c5 k (by rw [← c3]; exact hk) (by intro p q b c hb; simp at hb)
          rw [w2] at hb
          cases hb
          have hbb : b = (none, none) := by
            rcases w1 with ⟨_, _, _, he, _⟩ | ⟨_, w1⟩
            · simp at he
            · rw [w1]; split <;> rfl
          rw [hbb]
          exact ⟨fun _ h => (by cases h), fun _ h => (by cases h)⟩
      constructor
      · refine ⟨⟨⟨true, true, true⟩, ⟨true, true, true⟩, .fin a, _, c.x0, .ok (Mat.zeros 1 1, Mat.zeros 1 1)⟩, hfeas,
          by rw [c1]; exact m1, by simp, ?_, by show List.length c.x0 = _; rw [c2, c3, hal.1, hxl], _, _, rfl⟩
        intro x v hx hv
        rw [c1] at hv
        exact (m2 x v (by rw [hx.1, c3, hal.1]) hv).1
      · intro r hr
        have h1 := hr.2.1
        rw [c1] at h1
        obtain ⟨g1, g2⟩ := m2 r.values r.fval (by rw [hr.1.1, c3, hal.1]) h1
        have g3 := hr.2.2.2.1 _ _ hfeas (by rw [c1]; exact m1)
        have hz : r.fval = .fin a := by
          cases hfv : r.fval with
          | nan => exact absurd hfv hr.2.2.1
          | ninf => rw [hfv] at g1; exact absurd trivial g1
          | pinf => rw [hfv] at g3; exact absurd trivial g3
          | fin b =>
            rw [hfv] at g1 g3
            have h1 : b ≤ a := not_lt.mp g3
            have h2 : a ≤ b := not_lt.mp g1
            rw [le_antisymm h1 h2]
        exact ⟨hz, g2 hz⟩)
  exact ⟨r, hr, hv, hvals⟩

/-- the first fit moves the yield from 2 to 8 (minimum 0) and stores it; the second fit starts there and returns 0 again -/
example : ∃ r r' w1, (fitRun "iminuit" []).doFit Ex.optMin Ex.sys44.w Ex.sys44.m true true false none = (.ok r, w1) ∧
    ((fitRun "iminuit" []).doFit Ex.optMin w1 Ex.sys44.m false true false none).1 = .ok r' ∧
    r.params.values = [.fin 8, .fin 0, .fin 0] ∧ r'.fval = .fin 0 ∧ Ex.sys44.m.x0 w1 = .ok r.params.values := by
  have h1 := C106_minimum Ex.sys44 Ex.sys44_built (by simp [Ex.sys44, Ex.mZ]) Ex.SZ Ex.model44 Ex.d44 Ex.data44
    (by intro k _ i; show (1e-100 : ℝ) ≤ 4; norm_num) (fun _ => 0) (fun _ => 1) (by intro p hp; simp [Ex.sys44, Ex.mZ] at hp)
    (fun _ => 8) (Ex.sums44 (by norm_num)) (by
      intro k hk i
      have : k = 0 := by simpa [Ex.sys44, Ex.mZ, Mct.chanIds] using hk
      subst this
      refine (Ex.exp44 (t := 0) (by norm_num) (fun _ => 8) i).trans ?_
      show (8:ℝ) / 2 = 4
      norm_num) (by intro p hp; simp [Ex.sys44, Ex.mZ] at hp) Ex.ident44
  rw [Ex.vec44] at h1
  have hne : Ex.sys44.m.channels ≠ [] := by simp [Ex.sys44, Ex.mZ]
  have hl := paramVec_length (reachable_wf Ex.sys44_built.reachable) Ex.model44 (fun _ => 8) (fun _ _ _ => 0)
  rw [Ex.vec44] at hl
  have hn3 : Ex.sys44.m.numProcesses + Ex.sys44.m.numNui Ex.sys44.w = 3 := hl.symm
  obtain ⟨hu, hf, hc, hes⟩ := Ex.sys44_hyps
  have hkn : KnownIds (Ex.sys44.m.paramNames Ex.sys44.w) [] := ⟨by simp, by simp⟩
  obtain ⟨r, hr, hv, hvals⟩ := fit_optMin_free Ex.sys44 Ex.sys44_built.reachable _ Ex.x044 hl _ hl 0 h1.1 h1.2
  obtain ⟨w1, hw1⟩ := doFit_update_ok Ex.sys44 Ex.sys44_built hne hc hu "iminuit" _ (minKind_iminuit lower_iminuit) _ hkn _ _ _ _ r hr
  have hy : ∀ p ∈ Ex.sys44.m.processes, r.params.values.getD (Ex.sys44.m.processes.idxOf p) 0 = .fin 8 := by
    intro p hp
    have : p = "p" := by simpa [Ex.sys44, Ex.mZ] using hp
    subst this
    rw [hvals]
    simp [Ex.sys44, Ex.mZ]
  obtain ⟨hB, hob, hnm, hnn, hx1⟩ := C110_state Ex.sys44 Ex.sys44_built hne hc hu hf _ _ _ _ _ _ r w1 hw1 (fun _ => 8) hy
  have hx1' : Ex.sys44.m.x0 w1 = .ok [.fin 8, .fin 0, .fin 0] := by
    rw [hx1, hvals]
    have : Ex.sys44.m.processes = ["p"] := rfl
    simp [this, hes, Mct.numProcesses]
  obtain ⟨r', hr', -, -⟩ := fit_optMin_free ⟨w1, Ex.sys44.m⟩ hB.reachable _ hx1' (by
      show _ = Ex.sys44.m.numProcesses + Ex.sys44.m.numNui w1; rw [hnn]; exact hl) _ (by
      show _ = Ex.sys44.m.numProcesses + Ex.sys44.m.numNui w1; rw [hnn]; exact hl) 0
    (by show objective w1 Ex.sys44.m _ = _; rw [hob]; exact h1.1)
    (by
      show ∀ x v, List.length x = Ex.sys44.m.numProcesses + Ex.sys44.m.numNui w1 → objective w1 Ex.sys44.m x = .ok v → _
      rw [hob, hnn]; exact h1.2)
  obtain ⟨g1, -, g3⟩ := C110_refit_partial Ex.sys44 Ex.sys44_built hne hc hu hf "iminuit" lower_iminuit [] hkn _ _
    Ex.optMin_true Ex.optMin_true _ _ _ r w1 hw1 (by rw [hvals]; simp) (by rintro p - ⟨_, h, _⟩; simp at h) false true r' hr'
  refine ⟨r, r', w1, hw1, hr', hvals, by rw [g1, hv], g3 ?_⟩
  intro p hp
  have : p = "p" := by simpa [Ex.sys44, Ex.mZ] using hp
  subst this
  exact hes

end

end TF.Props
