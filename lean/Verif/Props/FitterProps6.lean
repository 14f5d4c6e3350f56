import Verif.Props.FitterProps5

set_option linter.unusedSimpArgs false

/-!
# Significance (C71, C72)
-/

namespace TF.Spec

open Classical

noncomputable section

/-- `v` respects the bounds `b`. -/
def InBounds (b : Bounds) (v : Fl) : Prop :=
  (∀ lo, b.1 = some lo → lo.lt v ∨ lo.beq v) ∧ ∀ hi, b.2 = some hi → v.lt hi ∨ v.beq hi

/-- `y` is an admissible point of a Minuit problem: fixed parameters keep their start value, the others
respect their limits. -/
def MFeasible (c : MinuitCall) (y : Vec) : Prop :=
  y.length = c.names.length ∧ ∀ k < c.names.length,
    (c.fix[k]? = some true → y[k]? = c.x0[k]?) ∧
    (c.fix[k]? ≠ some true → ∀ b v, c.limit[k]? = some b → y[k]? = some v → InBounds b v)

/-- An optimiser that returns the true constrained minimum: an admissible point, the value of the objective
there (a number), and no admissible point has a smaller value. -/
def TrueMin (o : Optim) : Prop :=
  ∀ c r, o.minuit c = .ok r → MFeasible c r.values ∧ c.fcn r.values = .ok r.fval ∧ r.fval ≠ .nan ∧
    ∀ y v, MFeasible c y → c.fcn y = .ok v → ¬ v.lt r.fval

end

end TF.Spec

namespace TF.Props

open Classical Spec

noncomputable section

/-! ### the two fits -/

/-- the result of a minimisation only depends on the start values and the objective -/
theorem runMinimizer_congr (o : Optim) {w w' : World} (m : Mct) (z : Minimizer) (g : Bool) (hx : m.x0 w' = m.x0 w)
    (ho : objective w' m = objective w m) : (runMinimizer o w' m z g).1 = (runMinimizer o w m z g).1 := by
  unfold runMinimizer
  rw [hx, ho]
  cases m.x0 w with
  | error e => rfl
  | ok x0 =>
    simp only
    generalize z.minimize o (objective w m) x0 g = q
    obtain ⟨q1, q2⟩ := q
    cases q1 <;> rfl

theorem signifSetup_first (f : Fitter) (k : MinKind) (names : List String) (nproc nnui : ℕ) (fixNui : Bool) :
    f.signifSetup k names nproc nnui fixNui [] = f.setup k names nproc nnui fixNui none := by
  unfold Fitter.signifSetup Fitter.setup
  generalize fixAll (Minimizer.new k names) (if fixNui then nuiIds nproc nnui else []) = q
  obtain ⟨q1, z1⟩ := q
  cases q1 with
  | error e => rfl
  | ok u =>
    simp only [nuiBounds, boundAll]
    generalize fixAll z1 f.fixedParams = q
    obtain ⟨q1, z2⟩ := q
    cases q1 with
    | error e => rfl
    | ok u =>
      simp only
      generalize boundAll z2 f.boundParams = q
      obtain ⟨q1, z3⟩ := q
      cases q1 <;> rfl

theorem fixAll_append (z : Minimizer) (a b : List ParamId) :
    fixAll z (a ++ b) = match fixAll z a with
      | (.error e, z1) => (.error e, z1)
      | (.ok (), z1) => fixAll z1 b := by
  induction a generalizing z with
  | nil => rfl
  | cons i a ih =>
    simp only [List.cons_append, fixAll]
    generalize z.setFixed i = q
    obtain ⟨q1, z1⟩ := q
    cases q1 with
    | error e => rfl
    | ok u => exact ih z1

/-- fixing a known parameter and setting bounds commute -/
theorem bound_fix_comm (pid : ParamId) (l : List (ParamId × Bounds)) : ∀ (z : Minimizer) (k : ℕ),
    idToIndex z.params.names pid = .ok k →
    boundAll (z.setFixed pid).2 l = ((boundAll z l).1, ((boundAll z l).2.setFixed pid).2) ∧
      idToIndex (boundAll z l).2.params.names pid = .ok k := by
  induction l with
  | nil => intro z k hk; exact ⟨rfl, hk⟩
  | cons x l ih =>
    obtain ⟨i, b⟩ := x
    intro z k hk
    have hn : (z.setFixed pid).2.params.names = z.params.names := by
      unfold Minimizer.setFixed; rw [hk]; simp only; cases z.kind <;> rfl
    have hb : (z.setFixed pid).2.bounds = z.bounds := by
      unfold Minimizer.setFixed; rw [hk]; simp only; cases z.kind <;> rfl
    simp only [boundAll]
    cases hi : idToIndex z.params.names i with
    | error e =>
      have h1 : z.setBounds i b = (.error e, z) := by simp [Minimizer.setBounds, hi]
      have h2 : (z.setFixed pid).2.setBounds i b = (.error e, (z.setFixed pid).2) := by
        simp [Minimizer.setBounds, hn, hi]
      rw [h1, h2]
      exact ⟨rfl, hk⟩
    | ok j =>
      have h1 : z.setBounds i b = (.ok (), { z with bounds := z.bounds.set j b }) := by simp [Minimizer.setBounds, hi]
      have h2 : (z.setFixed pid).2.setBounds i b =
          (.ok (), (Minimizer.setFixed { z with bounds := z.bounds.set j b } pid).2) := by
        unfold Minimizer.setBounds
        rw [hn, hi, hb]
        simp only [Minimizer.setFixed, hk]
        cases z.kind <;> rfl
      rw [h1, h2]
      exact ih { z with bounds := z.bounds.set j b } k hk

theorem fixAll_names (l : List ParamId) : ∀ z : Minimizer,
    (fixAll z l).2.params = z.params ∧ (fixAll z l).2.kind = z.kind := by
  induction l with
  | nil => intro z; exact ⟨rfl, rfl⟩
  | cons i l ih =>
    intro z
    simp only [fixAll]
    have : (z.setFixed i).2.params = z.params ∧ (z.setFixed i).2.kind = z.kind := by
      unfold Minimizer.setFixed
      cases idToIndex z.params.names i with
      | error e => exact ⟨rfl, rfl⟩
      | ok k => simp only; cases z.kind <;> exact ⟨rfl, rfl⟩
    generalize z.setFixed i = q at this
    obtain ⟨q1, z1⟩ := q
    cases q1 with
    | error e => exact this
    | ok u => exact ⟨(ih z1).1.trans this.1, (ih z1).2.trans this.2⟩

theorem boundAll_names (l : List (ParamId × Bounds)) : ∀ z : Minimizer,
    (boundAll z l).2.params = z.params ∧ (boundAll z l).2.kind = z.kind := by
  induction l with
  | nil => intro z; exact ⟨rfl, rfl⟩
  | cons i l ih =>
    intro z
    simp only [boundAll]
    have : (z.setBounds i.1 i.2).2.params = z.params ∧ (z.setBounds i.1 i.2).2.kind = z.kind := by
      unfold Minimizer.setBounds
      cases idToIndex z.params.names i.1 <;> exact ⟨rfl, rfl⟩
    generalize z.setBounds i.1 i.2 = q at this
    obtain ⟨q1, z1⟩ := q
    cases q1 with
    | error e => exact this
    | ok u => exact ⟨(ih z1).1.trans this.1, (ih z1).2.trans this.2⟩

/-- the minimizer of the second fit: that of the first with one more parameter fixed; the same as the
minimizer of `do_fit` of a fitter in which that parameter was fixed -/
theorem signifSetup_second {f : Fitter} {kd : MinKind} {names : List String} {nproc nnui : ℕ} {fixNui : Bool}
    {pid : ParamId} {k : ℕ} (hd : idToIndex names pid = .ok k) {z : Minimizer}
    (hz : f.setup kd names nproc nnui fixNui none = .ok z) :
    f.signifSetup kd names nproc nnui fixNui [pid] = .ok (z.setFixed pid).2 ∧
    (f.setFixed pid).setup kd names nproc nnui fixNui none = .ok (z.setFixed pid).2 ∧
    MinWF z kd names := by
  unfold Fitter.setup at hz
  unfold Fitter.signifSetup Fitter.setup
  have n1 := fixAll_names (if fixNui then nuiIds nproc nnui else []) (Minimizer.new kd names)
  generalize fixAll (Minimizer.new kd names) (if fixNui then nuiIds nproc nnui else []) = q at hz n1 ⊢
  obtain ⟨q1, z1⟩ := q
  cases q1 with
  | error e => simp at hz
  | ok u =>
    simp only [nuiBounds, boundAll] at hz ⊢
    have e1 : (f.setFixed pid).fixedParams = f.fixedParams ++ [pid] := rfl
    have e2 : (f.setFixed pid).boundParams = f.boundParams := rfl
    rw [e1, e2, fixAll_append]
    have n2 := fixAll_names f.fixedParams z1
    generalize fixAll z1 f.fixedParams = q at hz n2 ⊢
    obtain ⟨q1, z2⟩ := q
    cases q1 with
    | error e => simp at hz
    | ok u =>
      simp only at hz ⊢
      have hn2 : z2.params.names = names := by rw [n2.1, n1.1]; rfl
      have hd2 : idToIndex z2.params.names pid = .ok k := by rw [hn2]; exact hd
      obtain ⟨c1, c2⟩ := bound_fix_comm pid f.boundParams z2 k hd2
      have n3 := boundAll_names f.boundParams z2
      have s1 : ∀ z' : Minimizer, idToIndex z'.params.names pid = .ok k →
          fixAll z' [pid] = (.ok (), (z'.setFixed pid).2) := by
        intro z' h'
        simp only [fixAll]
        have : (z'.setFixed pid).1 = .ok () := by
          unfold Minimizer.setFixed; rw [h']; simp only; cases z'.kind <;> rfl
        generalize z'.setFixed pid = q at this ⊢
        obtain ⟨q1, q2⟩ := q
        simp only at this
        subst this
        rfl
      rw [s1 z2 hd2]
      simp only
      rw [c1]
      generalize boundAll z2 f.boundParams = q at hz c2 n3 ⊢
      obtain ⟨q1, z3⟩ := q
      cases q1 with
      | error e => simp at hz
      | ok u =>
        simp only [Except.ok.injEq] at hz c2 n3 ⊢
        subst hz
        rw [s1 z3 c2]
        have hpp : z3.params = Params.new names := by rw [n3.1, n2.1, n1.1]; rfl
        refine ⟨rfl, rfl, ?_, ?_, ?_, ?_⟩
        · rw [n3.2, n2.2, n1.2]; rfl
        all_goals rw [hpp]; simp [Params.new]

/-- the yield of a process among the parameters -/
theorem yield_denotes {s : Sys} (hs : s.Reachable) {p : String} (hp : p ∈ s.m.processes) :
    Denotes (s.m.paramNames s.w) (.str (p ++ "_yield")) (s.m.processes.idxOf p) := by
  rw [denotes_iff]
  have hlt := List.idxOf_lt_length_iff.mpr hp
  have hmem : p ++ "_yield" ∈ s.m.paramNames s.w := by
    unfold Mct.paramNames
    exact List.mem_append_left _ (List.mem_map_of_mem hp)
  have hidx : (s.m.paramNames s.w).idxOf (p ++ "_yield") = s.m.processes.idxOf p := by
    unfold Mct.paramNames
    have hm : p ++ "_yield" ∈ s.m.processes.map (· ++ "_yield") := List.mem_map.mpr ⟨p, hp, rfl⟩
    rw [List.idxOf_append_of_mem hm]
    generalize s.m.processes = l
    induction l with
    | nil => rfl
    | cons q l ih =>
      simp only [List.map_cons, List.idxOf_cons]
      by_cases h : q = p
      · subst h; simp
      · have : ¬ (q ++ "_yield" = p ++ "_yield") := by
          intro e
          apply h
          have := congrArg String.toList e
          simp only [String.toList_append, List.append_cancel_right_eq] at this
          exact String.ext this
        rw [beq_false_of_ne h, beq_false_of_ne this, ih]
  simp only [idToIndex]
  rw [if_pos hmem, hidx]

theorem runMinimizer_err_len {o : Optim} {w : World} {m : Mct} {z : Minimizer} {g : Bool} {r : MinResult}
    {z1 : Minimizer} {w1 : World} (h : runMinimizer o w m z g = (.ok (r, z1), w1))
    (hv : z.params.values.length = z.params.names.length)
    (he : z.params.errors.length = z.params.names.length) :
    z1.params.errors.length = z.params.names.length := by
  unfold runMinimizer at h
  cases hx : m.x0 w with
  | error e => rw [hx] at h; simp at h
  | ok x0 =>
    rw [hx] at h
    simp only at h
    have hf := minimize_frame o z (objective w m) x0 g hv he _ rfl
    generalize z.minimize o (objective w m) x0 g = q at h hf
    obtain ⟨q1, q2⟩ := q
    cases q1 with
    | error e => simp at h
    | ok v =>
      simp only [Prod.mk.injEq, Except.ok.injEq] at h
      obtain ⟨⟨rfl, rfl⟩, rfl⟩ := h
      exact hf.2.2.2.2.2.2

theorem setYieldLoop_cache (p : String) (v : Fl) (cs : List ℕ) : ∀ {a b : World}, CacheOnly a b →
    (b.setYieldLoop p v cs).1 = (a.setYieldLoop p v cs).1 ∧
      CacheOnly (a.setYieldLoop p v cs).2 (b.setYieldLoop p v cs).2 := by
  induction cs with
  | nil => intro a b h; exact ⟨rfl, h⟩
  | cons c cs ih =>
    intro a b h
    simp only [World.setYieldLoop, h.chans]
    cases dictGet (a.chans c).templates p with
    | none => exact ih h
    | some tid =>
      cases dictGet (a.chans c).effs p with
      | none => exact ih h
      | some eff =>
        simp only [Template.setYield, h.tmpls]
        apply ih
        refine ⟨h.hists, h.nHists, ?_, h.nTmpls, h.chans, h.nChans⟩
        simp [World.setTmpl, h.tmpls]

theorem setYield_cache (m : Mct) (p : String) (v : Fl) {a b : World} (h : CacheOnly a b) :
    (m.setYield b p v).1 = (m.setYield a p v).1 ∧ CacheOnly (m.setYield a p v).2 (m.setYield b p v).2 := by
  unfold Mct.setYield
  by_cases hp : p ∉ m.processes
  · rw [if_pos hp, if_pos hp]; exact ⟨rfl, h⟩
  · rw [if_neg hp, if_neg hp]; exact setYieldLoop_cache p v m.chanIds h

theorem setYieldLoop_ok (p : String) (v : Fl) (cs : List ℕ) : ∀ w : World, (w.setYieldLoop p v cs).1 = .ok () := by
  induction cs with
  | nil => intro w; rfl
  | cons c cs ih =>
    intro w
    simp only [World.setYieldLoop]
    cases dictGet (w.chans c).templates p with
    | none => exact ih w
    | some tid =>
      cases dictGet (w.chans c).effs p with
      | none => exact ih w
      | some eff => simp only [Template.setYield]; exact ih _

theorem setYield_ok (w : World) (m : Mct) {p : String} (hp : p ∈ m.processes) (v : Fl) :
    (m.setYield w p v).1 = .ok () := by
  unfold Mct.setYield
  rw [if_neg (by simpa using hp)]
  exact setYieldLoop_ok p v m.chanIds w

theorem processYield_cache {a b : World} (h : CacheOnly a b) (p : String) (cs : List ℕ) :
    b.processYield p cs = a.processYield p cs := by
  induction cs with
  | nil => rfl
  | cons c cs ih => simp only [World.processYield, h.chans, h.tmpls, ih]

theorem x0_cache {a b : World} (h : CacheOnly a b) (m : Mct) : m.x0 b = m.x0 a := by
  unfold Mct.x0 Mct.processYields
  simp only [processYield_cache h]
  unfold Mct.nuiParams Mct.allTmpls World.chanTmpls
  rw [h.tmpls, h.chans]

theorem names_cache {a b : World} (h : CacheOnly a b) (m : Mct) :
    m.paramNames b = m.paramNames a ∧ m.numNui b = m.numNui a := by
  unfold Mct.paramNames World.channelNames Mct.numNui
  rw [h.tmpls, h.chans]
  exact ⟨rfl, rfl⟩

theorem names_params {a b : World} (h : ParamOnly a b) (m : Mct) :
    m.paramNames b = m.paramNames a ∧ m.numNui b = m.numNui a := by
  obtain ⟨f, rfl⟩ := h
  exact ⟨rfl, rfl⟩

theorem objective_cache {a b : World} (h : CacheOnly a b) (ha : Coherent a) (hb : Coherent b) (m : Mct)
    (hcs : ∀ c ∈ m.chanIds, c < a.nChans) : objective b m = objective a m := by
  funext x
  unfold objective
  rw [(nll_coh ha m hcs x).1, (nll_coh hb m (by rw [h.nChans]; exact hcs) x).1, h.nllPure]

theorem objective_params {a b : World} (h : ParamOnly a b) (ha : Coherent a) (m : Mct)
    (hcs : ∀ c ∈ m.chanIds, c < a.nChans) : objective b m = objective a m := by
  funext x
  unfold objective
  rw [(nll_coh ha m hcs x).1, (nll_coh (h.coherent ha) m (by rw [h.nChans]; exact hcs) x).1, h.nllPure]

/-- **C71.** For every model built channel by channel before evaluation (`Built`), fitter, optimiser and process of the model,
`get_significance` is: the error of the first fit; 0 if that fit gives a negative yield; else the error of the
second fit or `sqrt(2 (minimum of the second fit - minimum of the first fit))`. The first fit is `do_fit` of
the same fitter; the second is `do_fit` with the yield additionally fixed, on the model with the yield set to
zero. -/
theorem C71_formula (s : Sys) (h : s.Built) (f : Fitter) (o : Optim) (p : String) (hp : p ∈ s.m.processes)
    (fixNui : Bool) (fit1 fit2 : Except Err MinResult)
    (h1 : fit1 = (f.doFit o s.w s.m false true fixNui none).1)
    (h2 : fit2 = ((f.setFixed (.str (p ++ "_yield"))).doFit o (s.step (.setYield p 0)).w s.m false true fixNui none).1) :
    (∀ e, fit1 = .error e → (f.getSignificance o s.w s.m p fixNui).1 = .error e) ∧
    ∀ r1, fit1 = .ok r1 → ∃ y, r1.params.getValue (.str (p ++ "_yield")) = .ok y ∧
      (y.lt 0 → (f.getSignificance o s.w s.m p fixNui).1 = .ok 0) ∧
      (¬ y.lt 0 → (∀ e, fit2 = .error e → (f.getSignificance o s.w s.m p fixNui).1 = .error e) ∧
        ∀ r2, fit2 = .ok r2 →
          (f.getSignificance o s.w s.m p fixNui).1 = .ok (Fl.sqrt (.fin 2 * (r2.fval - r1.fval)))) := by
  have hw := reachable_wf h.reachable
  have hd := (denotes_iff _ _ _).mp (yield_denotes h.reachable hp)
  unfold Fitter.getSignificance
  unfold Fitter.doFit at h1 h2
  generalize ParamId.str (p ++ "_yield") = pid at h2 hd ⊢
  have e0 : (f.setFixed pid).minimizerId = f.minimizerId := rfl
  rw [e0] at h2
  cases hid : minKindOf f.minimizerId with
  | error e =>
    rw [hid] at h1 h2
    simp only at h1
    subst h1
    exact ⟨fun e' he => by simpa using he, fun r1 hr => by cases hr⟩
  | ok kd =>
    rw [hid] at h1 h2
    simp only at h1 h2 ⊢
    rw [signifSetup_first]
    cases hz : f.setup kd (s.m.paramNames s.w) s.m.numProcesses (s.m.numNui s.w) fixNui none with
    | error e =>
      rw [hz] at h1
      simp only at h1
      subst h1
      exact ⟨fun e' he => by simpa using he, fun r1 hr => by cases hr⟩
    | ok z =>
      rw [hz] at h1
      simp only at h1 ⊢
      obtain ⟨xs, hxs⟩ := runMinimizer_evals o s.w s.m z true
      obtain ⟨k1, k2, hmw⟩ := signifSetup_second hd hz
      generalize hq : runMinimizer o s.w s.m z true = q at h1 hxs ⊢
      obtain ⟨q1, w1⟩ := q
      simp only at hxs
      cases q1 with
      | error e =>
        simp only at h1
        subst h1
        exact ⟨fun e' he => by simpa using he, fun r1 hr => by cases hr⟩
      | ok v =>
        obtain ⟨r, z1⟩ := v
        simp only [if_false, Bool.false_eq_true] at h1 ⊢
        subst h1
        constructor
        · intro e he; cases he
        intro r1 hr1
        injection hr1 with hr1
        subst hr1
        have hok := runMinimizer_ok hq (by rw [hmw.hv, hmw.hn]) (by rw [hmw.he, hmw.hn])
        have hrn : r.params.names = s.m.paramNames s.w := hok.2.1.trans hmw.hn
        obtain ⟨y, hy1, hy2⟩ : ∃ y, r.params.getValue pid = .ok y ∧ ∃ u, r.params.getItem pid = .ok (y, u) := by
          have hl1 := hok.1
          have hl2 := runMinimizer_err_len hq (by rw [hmw.hv, hmw.hn]) (by rw [hmw.he, hmw.hn])
          rw [← hok.2.2] at hl2
          rw [hmw.hn] at hl1 hl2
          have hlt : s.m.processes.idxOf p < (s.m.paramNames s.w).length :=
            denotes_lt ((denotes_iff _ _ _).mpr hd)
          refine ⟨r.params.values[s.m.processes.idxOf p]'(by omega), ?_, r.params.errors[s.m.processes.idxOf p]'(by omega), ?_⟩
          · simp only [Params.getValue, hrn, hd]
            rw [List.getElem?_eq_getElem]
          · simp only [Params.getItem, hrn, hd]
            rw [List.getElem?_eq_getElem, List.getElem?_eq_getElem]
        obtain ⟨u, hy2⟩ := hy2
        refine ⟨y, hy1, ?_⟩
        rw [hy2]
        simp only
        refine ⟨fun hneg => by rw [if_pos hneg], fun hpos => ?_⟩
        rw [if_neg hpos]
        have hfr := evalAll_frame s.m xs s.w
        have hsy := setYield_cache s.m p 0 hfr
        rw [← hxs] at hsy
        have hsok := setYield_ok s.w s.m hp 0
        rw [hsok] at hsy
        generalize hw2 : s.m.setYield w1 p 0 = q2 at hsy ⊢
        obtain ⟨q3, w2⟩ := q2
        obtain ⟨g1, g2⟩ := hsy
        simp only at g1 g2
        subst g1
        simp only
        have hpo := setYield_paramOnly s.w s.m p 0
        have hn1 := names_params hpo s.m
        have hn2 := names_cache g2 s.m
        have es2 : (s.step (.setYield p 0)).w = (s.m.setYield s.w p 0).2 := rfl
        rw [es2, hn1.1, hn1.2] at h2
        rw [hn2.1, hn2.2, hn1.1, hn1.2]
        rw [k2] at h2
        rw [k1]
        simp only at h2 ⊢
        have hc2 : Coherent (s.m.setYield s.w p 0).2 := hpo.coherent h.coherent
        have hb1 : Coherent w1 := by rw [hxs]; exact (built_evalAll xs h).coherent
        have hc3 : Coherent w2 := by
          have := (setYield_paramOnly w1 s.m p 0).coherent hb1
          rw [hw2] at this; exact this
        have hcg := runMinimizer_congr o s.m (z.setFixed pid).2 true (x0_cache g2 s.m)
          (objective_cache g2 hc2 hc3 s.m (by rw [hpo.nChans]; exact hw.lt))
        generalize runMinimizer o (s.m.setYield s.w p 0).2 s.m (z.setFixed pid).2 true = a at h2 hcg
        generalize runMinimizer o w2 s.m (z.setFixed pid).2 true = b at hcg ⊢
        obtain ⟨a1, a2⟩ := a
        obtain ⟨b1, b2⟩ := b
        simp only at hcg
        subst hcg
        cases b1 with
        | error e =>
          simp only at h2
          subst h2
          exact ⟨fun e' he => by simpa using he, fun r2 hr => by cases hr⟩
        | ok v =>
          obtain ⟨r2, z2⟩ := v
          simp only [if_false, Bool.false_eq_true] at h2 ⊢
          subst h2
          constructor
          · intro e' he; cases he
          intro r2' hr
          injection hr with hr
          subst hr
          rfl

/-! ### the start values of the second fit -/

theorem setYieldLoop_nui (p : String) (v : Fl) (cs : List ℕ) : ∀ (w : World) (t : ℕ),
    ((w.setYieldLoop p v cs).2.tmpls t).nuiParams = (w.tmpls t).nuiParams := by
  induction cs with
  | nil => intro w t; rfl
  | cons c cs ih =>
    intro w t
    simp only [World.setYieldLoop]
    cases dictGet (w.chans c).templates p with
    | none => exact ih w t
    | some tid =>
      cases dictGet (w.chans c).effs p with
      | none => exact ih w t
      | some eff =>
        simp only [Template.setYield]
        rw [ih]
        unfold World.setTmpl
        by_cases ht : t = tid
        · subst ht; simp [Template.nuiParams]
        · simp [Function.update_of_ne ht]

theorem setYield_nui (w : World) (m : Mct) (p : String) (v : Fl) (t : ℕ) :
    ((m.setYield w p v).2.tmpls t).nuiParams = (w.tmpls t).nuiParams := by
  unfold Mct.setYield
  by_cases hp : p ∉ m.processes
  · rw [if_pos hp]
  · rw [if_neg hp]; exact setYieldLoop_nui p v m.chanIds w t

/-- `set_yield(p, 0)` changes the start values at the position of that yield only, to zero -/
theorem x0_setYield {s : Sys} (hs : s.Reachable) (hu : Unshared s) (hf : FiniteEffs s) {p : String}
    (hp : p ∈ s.m.processes) {x y : Vec} (hx : s.m.x0 s.w = .ok x) (hy : s.m.x0 (s.m.setYield s.w p 0).2 = .ok y) :
    y[s.m.processes.idxOf p]? = some 0 ∧ ∀ k, k ≠ s.m.processes.idxOf p → y[k]? = x[k]? := by
  obtain ⟨-, h50, h51, -⟩ := (C50_yield_partial s hs hu hf p 0).2 hp
  rw [← Fl.zero_def] at h50 h51
  have hch := (setYield_paramOnly s.w s.m p 0).chans
  have hnui : s.m.nuiParams (s.m.setYield s.w p 0).2 = s.m.nuiParams s.w := by
    have e1 : ∀ c, ((s.m.setYield s.w p 0).2.chanTmpls c).map (·.nuiParams) = (s.w.chanTmpls c).map (·.nuiParams) := by
      intro c
      unfold World.chanTmpls
      rw [hch, List.map_map, List.map_map]
      apply List.map_congr_left
      intro t _
      exact setYield_nui s.w s.m p 0 t.2
    have e2 : (s.m.allTmpls (s.m.setYield s.w p 0).2).map (·.nuiParams) = (s.m.allTmpls s.w).map (·.nuiParams) := by
      unfold Mct.allTmpls
      rw [List.map_flatten, List.map_flatten, List.map_map, List.map_map]
      congr 1
      apply List.map_congr_left
      intro c _
      exact e1 c
    have e3 : s.m.allTmpls (s.m.setYield s.w p 0).2 = [] ↔ s.m.allTmpls s.w = [] := by
      rw [← List.map_eq_nil_iff (f := fun t : Template => t.nuiParams), e2, List.map_eq_nil_iff]
    unfold Mct.nuiParams
    by_cases h0 : s.m.allTmpls s.w = []
    · rw [if_pos h0, if_pos (e3.mpr h0)]
    · rw [if_neg h0, if_neg (fun h => h0 (e3.mp h)), e2]
  unfold Mct.x0 at hx hy
  rw [hnui] at hy
  cases hn : s.m.nuiParams s.w with
  | error e => rw [hn] at hx; simp at hx
  | ok n =>
    rw [hn] at hx hy
    simp only [Except.ok.injEq] at hx hy
    subst hx hy
    have hlt := List.idxOf_lt_length_iff.mpr hp
    have hl : ∀ w, (s.m.processYields w).length = s.m.processes.length := by intro w; simp [Mct.processYields]
    have hg : ∀ w q, q ∈ s.m.processes → s.m.getYield w q = .ok (w.processYield q s.m.chanIds) := by
      intro w q hq
      unfold Mct.getYield Mct.processYields
      rw [if_neg (by simpa using hq)]
      congr 1
      have hlt := List.idxOf_lt_length_iff.mpr hq
      rw [List.getD_eq_getElem?_getD, List.getElem?_map, List.getElem?_eq_getElem hlt]
      simp
    constructor
    · rw [List.getElem?_append_left (by rw [hl]; exact hlt)]
      unfold Mct.processYields
      rw [List.getElem?_map, List.getElem?_eq_getElem hlt, Option.map_some, List.getElem_idxOf]
      rw [hg _ p hp] at h50
      rw [Except.ok.inj h50]
      simp [Fl.zero_def]
    · intro k hk
      by_cases hkl : k < s.m.processes.length
      · rw [List.getElem?_append_left (by rw [hl]; exact hkl), List.getElem?_append_left (by rw [hl]; exact hkl)]
        unfold Mct.processYields
        rw [List.getElem?_map, List.getElem?_map, List.getElem?_eq_getElem hkl, Option.map_some, Option.map_some]
        have hne : s.m.processes[k] ≠ p := by
          intro e
          apply hk
          rw [← e]
          have hnd := (reachable_wf hs).procs
          exact (List.Nodup.idxOf_getElem hnd k hkl).symm
        have := h51 _ (List.getElem_mem hkl) hne
        rw [hg _ _ (List.getElem_mem hkl), hg _ _ (List.getElem_mem hkl)] at this
        rw [Except.ok.inj this]
      · rw [List.getElem?_append_right (by rw [hl]; omega), List.getElem?_append_right (by rw [hl]; omega), hl, hl]

/-- what a successful `do_fit` with Minuit came from -/
theorem doFit_minuit_inv {f : Fitter} {o : Optim} {w : World} {m : Mct} {g fixNui : Bool} {z : Minimizer}
    (hid : minKindOf f.minimizerId = .ok .iminuit)
    (hz : f.setup .iminuit (m.paramNames w) m.numProcesses (m.numNui w) fixNui none = .ok z)
    (hk : z.kind = .iminuit) {r : MinResult} (hr : (f.doFit o w m false g fixNui none).1 = .ok r) :
    ∃ x0 rr, m.x0 w = .ok x0 ∧ o.minuit (z.minuitCall (objective w m) x0) = .ok rr ∧ r.fval = rr.fval ∧
      r.params.values = rr.values := by
  unfold Fitter.doFit at hr
  rw [hid] at hr
  simp only at hr
  rw [hz] at hr
  simp only at hr
  unfold runMinimizer at hr
  cases hx : m.x0 w with
  | error e => rw [hx] at hr; simp at hr
  | ok x0 =>
    rw [hx] at hr
    refine ⟨x0, ?_⟩
    simp only [Minimizer.minimize, hk] at hr
    rcases minuit_cases o z (objective w m) x0 with ⟨e, he, hh⟩ | ⟨rr, hrr, hh⟩
    · rw [hh] at hr; simp at hr
    · refine ⟨rr, rfl, hrr, ?_⟩
      rcases hh with ⟨_, hh⟩ | ⟨_, _, hh⟩ | ⟨_, _, ⟨e, _, hh⟩ | ⟨C, R, _, hh⟩⟩
      · rw [hh] at hr; simp at hr
      · rw [hh] at hr; simp at hr
      · rw [hh] at hr; simp at hr
      · rw [hh] at hr
        simp only [if_false, Bool.false_eq_true, Except.ok.injEq] at hr
        subst hr
        exact ⟨rfl, rfl⟩

/-- the bounds of a parameter in a fit are registered ones (or none) -/
theorem setup_bounds_mem {kd : MinKind} {names : List String} {id : String} {hist : List FitOp} {nproc nnui : ℕ}
    {fixNui : Bool} {k : ℕ} (hk : k < names.length) {b : Bounds}
    (hb : (minRun kd names (setupOps (fitRun id hist) nproc nnui fixNui none)).bounds[k]? = some b) :
    b = (none, none) ∨ ∃ pid, FitOp.bound pid b ∈ hist ∧ Denotes names pid k := by
  rcases ((C59_bounds kd names _ k hk b (fun _ => .ok 0) []).1).mp hb with ⟨pre, op, post, he, ⟨pid, rfl, hd⟩, _⟩ | ⟨_, h⟩
  · right
    refine ⟨pid, ?_, hd⟩
    have hm : MinOp.bound pid b ∈ setupOps (fitRun id hist) nproc nnui fixNui none := by rw [he]; simp
    unfold setupOps at hm
    have hm' : (pid, b) ∈ (fitRun id hist).boundParams := by
      cases fixNui <;> simpa using hm
    obtain ⟨p1, p2, e1, _⟩ := ((fitRun_bounds id hist).2 pid b).mp hm'
    rw [e1]; simp
  · exact .inl h

/-- **C71 (partial).** With an optimiser that finds the true constrained minimum (iminuit), for every model
built channel by channel before evaluation (`Built`) (no template object used twice, finite efficiencies), process `p` and fitter
configuration in which the yield of `p` is not fixed and its bounds, if any, contain zero, and a finite minimum
of the nominal fit: `get_significance` is never NaN. It is zero for a negative fitted yield, otherwise
`sqrt(2 Δ)` with `Δ ≥ 0` the difference of the two minima, or +inf (background hypothesis excluded). Missing:
fitters in which the yield is fixed or bounded away from zero, see `C71_refuted`. -/
theorem C71_nonneg_partial (s : Sys) (h : s.Built) (hu : Unshared s) (hf : FiniteEffs s) (id : String)
    (hid : id.toLower = "iminuit") (hist : List FitOp) (hk : KnownIds (s.m.paramNames s.w) hist) (o : Optim)
    (ho : TrueMin o) (p : String) (hp : p ∈ s.m.processes) (fixNui : Bool)
    (hnf : ¬ FitFixed (s.m.paramNames s.w) hist (s.m.processes.idxOf p))
    (hnb : ∀ pid b, FitOp.bound pid b ∈ hist → Denotes (s.m.paramNames s.w) pid (s.m.processes.idxOf p) → InBounds b 0)
    (r1 : MinResult) (hr1 : ((fitRun id hist).doFit o s.w s.m false true fixNui none).1 = .ok r1) (a : ℝ)
    (ha : r1.fval = .fin a) (v : Fl) (hv : ((fitRun id hist).getSignificance o s.w s.m p fixNui).1 = .ok v) :
    ∃ y, r1.params.getValue (.str (p ++ "_yield")) = .ok y ∧
      (y.lt 0 → v = 0) ∧
      (¬ y.lt 0 → ∃ r2, (((fitRun id hist).setFixed (.str (p ++ "_yield"))).doFit o (s.step (.setYield p 0)).w s.m
          false true fixNui none).1 = .ok r2 ∧
        ((∃ b : ℝ, r2.fval = .fin b ∧ a ≤ b ∧ v = .fin (Real.sqrt (2 * (b - a)))) ∨
          (r2.fval = .pinf ∧ v = .pinf))) := by
  have hw := reachable_wf h.reachable
  have hd := yield_denotes h.reachable hp
  have hdi := (denotes_iff _ _ _).mp hd
  have hltn := denotes_lt hd
  have hm := minKind_iminuit hid
  obtain ⟨y, hy, h1, h2⟩ := (C71_formula s h (fitRun id hist) o p hp fixNui _ _ rfl rfl).2 r1 hr1
  refine ⟨y, hy, fun hneg => ?_, fun hpos => ?_⟩
  · rw [h1 hneg] at hv
    exact (Except.ok.inj hv).symm
  obtain ⟨h3, h4⟩ := h2 hpos
  cases hfit2 : (((fitRun id hist).setFixed (.str (p ++ "_yield"))).doFit o (s.step (.setYield p 0)).w s.m
          false true fixNui none).1 with
  | error e => rw [h3 e hfit2] at hv; cases hv
  | ok r2 =>
    refine ⟨r2, rfl, ?_⟩
    have hv' := h4 r2 hfit2
    rw [hv] at hv'
    have hv' := Except.ok.inj hv'
    have hz := setup_eq (kd := .iminuit) (id := id) (C51_aligned s h.reachable).1.symm hk fixNui none
    generalize hzz : minRun .iminuit (s.m.paramNames s.w)
      (setupOps (fitRun id hist) s.m.numProcesses (s.m.numNui s.w) fixNui none) = z at hz
    obtain ⟨-, hz2, hzw⟩ := signifSetup_second hdi hz
    have hpo := setYield_paramOnly s.w s.m p 0
    have hnm := names_params hpo s.m
    have es2 : (s.step (.setYield p 0)).w = (s.m.setYield s.w p 0).2 := rfl
    rw [es2] at hfit2
    have hm1 : minKindOf (fitRun id hist).minimizerId = .ok .iminuit := by rw [fitRun_id]; exact hm
    have hm2 : minKindOf ((fitRun id hist).setFixed (.str (p ++ "_yield"))).minimizerId = .ok .iminuit := hm1
    rw [← hnm.1, ← hnm.2] at hz2
    have hsf : (z.setFixed (.str (p ++ "_yield"))).2 =
        { z with fixedFlags := z.fixedFlags.set (s.m.processes.idxOf p) true } := by
      simp [Minimizer.setFixed, hzw.hn, hdi, hzw.hk]
    obtain ⟨x1, q1, hx1, hq1, hf1, -⟩ := doFit_minuit_inv hm1 hz hzw.hk hr1
    obtain ⟨x2, q2, hx2, hq2, hf2, -⟩ := doFit_minuit_inv hm2 hz2 (by rw [hsf]; exact hzw.hk) hfit2
    obtain ⟨-, -, -, t1⟩ := ho _ _ hq1
    obtain ⟨f2, t2, t3, -⟩ := ho _ _ hq2
    obtain ⟨hxa, hxb⟩ := x0_setYield h.reachable hu hf hp hx1 hx2
    have hobj := objective_params hpo h.coherent s.m hw.lt
    have hfeas : MFeasible (z.minuitCall (objective s.w s.m) x1) q2.values := by
      rw [hsf] at f2
      obtain ⟨f21, f22⟩ := f2
      refine ⟨f21, fun k hk => ?_⟩
      obtain ⟨g1, g2⟩ := f22 k hk
      have hkn : k < (s.m.paramNames s.w).length := by
        have : (z.minuitCall (objective s.w s.m) x1).names = s.m.paramNames s.w := hzw.hn
        rw [this] at hk; exact hk
      simp only [Minimizer.minuitCall] at g1 g2 ⊢
      by_cases hki : k = s.m.processes.idxOf p
      · subst hki
        have hnfix : z.fixedFlags[s.m.processes.idxOf p]? ≠ some true := by
          have hfx := C58_iminuit (s.m.paramNames s.w) (setupOps (fitRun id hist) s.m.numProcesses (s.m.numNui s.w) fixNui none)
            (objective s.w s.m) x1
          rw [hzz] at hfx
          simp only [Minimizer.minuitCall] at hfx
          rw [hfx, List.getElem?_map, List.getElem?_range hkn]
          simp only [Option.map_some, ne_eq, Option.some.injEq, decide_eq_true_eq]
          rw [setup_fixed (C51_aligned s h.reachable).1.symm fixNui none _ hkn]
          rintro (hfix | ⟨_, hge⟩)
          · exact hnf hfix
          · have := List.idxOf_lt_length_iff.mpr hp
            simp only [Mct.numProcesses] at hge
            omega
        refine ⟨fun hc => absurd hc hnfix, fun _ b v hb hv => ?_⟩
        have hlf : s.m.processes.idxOf p < z.fixedFlags.length := by
          have hfx := C58_iminuit (s.m.paramNames s.w) (setupOps (fitRun id hist) s.m.numProcesses (s.m.numNui s.w) fixNui none)
            (objective s.w s.m) x1
          rw [hzz] at hfx
          simp only [Minimizer.minuitCall] at hfx
          rw [hfx]; simpa using hkn
        have := g1 (by rw [List.getElem?_set_self hlf])
        rw [hxa, hv] at this
        have := Option.some.inj this
        subst this
        rw [← hzz] at hb
        rcases setup_bounds_mem hkn hb with rfl | ⟨pid, hpid, hdd⟩
        · exact ⟨fun _ h => (by cases h), fun _ h => (by cases h)⟩
        · exact hnb pid b hpid hdd
      · rw [List.getElem?_set_ne (Ne.symm hki)] at g1 g2
        rw [← hxb k hki]
        exact ⟨g1, g2⟩
    have hcmp := t1 q2.values q2.fval hfeas (by
      have : (z.minuitCall (objective s.w s.m) x1).fcn = objective s.w s.m := rfl
      rw [this, ← hobj]; exact t2)
    rw [← hf1, ← hf2, ha] at hcmp
    rw [← hf2] at t3
    rw [ha] at hv'
    cases hr2 : r2.fval with
    | nan => exact absurd hr2 t3
    | ninf => rw [hr2] at hcmp; exact absurd trivial hcmp
    | pinf =>
      right
      refine ⟨rfl, ?_⟩
      rw [hv', hr2]
      have e1 : (Fl.pinf - Fl.fin a : Fl) = .pinf := rfl
      have e2 : (Fl.fin 2 * Fl.pinf : Fl) = .pinf := by
        show Fl.mulPinf 2 = _
        simp [Fl.mulPinf]
      rw [e1, e2]
      rfl
    | fin b =>
      left
      rw [hr2] at hcmp
      have hab : a ≤ b := not_lt.mp hcmp
      refine ⟨b, rfl, hab, ?_⟩
      rw [hv', hr2]
      simp only [Fl.fin_sub, Fl.fin_mul]
      rw [Fl.sqrt_fin (by linarith)]

end

end TF.Props
