import Verif.Props.FitterProps2

set_option linter.unusedSimpArgs false

/-!
# Registered bounds, the nuisance flag, and the effect of a fit on the templates (C65–C67)
-/

namespace TF.Spec

open Classical

noncomputable section

/-- The program `run` (a function of the external optimisers) passes the problem `call` to Minuit:
whatever Minuit raises for this problem is what `run` raises. -/
def HandsMinuit {α : Type} (run : Optim → Except Err α) (call : MinuitCall) : Prop :=
  ∀ o e, o.minuit call = .error e → run o = .error e

/-- The same for `scipy.optimize.minimize`. -/
def HandsScipy {α : Type} (run : Optim → Except Err α) (call : ScipyCall) : Prop :=
  ∀ o e, o.scipy call = .error e → run o = .error e

end

end TF.Spec

namespace TF.Props

open Classical Spec

noncomputable section

theorem runMinimizer_minuit {o : Optim} {w : World} {m : Mct} {z : Minimizer} {g : Bool} {x0 : Vec}
    (hx : m.x0 w = .ok x0) (hk : z.kind = .iminuit) {e : Err}
    (he : o.minuit (z.minuitCall (objective w m) x0) = .error e) :
    (runMinimizer o w m z g).1 = .error e := by
  unfold runMinimizer Minimizer.minimize
  rw [hx, hk]
  rcases minuit_cases o z (objective w m) x0 with ⟨e', he', hh⟩ | ⟨r, hr, _⟩
  · rw [he] at he'; injection he' with he'; subst he'
    simp only [hh]
  · rw [he] at hr; cases hr

theorem runMinimizer_scipy {o : Optim} {w : World} {m : Mct} {z : Minimizer} {g : Bool} {x0 : Vec}
    (hx : m.x0 w = .ok x0) (hk : z.kind = .scipy) {e : Err}
    (he : o.scipy (z.scipyCall (objective w m) x0) = .error e) :
    (runMinimizer o w m z g).1 = .error e := by
  unfold runMinimizer Minimizer.minimize
  rw [hx, hk]
  rcases scipy_cases o z (objective w m) x0 g with ⟨e', he', hh⟩ | ⟨r, hr, _⟩
  · rw [he] at he'; injection he' with he'; subst he'
    simp only [hh]
  · rw [he] at hr; cases hr

theorem doFit_hands_minuit {s : Sys} (hs : s.Reachable) {id : String} (hid : minKindOf id = .ok .iminuit)
    {h : List FitOp} (hk : KnownIds (s.m.paramNames s.w) h) {x0 : Vec} (hx : s.m.x0 s.w = .ok x0)
    (up g fixNui : Bool) (lim : Option Bounds) :
    HandsMinuit (fun o => ((fitRun id h).doFit o s.w s.m up g fixNui lim).1)
      ((minRun .iminuit (s.m.paramNames s.w)
        (setupOps (fitRun id h) s.m.numProcesses (s.m.numNui s.w) fixNui lim)).minuitCall
          (objective s.w s.m) x0) := by
  intro o e he
  have h1 := runMinimizer_minuit (g := g) hx (minRun_wf .iminuit (s.m.paramNames s.w) _).hk he
  show ((fitRun id h).doFit o s.w s.m up g fixNui lim).1 = _
  rw [doFit_eq hs hid hk]
  generalize runMinimizer o s.w s.m _ g = q at h1
  obtain ⟨q1, q2⟩ := q
  simp only at h1
  subst h1
  rfl

theorem doFit_hands_scipy {s : Sys} (hs : s.Reachable) {id : String} (hid : minKindOf id = .ok .scipy)
    {h : List FitOp} (hk : KnownIds (s.m.paramNames s.w) h) {x0 : Vec} (hx : s.m.x0 s.w = .ok x0)
    (up g fixNui : Bool) (lim : Option Bounds) :
    HandsScipy (fun o => ((fitRun id h).doFit o s.w s.m up g fixNui lim).1)
      ((minRun .scipy (s.m.paramNames s.w)
        (setupOps (fitRun id h) s.m.numProcesses (s.m.numNui s.w) fixNui lim)).scipyCall
          (objective s.w s.m) x0) := by
  intro o e he
  have h1 := runMinimizer_scipy (g := g) hx (minRun_wf .scipy (s.m.paramNames s.w) _).hk he
  show ((fitRun id h).doFit o s.w s.m up g fixNui lim).1 = _
  rw [doFit_eq hs hid hk]
  generalize runMinimizer o s.w s.m _ g = q at h1
  obtain ⟨q1, q2⟩ := q
  simp only at h1
  subst h1
  rfl

/-! ### the running example -/

theorem lower_iminuit : "iminuit".toLower = "iminuit" := by
  apply String.ext
  simp [String.toLower, String.toList_map]

theorem lower_scipy : "scipy".toLower = "scipy" := by
  apply String.ext
  simp [String.toLower, String.toList_map]

theorem Ex.namesQ : Ex.mQ.paramNames Ex.wQ =
    ["p_yield", "a_p_bin_0", "a_p_bin_1", "b_p_bin_0", "b_p_bin_1"] := by
  simp [Mct.paramNames, Ex.mQ, World.channelNames, Ex.wQ, Ex.chQa, Ex.chQb, Template.numBins, Ex.bt, nuiName,
    List.range_succ]
  exact ⟨rfl, rfl, rfl, rfl⟩

theorem Ex.x0Q : Ex.mQ.x0 Ex.wQ = .ok [.fin 8, .fin 0, .fin 0, .fin 0, .fin 0] := by
  simp [Mct.x0, Mct.nuiParams, Mct.allTmpls, World.chanTmpls, Template.nuiParams, Ex.mQ, Mct.processYields, Mct.chanIds,
    World.processYield, Ex.wQ, Ex.chQa, Ex.chQb, dictGet, Template.yieldParam, Ex.bt, initParams, Ex.bh, Hist.setBinned,
    npSum, vec, List.ofFn_succ, Fl.zero_def, List.replicate]
  norm_num

/-! ## C65 -/

/-- **C65 (partial).** For every reachable model and every history of configuration calls with known
identifiers: for each parameter whose bounds were always registered under the same identifier, the bounds
handed to the optimiser are those of the last call. Missing: parameters addressed once by name and once by
index, see `C65_refuted`. -/
theorem C65_last_partial (s : Sys) (hs : s.Reachable) (h : List FitOp)
    (hk : KnownIds (s.m.paramNames s.w) h) (x0 : Vec) (hx : s.m.x0 s.w = .ok x0) (up g fixNui : Bool)
    (lim : Option Bounds) :
    (∀ id, id.toLower = "iminuit" → ∃ call : MinuitCall,
      HandsMinuit (fun o => ((fitRun id h).doFit o s.w s.m up g fixNui lim).1) call ∧
      ∀ k b, OneId (s.m.paramNames s.w) h k → FitBounds (s.m.paramNames s.w) h k b →
        call.limit[k]? = some b) ∧
    (∀ id, id.toLower = "scipy" → ∃ call : ScipyCall,
      HandsScipy (fun o => ((fitRun id h).doFit o s.w s.m up g fixNui lim).1) call ∧
      ∀ k b, OneId (s.m.paramNames s.w) h k → FitBounds (s.m.paramNames s.w) h k b →
        call.bounds[k]? = some b) := by
  have hn := (C51_aligned s hs).1.symm
  have hlt : ∀ k b, FitBounds (s.m.paramNames s.w) h k b → k < (s.m.paramNames s.w).length := by
    rintro k b ⟨_, _, _, _, ⟨pid, _, hd⟩, _⟩
    exact denotes_lt hd
  constructor
  · intro id hid
    refine ⟨_, doFit_hands_minuit hs (minKind_iminuit hid) hk hx up g fixNui lim, fun k b ho hb => ?_⟩
    exact (setup_bounds hn fixNui lim k (hlt k b hb)).1 b ho hb
  · intro id hid
    refine ⟨_, doFit_hands_scipy hs (minKind_scipy hid) hk hx up g fixNui lim, fun k b ho hb => ?_⟩
    exact (setup_bounds hn fixNui lim k (hlt k b hb)).1 b ho hb

/-- bounds registered by name, then by index, then by name again -/
def Ex.mixed : List FitOp :=
  [.bound (.str "p_yield") (some (.fin 0), some (.fin 1)), .bound (.int 0) (some (.fin 0), some (.fin 2)),
   .bound (.str "p_yield") (some (.fin 0), some (.fin 3))]

/-- **C65 refuted.** After `set_parameter_bounds("p_yield", (0, 1))`, `(0, (0, 2))` and
`("p_yield", (0, 3))` the last call says (0, 3), but the fit uses (0, 2): the dict keeps the
entry of the name at its first position. -/
theorem C65_refuted : ∃ (s : Sys) (h : List FitOp) (b : Bounds), s.Built ∧
    KnownIds (s.m.paramNames s.w) h ∧ FitBounds (s.m.paramNames s.w) h 0 b ∧
    (∃ call : MinuitCall,
      HandsMinuit (fun o => ((fitRun "iminuit" h).doFit o s.w s.m false false false none).1) call ∧
      call.limit[0]? ≠ some b) ∧
    ∃ call : ScipyCall,
      HandsScipy (fun o => ((fitRun "scipy" h).doFit o s.w s.m false false false none).1) call ∧
      call.bounds[0]? ≠ some b := by
  have hk : KnownIds (Ex.sysQ.m.paramNames Ex.sysQ.w) Ex.mixed := by
    have : Ex.sysQ.m.paramNames Ex.sysQ.w = _ := Ex.namesQ
    rw [this]
    constructor
    · intro pid hp; simp [Ex.mixed] at hp
    · intro pid b hp
      refine ⟨0, ?_⟩
      simp only [Ex.mixed, List.mem_cons, FitOp.bound.injEq, List.not_mem_nil, or_false] at hp
      rcases hp with ⟨rfl, _⟩ | ⟨rfl, _⟩ | ⟨rfl, _⟩ <;> rw [denotes_iff] <;>
        simp [idToIndex, List.idxOf_cons]
  have hb : ∀ kd id, (minRun kd (Ex.sysQ.m.paramNames Ex.sysQ.w)
      (setupOps (fitRun id Ex.mixed) Ex.sysQ.m.numProcesses (Ex.sysQ.m.numNui Ex.sysQ.w) false none)).bounds[0]? =
        some (some (.fin 0), some (.fin 2)) := by
    intro kd id
    have : Ex.sysQ.m.paramNames Ex.sysQ.w = _ := Ex.namesQ
    rw [this]
    simp [setupOps, fitRun, Ex.mixed, fitStep, Fitter.setBounds, Fitter.new, dictSet, minRun, minStep,
      Minimizer.setBounds, Minimizer.new, Params.new, idToIndex, List.idxOf_cons]
  refine ⟨Ex.sysQ, Ex.mixed, (some (.fin 0), some (.fin 3)), Ex.sysQ_built, hk, ?_, ?_, ?_⟩
  · refine ⟨Ex.mixed.take 2, .bound (.str "p_yield") (some (.fin 0), some (.fin 3)), [], by simp [Ex.mixed], ⟨_, rfl, ?_⟩, by simp⟩
    have : Ex.sysQ.m.paramNames Ex.sysQ.w = _ := Ex.namesQ
    rw [this, denotes_iff]
    simp [idToIndex, List.idxOf_cons]
  · refine ⟨_, doFit_hands_minuit Ex.sysQ_built.reachable (minKind_iminuit lower_iminuit) hk Ex.x0Q _ _ _ _, ?_⟩
    show (minRun _ _ _).bounds[0]? ≠ _
    rw [hb]
    simp
  · refine ⟨_, doFit_hands_scipy Ex.sysQ_built.reachable (minKind_scipy lower_scipy) hk Ex.x0Q _ _ _ _, ?_⟩
    show (minRun _ _ _).bounds[0]? ≠ _
    rw [hb]
    simp

/-! ## C66 -/

/-- **C66 refuted.** `fix_nui_params()` has no effect on anything: fits, profiles and significances are the
same with and without the call; and in a concrete model the fit after it leaves all nuisance parameters free. -/
theorem C66_refuted :
    (∀ (o : Optim) (f : Fitter) (w : World) (m : Mct) (up g fixNui : Bool) (lim : Option Bounds),
      f.fixNuiParams.doFit o w m up g fixNui lim = f.doFit o w m up g fixNui lim) ∧
    (∀ (o : Optim) (f : Fitter) (w : World) (m : Mct) (pid : ParamId) (n p : ℕ) (sg : Fl) (sub fixNui : Bool)
      (sched : List PoolEv),
      f.fixNuiParams.profile o w m pid n p sg sub fixNui sched = f.profile o w m pid n p sg sub fixNui sched) ∧
    (∀ (o : Optim) (f : Fitter) (w : World) (m : Mct) (p : String) (fixNui : Bool),
      f.fixNuiParams.getSignificance o w m p fixNui = f.getSignificance o w m p fixNui) ∧
    ∃ s : Sys, s.Built ∧ s.m.numNui s.w = 4 ∧ ∃ call : MinuitCall,
      HandsMinuit (fun o => ((fitRun "iminuit" [.fixNui]).doFit o s.w s.m true false false none).1) call ∧
      call.fix = [false, false, false, false, false] := by
  refine ⟨fun _ _ _ _ _ _ _ _ => rfl, fun _ _ _ _ _ _ _ _ _ _ _ => rfl, fun _ _ _ _ _ _ => rfl,
    Ex.sysQ, Ex.sysQ_built, ?_, ?_⟩
  · simp [Mct.numNui, Ex.sysQ, Ex.mQ, Mct.chanIds, Ex.wQ, Ex.chQa, Ex.chQb, Channel.numNui, Channel.numTemplates,
      Channel.numBins]
  · refine ⟨_, doFit_hands_minuit Ex.sysQ_built.reachable (minKind_iminuit lower_iminuit) ?_ Ex.x0Q _ _ _ _, ?_⟩
    · constructor
      · intro pid hp; simp at hp
      · intro pid b hp; simp at hp
    · have : Ex.sysQ.m.paramNames Ex.sysQ.w = _ := Ex.namesQ
      rw [this]
      simp [setupOps, fitRun, fitStep, Fitter.fixNuiParams, Fitter.new, minRun, Minimizer.minuitCall, Minimizer.new,
        Params.new]

/-- **C66 (partial).** What does work: `do_fit(fix_nui_params=True)` fixes every nuisance parameter, for
every reachable model and fitter configuration (both minimizers). -/
theorem C66_argument_partial (s : Sys) (hs : s.Reachable) (h : List FitOp)
    (hk : KnownIds (s.m.paramNames s.w) h) (x0 : Vec) (hx : s.m.x0 s.w = .ok x0) (up g : Bool)
    (lim : Option Bounds) :
    (∀ id, id.toLower = "iminuit" → ∃ call : MinuitCall,
      HandsMinuit (fun o => ((fitRun id h).doFit o s.w s.m up g true lim).1) call ∧
      ∀ k, s.m.numProcesses ≤ k → k < s.m.numProcesses + s.m.numNui s.w → call.fix[k]? = some true) ∧
    (∀ id, id.toLower = "scipy" → ∃ (call : ScipyCall) (l : List ℕ),
      HandsScipy (fun o => ((fitRun id h).doFit o s.w s.m up g true lim).1) call ∧
      call.constraints = scipyConstraints l x0 ∧
      ∀ k, s.m.numProcesses ≤ k → k < s.m.numProcesses + s.m.numNui s.w → k ∈ l) := by
  have hn := (C51_aligned s hs).1.symm
  constructor
  · intro id hid
    refine ⟨_, doFit_hands_minuit hs (minKind_iminuit hid) hk hx up g true lim, fun k h1 h2 => ?_⟩
    rw [hn] at h2
    rw [C58_iminuit, List.getElem?_map, List.getElem?_range h2]
    simp only [Option.map_some, Option.some.injEq, decide_eq_true_eq]
    exact (setup_fixed hn true lim k h2).mpr (.inr ⟨rfl, h1⟩)
  · intro id hid
    refine ⟨_, _, doFit_hands_scipy hs (minKind_scipy hid) hk hx up g true lim, rfl, fun k h1 h2 => ?_⟩
    rw [hn] at h2
    rw [C58_scipy]
    exact (setup_fixed hn true lim k h2).mpr (.inr ⟨rfl, h1⟩)

/-! ## C67 -/

theorem evalAll_frame (m : Mct) (xs : List Vec) : ∀ w : World, CacheOnly w (evalAll w m xs) := by
  induction xs with
  | nil => intro w; exact CacheOnly.refl w
  | cons x xs ih => intro w; exact (nll_frame w m x).trans (ih _)

theorem runMinimizer_frame (o : Optim) (w : World) (m : Mct) (z : Minimizer) (g : Bool) :
    CacheOnly w (runMinimizer o w m z g).2 := by
  unfold runMinimizer
  cases m.x0 w with
  | error e => exact CacheOnly.refl w
  | ok x0 =>
    simp only
    generalize z.minimize o (objective w m) x0 g = q
    obtain ⟨q1, q2⟩ := q
    cases q1 <;> exact evalAll_frame m _ w

/-- a run of the optimiser is a run of likelihood evaluations -/
theorem runMinimizer_evals (o : Optim) (w : World) (m : Mct) (z : Minimizer) (g : Bool) :
    ∃ xs, (runMinimizer o w m z g).2 = evalAll w m xs := by
  unfold runMinimizer
  cases m.x0 w with
  | error e => exact ⟨[], rfl⟩
  | ok x0 =>
    simp only
    generalize z.minimize o (objective w m) x0 g = q
    obtain ⟨q1, q2⟩ := q
    cases q1 <;> exact ⟨_, rfl⟩

theorem built_evalAll (xs : List Vec) : ∀ {s : Sys}, s.Built → Sys.Built ⟨evalAll s.w s.m xs, s.m⟩ := by
  induction xs with
  | nil => intro s h; exact h
  | cons x xs ih =>
    intro s h
    have h1 : (s.step (.nll x)).Built := Sys.Built.step h (by simp [Op.structural])
    exact ih h1

theorem runMinimizer_ok {o : Optim} {w : World} {m : Mct} {z : Minimizer} {g : Bool} {r : MinResult}
    {z1 : Minimizer} {w1 : World} (h : runMinimizer o w m z g = (.ok (r, z1), w1))
    (hv : z.params.values.length = z.params.names.length)
    (he : z.params.errors.length = z.params.names.length) :
    r.params.values.length = z.params.names.length ∧ r.params.names = z.params.names ∧
      r.params = z1.params := by
  unfold runMinimizer at h
  cases hx : m.x0 w with
  | error e => rw [hx] at h; simp at h
  | ok x0 =>
    rw [hx] at h
    simp only at h
    have hf := minimize_frame o z (objective w m) x0 g hv he _ rfl
    have hr : ∀ r', (z.minimize o (objective w m) x0 g).1 = .ok r' →
        r'.params = (z.minimize o (objective w m) x0 g).2.params := by
      unfold Minimizer.minimize
      cases z.kind with
      | iminuit =>
        rcases minuit_cases o z (objective w m) x0 with ⟨e, _, h⟩ | ⟨r, _, ⟨_, h⟩ | ⟨a, _, h⟩ |
          ⟨a, b, ⟨e, _, h⟩ | ⟨C, R, _, h⟩⟩⟩ <;> simp only [h] <;> intro r' hr' <;>
          first | (cases hr'; done) | (injection hr' with hr'; rw [← hr'])
      | scipy =>
        rcases scipy_cases o z (objective w m) x0 g with ⟨e, _, h⟩ | ⟨r, _, ⟨_, h⟩ | ⟨_, _, h⟩ | ⟨_, a, ⟨_, h⟩ |
          ⟨_, e, _, h⟩ | ⟨_, H, C, _, _, b, h⟩ | ⟨_, H, C, _, _, b, h⟩⟩⟩ <;> simp only [h] <;> intro r' hr' <;>
          first | (cases hr'; done) | (injection hr' with hr'; rw [← hr'])
    generalize z.minimize o (objective w m) x0 g = q at h hf hr
    obtain ⟨q1, q2⟩ := q
    cases q1 with
    | error e => simp at h
    | ok v =>
      simp only [Prod.mk.injEq, Except.ok.injEq] at h
      obtain ⟨⟨rfl, rfl⟩, rfl⟩ := h
      have h1 := hr _ rfl
      simp only at h1 hf
      rw [h1]
      exact ⟨hf.2.2.2.2.2.1, hf.2.2.2.2.1, rfl⟩

/-- **C67.** For every model state, fitter, optimiser and arguments: `do_fit(update_templates=False)`
changes no template, histogram or channel, whether it succeeds or raises. -/
theorem C67_no_update (o : Optim) (f : Fitter) (w : World) (m : Mct) (g fixNui : Bool) (lim : Option Bounds) :
    (f.doFit o w m false g fixNui lim).2.tmpls = w.tmpls ∧
    (f.doFit o w m false g fixNui lim).2.hists = w.hists ∧
    (f.doFit o w m false g fixNui lim).2.chans = w.chans := by
  have : CacheOnly w (f.doFit o w m false g fixNui lim).2 := by
    unfold Fitter.doFit
    cases minKindOf f.minimizerId with
    | error e => exact CacheOnly.refl w
    | ok k =>
      simp only
      cases f.setup k (m.paramNames w) m.numProcesses (m.numNui w) fixNui lim with
      | error e => exact CacheOnly.refl w
      | ok z =>
        simp only
        have h := runMinimizer_frame o w m z g
        generalize runMinimizer o w m z g = q at h
        obtain ⟨q1, q2⟩ := q
        cases q1 with
        | error e => exact h
        | ok v => exact h
  exact ⟨this.tmpls, this.hists, this.chans⟩

/-- the run inside a `do_fit(update_templates=True)` -/
theorem doFit_update_cases (s : Sys) (h : s.Built) (id : String) (hist : List FitOp)
    (o : Optim) (g fixNui : Bool) (lim : Option Bounds) :
    (∃ e, ((fitRun id hist).doFit o s.w s.m true g fixNui lim).1 = .error e ∧
      CacheOnly s.w ((fitRun id hist).doFit o s.w s.m true g fixNui lim).2) ∨
    ∃ r xs, r.params.values.length = s.m.numProcesses + s.m.numNui s.w ∧
      (fitRun id hist).doFit o s.w s.m true g fixNui lim =
        match s.m.updateParameters (evalAll s.w s.m xs) r.params.values with
          | (.error e, w2) => (.error e, w2)
          | (.ok (), w2) => (.ok r, w2) := by
  cases hid : minKindOf id with
  | error e =>
    left
    unfold Fitter.doFit
    rw [fitRun_id, hid]
    exact ⟨e, rfl, CacheOnly.refl _⟩
  | ok kd =>
    by_cases hk : KnownIds (s.m.paramNames s.w) hist
    · rw [doFit_eq h.reachable hid hk]
      have hw := minRun_wf kd (s.m.paramNames s.w)
        (setupOps (fitRun id hist) s.m.numProcesses (s.m.numNui s.w) fixNui lim)
      generalize minRun kd (s.m.paramNames s.w)
        (setupOps (fitRun id hist) s.m.numProcesses (s.m.numNui s.w) fixNui lim) = z at hw
      have hf := runMinimizer_frame o s.w s.m z g
      obtain ⟨xs, hxs⟩ := runMinimizer_evals o s.w s.m z g
      generalize hq : runMinimizer o s.w s.m z g = q at hf hxs
      obtain ⟨q1, q2⟩ := q
      cases q1 with
      | error e => left; exact ⟨e, rfl, hf⟩
      | ok v =>
        right
        obtain ⟨r, z1⟩ := v
        simp only at hxs
        subst hxs
        have := runMinimizer_ok hq (by rw [hw.hv, hw.hn]) (by rw [hw.he, hw.hn])
        refine ⟨r, xs, ?_, rfl⟩
        rw [this.1, hw.hn, (C51_aligned s h.reachable).1]
    · left
      rw [C64_unknown s h.reachable id kd hid hist hk]
      exact ⟨_, rfl, CacheOnly.refl _⟩

theorem complete_cache {s : Sys} {w1 : World} (hf : CacheOnly s.w w1) (h : Complete s) : Complete ⟨w1, s.m⟩ := by
  intro c hc
  show (w1.chans c).templates ≠ []
  rw [hf.chans]; exact h c hc

/-- **C67.** For every model built channel by channel before evaluation (`Built`) whose channels all have templates, every
history of configuration calls and every optimiser: a `do_fit(update_templates=True)` that raises leaves all
templates, histograms and channels unchanged. -/
theorem C67_failure (s : Sys) (h : s.Built) (hne : s.m.channels ≠ []) (hc : Complete s) (id : String)
    (hist : List FitOp) (o : Optim) (g fixNui : Bool) (lim : Option Bounds) (e : Err)
    (he : ((fitRun id hist).doFit o s.w s.m true g fixNui lim).1 = .error e) :
    ((fitRun id hist).doFit o s.w s.m true g fixNui lim).2.tmpls = s.w.tmpls ∧
    ((fitRun id hist).doFit o s.w s.m true g fixNui lim).2.hists = s.w.hists ∧
    ((fitRun id hist).doFit o s.w s.m true g fixNui lim).2.chans = s.w.chans := by
  rcases doFit_update_cases s h id hist o g fixNui lim with ⟨e', _, hf⟩ | ⟨r, xs, hl, heq⟩
  · exact ⟨hf.tmpls, hf.hists, hf.chans⟩
  · exfalso
    have hf := evalAll_frame s.m xs s.w
    obtain ⟨w1, -, h2, -⟩ := updateParameters_eq ⟨evalAll s.w s.m xs, s.m⟩ (built_evalAll xs h) hne
      (complete_cache hf hc) r.params.values (by
        rw [hl]; simp only [Mct.numNui]; rw [hf.chans])
    simp only at h2
    rw [heq, h2] at he
    simp at he

/-- **C67.** If it succeeds (and no template object is registered twice), the templates carry the fitted
values: template `j` of channel `k` has the fitted yield of its process times its efficiency and its block of
the fitted nuisance parameters; everything else is unchanged. -/
theorem C67_update (s : Sys) (h : s.Built) (hne : s.m.channels ≠ []) (hc : Complete s) (hu : Unshared s)
    (id : String) (hist : List FitOp) (o : Optim) (g fixNui : Bool) (lim : Option Bounds) (r : MinResult)
    (w' : World) (hr : (fitRun id hist).doFit o s.w s.m true g fixNui lim = (.ok r, w')) :
    (∀ k, (hk : k < s.m.chanIds.length) → ∀ j, (hj : j < (s.w.chans s.m.chanIds[k]).templates.length) →
      ∃ eff, (s.w.chans s.m.chanIds[k]).effs[j]? = some ((s.w.chans s.m.chanIds[k]).templates[j].1, eff) ∧
        (w'.tmpls (s.w.chans s.m.chanIds[k]).templates[j].2).params =
          (r.params.values.getD (s.m.processes.idxOf (s.w.chans s.m.chanIds[k]).templates[j].1) 0 * eff) ::
            (r.params.values.drop (nuiOffset s k j)).take (s.w.chans s.m.chanIds[k]).bins.prod) ∧
    s.m.nuiParams w' = .ok (r.params.values.drop s.m.numProcesses) ∧
    w'.chans = s.w.chans ∧ w'.hists = s.w.hists ∧
    (∀ i, ∃ v, w'.tmpls i = { s.w.tmpls i with params := v }) ∧
    (∀ i, i ∉ (s.m.chanIds.map fun c => (s.w.chans c).templates.map (·.2)).flatten →
      w'.tmpls i = s.w.tmpls i) := by
  rcases doFit_update_cases s h id hist o g fixNui lim with ⟨e', he, hf⟩ | ⟨r', xs, hl, heq⟩
  · rw [hr] at he; cases he
  · have hf := evalAll_frame s.m xs s.w
    have hcm := complete_cache hf hc
    have hum : Unshared ⟨evalAll s.w s.m xs, s.m⟩ := by
      unfold Unshared; simp only; rw [hf.chans]; exact hu
    have hB := built_evalAll xs h
    have hx : r'.params.values.length = s.m.numProcesses + s.m.numNui (evalAll s.w s.m xs) := by
      rw [hl]; simp only [Mct.numNui]; rw [hf.chans]
    have hC := C48_update ⟨evalAll s.w s.m xs, s.m⟩ hB hne hcm hum r'.params.values hx
    simp only at hC
    rw [heq] at hr
    generalize s.m.updateParameters (evalAll s.w s.m xs) r'.params.values = q at hr hC
    obtain ⟨q1, q2⟩ := q
    simp only at hC
    obtain ⟨h1, h2, h3, h4, h5, h6, h7⟩ := hC
    subst h1
    simp only [Prod.mk.injEq, Except.ok.injEq] at hr
    obtain ⟨rfl, rfl⟩ := hr
    have hoff : ∀ k j, nuiOffset ⟨evalAll s.w s.m xs, s.m⟩ k j = nuiOffset s k j := by
      intro k j; unfold nuiOffset; simp only; rw [hf.chans]
    refine ⟨?_, h3, by rw [h4, hf.chans], by rw [h5, hf.hists], ?_, ?_⟩
    · intro k hk j hj
      have := h2 k hk
      simp only [hoff] at this
      rw [hf.chans] at this
      exact this j hj
    · intro i
      obtain ⟨v, hv⟩ := h6 i
      exact ⟨v, by rw [hv, hf.tmpls]⟩
    · intro i hi
      rw [h7 i (by rw [hf.chans]; exact hi), hf.tmpls]

/-! ### non-vacuity -/

/-- an optimiser for the example: after one evaluation Minuit reports a fitted yield of 10 and nuisance
parameters 0 to 3 -/
def Ex.optQ : Optim where
  minuit := fun c => .ok ⟨⟨true, true, true⟩, ⟨true, true, true⟩, .fin 1,
    [.fin 10, .fin 0, .fin 1, .fin 2, .fin 3], c.x0, .ok (Mat.zeros 5 5, Mat.zeros 5 5)⟩
  minuitEvals := fun c => [c.x0]
  scipy := fun c => .ok ⟨true, c.x0, .fin 1⟩
  scipyEvals := fun c => [c.x0]
  hessian := fun _ => .error .runtimeError

/-- non-vacuity of C64: `p_yield` is fixed and the first nuisance parameter bounded, limits on the others -/
example : ∃ call : MinuitCall, call.fix = [true, false, false, false, false] ∧
    call.limit[1]? = some (some (.fin (-1)), none) ∧ call.limit[2]? = some (some (.fin (-5)), some (.fin 5)) := by
  obtain ⟨call, -, -, -, h4, h5, -⟩ := C64_iminuit Ex.sysQ Ex.sysQ_built.reachable "iminuit" lower_iminuit
    [.fix (.str "p_yield"), .bound (.int 1) (some (.fin (-1)), none)] (by
      rw [show Ex.sysQ.m.paramNames Ex.sysQ.w = _ from Ex.namesQ]
      constructor
      · intro pid hp; simp at hp; subst hp; exact ⟨0, by rw [denotes_iff]; simp [idToIndex, List.idxOf_cons]⟩
      · intro pid b hp; simp at hp; obtain ⟨rfl, _⟩ := hp; exact ⟨1, by rw [denotes_iff]; simp [idToIndex]⟩)
    _ Ex.x0Q false false (some (some (.fin (-5)), some (.fin 5)))
  rw [show Ex.sysQ.m.paramNames Ex.sysQ.w = _ from Ex.namesQ] at h4 h5
  have d0 : Denotes ["p_yield", "a_p_bin_0", "a_p_bin_1", "b_p_bin_0", "b_p_bin_1"] (.int 1) 1 := by
    rw [denotes_iff]; simp [idToIndex]
  refine ⟨call, ?_, ?_, ?_⟩
  · rw [h4]
    simp [WantedFixed, FitFixed, List.range_succ, denotes_iff, idToIndex, List.idxOf_cons]
  · obtain ⟨b, hb, hc⟩ := h5 1 (by simp) (by
      intro p q b c hp hq _ _; simp at hp hq; rw [hp.1, hq.1])
    rw [hc]
    rcases hb with ⟨pre, op, post, he, ⟨pid, rfl, hd⟩, _⟩ | ⟨hu, _⟩
    · have : FitOp.bound pid b ∈ [FitOp.fix (.str "p_yield"), .bound (.int 1) (some (.fin (-1)), none)] := by
        rw [he]; simp
      simp at this
      rw [this.2]
    · exact absurd d0 (hu (.int 1) (some (.fin (-1)), none) (by simp))
  · obtain ⟨b, hb, hc⟩ := h5 2 (by simp) (by
      intro p q b c hp hq _ _; simp at hp hq; rw [hp.1, hq.1])
    rw [hc]
    rcases hb with ⟨pre, op, post, he, ⟨pid, rfl, hd⟩, _⟩ | ⟨hu, hb⟩
    · have : FitOp.bound pid b ∈ [FitOp.fix (.str "p_yield"), .bound (.int 1) (some (.fin (-1)), none)] := by
        rw [he]; simp
      simp at this
      rw [this.1, denotes_iff] at hd
      simp [idToIndex] at hd
    · rw [hb]; simp [Ex.sysQ, Ex.mQ, Mct.numProcesses]

theorem Ex.doFitQ : ∃ w', (fitRun "iminuit" []).doFit Ex.optQ Ex.sysQ.w Ex.sysQ.m true true false none =
    (.ok ⟨.fin 1, ⟨Ex.sysQ.m.paramNames Ex.sysQ.w, [.fin 10, .fin 0, .fin 1, .fin 2, .fin 3],
      [.fin 8, .fin 0, .fin 0, .fin 0, .fin 0], Mat.zeros 5 5, Mat.zeros 5 5⟩, true⟩, w') := by
  have hk : KnownIds (Ex.sysQ.m.paramNames Ex.sysQ.w) [] :=
    ⟨fun pid hp => by simp at hp, fun pid b hp => by simp at hp⟩
  have hf : ((fitRun "iminuit" []).doFit Ex.optQ Ex.sysQ.w Ex.sysQ.m true true false none).1 =
    .ok ⟨.fin 1, ⟨Ex.sysQ.m.paramNames Ex.sysQ.w, [.fin 10, .fin 0, .fin 1, .fin 2, .fin 3],
      [.fin 8, .fin 0, .fin 0, .fin 0, .fin 0], Mat.zeros 5 5, Mat.zeros 5 5⟩, true⟩ := by
    have h1 : ((fitRun "iminuit" []).doFit Ex.optQ Ex.sysQ.w Ex.sysQ.m false true false none).1 =
      .ok ⟨.fin 1, ⟨Ex.sysQ.m.paramNames Ex.sysQ.w, [.fin 10, .fin 0, .fin 1, .fin 2, .fin 3],
        [.fin 8, .fin 0, .fin 0, .fin 0, .fin 0], Mat.zeros 5 5, Mat.zeros 5 5⟩, true⟩ := by
      obtain ⟨call, _, h2, _, _, _, hh⟩ := C64_iminuit Ex.sysQ Ex.sysQ_built.reachable "iminuit" lower_iminuit
        [] hk _ Ex.x0Q true false none
      obtain ⟨-, hh⟩ := hh Ex.optQ
      have := hh _ _ _ rfl (by rw [show Ex.sysQ.m.paramNames Ex.sysQ.w = _ from Ex.namesQ]; rfl)
        (by rw [show Ex.sysQ.m.paramNames Ex.sysQ.w = _ from Ex.namesQ]; rw [h2]; rfl) rfl
      rw [this, h2]
      rfl
    rw [doFit_eq Ex.sysQ_built.reachable (minKind_iminuit lower_iminuit) hk] at h1 ⊢
    obtain ⟨xs, hxs⟩ := runMinimizer_evals Ex.optQ Ex.sysQ.w Ex.sysQ.m (minRun .iminuit (Ex.sysQ.m.paramNames Ex.sysQ.w)
          (setupOps (fitRun "iminuit" []) Ex.sysQ.m.numProcesses (Ex.sysQ.m.numNui Ex.sysQ.w) false none)) true
    generalize runMinimizer Ex.optQ Ex.sysQ.w Ex.sysQ.m _ true = q at h1 hxs ⊢
    obtain ⟨q1, q2⟩ := q
    cases q1 with
    | error e => simp at h1
    | ok v =>
      simp only [if_false, Except.ok.injEq, Bool.false_eq_true] at h1
      simp only at hxs
      subst hxs
      have hfr := evalAll_frame Ex.sysQ.m xs Ex.sysQ.w
      have := updateParameters_eq ⟨evalAll Ex.sysQ.w Ex.sysQ.m xs, Ex.sysQ.m⟩ (built_evalAll xs Ex.sysQ_built)
        (by simp [Ex.sysQ, Ex.mQ]) (complete_cache hfr Ex.sysQ_hyps.1) [.fin 10, .fin 0, .fin 1, .fin 2, .fin 3]
        (by
          simp only [Mct.numNui]; rw [hfr.chans]
          simp [Mct.numProcesses, Ex.sysQ, Ex.mQ, Mct.chanIds, Ex.wQ, Ex.chQa, Ex.chQb, Channel.numNui, Channel.numTemplates,
            Channel.numBins])
      obtain ⟨w1, -, h2, -⟩ := this
      simp only at h2
      obtain ⟨v1, v2⟩ := v
      simp only at h1
      subst h1
      simp only [if_true]
      rw [h2]
  exact ⟨_, Prod.ext hf rfl⟩

/-- non-vacuity of C67: after this fit the template of channel `b` has yield 10 * 3/4 and nuisance parameters
2 and 3 -/
example : ∃ w' r, (fitRun "iminuit" []).doFit Ex.optQ Ex.sysQ.w Ex.sysQ.m true true false none = (.ok r, w') ∧
    (w'.tmpls 1).params = [.fin (10 * (3/4)), .fin 2, .fin 3] := by
  obtain ⟨w', hw⟩ := Ex.doFitQ
  refine ⟨w', _, hw, ?_⟩
  obtain ⟨h1, -⟩ := C67_update Ex.sysQ Ex.sysQ_built (by simp [Ex.sysQ, Ex.mQ]) Ex.sysQ_hyps.1 Ex.sysQ_hyps.2.1 _ _ _
    _ _ _ _ w' hw
  obtain ⟨eff, h2, h3⟩ := h1 1 (by simp [Ex.sysQ, Ex.mQ, Mct.chanIds]) 0
    (by simp [Ex.sysQ, Ex.mQ, Mct.chanIds, Ex.wQ, Ex.chQb])
  have e1 : eff = .fin (3/4) := by
    simp [Ex.sysQ, Ex.mQ, Mct.chanIds, Ex.wQ, Ex.chQb] at h2
    rw [← h2]
  have e2 : (Ex.sysQ.w.chans (Ex.sysQ.m.chanIds[1]'(by simp [Ex.sysQ, Ex.mQ, Mct.chanIds]))).templates =
      [("p", 1)] := by simp [Ex.sysQ, Ex.mQ, Mct.chanIds, Ex.wQ, Ex.chQb]
  rw [e1] at h3
  simp only [e2, List.getElem_cons_zero] at h3
  rw [h3]
  simp [Ex.sysQ, Ex.mQ, Mct.chanIds, Ex.wQ, Ex.chQa, Ex.chQb, nuiOffset, Channel.numTemplates, List.idxOf_cons]

end

end TF.Props
