import Verif.Props.FitterProps

set_option linter.unusedSimpArgs false

/-!
# do_fit (C64–C67)
-/

namespace TF.Spec

open Classical

noncomputable section

/-- The bounds a user expects for parameter `k` in `do_fit(nui_param_limits=lim)`: those registered
last for it; without any, `lim` for a nuisance parameter (if given), otherwise none. -/
def WantedBounds (names : List String) (h : List FitOp) (nproc : ℕ) (lim : Option Bounds) (k : ℕ)
    (b : Bounds) : Prop :=
  FitBounds names h k b ∨
    (FitUnbound names h k ∧ b = if nproc ≤ k then lim.getD (none, none) else (none, none))

/-- The parameters a user expects to be fixed in `do_fit(fix_nui_params=fixNui)`. -/
def WantedFixed (names : List String) (h : List FitOp) (nproc : ℕ) (fixNui : Bool) (k : ℕ) : Prop :=
  FitFixed names h k ∨ (fixNui = true ∧ nproc ≤ k)

end

end TF.Spec

namespace TF.Props

open Classical Spec

noncomputable section

theorem fitBounds_or (names : List String) (h : List FitOp) (k : ℕ) :
    (∃ b, FitBounds names h k b) ∨ FitUnbound names h k := by
  induction h using List.reverseRecOn with
  | nil => right; intro pid b hb; simp at hb
  | append_singleton h o ih =>
    by_cases ho : ∃ pid b, o = .bound pid b ∧ Denotes names pid k
    · obtain ⟨pid, b, rfl, hd⟩ := ho
      exact .inl ⟨b, (last_snoc h _ _ _).mpr (.inl ⟨pid, rfl, hd⟩)⟩
    · rcases ih with ⟨b, hb⟩ | hu
      · exact .inl ⟨b, (last_snoc h _ _ _).mpr (.inr ⟨ho, hb⟩)⟩
      · right
        intro pid b hm hd
        rcases List.mem_append.mp hm with hm | hm
        · exact hu pid b hm hd
        · exact ho ⟨pid, b, (List.mem_singleton.mp hm).symm, hd⟩

theorem minKind_iminuit {id : String} (h : id.toLower = "iminuit") : minKindOf id = .ok .iminuit := by
  simp [minKindOf, h]

theorem minKind_scipy {id : String} (h : id.toLower = "scipy") : minKindOf id = .ok .scipy := by
  simp [minKindOf, h]

/-- `do_fit` is a run of the minimizer prepared by the recorded calls -/
theorem doFit_eq {s : Sys} (hs : s.Reachable) {id : String} {kd : MinKind} (hid : minKindOf id = .ok kd)
    {h : List FitOp} (hk : KnownIds (s.m.paramNames s.w) h) (o : Optim) (up g fixNui : Bool)
    (lim : Option Bounds) :
    (fitRun id h).doFit o s.w s.m up g fixNui lim =
      match runMinimizer o s.w s.m (minRun kd (s.m.paramNames s.w)
          (setupOps (fitRun id h) s.m.numProcesses (s.m.numNui s.w) fixNui lim)) g with
      | (.error e, w1) => (.error e, w1)
      | (.ok (r, _), w1) =>
        if up then
          match s.m.updateParameters w1 r.params.values with
          | (.error e, w2) => (.error e, w2)
          | (.ok (), w2) => (.ok r, w2)
        else (.ok r, w1) := by
  unfold Fitter.doFit
  rw [fitRun_id, hid]
  simp only
  rw [setup_eq (C51_aligned s hs).1.symm hk]
  rfl

/-! ## C64 -/

/-- **C64 (iminuit).** For every reachable model and every history of configuration calls with known
identifiers: `do_fit` runs Minuit exactly once on the likelihood from the model's current
parameters, with exactly the wanted parameters fixed and the wanted bounds (for parameters whose
bounds were always registered under the same identifier), and returns what Minuit returns. -/
theorem C64_iminuit (s : Sys) (hs : s.Reachable) (id : String) (hid : id.toLower = "iminuit")
    (h : List FitOp) (hk : KnownIds (s.m.paramNames s.w) h) (x0 : Vec) (hx : s.m.x0 s.w = .ok x0)
    (g fixNui : Bool) (lim : Option Bounds) :
    ∃ call : MinuitCall, call.fcn = objective s.w s.m ∧ call.x0 = x0 ∧
      call.names = s.m.paramNames s.w ∧
      call.fix = (List.range (s.m.paramNames s.w).length).map
        (fun k => decide (WantedFixed (s.m.paramNames s.w) h s.m.numProcesses fixNui k)) ∧
      (∀ k < (s.m.paramNames s.w).length, OneId (s.m.paramNames s.w) h k →
        ∃ b, WantedBounds (s.m.paramNames s.w) h s.m.numProcesses lim k b ∧ call.limit[k]? = some b) ∧
      ∀ o : Optim,
        (∀ e, o.minuit call = .error e →
          ((fitRun id h).doFit o s.w s.m false g fixNui lim).1 = .error e) ∧
        ∀ r C R, o.minuit call = .ok r → r.values.length = (s.m.paramNames s.w).length →
          r.errors.length = (s.m.paramNames s.w).length → r.matrix = .ok (C, R) →
          ((fitRun id h).doFit o s.w s.m false g fixNui lim).1 =
            .ok ⟨r.fval, ⟨s.m.paramNames s.w, r.values, r.errors, C, R⟩,
              r.fmin2.isValid && r.fmin2.hasValidParams && r.fmin2.hasCov⟩ := by
  set names := s.m.paramNames s.w with hnames
  have hn := (C51_aligned s hs).1.symm
  set z := minRun .iminuit names (setupOps (fitRun id h) s.m.numProcesses (s.m.numNui s.w) fixNui lim) with hz
  have hw : MinWF z .iminuit names := minRun_wf _ _ _
  refine ⟨z.minuitCall (objective s.w s.m) x0, rfl, rfl, hw.hn, ?_, ?_, ?_⟩
  · rw [hz, C58_iminuit]
    refine map_range_congr fun k hk' => ?_
    rw [decide_eq_decide]
    exact setup_fixed hn fixNui lim k hk'
  · intro k hk' ho
    have hb := setup_bounds (kd := .iminuit) (id := id) (h := h) hn fixNui lim k hk'
    rcases fitBounds_or names h k with ⟨b, hfb⟩ | hu
    · exact ⟨b, .inl hfb, hb.1 b ho hfb⟩
    · exact ⟨_, .inr ⟨hu, rfl⟩, hb.2 hu⟩
  · intro o
    rw [doFit_eq hs (minKind_iminuit hid) hk]
    have hrun : runMinimizer o s.w s.m z g =
        match z.minimizeMinuit o (objective s.w s.m) x0 with
        | (.error e, _) => (.error e, evalAll s.w s.m (z.evals o (objective s.w s.m) x0))
        | (.ok v, z1) => (.ok (v, z1), evalAll s.w s.m (z.evals o (objective s.w s.m) x0)) := by
      unfold runMinimizer Minimizer.minimize
      rw [hx, hw.hk]
      rfl
    rw [← hz, hrun]
    constructor
    · intro e he
      rcases minuit_cases o z (objective s.w s.m) x0 with ⟨e', he', hh⟩ | ⟨r, hr, _⟩
      · rw [he] at he'; injection he' with he'; subst he'
        rw [hh]
      · rw [he] at hr; cases hr
    · intro r C R hr hv he hm
      rcases minuit_cases o z (objective s.w s.m) x0 with ⟨e', he', hh⟩ | ⟨r', hr', hh⟩
      · rw [hr] at he'; cases he'
      · rw [hr] at hr'; injection hr' with hr'; subst hr'
        rcases hh with ⟨hf, _⟩ | ⟨_, hf, _⟩ | ⟨_, _, ⟨e, hf, _⟩ | ⟨C', R', hm', hh⟩⟩
        · rw [hw.hn] at hf; exact absurd hv hf
        · rw [hw.hn] at hf; exact absurd he hf
        · rw [hm] at hf; cases hf
        · rw [hm] at hm'
          obtain ⟨h1, h2⟩ := Prod.mk.inj (Except.ok.inj hm')
          subst h1 h2
          rw [hh]
          simp [hw.hn]

/-- **C64 (scipy).** The same for the scipy minimizer: start point, objective and bounds as wanted, the
constraints made from exactly the wanted fixed parameters (see C60 for what these constraints
do); a reported failure becomes a `RuntimeError`. -/
theorem C64_scipy (s : Sys) (hs : s.Reachable) (id : String) (hid : id.toLower = "scipy")
    (h : List FitOp) (hk : KnownIds (s.m.paramNames s.w) h) (x0 : Vec) (hx : s.m.x0 s.w = .ok x0)
    (g fixNui : Bool) (lim : Option Bounds) :
    ∃ (call : ScipyCall) (l : List ℕ), call.fcn = objective s.w s.m ∧ call.x0 = x0 ∧
      call.constraints = scipyConstraints l x0 ∧
      (∀ k, k ∈ l ↔ k < (s.m.paramNames s.w).length ∧
        WantedFixed (s.m.paramNames s.w) h s.m.numProcesses fixNui k) ∧
      (∀ k < (s.m.paramNames s.w).length, OneId (s.m.paramNames s.w) h k →
        ∃ b, WantedBounds (s.m.paramNames s.w) h s.m.numProcesses lim k b ∧ call.bounds[k]? = some b) ∧
      ∀ o : Optim,
        (∀ e, o.scipy call = .error e →
          ((fitRun id h).doFit o s.w s.m false g fixNui lim).1 = .error e) ∧
        (∀ r, o.scipy call = .ok r → r.success = false →
          ((fitRun id h).doFit o s.w s.m false g fixNui lim).1 = .error .runtimeError) ∧
        (∀ r res, o.scipy call = .ok r → 
          ((fitRun id h).doFit o s.w s.m false g fixNui lim).1 = .ok res →
            res.fval = r.fval ∧ res.params.values = r.x ∧ res.success = true ∧
            res.params.names = s.m.paramNames s.w) ∧
        (∀ r, o.scipy call = .ok r → r.success = true → r.x.length = (s.m.paramNames s.w).length →
          ∃ res, ((fitRun id h).doFit o s.w s.m false false fixNui lim).1 = .ok res) := by
  set names := s.m.paramNames s.w with hnames
  have hn := (C51_aligned s hs).1.symm
  set ops := setupOps (fitRun id h) s.m.numProcesses (s.m.numNui s.w) fixNui lim with hops
  set z := minRun .scipy names ops with hz
  have hw : MinWF z .scipy names := minRun_wf _ _ _
  refine ⟨z.scipyCall (objective s.w s.m) x0, z.fixedIdx, rfl, rfl, rfl, ?_, ?_, ?_⟩
  · intro k
    rw [hz, C58_scipy]
    constructor
    · intro hf
      have hlt := fixedIn_lt hf
      exact ⟨hlt, (setup_fixed hn fixNui lim k hlt).mp hf⟩
    · rintro ⟨hlt, hf⟩
      exact (setup_fixed hn fixNui lim k hlt).mpr hf
  · intro k hk' ho
    have hb := setup_bounds (kd := .scipy) (id := id) (h := h) hn fixNui lim k hk'
    rcases fitBounds_or names h k with ⟨b, hfb⟩ | hu
    · exact ⟨b, .inl hfb, hb.1 b ho hfb⟩
    · exact ⟨_, .inr ⟨hu, rfl⟩, hb.2 hu⟩
  · intro o
    have hrun : ∀ g, runMinimizer o s.w s.m z g =
        match z.minimizeScipy o (objective s.w s.m) x0 g with
        | (.error e, _) => (.error e, evalAll s.w s.m (z.evals o (objective s.w s.m) x0))
        | (.ok v, z1) => (.ok (v, z1), evalAll s.w s.m (z.evals o (objective s.w s.m) x0)) := by
      intro g
      unfold runMinimizer Minimizer.minimize
      rw [hx, hw.hk]
      rfl
    have hdo : ∀ g, ((fitRun id h).doFit o s.w s.m false g fixNui lim).1 =
        (z.minimizeScipy o (objective s.w s.m) x0 g).1 := by
      intro g
      rw [doFit_eq hs (minKind_scipy hid) hk, ← hnames, ← hops, ← hz, hrun]
      generalize z.minimizeScipy o (objective s.w s.m) x0 g = q
      obtain ⟨q1, q2⟩ := q
      cases q1 <;> rfl
    have hmin : ∀ g, z.minimize o (objective s.w s.m) x0 g = z.minimizeScipy o (objective s.w s.m) x0 g := by
      intro g; unfold Minimizer.minimize; rw [hw.hk]
    rw [hdo, hdo]
    refine ⟨?_, ?_, ?_, ?_⟩
    · intro e he
      have := (C61_failure names ops o (objective s.w s.m) x0 g).2 e he
      rw [hmin] at this
      rw [this]
    · intro r hr hf
      have := ((C61_failure names ops o (objective s.w s.m) x0 g).1 r hr hf).1
      rw [hmin] at this
      exact this
    · intro r res hr hres
      rcases scipy_cases o z (objective s.w s.m) x0 g with ⟨e, he, hh⟩ | ⟨r', hr', ⟨_, hh⟩ | ⟨_, _, hh⟩ |
          ⟨_, _, ⟨_, hh⟩ | ⟨_, e, _, hh⟩ | ⟨_, H, C, _, _, _, hh⟩ | ⟨_, H, C, _, _, _, hh⟩⟩⟩
      · rw [hr] at he; cases he
      all_goals
        rw [hr] at hr'; injection hr' with hr'; subst hr'
        rw [hh] at hres
        first
          | (cases hres; done)
          | (injection hres with hres; subst hres; exact ⟨rfl, rfl, rfl, hw.hn⟩)
    · intro r hr hsucc hl
      rcases scipy_cases o z (objective s.w s.m) x0 false with ⟨e, he, hh⟩ | ⟨r', hr', ⟨hf, hh⟩ | ⟨_, hf, hh⟩ |
          ⟨_, _, ⟨_, hh⟩ | ⟨hg, _⟩ | ⟨hg, _⟩ | ⟨hg, _⟩⟩⟩
      · rw [hr] at he; cases he
      · rw [hr] at hr'; injection hr' with hr'; subst hr'; rw [hsucc] at hf; cases hf
      · rw [hr] at hr'; injection hr' with hr'; subst hr'; rw [hw.hn] at hf; exact absurd hl hf
      · rw [hh]; exact ⟨_, rfl⟩
      · cases hg
      · cases hg
      · cases hg

/-- **C64.** If an identifier was registered that denotes no parameter, `do_fit` raises `ValueError`
before anything is evaluated or changed. -/
theorem C64_unknown (s : Sys) (hs : s.Reachable) (id : String) (kd : MinKind) (hid : minKindOf id = .ok kd)
    (h : List FitOp) (hk : ¬ KnownIds (s.m.paramNames s.w) h) (o : Optim) (up g fixNui : Bool)
    (lim : Option Bounds) :
    (fitRun id h).doFit o s.w s.m up g fixNui lim = (.error .valueError, s.w) := by
  unfold Fitter.doFit
  rw [fitRun_id, hid]
  simp only
  rw [setup_unknown (C51_aligned s hs).1.symm hk]

/-- **C64.** An unknown minimizer name raises `KeyError` before anything happens; `"scipy"` and
`"iminuit"` are accepted in any capitalisation. -/
theorem C64_minimizer (s : Sys) (id : String) (h : List FitOp) (hid : id.toLower ≠ "scipy")
    (hid2 : id.toLower ≠ "iminuit") (o : Optim) (up g fixNui : Bool) (lim : Option Bounds) :
    (fitRun id h).doFit o s.w s.m up g fixNui lim = (.error .keyError, s.w) := by
  unfold Fitter.doFit
  rw [fitRun_id]
  simp [minKindOf, hid, hid2]

end

end TF.Props
