import Verif.Props.FitterProps4

set_option linter.unusedSimpArgs false

/-!
# Profile scans (C68–C70)
-/

namespace TF.Spec

open Classical

noncomputable section

/-- The Minuit problem of a scan point: only the scanned parameter (number `i`) is fixed, to `pt`; all other
parameters start at the best fit `x` and are free and unbounded. -/
def scanMinuit (fcn : Vec → Except Err Fl) (names : List String) (x : Vec) (i : ℕ) (pt : Fl) : MinuitCall :=
  ⟨fcn, x.set i pt, (List.range names.length).map fun j => decide (j = i), names, names.map fun _ => (none, none)⟩

/-- The scipy problem of a scan point: one constraint, `x[i] - pt = 0`; no bounds. -/
def scanScipy (fcn : Vec → Except Err Fl) (names : List String) (x : Vec) (i : ℕ) (pt : Fl) : ScipyCall :=
  ⟨fcn, x.set i pt, names.map fun _ => (none, none), [fun y => y.getD i 0 - (x.set i pt).getD i 0]⟩

/-- The exceptions that `except RuntimeError` catches: `RuntimeError` and its subclasses `NotImplementedError` and
`RecursionError`. -/
def CaughtAsRuntime (e : Err) : Prop :=
  e = .runtimeError ∨ e = .notImplementedError ∨ e = .recursionError

/-- What the optimiser finds at a scan point: a minimum, or it raised a `RuntimeError` (for Minuit also when asked
for the covariance matrix) / reported failure. -/
inductive PointResult where
  | found (v : Fl)
  | failed

/-- Answer of the optimiser at a scan point. -/
def PointIs (o : Optim) (kd : MinKind) (fcn : Vec → Except Err Fl) (names : List String) (x : Vec) (i : ℕ) (pt : Fl) :
    PointResult → Prop
  | .found v => match kd with
    | .iminuit => ∃ r C R, o.minuit (scanMinuit fcn names x i pt) = .ok r ∧ r.fval = v ∧
        r.values.length = names.length ∧ r.errors.length = names.length ∧ r.matrix = .ok (C, R)
    | .scipy => ∃ r, o.scipy (scanScipy fcn names x i pt) = .ok r ∧ r.fval = v ∧ r.success = true ∧
        r.x.length = names.length
  | .failed => match kd with
    | .iminuit => ∃ e : Err, CaughtAsRuntime e ∧ (o.minuit (scanMinuit fcn names x i pt) = .error e ∨
        ∃ r, o.minuit (scanMinuit fcn names x i pt) = .ok r ∧ r.values.length = names.length ∧
          r.errors.length = names.length ∧ r.matrix = .error e)
    | .scipy => (∃ e : Err, CaughtAsRuntime e ∧ o.scipy (scanScipy fcn names x i pt) = .error e) ∨
        ∃ r, o.scipy (scanScipy fcn names x i pt) = .ok r ∧ r.success = false

/-- The minimum found at a point; NaN if it failed. -/
def rawValue : PointResult → Fl
  | .found v => v
  | .failed => .nan

/-- The profile value of a point: NaN if it failed, otherwise the minimum found there, minus the global
minimum on request. -/
def pointValue (sub : Bool) (fmin : Fl) : PointResult → Fl
  | .found v => if sub then v - fmin else v
  | .failed => .nan

end

end TF.Spec

namespace TF.Props

open Classical Spec

noncomputable section

/-- the handler of the model catches exactly these -/
theorem isRuntime_iff (e : Err) : e.isRuntime = true ↔ CaughtAsRuntime e := by
  cases e <;> simp [Err.isRuntime, CaughtAsRuntime]

theorem bounds_none {kd : MinKind} {names : List String} {h : List MinOp} (hb : ∀ k, NeverBound names h k) :
    (minRun kd names h).bounds = names.map fun _ => (none, none) := by
  apply List.ext_getElem?
  intro k
  by_cases hk : k < names.length
  · have := ((C59_bounds kd names h k hk (none, none) (fun _ => .ok 0) []).1).mpr (.inr ⟨hb k, rfl⟩)
    rw [this, List.getElem?_map, List.getElem?_eq_getElem hk]
    rfl
  · rw [List.getElem?_eq_none (by rw [bounds_length]; omega), List.getElem?_eq_none (by simpa using hk)]

theorem minRun_two (kd : MinKind) (names : List String) (h : List MinOp) {pid : ParamId} {i : ℕ}
    (hd : Denotes names pid i) :
    minRun kd names (h ++ [.release, .fix pid]) = ((minRun kd names h).release.setFixed pid).2 ∧
    ((minRun kd names h).release.setFixed pid).1 = .ok () := by
  have e1 : minRun kd names (h ++ [.release]) = (minRun kd names h).release := by rw [minRun_snoc]; rfl
  constructor
  · rw [show h ++ [MinOp.release, .fix pid] = (h ++ [.release]) ++ [.fix pid] by simp, minRun_snoc, e1]
    rfl
  · have := C58_known kd names (h ++ [.release]) pid i hd
    rw [e1] at this
    exact this.symm ▸ rfl

/-- the two problems of a scan point -/
theorem scan_calls (kd : MinKind) (names : List String) (h : List MinOp) (hb : ∀ k, NeverBound names h k)
    {pid : ParamId} {i : ℕ} (hd : Denotes names pid i) (fcn : Vec → Except Err Fl) (x : Vec) (pt : Fl) :
    let z := ((minRun kd names h).release.setFixed pid).2
    z.kind = kd ∧ z.params.names = names ∧
    (kd = .iminuit → z.minuitCall fcn (x.set i pt) = scanMinuit fcn names x i pt) ∧
    (kd = .scipy → z.scipyCall fcn (x.set i pt) = scanScipy fcn names x i pt) := by
  intro z
  have hz : z = minRun kd names (h ++ [.release, .fix pid]) := (minRun_two kd names h hd).1.symm
  have hb' : ∀ k, NeverBound names (h ++ [.release, .fix pid]) k := by
    intro k
    rw [neverBound_append]
    refine ⟨hb k, ?_⟩
    rintro o ho ⟨q, b, rfl, _⟩
    simp at ho
  have hw := minRun_wf kd names (h ++ [.release, .fix pid])
  have hbn := bounds_none (kd := kd) hb'
  refine ⟨by rw [hz]; exact hw.hk, by rw [hz]; exact hw.hn, ?_, ?_⟩
  · rintro rfl
    have hf := C58_iminuit names (h ++ [.release, .fix pid]) fcn (x.set i pt)
    rw [hz]
    unfold scanMinuit
    have e1 : ((minRun .iminuit names (h ++ [.release, .fix pid])).minuitCall fcn (x.set i pt)).fix =
        (List.range names.length).map fun j => decide (j = i) := by
      rw [hf]
      refine map_range_congr fun k hk => ?_
      rw [decide_eq_decide]
      rw [show h ++ [MinOp.release, .fix pid] = (h ++ [.release]) ++ [.fix pid] by simp, fixedIn_snoc, fixedIn_snoc]
      constructor
      · rintro (⟨q, hq, hk'⟩ | ⟨_, ⟨q, hq, _⟩ | ⟨hne, _⟩⟩)
        · injection hq with hq; subst hq
          have e1 := (denotes_iff _ _ _).mp hk'
          rw [(denotes_iff _ _ _).mp hd] at e1
          injection e1 with e1; exact e1.symm
        · cases hq
        · exact absurd rfl hne
      · rintro rfl
        exact .inl ⟨pid, rfl, hd⟩
    have e2 : ∀ c : MinuitCall, c = ⟨c.fcn, c.x0, c.fix, c.names, c.limit⟩ := fun _ => rfl
    rw [e2 (Minimizer.minuitCall _ _ _), e1]
    simp only [Minimizer.minuitCall, hw.hn, hbn]
  · rintro rfl
    have e3 : z.fixedIdx = [i] := by
      have hk := (minRun_wf .scipy names h).hk
      have hn := (minRun_wf .scipy names h).hn
      show ((minRun .scipy names h).release.setFixed pid).2.fixedIdx = [i]
      simp only [Minimizer.release, hk, Minimizer.setFixed, hn, (denotes_iff _ _ _).mp hd, List.nil_append]
    unfold scanScipy Minimizer.scipyCall
    rw [e3]
    have e4 : z.bounds = names.map fun _ => (none, none) := by rw [hz]; exact hbn
    rw [e4]
    rfl

theorem helper_found {o : Optim} {kd : MinKind} {names : List String} {h : List MinOp}
    (hb : ∀ k, NeverBound names h k) {pid : ParamId} {i : ℕ} (hd : Denotes names pid i)
    {fcn : Vec → Except Err Fl} {x : Vec} {pt : Fl} {res : PointResult}
    (hp : PointIs o kd fcn names x i pt res) :
    profileHelper o fcn (minRun kd names h) pt x pid =
      .ok (rawValue res) := by
  have hs := scan_calls kd names h hb hd fcn x pt
  have hok := (minRun_two kd names h hd).2
  have hrn : (minRun kd names h).release.params.names = names := by
    have := (minRun_wf kd names (h ++ [.release])).hn
    rw [minRun_snoc] at this
    exact this
  unfold profileHelper
  simp only [hrn, (denotes_iff _ _ _).mp hd]
  generalize (minRun kd names h).release.setFixed pid = q at hs hok ⊢
  obtain ⟨q1, z⟩ := q
  simp only at hs hok
  subst hok
  simp only
  obtain ⟨h1, h2, h3, h4⟩ := hs
  unfold Minimizer.minimize
  rw [h1]
  cases kd with
  | iminuit =>
    simp only
    have h3 := h3 rfl
    rcases minuit_cases o z fcn (x.set i pt) with ⟨e, he, hh⟩ | ⟨r, hr, hh⟩
    · rw [h3] at he
      cases res with
      | found v =>
        obtain ⟨r, C, R, hr, _⟩ := hp
        rw [he] at hr; cases hr
      | failed =>
        obtain ⟨e', her, he' | ⟨r', hr', -⟩⟩ := hp
        · rw [he] at he'; injection he' with he'; subst he'
          simp [hh, (isRuntime_iff _).mpr her, rawValue]
        · rw [he] at hr'; cases hr'
    · rw [h3] at hr
      cases res with
      | failed =>
        obtain ⟨e', her, he' | ⟨r', hr', hl1, hl2, hm⟩⟩ := hp
        · rw [hr] at he'; cases he'
        rw [hr] at hr'; injection hr' with hr'; subst hr'
        rcases hh with ⟨hf, _⟩ | ⟨_, hf, _⟩ | ⟨_, _, ⟨e, hf, hh⟩ | ⟨C', R', hm', hh⟩⟩
        · rw [h2] at hf; exact absurd hl1 hf
        · rw [h2] at hf; exact absurd hl2 hf
        · rw [hm] at hf; injection hf with hf; subst hf
          simp [hh, (isRuntime_iff _).mpr her, rawValue]
        · rw [hm] at hm'; cases hm'
      | found v =>
        obtain ⟨r', C, R, hr', hv, hl1, hl2, hm⟩ := hp
        rw [hr] at hr'; injection hr' with hr'; subst hr'
        rcases hh with ⟨hf, _⟩ | ⟨_, hf, _⟩ | ⟨_, _, ⟨e, hf, _⟩ | ⟨C', R', hm', hh⟩⟩
        · rw [h2] at hf; exact absurd hl1 hf
        · rw [h2] at hf; exact absurd hl2 hf
        · rw [hm] at hf; cases hf
        · simp [hh, hv, rawValue]
  | scipy =>
    simp only
    have h4 := h4 rfl
    rcases scipy_cases o z fcn (x.set i pt) false with ⟨e, he, hh⟩ | ⟨r, hr, hh⟩
    · rw [h4] at he
      cases res with
      | found v =>
        obtain ⟨r, hr, _⟩ := hp
        rw [he] at hr; cases hr
      | failed =>
        rcases hp with ⟨e', her, he'⟩ | ⟨r, hr, _⟩
        · rw [he] at he'; injection he' with he'; subst he'
          simp [hh, (isRuntime_iff _).mpr her, rawValue]
        · rw [he] at hr; cases hr
    · rw [h4] at hr
      cases res with
      | failed =>
        rcases hp with ⟨e', her, he'⟩ | ⟨r', hr', hf⟩
        · rw [hr] at he'; cases he'
        · rw [hr] at hr'; injection hr' with hr'; subst hr'
          rcases hh with ⟨_, hh⟩ | ⟨hf', _, _⟩ | ⟨hf', _, _⟩
          · simp [hh, Err.isRuntime, rawValue]
          · rw [hf] at hf'; cases hf'
          · rw [hf] at hf'; cases hf'
      | found v =>
        obtain ⟨r', hr', hv, hsuc, hl⟩ := hp
        rw [hr] at hr'; injection hr' with hr'; subst hr'
        rcases hh with ⟨hf, _⟩ | ⟨_, hf, _⟩ | ⟨_, _, ⟨_, hh⟩ | ⟨hg, _⟩ | ⟨hg, _⟩ | ⟨hg, _⟩⟩
        · rw [hsuc] at hf; cases hf
        · rw [h2] at hf; exact absurd hl hf
        · simp [hh, hv, rawValue]
        · cases hg
        · cases hg
        · cases hg

/-- conversely, a scan point that does not raise is one of these cases -/
theorem helper_inv {o : Optim} {kd : MinKind} {names : List String} {h : List MinOp}
    (hb : ∀ k, NeverBound names h k) {pid : ParamId} {i : ℕ} (hd : Denotes names pid i)
    {fcn : Vec → Except Err Fl} {x : Vec} {pt v : Fl}
    (hv : profileHelper o fcn (minRun kd names h) pt x pid = .ok v) :
    ∃ res, PointIs o kd fcn names x i pt res ∧ v = rawValue res := by
  suffices hsuf : ∃ res, PointIs o kd fcn names x i pt res by
    obtain ⟨res, hres⟩ := hsuf
    refine ⟨res, hres, ?_⟩
    rw [helper_found hb hd hres] at hv
    exact (Except.ok.inj hv).symm
  have hs := scan_calls kd names h hb hd fcn x pt
  have hok := (minRun_two kd names h hd).2
  have hrn : (minRun kd names h).release.params.names = names := by
    have := (minRun_wf kd names (h ++ [.release])).hn
    rw [minRun_snoc] at this
    exact this
  unfold profileHelper at hv
  simp only [hrn, (denotes_iff _ _ _).mp hd] at hv
  generalize (minRun kd names h).release.setFixed pid = q at hs hok hv
  obtain ⟨q1, z⟩ := q
  simp only at hs hok
  subst hok
  simp only at hv
  obtain ⟨h1, h2, h3, h4⟩ := hs
  unfold Minimizer.minimize at hv
  rw [h1] at hv
  cases kd with
  | iminuit =>
    simp only at hv
    have h3 := h3 rfl
    rcases minuit_cases o z fcn (x.set i pt) with ⟨e, he, hh⟩ | ⟨r, hr, hh⟩
    · rw [h3] at he
      rw [hh] at hv
      simp only at hv
      by_cases hc : e.isRuntime = true
      · exact ⟨.failed, e, (isRuntime_iff e).mp hc, .inl he⟩
      · rw [if_neg hc] at hv; cases hv
    · rw [h3] at hr
      rw [h2] at hh
      rcases hh with ⟨_, hh⟩ | ⟨_, _, hh⟩ | ⟨g1, g2, ⟨e, g3, hh⟩ | ⟨C', R', hm', hh⟩⟩
      · rw [hh] at hv; cases hv
      · rw [hh] at hv; cases hv
      · rw [hh] at hv
        simp only at hv
        by_cases hc : e.isRuntime = true
        · exact ⟨.failed, e, (isRuntime_iff e).mp hc, .inr ⟨r, hr, g1, g2, g3⟩⟩
        · rw [if_neg hc] at hv; cases hv
      · exact ⟨.found r.fval, r, C', R', hr, rfl, g1, g2, hm'⟩
  | scipy =>
    simp only at hv
    have h4 := h4 rfl
    rcases scipy_cases o z fcn (x.set i pt) false with ⟨e, he, hh⟩ | ⟨r, hr, hh⟩
    · rw [h4] at he
      rw [hh] at hv
      simp only at hv
      by_cases hc : e.isRuntime = true
      · exact ⟨.failed, .inl ⟨e, (isRuntime_iff e).mp hc, he⟩⟩
      · rw [if_neg hc] at hv; cases hv
    · rw [h4] at hr
      rw [h2] at hh
      rcases hh with ⟨hf, hh⟩ | ⟨_, _, hh⟩ | ⟨g1, g2, _⟩
      · exact ⟨.failed, .inr ⟨r, hr, hf⟩⟩
      · rw [hh] at hv; cases hv
      · exact ⟨.found r.fval, r, hr, rfl, g1, g2⟩

theorem fixNui_run {kd : MinKind} {names : List String} {nproc nnui : ℕ} (hn : nproc + nnui = names.length)
    (fixNui : Bool) :
    fixAll (Minimizer.new kd names) (if fixNui then nuiIds nproc nnui else []) =
      (.ok (), minRun kd names (setupOps (fitRun "" []) nproc nnui fixNui none)) := by
  have h1 : fixAll (minRun kd names []) (if fixNui then nuiIds nproc nnui else []) =
      (.ok (), minRun kd names ([] ++ (if fixNui then nuiIds nproc nnui else []).map MinOp.fix)) := by
    refine fixAll_run _ _ fun pid hp => ?_
    split at hp
    · exact nuiIds_denotes hn pid hp
    · simp at hp
  have e0 : Minimizer.new kd names = minRun kd names [] := rfl
  rw [e0, h1]
  congr 2
  unfold setupOps
  cases fixNui <;> simp [fitRun, Fitter.new]

/-- the profile scan after its first fit (which is `do_fit` of a fitter without settings) -/
theorem profile_core {s : Sys} (hs : s.Reachable) {f : Fitter} {kd : MinKind} (hid : minKindOf f.minimizerId = .ok kd)
    {o : Optim} {fixNui : Bool} {r : MinResult}
    (hr : ((Fitter.new f.minimizerId).doFit o s.w s.m false true fixNui none).1 = .ok r) {pid : ParamId} {i : ℕ}
    (hd : Denotes (s.m.paramNames s.w) pid i) (n : ℕ) (sg : Fl) (sub : Bool) :
    ∃ val unc xs ops, r.params.values[i]? = some val ∧ r.params.errors[i]? = some unc ∧
      (∀ k, NeverBound (s.m.paramNames s.w) ops k) ∧
      ∀ cpu sched, f.profile o s.w s.m pid cpu n sg sub fixNui sched =
        if cpu = 0 then (.error .valueError, evalAll s.w s.m xs)
        else match (poolRun (fun k => profileHelper o (objective (evalAll s.w s.m xs).unpickled s.m)
            (minRun kd (s.m.paramNames s.w) ops)
            ((linspaceFl (val - sg * unc) (val + sg * unc) n).getD k 0) r.params.values pid) cpu n sched).collect n with
          | none => (.ok none, evalAll s.w s.m xs)
          | some l =>
            match firstError l with
            | .error e => (.error e, evalAll s.w s.m xs)
            | .ok vals =>
              if sub then
                (.ok (some (linspaceFl (val - sg * unc) (val + sg * unc) n, vals.map (· - r.fval),
                  ((linspaceFl (val - sg * unc) (val + sg * unc) n).map (hesseApprox val unc r.fval)).map (· - r.fval))),
                  evalAll s.w s.m xs)
              else (.ok (some (linspaceFl (val - sg * unc) (val + sg * unc) n, vals,
                (linspaceFl (val - sg * unc) (val + sg * unc) n).map (hesseApprox val unc r.fval))), evalAll s.w s.m xs) := by
  have hn := (C51_aligned s hs).1.symm
  have e0 : Fitter.new f.minimizerId = fitRun f.minimizerId [] := rfl
  have hkn : KnownIds (s.m.paramNames s.w) [] :=
    ⟨fun pid hp => by simp at hp, fun pid b hp => by simp at hp⟩
  rw [e0, doFit_eq hs hid hkn] at hr
  have eops : setupOps (fitRun f.minimizerId []) s.m.numProcesses (s.m.numNui s.w) fixNui none =
      setupOps (fitRun "" []) s.m.numProcesses (s.m.numNui s.w) fixNui none := rfl
  rw [eops] at hr
  set ops0 := setupOps (fitRun "" []) s.m.numProcesses (s.m.numNui s.w) fixNui none with hops0
  set z := minRun kd (s.m.paramNames s.w) ops0 with hz
  have hw := minRun_wf kd (s.m.paramNames s.w) ops0
  rw [← hz] at hw
  obtain ⟨xs, hxs⟩ := runMinimizer_evals o s.w s.m z true
  have hz1 : ∀ r1 z1 w1, runMinimizer o s.w s.m z true = (.ok (r1, z1), w1) →
      ∃ x0, z1 = minRun kd (s.m.paramNames s.w) (ops0 ++ [.minimize o (objective s.w s.m) x0 true]) := by
    intro r1 z1 w1 h1
    unfold runMinimizer at h1
    cases hx : s.m.x0 s.w with
    | error e => rw [hx] at h1; simp at h1
    | ok x0 =>
      refine ⟨x0, ?_⟩
      rw [hx] at h1
      rw [minRun_snoc, ← hz]
      simp only [minStep]
      simp only at h1
      generalize z.minimize o (objective s.w s.m) x0 true = q at h1 ⊢
      obtain ⟨q1, q2⟩ := q
      cases q1 with
      | error e => simp at h1
      | ok v =>
        simp only [Prod.mk.injEq, Except.ok.injEq] at h1 ⊢
        exact h1.1.2.symm
  generalize hq : runMinimizer o s.w s.m z true = q at hr hxs
  obtain ⟨q1, q2⟩ := q
  cases q1 with
  | error e => simp at hr
  | ok v =>
    obtain ⟨r1, z1⟩ := v
    simp only [if_false, Bool.false_eq_true, Except.ok.injEq] at hr
    subst hr
    simp only at hxs
    subst hxs
    obtain ⟨x0, hz1⟩ := hz1 _ _ _ hq
    have hrok := runMinimizer_ok hq (by rw [hw.hv, hw.hn]) (by rw [hw.he, hw.hn])
    have hw1 := minRun_wf kd (s.m.paramNames s.w) (ops0 ++ [.minimize o (objective s.w s.m) x0 true])
    have hl := (C57_lookup kd (s.m.paramNames s.w) (ops0 ++ [.minimize o (objective s.w s.m) x0 true]) pid).1 i hd
    rw [← hz1] at hl
    obtain ⟨val, unc, hv, he, -, -, hgi, -⟩ := hl
    refine ⟨val, unc, xs, ops0 ++ [.minimize o (objective s.w s.m) x0 true], by rw [hrok.2.2]; exact hv,
      by rw [hrok.2.2]; exact he, ?_, ?_⟩
    · intro k
      rw [neverBound_append]
      constructor
      · rw [hops0]
        unfold setupOps
        rintro op hop ⟨q, b, rfl, _⟩
        cases fixNui <;> simp [fitRun, Fitter.new] at hop
      · rintro op hop ⟨q, b, rfl, _⟩
        simp at hop
    · intro cpu sched
      rw [← hz1]
      unfold Fitter.profile
      rw [hid]
      simp only
      rw [fixNui_run hn fixNui]
      simp only
      rw [← hops0, ← hz, hq]
      simp only [hgi]
      rfl

/-! ## C68 -/

theorem firstError_ok {α : Type} (vals : List α) : firstError (vals.map Except.ok) = .ok vals := by
  induction vals with
  | nil => rfl
  | cons a l ih => simp [firstError, ih]

theorem firstError_spec {α : Type} (l : List (Except Err α)) : ∀ vals, firstError l = .ok vals → l = vals.map Except.ok := by
  induction l with
  | nil => intro vals h; simp [firstError] at h; subst h; rfl
  | cons a l ih =>
    intro vals h
    cases a with
    | error e => simp [firstError] at h
    | ok a =>
      simp only [firstError] at h
      cases hl : firstError l with
      | error e => rw [hl] at h; simp at h
      | ok as =>
        rw [hl] at h
        simp only [Except.ok.injEq] at h
        subst h
        rw [ih as hl]
        rfl

/-- the objective the worker processes use is the likelihood of the model -/
theorem objective_unpickled {s : Sys} (h : s.Built) (xs : List Vec) :
    objective (evalAll s.w s.m xs).unpickled s.m = objective s.w s.m := by
  have hw := reachable_wf h.reachable
  have hf := evalAll_frame s.m xs s.w
  have e1 : (evalAll s.w s.m xs).unpickled = (evalAll s.w s.m xs).clear := rfl
  funext x
  unfold objective
  have hf2 := hf.trans (clear_cacheOnly (evalAll s.w s.m xs))
  rw [e1, (nll_coh (clear_coherent _) s.m (by rw [hf2.nChans]; exact hw.lt) x).1, (nll_coh h.coherent s.m hw.lt x).1,
    hf2.nllPure]

/-- **C68.** For every model built channel by channel before evaluation (`Built`), every fitter, parameter, number of points,
worker processes, schedule of the pool and optimiser. Let `r` be the result of `do_fit(get_hesse=True)` of a
fitter without settings (the "nominal minimization"). When `profile` returns, the points are
`np.linspace(value - sigma*error, value + sigma*error, num_points)`, there is one profile value per point, and
at each point the optimiser found a minimum or failed with a `RuntimeError`, and
the value at position `k` is NaN if it failed at point `k`, and otherwise the
minimum it finds with the parameter fixed to point `k` (minus the nominal minimum if requested). -/
theorem C68_values (s : Sys) (h : s.Built) (f : Fitter) (kd : MinKind) (hid : minKindOf f.minimizerId = .ok kd)
    (o : Optim) (fixNui : Bool) (r : MinResult)
    (hr : ((Fitter.new f.minimizerId).doFit o s.w s.m false true fixNui none).1 = .ok r) (pid : ParamId) (i : ℕ)
    (hd : Denotes (s.m.paramNames s.w) pid i) (cpu n : ℕ) (sg : Fl) (sub : Bool) (sched : List PoolEv)
    (pts vals hess : Vec) (w' : World)
    (hp : f.profile o s.w s.m pid cpu n sg sub fixNui sched = (.ok (some (pts, vals, hess)), w')) :
    ∃ val unc, r.params.values[i]? = some val ∧ r.params.errors[i]? = some unc ∧
      pts = linspaceFl (val - sg * unc) (val + sg * unc) n ∧ pts.length = n ∧ vals.length = n ∧ hess.length = n ∧
      (∀ (k : ℕ) (pt : Fl) (res : PointResult), pts[k]? = some pt →
        PointIs o kd (objective s.w s.m) (s.m.paramNames s.w) r.params.values i pt res →
        vals[k]? = some (pointValue sub r.fval res)) ∧
      ∀ (k : ℕ) (pt : Fl), pts[k]? = some pt →
        ∃ res, PointIs o kd (objective s.w s.m) (s.m.paramNames s.w) r.params.values i pt res := by
  obtain ⟨val, unc, xs, ops, h1, h2, h3, h4⟩ := profile_core h.reachable hid hr hd n sg sub
  refine ⟨val, unc, h1, h2, ?_⟩
  rw [h4] at hp
  rw [objective_unpickled h xs] at hp
  by_cases hc : cpu = 0
  · rw [if_pos hc] at hp; simp at hp
  rw [if_neg hc] at hp
  generalize hpts : linspaceFl (val - sg * unc) (val + sg * unc) n = pts0 at hp
  have hlen : pts0.length = n := by rw [← hpts]; simp [linspaceFl]
  generalize htask : (fun k => profileHelper o (objective s.w s.m) (minRun kd (s.m.paramNames s.w) ops)
            (pts0.getD k 0) r.params.values pid) = task at hp
  cases hcol : (poolRun task cpu n sched).collect n with
  | none => rw [hcol] at hp; simp at hp
  | some l =>
    rw [hcol] at hp
    have hl := C68_schedule task cpu n sched l hcol
    simp only at hp
    cases hfe : firstError l with
    | error e => rw [hfe] at hp; simp at hp
    | ok vs =>
      rw [hfe] at hp
      have hvs := firstError_spec l vs hfe
      rw [hl] at hvs
      have hvl : vs.length = n := by
        have := congrArg List.length hvs
        simpa using this.symm
      have hval : ∀ (k : ℕ) (pt : Fl) (res : PointResult), pts0[k]? = some pt →
          PointIs o kd (objective s.w s.m) (s.m.paramNames s.w) r.params.values i pt res →
          vs[k]? = some (rawValue res) := by
        intro k pt res hk hpt
        have hkn : k < n := by rw [← hlen]; exact (List.getElem?_eq_some_iff.mp hk).1
        have h5 := helper_found (h := ops) h3 hd hpt
        have h6 := congrArg (fun L => L[k]?) hvs
        simp only [List.getElem?_map, List.getElem?_range hkn, Option.map_some] at h6
        rw [← htask] at h6
        simp only at h6
        have h7 : pts0.getD k 0 = pt := by rw [List.getD_eq_getElem?_getD, hk]; rfl
        rw [h7, h5, List.getElem?_eq_getElem (by omega : k < vs.length), Option.map_some] at h6
        rw [List.getElem?_eq_getElem (by omega : k < vs.length)]
        injection h6 with h6
        injection h6 with h6
        rw [← h6]
      have hinv : ∀ (k : ℕ) (pt : Fl), pts0[k]? = some pt →
          ∃ res, PointIs o kd (objective s.w s.m) (s.m.paramNames s.w) r.params.values i pt res := by
        intro k pt hk
        have hkn : k < n := by rw [← hlen]; exact (List.getElem?_eq_some_iff.mp hk).1
        have h6 := congrArg (fun L => L[k]?) hvs
        simp only [List.getElem?_map, List.getElem?_range hkn, Option.map_some] at h6
        rw [← htask] at h6
        simp only at h6
        have h7 : pts0.getD k 0 = pt := by rw [List.getD_eq_getElem?_getD, hk]; rfl
        rw [h7, List.getElem?_eq_getElem (by omega : k < vs.length), Option.map_some] at h6
        obtain ⟨res, h8, -⟩ := helper_inv (h := ops) h3 hd (Option.some.inj h6)
        exact ⟨res, h8⟩
      cases sub with
      | true =>
        simp only [if_true, Prod.mk.injEq, Except.ok.injEq, Option.some.injEq] at hp
        obtain ⟨⟨rfl, rfl, rfl⟩, -⟩ := hp
        refine ⟨rfl, hlen, by simpa using hvl, by simpa using hlen, ?_, hinv⟩
        intro k pt res hk hpt
        rw [List.getElem?_map, hval k pt res hk hpt]
        cases res <;> rfl
      | false =>
        simp only [if_false, Bool.false_eq_true, Prod.mk.injEq, Except.ok.injEq, Option.some.injEq] at hp
        obtain ⟨⟨rfl, rfl, rfl⟩, -⟩ := hp
        refine ⟨rfl, hlen, hvl, by simpa using hlen, ?_, hinv⟩
        intro k pt res hk hpt
        rw [hval k pt res hk hpt]
        cases res <;> rfl

/-- **C68.** If the optimiser succeeds or fails with a `RuntimeError` at every point, then `profile` with at
least one worker never raises, and every schedule can be continued until it returns. The result does not
depend on the number of workers or the schedule. -/
theorem C68_returns (s : Sys) (h : s.Built) (f : Fitter) (kd : MinKind) (hid : minKindOf f.minimizerId = .ok kd)
    (o : Optim) (fixNui : Bool) (r : MinResult)
    (hr : ((Fitter.new f.minimizerId).doFit o s.w s.m false true fixNui none).1 = .ok r) (pid : ParamId) (i : ℕ)
    (hd : Denotes (s.m.paramNames s.w) pid i) (n : ℕ) (sg : Fl) (sub : Bool)
    (hpt : ∀ pt, ∃ res, PointIs o kd (objective s.w s.m) (s.m.paramNames s.w) r.params.values i pt res) :
    ∃ R : Vec × Vec × Vec, ∀ cpu, 0 < cpu → ∀ sched,
      ((f.profile o s.w s.m pid cpu n sg sub fixNui sched).1 = .ok none ∨
       (f.profile o s.w s.m pid cpu n sg sub fixNui sched).1 = .ok (some R)) ∧
      ∃ more, (f.profile o s.w s.m pid cpu n sg sub fixNui (sched ++ more)).1 = .ok (some R) := by
  obtain ⟨val, unc, xs, ops, h1, h2, h3, h4⟩ := profile_core h.reachable hid hr hd n sg sub
  rw [objective_unpickled h xs] at h4
  generalize hpts : linspaceFl (val - sg * unc) (val + sg * unc) n = pts0 at h4
  generalize htask : (fun k => profileHelper o (objective s.w s.m) (minRun kd (s.m.paramNames s.w) ops)
            (pts0.getD k 0) r.params.values pid) = task at h4
  have hex : ∀ k, ∃ v, task k = .ok v := by
    intro k
    obtain ⟨res, hres⟩ := hpt (pts0.getD k 0)
    have := helper_found (h := ops) h3 hd hres
    rw [← htask]
    exact ⟨_, this⟩
  choose v hv using hex
  have hl : (List.range n).map task = ((List.range n).map v).map Except.ok := by
    rw [List.map_map]; exact List.map_congr_left fun k _ => hv k
  have hfe : firstError ((List.range n).map task) = .ok ((List.range n).map v) := by
    rw [hl]; exact firstError_ok _
  refine ⟨if sub then (pts0, ((List.range n).map v).map (· - r.fval), (pts0.map (hesseApprox val unc r.fval)).map (· - r.fval))
    else (pts0, (List.range n).map v, pts0.map (hesseApprox val unc r.fval)), ?_⟩
  intro cpu hc sched
  constructor
  · rw [h4, if_neg (by omega)]
    cases hcol : (poolRun task cpu n sched).collect n with
    | none => left; rfl
    | some l =>
      right
      have hl := C68_schedule task cpu n sched l hcol
      subst hl
      simp only [hfe]
      cases sub <;> rfl
  · obtain ⟨more, hm⟩ := (C68_terminates task cpu n hc).2.2 sched
    refine ⟨more, ?_⟩
    rw [h4, if_neg (by omega), hm]
    simp only [hfe]
    cases sub <;> rfl

/-- **C68.** The scan points: for a fitted value `v` and error `e` and at least two points, point `k` is
`v - sigma*e + k * 2*sigma*e/(num_points - 1)`: evenly spaced from `v - sigma*e` to `v + sigma*e`. -/
theorem C68_points (v e sg : ℝ) (n k : ℕ) (hn : 2 ≤ n) (hk : k < n) :
    (linspaceFl (.fin v - .fin sg * .fin e) (.fin v + .fin sg * .fin e) n)[k]? =
      some (.fin (v - sg * e + k * (2 * (sg * e) / (n - 1)))) := by
  have hn1 : (n : ℝ) - 1 ≠ 0 := by
    have : (2 : ℝ) ≤ n := by exact_mod_cast hn
    linarith
  have hn2 : n ≠ 1 := by omega
  unfold linspaceFl
  rw [List.getElem?_map, List.getElem?_range hk, Option.map_some]
  congr 1
  by_cases h : 1 < n ∧ k + 1 = n
  · rw [if_pos h]
    simp only [Fl.fin_mul, Fl.fin_sub, Fl.fin_add]
    congr 1
    have : (k : ℝ) = n - 1 := by rw [← h.2]; push_cast; ring
    rw [this]
    field_simp
    ring
  · rw [if_neg h, if_neg hn2]
    simp only [Fl.fin_mul, Fl.fin_sub, Fl.fin_add]
    rw [Fl.fin_div _ _ hn1]
    simp only [Fl.fin_mul, Fl.fin_sub, Fl.fin_add]
    congr 1
    ring

/-! ## C69 -/

/-- **C69 (partial).** The scan problems of C68 fix the wanted parameters (those registered in the fitter, and
all nuisance parameters for `fix_nui_params=True`) besides the scanned one if and only if there are none, and
carry the registered bounds if and only if these bound nothing. So the property holds exactly for fitters
without settings; otherwise see `C69_refuted`. -/
theorem C69_iff_partial (names : List String) (h : List FitOp) (nproc : ℕ) (fixNui : Bool)
    (fcn : Vec → Except Err Fl) (x : Vec) (i : ℕ) (pt : Fl) :
    ((∀ k < names.length, (scanMinuit fcn names x i pt).fix[k]? = some true ↔
        (k = i ∨ WantedFixed names h nproc fixNui k)) ↔
      ∀ k < names.length, WantedFixed names h nproc fixNui k → k = i) ∧
    ((∀ k b, FitBounds names h k b → (scanMinuit fcn names x i pt).limit[k]? = some b) ↔
      ∀ k b, FitBounds names h k b → b = (none, none)) := by
  have hfix : ∀ k < names.length, (scanMinuit fcn names x i pt).fix[k]? = some (decide (k = i)) := by
    intro k hk
    simp [scanMinuit, List.getElem?_range hk]
  have hlim : ∀ k < names.length, (scanMinuit fcn names x i pt).limit[k]? = some (none, none) := by
    intro k hk
    simp [scanMinuit, List.getElem?_replicate, hk]
  constructor
  · constructor
    · intro H k hk hw
      have := (H k hk).mpr (.inr hw)
      rw [hfix k hk] at this
      simpa using this
    · intro H k hk
      rw [hfix k hk]
      simp only [Option.some.injEq, decide_eq_true_eq]
      exact ⟨.inl, fun h => h.elim id (H k hk)⟩
  · have hlt : ∀ k b, FitBounds names h k b → k < names.length := by
      rintro k b ⟨_, _, _, _, ⟨pid, _, hd⟩, _⟩
      exact denotes_lt hd
    constructor
    · intro H k b hb
      have := H k b hb
      rw [hlim k (hlt k b hb)] at this
      exact (Option.some.inj this).symm
    · intro H k b hb
      rw [hlim k (hlt k b hb), H k b hb]

/-- An optimiser that reports as minimum how many parameters were free, plus ten for every parameter with
bounds. -/
def Ex.optFree : Optim where
  minuit := fun c => .ok ⟨⟨true, true, true⟩, ⟨true, true, true⟩,
    .fin ((c.fix.count false + 10 * (c.limit.filter fun b => decide (b ≠ (none, none))).length : ℕ) : ℝ),
    [.fin 10, .fin 0, .fin 1, .fin 2, .fin 3], [.fin 1, .fin 1, .fin 1, .fin 1, .fin 1],
    .ok (Mat.zeros 5 5, Mat.zeros 5 5)⟩
  minuitEvals := fun _ => []
  scipy := fun c => .ok ⟨true, c.x0, .fin 1⟩
  scipyEvals := fun c => [c.x0]
  hessian := fun _ => .error .runtimeError

theorem Ex.namesQ' : Ex.sysQ.m.paramNames Ex.sysQ.w =
    ["p_yield", "a_p_bin_0", "a_p_bin_1", "b_p_bin_0", "b_p_bin_1"] := Ex.namesQ

theorem Ex.denQ : Denotes (Ex.sysQ.m.paramNames Ex.sysQ.w) (.str "p_yield") 0 := by
  rw [Ex.namesQ', denotes_iff]; simp [idToIndex, List.idxOf_cons]

theorem Ex.pointFree (pt : Fl) : PointIs Ex.optFree .iminuit (objective Ex.sysQ.w Ex.sysQ.m)
    (Ex.sysQ.m.paramNames Ex.sysQ.w) [.fin 10, .fin 0, .fin 1, .fin 2, .fin 3] 0 pt (.found (.fin 4)) := by
  refine ⟨_, _, _, rfl, ?_, ?_, ?_, rfl⟩
  · simp [Ex.namesQ', scanMinuit, List.range_succ]
  · rw [Ex.namesQ']; rfl
  · rw [Ex.namesQ']; rfl

theorem Ex.fitFree : ∃ fv C R, ((Fitter.new "iminuit").doFit Ex.optFree Ex.sysQ.w Ex.sysQ.m false true true none).1 =
    .ok ⟨fv, ⟨Ex.sysQ.m.paramNames Ex.sysQ.w, [.fin 10, .fin 0, .fin 1, .fin 2, .fin 3],
      [.fin 1, .fin 1, .fin 1, .fin 1, .fin 1], C, R⟩, true⟩ := by
  have hk : KnownIds (Ex.sysQ.m.paramNames Ex.sysQ.w) [] :=
    ⟨fun pid hp => by simp at hp, fun pid b hp => by simp at hp⟩
  obtain ⟨call, _, h2, h3, h4, h5, hh⟩ := C64_iminuit Ex.sysQ Ex.sysQ_built.reachable "iminuit" lower_iminuit
    [] hk _ Ex.x0Q true true none
  obtain ⟨-, hh⟩ := hh Ex.optFree
  have := hh _ _ _ rfl (by rw [Ex.namesQ']; rfl) (by rw [Ex.namesQ']; rfl) rfl
  exact ⟨_, _, _, this⟩

/-- **C69 refuted.** A fitter with the yield bounded and one parameter fixed, asked for a profile of the yield
with `fix_nui_params=True`, so nothing is left to be minimised at a scan point. The optimiser reports how many
parameters it was free to vary, plus ten for every bounded parameter: the scan reports 4 at every point, i.e.
all nuisance parameters were free and the bounds were dropped. -/
theorem C69_refuted : ∃ (s : Sys) (f : Fitter) (o : Optim), s.Built ∧
    f = fitRun "iminuit" [.bound (.str "p_yield") (some (.fin 0), some (.fin 20)), .fix (.int 1)] ∧
    KnownIds (s.m.paramNames s.w)
      [.bound (.str "p_yield") (some (.fin 0), some (.fin 20)), .fix (.int 1)] ∧
    (∀ c r, o.minuit c = .ok r →
      r.fval = .fin ((c.fix.count false + 10 * (c.limit.filter fun b => decide (b ≠ (none, none))).length : ℕ) : ℝ)) ∧
    ∃ (sched : List PoolEv) (pts vals hess : Vec),
      (f.profile o s.w s.m (.str "p_yield") 4 100 1 false true sched).1 = .ok (some (pts, vals, hess)) ∧
      vals = List.replicate 100 (.fin 4) := by
  refine ⟨Ex.sysQ, _, Ex.optFree, Ex.sysQ_built, rfl, ?_, ?_, ?_⟩
  · rw [Ex.namesQ']
    constructor
    · intro pid hp
      simp at hp
      subst hp
      exact ⟨1, by rw [denotes_iff]; simp [idToIndex]⟩
    · intro pid b hp
      simp at hp
      obtain ⟨rfl, rfl⟩ := hp
      exact ⟨0, by rw [denotes_iff]; simp [idToIndex, List.idxOf_cons]⟩
  · intro c r h
    simp only [Ex.optFree, Except.ok.injEq] at h
    rw [← h]
  · obtain ⟨fv, C, R, hr⟩ := Ex.fitFree
    have hid := minKind_iminuit lower_iminuit
    have hpt : ∀ pt, PointIs Ex.optFree .iminuit (objective Ex.sysQ.w Ex.sysQ.m)
        (Ex.sysQ.m.paramNames Ex.sysQ.w) [.fin 10, .fin 0, .fin 1, .fin 2, .fin 3] 0 pt (.found (.fin 4)) := Ex.pointFree
    obtain ⟨⟨pts, vals, hess⟩, hR⟩ := C68_returns Ex.sysQ Ex.sysQ_built
      (fitRun "iminuit" [.bound (.str "p_yield") (some (.fin 0), some (.fin 20)), .fix (.int 1)]) .iminuit hid Ex.optFree
      true _ hr (.str "p_yield") 0 Ex.denQ 100 1 false (fun pt => ⟨_, hpt pt⟩)
    obtain ⟨-, sched, hs⟩ := hR 4 (by omega) []
    refine ⟨_, pts, vals, hess, hs, ?_⟩
    obtain ⟨val, unc, -, -, -, hl1, hl2, -, hv, -⟩ := C68_values Ex.sysQ Ex.sysQ_built
      (fitRun "iminuit" [.bound (.str "p_yield") (some (.fin 0), some (.fin 20)), .fix (.int 1)]) .iminuit hid Ex.optFree
      true _ hr (.str "p_yield") 0 Ex.denQ 4 100 1 false _ pts vals hess _ (Prod.ext hs rfl)
    apply List.ext_getElem?
    intro k
    by_cases hk : k < 100
    · rw [hv k _ _ (List.getElem?_eq_getElem (by omega)) (hpt _)]
      rw [List.getElem?_replicate, if_pos hk]
      rfl
    · rw [List.getElem?_eq_none (by omega), List.getElem?_eq_none (by simpa using hk)]

/-! ## C70 -/

/-- The Hesse approximation at one point, for a fitted value `v`, error `e ≠ 0` and minimum `f`. -/
theorem hesse_real (v e f p : ℝ) (he : e ≠ 0) :
    hesseApprox (.fin v) (.fin e) (.fin f) (.fin p) = .fin (f + (p - v) ^ 2 / (2 * e ^ 2)) := by
  unfold hesseApprox
  rw [Fl.one_def, Fl.fin_div _ _ he]
  simp only [Fl.sq, Fl.fin_mul, Fl.fin_sub, Fl.fin_add]
  congr 1
  field_simp
  ring

/-- **C70.** Whenever `profile` of parameter number `i` returns, and the nominal fit gave it the value `v` and
the error `e ≠ 0`: the third component is, point by point, `f + (p - v)² / (2 e²)` with the fitted minimum `f`,
or `(p - v)² / (2 e²)` when the minimum is subtracted. -/
theorem C70_parabola (s : Sys) (h : s.Built) (f : Fitter) (kd : MinKind) (hid : minKindOf f.minimizerId = .ok kd)
    (o : Optim) (fixNui : Bool) (r : MinResult)
    (hr : ((Fitter.new f.minimizerId).doFit o s.w s.m false true fixNui none).1 = .ok r) (pid : ParamId) (i : ℕ)
    (hd : Denotes (s.m.paramNames s.w) pid i) (cpu n : ℕ) (sg : Fl) (sub : Bool) (sched : List PoolEv)
    (pts vals hess : Vec) (w' : World)
    (hp : f.profile o s.w s.m pid cpu n sg sub fixNui sched = (.ok (some (pts, vals, hess)), w'))
    (v e fmin : ℝ) (hv : r.params.values[i]? = some (.fin v)) (he : r.params.errors[i]? = some (.fin e))
    (hf : r.fval = .fin fmin) (h0 : e ≠ 0) (k : ℕ) (p : ℝ) (hk : pts[k]? = some (.fin p)) :
    hess[k]? = some (.fin (if sub then (p - v) ^ 2 / (2 * e ^ 2) else fmin + (p - v) ^ 2 / (2 * e ^ 2))) := by
  obtain ⟨val, unc, xs, ops, h1, h2, h3, h4⟩ := profile_core h.reachable hid hr hd n sg sub
  rw [hv] at h1
  rw [he] at h2
  injection h1 with h1
  injection h2 with h2
  subst h1 h2
  rw [h4] at hp
  by_cases hc : cpu = 0
  · rw [if_pos hc] at hp; simp at hp
  rw [if_neg hc] at hp
  generalize linspaceFl _ _ n = pts0 at hp
  generalize Pool.collect _ n = col at hp
  cases col with
  | none => simp at hp
  | some l =>
    simp only at hp
    cases hfe : firstError l with
    | error e => rw [hfe] at hp; simp at hp
    | ok vs =>
      rw [hfe, hf] at hp
      cases sub with
      | true =>
        simp only [if_true, Prod.mk.injEq, Except.ok.injEq, Option.some.injEq] at hp
        obtain ⟨⟨rfl, rfl, rfl⟩, -⟩ := hp
        rw [List.getElem?_map, List.getElem?_map, hk, Option.map_some, Option.map_some, hesse_real _ _ _ _ h0]
        simp
      | false =>
        simp only [if_false, Bool.false_eq_true, Prod.mk.injEq, Except.ok.injEq, Option.some.injEq] at hp
        obtain ⟨⟨rfl, rfl, rfl⟩, -⟩ := hp
        rw [List.getElem?_map, hk, Option.map_some, hesse_real _ _ _ _ h0]
        simp

/-- **C70.** In particular with the minimum subtracted the parabola has its vertex 0 at the fitted value and is
one half at value ± error. -/
theorem C70_half (s : Sys) (h : s.Built) (f : Fitter) (kd : MinKind) (hid : minKindOf f.minimizerId = .ok kd)
    (o : Optim) (fixNui : Bool) (r : MinResult)
    (hr : ((Fitter.new f.minimizerId).doFit o s.w s.m false true fixNui none).1 = .ok r) (pid : ParamId) (i : ℕ)
    (hd : Denotes (s.m.paramNames s.w) pid i) (cpu n : ℕ) (sg : Fl) (sched : List PoolEv)
    (pts vals hess : Vec) (w' : World)
    (hp : f.profile o s.w s.m pid cpu n sg true fixNui sched = (.ok (some (pts, vals, hess)), w'))
    (v e fmin : ℝ) (hv : r.params.values[i]? = some (.fin v)) (he : r.params.errors[i]? = some (.fin e))
    (hf : r.fval = .fin fmin) (h0 : e ≠ 0) (k : ℕ) :
    (pts[k]? = some (.fin v) → hess[k]? = some (.fin 0)) ∧
    (pts[k]? = some (.fin (v + e)) → hess[k]? = some (.fin (1 / 2))) ∧
    (pts[k]? = some (.fin (v - e)) → hess[k]? = some (.fin (1 / 2))) := by
  have H := C70_parabola s h f kd hid o fixNui r hr pid i hd cpu n sg true sched pts vals hess w' hp v e fmin hv he hf h0 k
  refine ⟨fun hk => ?_, fun hk => ?_, fun hk => ?_⟩
  · rw [H _ hk]; simp
  · rw [H _ hk]; simp only [if_true]; congr 2; field_simp; ring
  · rw [H _ hk]; simp only [if_true]; congr 2; field_simp; ring

/-- non-vacuity of C68 and C70: a concrete model, fit and scan with `sigma = 1` and three points returns, and
the Hesse approximation is 1/2 at both ends and 0 in the middle -/
example : ∃ (sched : List PoolEv) (vals : Vec),
    ((Fitter.new "iminuit").profile Ex.optFree Ex.sysQ.w Ex.sysQ.m (.str "p_yield") 2 3 1 true true sched).1 =
      .ok (some ([.fin 9, .fin 10, .fin 11], vals, [.fin (1 / 2), .fin 0, .fin (1 / 2)])) := by
  obtain ⟨fv, C, R, hr, fr, hfr⟩ : ∃ fv C R, ((Fitter.new "iminuit").doFit Ex.optFree Ex.sysQ.w Ex.sysQ.m false true true none).1 =
      .ok ⟨fv, ⟨Ex.sysQ.m.paramNames Ex.sysQ.w, [.fin 10, .fin 0, .fin 1, .fin 2, .fin 3],
      [.fin 1, .fin 1, .fin 1, .fin 1, .fin 1], C, R⟩, true⟩ ∧ ∃ fr : ℝ, fv = .fin fr := by
    have hk : KnownIds (Ex.sysQ.m.paramNames Ex.sysQ.w) [] :=
      ⟨fun pid hp => by simp at hp, fun pid b hp => by simp at hp⟩
    obtain ⟨call, _, h2, h3, h4, h5, hh⟩ := C64_iminuit Ex.sysQ Ex.sysQ_built.reachable "iminuit" lower_iminuit
      [] hk _ Ex.x0Q true true none
    obtain ⟨-, hh⟩ := hh Ex.optFree
    have := hh _ _ _ rfl (by rw [Ex.namesQ']; rfl) (by rw [Ex.namesQ']; rfl) rfl
    exact ⟨_, _, _, this, _, rfl⟩
  have hid := minKind_iminuit lower_iminuit
  obtain ⟨⟨pts, vals, hess⟩, hR⟩ := C68_returns Ex.sysQ Ex.sysQ_built (Fitter.new "iminuit") .iminuit hid Ex.optFree
    true _ hr (.str "p_yield") 0 Ex.denQ 3 1 true (fun pt => ⟨_, Ex.pointFree pt⟩)
  obtain ⟨-, sched, hs⟩ := hR 2 (by omega) []
  refine ⟨_, vals, hs.trans ?_⟩
  obtain ⟨val, unc, h1, h2, hpts, hl1, hl2, hl3, hv⟩ := C68_values Ex.sysQ Ex.sysQ_built (Fitter.new "iminuit") .iminuit hid
    Ex.optFree true _ hr (.str "p_yield") 0 Ex.denQ 2 3 1 true _ pts vals hess _ (Prod.ext hs rfl)
  simp only [List.getElem?_cons_zero, Option.some.injEq] at h1 h2
  subst h1 h2
  have hp : ∀ k < 3, pts[k]? = some (.fin (10 - 1 * 1 + k * (2 * (1 * 1) / ((3 : ℕ) - 1)))) := by
    intro k hk
    rw [hpts]
    exact C68_points 10 1 1 3 k (by omega) hk
  have H := C70_half Ex.sysQ Ex.sysQ_built (Fitter.new "iminuit") .iminuit hid Ex.optFree true _ hr (.str "p_yield") 0
    Ex.denQ 2 3 1 _ pts vals hess _ (Prod.ext hs rfl) 10 1 fr rfl rfl hfr one_ne_zero
  have p0 := hp 0 (by omega)
  have p1 := hp 1 (by omega)
  have p2 := hp 2 (by omega)
  norm_num at p0 p1 p2
  have q0 := (H 0).2.2 (by rw [p0]; norm_num)
  have q1 := (H 1).1 p1
  have q2 := (H 2).2.1 (by rw [p2]; norm_num)
  have three : ∀ (l : Vec) a b c, l.length = 3 → l[0]? = some a → l[1]? = some b → l[2]? = some c → l = [a, b, c] := by
    intro l a b c hl h0 h1 h2
    match l, hl with
    | [x, y, z], _ => simp at h0 h1 h2; simp [h0, h1, h2]
  rw [three pts _ _ _ hl1 p0 p1 p2, three hess _ _ _ hl3 q0 q1 q2]

end

end TF.Props
