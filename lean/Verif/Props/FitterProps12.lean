import Verif.Props.FitterProps11

set_option linter.unusedSimpArgs false

/-!
# Fits, significances and profiles with the scipy minimizer (C71, C106, C109)
-/

namespace TF.Spec

open TF Classical

noncomputable section

/-- `y` is an admissible point of a scipy problem: all bounds and all equality constraints that were handed over hold. -/
def SFeasible (c : ScipyCall) (y : Vec) : Prop :=
  y.length = c.x0.length ∧ (∀ (k : ℕ) (b : Bounds) (v : Fl), c.bounds[k]? = some b → y[k]? = some v → InBounds b v) ∧ Feasible c y

/-- A scipy that reports success only with the true constrained minimum of the problem it was given. -/
def TrueMinScipy (o : Optim) : Prop :=
  ∀ c r, o.scipy c = .ok r → r.success = true → SFeasible c r.x ∧ c.fcn r.x = .ok r.fval ∧ r.fval ≠ .nan ∧
    ∀ y v, SFeasible c y → c.fcn y = .ok v → ¬ v.lt r.fval

end

end TF.Spec

namespace TF.Props

open Classical Spec
open scoped Matrix

noncomputable section

/-- what a successful `do_fit` with scipy came from -/
theorem doFit_scipy_inv {f : Fitter} {o : Optim} {w : World} {m : Mct} {up g fixNui : Bool} {lim : Option Bounds}
    {z : Minimizer} (hid : minKindOf f.minimizerId = .ok .scipy)
    (hz : f.setup .scipy (m.paramNames w) m.numProcesses (m.numNui w) fixNui lim = .ok z)
    (hk : z.kind = .scipy) {r : MinResult} (hr : (f.doFit o w m up g fixNui lim).1 = .ok r) :
    ∃ x0 rr, m.x0 w = .ok x0 ∧ o.scipy (z.scipyCall (objective w m) x0) = .ok rr ∧ rr.success = true ∧ r.fval = rr.fval ∧
      r.params.values = rr.x := by
  unfold Fitter.doFit at hr
  rw [hid] at hr
  simp only at hr
  rw [hz] at hr
  simp only at hr
  unfold runMinimizer at hr
  cases hx : m.x0 w with
  | error e => rw [hx] at hr; simp at hr
  | ok x0 =>
    rw [hx] at hr
    refine ⟨x0, ?_⟩
    simp only [Minimizer.minimize, hk] at hr
    have hup : ∀ (q : MinResult) (z' : Minimizer), (∀ rr : ScipyOut, q.fval = rr.fval → q.params.values = rr.x →
        z.minimizeScipy o (objective w m) x0 g = (.ok q, z') → r.fval = rr.fval ∧ r.params.values = rr.x) := by
      intro q z' rr h1 h2 hh
      rw [hh] at hr
      cases up with
      | false =>
        simp only [if_false, Bool.false_eq_true, Except.ok.injEq] at hr
        subst hr
        exact ⟨h1, h2⟩
      | true =>
        simp only [if_true] at hr
        split at hr
        · cases hr
        · have hr := Except.ok.inj hr
          subst hr
          exact ⟨h1, h2⟩
    rcases scipy_cases o z (objective w m) x0 g with ⟨e, he, hh⟩ | ⟨rr, hrr, hh⟩
    · rw [hh] at hr; simp at hr
    · rcases hh with ⟨_, hh⟩ | ⟨_, _, hh⟩ | ⟨hs, _, ⟨_, hh⟩ | ⟨_, e, _, hh⟩ | ⟨_, H, C, _, _, _, hh⟩ | ⟨_, H, C, _, _, _, hh⟩⟩
      · rw [hh] at hr; simp at hr
      · rw [hh] at hr; simp at hr
      · exact ⟨rr, rfl, hrr, hs, hup _ _ rr rfl rfl hh⟩
      · rw [hh] at hr; simp at hr
      · rw [hh] at hr; simp at hr
      · exact ⟨rr, rfl, hrr, hs, hup _ _ rr rfl rfl hh⟩

/-- **C106 with scipy: the fit finds the truth.** As `C106_exact`, for a scipy that reports success only with true constrained
minima, and every fitter configuration (fixed parameters, bounds, limits, fixed nuisance parameters) whose bounds contain the
present parameters. -/
theorem C106_scipy (s : Sys) (h : s.Built) (hne : s.m.channels ≠ []) (S : ℕ → ChanSpec) (hS : ModelIs s S)
    (d : ∀ k, Fin (S k).n → ℝ) (hd : DataIs s S d) (hpos : ∀ k < s.m.chanIds.length, ∀ i, (1e-100 : ℝ) ≤ d k i)
    (V E : String → ℝ) (hc : ConstraintsAre s V E)
    (ν : String → ℝ) (hx0 : s.m.x0 s.w = .ok (paramVec s S ν fun _ _ _ => 0))
    (hT0 : NonZeroSums s S fun _ _ _ => 0)
    (hdata : ∀ k < s.m.chanIds.length, ∀ i, expectedIn s S ν (fun _ _ _ => 0) k i = d k i)
    (hV : ∀ p ∈ s.m.constrained, V p = ν p) (hid : Identifiable s S)
    (o : Optim) (ho : TrueMinScipy o) (id : String) (hmin : id.toLower = "scipy") (hist : List FitOp)
    (hk : KnownIds (s.m.paramNames s.w) hist) (up g fixNui : Bool) (lim : Option Bounds)
    (hb : ∀ pid b, FitOp.bound pid b ∈ hist → ∀ k v, Denotes (s.m.paramNames s.w) pid k →
      (paramVec s S ν fun _ _ _ => 0)[k]? = some v → InBounds b v)
    (hlim : ∀ b, lim = some b → InBounds b 0)
    (r : MinResult) (hr : ((fitRun id hist).doFit o s.w s.m up g fixNui lim).1 = .ok r) :
    r.fval = .fin 0 ∧ s.m.x0 s.w = .ok r.params.values := by
  have hw := reachable_wf h.reachable
  have hal := C51_aligned s h.reachable
  have hz := setup_eq (kd := .scipy) (id := id) hal.1.symm hk fixNui lim
  have hzw := minRun_wf .scipy (s.m.paramNames s.w)
    (setupOps (fitRun id hist) s.m.numProcesses (s.m.numNui s.w) fixNui lim)
  have hm1 : minKindOf (fitRun id hist).minimizerId = .ok .scipy := by rw [fitRun_id]; exact minKind_scipy hmin
  obtain ⟨x1, q, hx1, hq, hsucc, hf, hval⟩ := doFit_scipy_inv hm1 hz hzw.hk hr
  rw [hx0] at hx1
  obtain rfl := Except.ok.inj hx1
  obtain ⟨t1, t2, t3, t4⟩ := ho _ _ hq hsucc
  set z := minRun .scipy (s.m.paramNames s.w)
    (setupOps (fitRun id hist) s.m.numProcesses (s.m.numNui s.w) fixNui lim) with hzz
  have hplen := paramVec_length hw hS ν (fun _ _ _ => 0)
  have hql : q.x.length = s.m.numProcesses + s.m.numNui s.w := by rw [t1.1]; exact hplen
  have hfin : ∀ v ∈ paramVec s S ν fun _ _ _ => 0, ∃ a : ℝ, v = .fin a := by
    intro v hv
    unfold paramVec at hv
    rcases List.mem_append.mp hv with hv | hv
    · obtain ⟨p, -, rfl⟩ := List.mem_map.mp hv
      exact ⟨_, rfl⟩
    · obtain ⟨l, hl1, hl2⟩ := List.mem_flatten.mp hv
      obtain ⟨k', -, rfl⟩ := List.mem_map.mp hl1
      unfold nuiVec at hl2
      obtain ⟨l, hl3, hl4⟩ := List.mem_flatten.mp hl2
      obtain ⟨j, rfl⟩ := List.mem_ofFn.mp hl3
      unfold vec at hl4
      obtain ⟨i, rfl⟩ := List.mem_ofFn.mp hl4
      exact ⟨_, rfl⟩
  -- the present parameters are admissible
  have hfeas : SFeasible (z.scipyCall (objective s.w s.m) (paramVec s S ν fun _ _ _ => 0))
      (paramVec s S ν fun _ _ _ => 0) := by
    refine ⟨rfl, fun k b v hbb hv => ?_, ?_⟩
    · have hkn : k < (s.m.paramNames s.w).length := by
        rw [hal.1, ← hplen]; exact (List.getElem?_eq_some_iff.mp hv).1
      rcases setup_bounds_mem' hkn hbb with rfl | ⟨pid, hp1, hp2⟩ | ⟨hl, hle⟩
      · exact ⟨fun _ h => (by cases h), fun _ h => (by cases h)⟩
      · exact hb pid b hp1 k v hp2 hv
      · have : v = 0 := by
          unfold paramVec at hv
          rw [List.getElem?_append_right (by simpa [Mct.numProcesses] using hle)] at hv
          have hm := List.mem_of_getElem? hv
          obtain ⟨l, hl1, hl2⟩ := List.mem_flatten.mp hm
          obtain ⟨k', -, rfl⟩ := List.mem_map.mp hl1
          unfold nuiVec at hl2
          obtain ⟨l, hl3, hl4⟩ := List.mem_flatten.mp hl2
          obtain ⟨j, rfl⟩ := List.mem_ofFn.mp hl3
          unfold vec at hl4
          obtain ⟨i, rfl⟩ := List.mem_ofFn.mp hl4
          rfl
        rw [this]; exact hlim b hl
    · rw [feasible_iff]
      right
      generalize z.fixedIdx.getLastD 0 = l
      rw [List.getD_eq_getElem?_getD]
      cases hl : (paramVec s S ν fun _ _ _ => 0)[l]? with
      | none => exact ⟨0, rfl, rfl⟩
      | some v =>
        obtain ⟨a, rfl⟩ := hfin v (List.mem_of_getElem? hl)
        exact ⟨a, rfl, rfl⟩
  obtain ⟨m1, m2⟩ := C106_minimum s h hne S hS d hd hpos V E hc ν hT0 hdata hV hid
  have hcmp := t4 _ _ hfeas m1
  obtain ⟨m3, m4⟩ := m2 q.x q.fval hql t2
  have hz : q.fval = .fin 0 := by
    cases hfv : q.fval with
    | nan => exact absurd hfv t3
    | ninf => rw [hfv] at m3; exact absurd trivial m3
    | pinf => rw [hfv] at hcmp; exact absurd trivial hcmp
    | fin b =>
      rw [hfv] at hcmp m3
      have h1 : b ≤ 0 := not_lt.mp hcmp
      have h2 : 0 ≤ b := not_lt.mp m3
      rw [le_antisymm h1 h2]
  exact ⟨by rw [hf, hz], by rw [hval, m4 hz, hx0]⟩

/-- **C106 with scipy: closure of the fit to Asimov data.** -/
theorem C106_scipy_asimov (s : Sys) (h : s.Built) (hne : s.m.channels ≠ []) (S : ℕ → ChanSpec) (hS : ModelIs s S)
    (htup : ∀ c ∈ s.m.chanIds, AllTuple (s.w.chans c).range)
    (y : ∀ k, Fin (S k).K → ℝ) (hp : ParamsAre s S y (fun _ _ _ => 0))
    (hT : ∀ k < s.m.chanIds.length, ∀ j, ∑ i, (S k).cnt j i ≠ 0)
    (ν : String → ℝ) (hν : ∀ p ∈ s.m.processes, s.m.getYield s.w p = .ok (.fin (ν p)))
    (hshare : ∀ k < s.m.chanIds.length, ∀ j, y k j = ν (procName s k j) * (S k).eff j)
    (V E : String → ℝ) (hc : ConstraintsAre s V E) (hV : ∀ p ∈ s.m.constrained, V p = ν p)
    (hpos : ∀ k < s.m.chanIds.length, ∀ i, (1e-100 : ℝ) ≤ ∑ j, y k j * ((S k).cnt j i / ∑ i', (S k).cnt j i'))
    (hid : Identifiable s S) (s' : Sys) (hs' : s' = s.step (.addAsimov false))
    (o : Optim) (ho : TrueMinScipy o) (id : String) (hmin : id.toLower = "scipy") (hist : List FitOp)
    (hk : KnownIds (s.m.paramNames s.w) hist) (up g fixNui : Bool) (lim : Option Bounds)
    (hb : ∀ pid b, FitOp.bound pid b ∈ hist → ∀ k v x0, Denotes (s.m.paramNames s.w) pid k → s.m.x0 s.w = .ok x0 →
      x0[k]? = some v → InBounds b v)
    (hlim : ∀ b, lim = some b → InBounds b 0)
    (r : MinResult) (hr : ((fitRun id hist).doFit o s'.w s'.m up g fixNui lim).1 = .ok r) :
    r.fval = .fin 0 ∧ s.m.x0 s.w = .ok r.params.values := by
  obtain ⟨q1, q2, q3, q4, q5, q6, q7, q8, q9, q10, q11, d, q12, q13, q14⟩ := asimov_exact s h hne S hS htup y hp hT ν hν
    hshare V E hc hV hpos hid s' hs'
  obtain ⟨r1, r2⟩ := C106_scipy s' q1 (by rw [q2]; exact hne) S q7 d q12 q13 V E q9 ν (by rw [q4, q5, q6]) q8 q14 q10 q11
    o ho id hmin hist (by rw [q3]; exact hk) up g fixNui lim (by
      intro pid b hbm k v hdn hv
      rw [q3] at hdn
      rw [q6] at hv
      exact hb pid b hbm k v _ hdn q5 hv) hlim r hr
  exact ⟨r1, by rw [← q4, r2]⟩

/-- the scipy minimizer of a fitter without settings hands over no constraint and no bound -/
theorem free_scipy (id : String) (names : List String) (nproc nnui : ℕ) (fcn : Vec → Except Err Fl) (x0 : Vec) :
    ((minRun .scipy names (setupOps (fitRun id []) nproc nnui false none)).scipyCall fcn x0) =
      ⟨fcn, x0, names.map fun _ => (none, none), []⟩ := by
  have e0 : setupOps (fitRun id []) nproc nnui false none = [] := by
    simp [setupOps, fitRun, Fitter.new]
  rw [e0]
  simp [minRun, Minimizer.new, Minimizer.scipyCall, scipyConstraints, List.map_const']

/-- **C109 with scipy, without fixed nuisance parameters.** As `C109_nonneg_partial`, for a scipy that reports success only
with true constrained minima. -/
theorem C109_scipy_partial (s : Sys) (h : s.Built) (f : Fitter) (hid : minKindOf f.minimizerId = .ok .scipy)
    (o : Optim) (ho : TrueMinScipy o) (r : MinResult)
    (hr : ((Fitter.new f.minimizerId).doFit o s.w s.m false true false none).1 = .ok r) (pid : ParamId) (i : ℕ)
    (hd : Denotes (s.m.paramNames s.w) pid i) (cpu n : ℕ) (sg : Fl) (sub : Bool) (sched : List PoolEv)
    (pts vals hess : Vec) (w' : World)
    (hp : f.profile o s.w s.m pid cpu n sg sub false sched = (.ok (some (pts, vals, hess)), w')) :
    ∀ (k : ℕ) (pt v : Fl), pts[k]? = some pt → vals[k]? = some v →
      ¬ v.lt (if sub then .fin 0 else r.fval) ∧
      ∀ a : ℝ, r.params.values[i]? = some pt → pt = .fin a → v ≠ .nan → v = if sub then r.fval - r.fval else r.fval := by
  obtain ⟨val, unc, hvali, -, -, -, -, -, hv, hex⟩ := C68_values s h f .scipy hid o false r hr pid i hd cpu n sg sub sched pts
    vals hess w' hp
  have hal := C51_aligned s h.reachable
  have hkn : KnownIds (s.m.paramNames s.w) [] := ⟨by simp, by simp⟩
  have hz := setup_eq (kd := .scipy) (id := f.minimizerId) hal.1.symm hkn false none
  have hzw := minRun_wf .scipy (s.m.paramNames s.w)
    (setupOps (fitRun f.minimizerId []) s.m.numProcesses (s.m.numNui s.w) false none)
  have hm1 : minKindOf (fitRun f.minimizerId []).minimizerId = .ok .scipy := by rw [fitRun_id]; exact hid
  obtain ⟨x1, q, hx1, hq, hsucc, hf, hval⟩ := doFit_scipy_inv hm1 hz hzw.hk hr
  rw [free_scipy] at hq
  obtain ⟨t1, t2, t3, t4⟩ := ho _ _ hq hsucc
  have t1l : q.x.length = x1.length := t1.1
  have hnone : ∀ (k : ℕ) (b : Bounds) (v : Fl),
      ((s.m.paramNames s.w).map fun _ => ((none, none) : Bounds))[k]? = some b → InBounds b v := by
    intro k b v hb
    have := List.mem_of_getElem? hb
    simp at this
    rw [this.2]
    exact ⟨fun _ h => (by cases h), fun _ h => (by cases h)⟩
  intro k pt v hk hvk
  obtain ⟨res, hres⟩ := hex k pt hk
  have hvv := hv k pt res hk hres
  rw [hvk] at hvv
  have hvv := Option.some.inj hvv
  cases res with
  | failed =>
    have : v = .nan := hvv
    rw [this]
    exact ⟨by simp [Fl.lt], fun _ _ _ h => absurd rfl h⟩
  | found u =>
    obtain ⟨q', g1, g2, g3, g4⟩ := hres
    obtain ⟨b1, b2, b3, b4⟩ := ho _ _ g1 g3
    have b1l : q'.x.length = (r.params.values.set i pt).length := b1.1
    have hu : ¬ u.lt r.fval := by
      rw [hf, ← g2]
      refine t4 q'.x q'.fval ⟨?_, fun k b v hb _ => hnone k b v hb, fun g hg => ?_⟩ b2
      · show q'.x.length = x1.length
        rw [b1l, List.length_set, hval, t1l]
      · exact absurd hg List.not_mem_nil
    have hrn : r.fval ≠ .nan := by rw [hf]; exact t3
    constructor
    · rw [hvv]
      cases sub with
      | true => exact sub_not_lt hrn hu
      | false => exact hu
    · intro a hpt hpa hvn
      have hset : r.params.values.set i pt = r.params.values := by
        obtain ⟨hi, he⟩ := List.getElem?_eq_some_iff.mp hpt
        rw [← he]; exact List.set_getElem_self hi
      have hfe : SFeasible (scanScipy (objective s.w s.m) (s.m.paramNames s.w) r.params.values i pt) r.params.values := by
        refine ⟨?_, fun k b v hb _ => hnone k b v hb, fun g hg => ?_⟩
        · show _ = (r.params.values.set i pt).length
          rw [List.length_set]
        · have hg : g ∈ [fun y : Vec => y.getD i 0 - (r.params.values.set i pt).getD i 0] := hg
          rw [List.mem_singleton] at hg
          rw [hg, hset]
          simp only [List.getD_eq_getElem?_getD, hpt, Option.getD_some, hpa, Fl.fin_sub, sub_self]
          rfl
      have hob : objective s.w s.m r.params.values = .ok r.fval := by rw [hval, hf]; exact t2
      have h5 : ¬ r.fval.lt u := by rw [← g2]; exact b4 _ _ hfe hob
      have h6 : u = r.fval := Fl.eq_of_not_lt (by rw [← g2]; exact b3) hrn hu h5
      rw [hvv]
      cases sub <;> simp [pointValue, h6]

/-- **C71 with scipy (partial).** As `C71_nonneg_partial`, for a scipy that reports success only with true constrained minima and
fitters in which no parameter is fixed (any bounds). Missing: fitters with fixed parameters - scipy only holds the last one
(`C60_refuted`), so the second fit of `get_significance` releases all of them. -/
theorem C71_scipy_partial (s : Sys) (h : s.Built) (hu : Unshared s) (hf : FiniteEffs s) (id : String)
    (hid : id.toLower = "scipy") (hist : List FitOp) (hk : KnownIds (s.m.paramNames s.w) hist) (o : Optim)
    (ho : TrueMinScipy o) (p : String) (hp : p ∈ s.m.processes) (hnf : ∀ pid, FitOp.fix pid ∉ hist)
    (r1 : MinResult) (hr1 : ((fitRun id hist).doFit o s.w s.m false true false none).1 = .ok r1) (a : ℝ)
    (ha : r1.fval = .fin a) (v : Fl) (hv : ((fitRun id hist).getSignificance o s.w s.m p false).1 = .ok v) :
    ∃ y, r1.params.getValue (.str (p ++ "_yield")) = .ok y ∧
      (y.lt 0 → v = 0) ∧
      (¬ y.lt 0 → ∃ r2, (((fitRun id hist).setFixed (.str (p ++ "_yield"))).doFit o (s.step (.setYield p 0)).w s.m
          false true false none).1 = .ok r2 ∧
        ((∃ b : ℝ, r2.fval = .fin b ∧ a ≤ b ∧ v = .fin (Real.sqrt (2 * (b - a)))) ∨
          (r2.fval = .pinf ∧ v = .pinf))) := by
  have hw := reachable_wf h.reachable
  have hd := yield_denotes h.reachable hp
  have hdi := (denotes_iff _ _ _).mp hd
  have hltn := denotes_lt hd
  have hm := minKind_scipy hid
  have hal := C51_aligned s h.reachable
  obtain ⟨y, hy, h1, h2⟩ := (C71_formula s h (fitRun id hist) o p hp false _ _ rfl rfl).2 r1 hr1
  refine ⟨y, hy, fun hneg => ?_, fun hpos => ?_⟩
  · rw [h1 hneg] at hv
    exact (Except.ok.inj hv).symm
  obtain ⟨h3, h4⟩ := h2 hpos
  cases hfit2 : (((fitRun id hist).setFixed (.str (p ++ "_yield"))).doFit o (s.step (.setYield p 0)).w s.m
          false true false none).1 with
  | error e => rw [h3 e hfit2] at hv; cases hv
  | ok r2 =>
    refine ⟨r2, rfl, ?_⟩
    have hv' := h4 r2 hfit2
    rw [hv] at hv'
    have hv' := Except.ok.inj hv'
    have hz := setup_eq (kd := .scipy) (id := id) hal.1.symm hk false none
    have hzf : (minRun .scipy (s.m.paramNames s.w)
      (setupOps (fitRun id hist) s.m.numProcesses (s.m.numNui s.w) false none)).fixedIdx = [] := by
      apply List.eq_nil_iff_forall_not_mem.mpr
      intro k hkm
      rw [C58_scipy] at hkm
      have hlt := fixedIn_lt hkm
      rcases (setup_fixed hal.1.symm false none k hlt).mp hkm with ⟨pid, hpid, _⟩ | ⟨he, _⟩
      · exact hnf pid hpid
      · cases he
    generalize hzz : minRun .scipy (s.m.paramNames s.w)
      (setupOps (fitRun id hist) s.m.numProcesses (s.m.numNui s.w) false none) = z at hz hzf
    obtain ⟨-, hz2, hzw⟩ := signifSetup_second hdi hz
    have hpo := setYield_paramOnly s.w s.m p 0
    have hnm := names_params hpo s.m
    have es2 : (s.step (.setYield p 0)).w = (s.m.setYield s.w p 0).2 := rfl
    rw [es2] at hfit2
    have hm1 : minKindOf (fitRun id hist).minimizerId = .ok .scipy := by rw [fitRun_id]; exact hm
    have hm2 : minKindOf ((fitRun id hist).setFixed (.str (p ++ "_yield"))).minimizerId = .ok .scipy := hm1
    rw [← hnm.1, ← hnm.2] at hz2
    have hsf : (z.setFixed (.str (p ++ "_yield"))).2.bounds = z.bounds ∧
        (z.setFixed (.str (p ++ "_yield"))).2.kind = .scipy := by
      simp [Minimizer.setFixed, hzw.hn, hdi, hzw.hk]
    obtain ⟨x1, q1, hx1, hq1, hs1, hf1, -⟩ := doFit_scipy_inv hm1 hz hzw.hk hr1
    obtain ⟨x2, q2, hx2, hq2, hs2, hf2, -⟩ := doFit_scipy_inv hm2 hz2 hsf.2 hfit2
    obtain ⟨-, -, -, t1⟩ := ho _ _ hq1 hs1
    obtain ⟨f2, t2, t3, -⟩ := ho _ _ hq2 hs2
    obtain ⟨hxa, hxb⟩ := x0_setYield h.reachable hu hf hp hx1 hx2
    have hxl : x2.length = x1.length := by
      by_contra hne
      have key : ∀ k : ℕ, (x2[k]?).isSome = (x1[k]?).isSome := by
        intro k
        by_cases hki : k = s.m.processes.idxOf p
        · have e1 : k < x1.length := by
            unfold Mct.x0 at hx1
            cases hn : s.m.nuiParams s.w with
            | error e => rw [hn] at hx1; cases hx1
            | ok n =>
              rw [hn] at hx1
              rw [← Except.ok.inj hx1, hki]
              have := List.idxOf_lt_length_iff.mpr hp
              simp [Mct.processYields]
              omega
          rw [hki, hxa, List.getElem?_eq_getElem (by rw [← hki]; exact e1)]
          rfl
        · rw [hxb k hki]
      rcases Nat.lt_or_gt_of_ne hne with hlt | hlt
      · have := key x2.length
        rw [List.getElem?_eq_none le_rfl, List.getElem?_eq_getElem hlt] at this
        cases this
      · have := key x1.length
        rw [List.getElem?_eq_none (le_refl x1.length), List.getElem?_eq_getElem hlt] at this
        cases this
    have hobj := objective_params hpo h.coherent s.m hw.lt
    have hfeas : SFeasible (z.scipyCall (objective s.w s.m) x1) q2.x := by
      refine ⟨?_, ?_, ?_⟩
      · show q2.x.length = x1.length
        rw [← hxl]; exact f2.1
      · intro k b v hb hv
        refine f2.2.1 k b v ?_ hv
        show (z.setFixed (.str (p ++ "_yield"))).2.bounds[k]? = some b
        rw [hsf.1]; exact hb
      · rw [feasible_iff]; exact .inl hzf
    have hcmp := t1 q2.x q2.fval hfeas (by
      have : (z.scipyCall (objective s.w s.m) x1).fcn = objective s.w s.m := rfl
      rw [this, ← hobj]; exact t2)
    rw [← hf1, ← hf2, ha] at hcmp
    rw [← hf2] at t3
    rw [ha] at hv'
    cases hr2 : r2.fval with
    | nan => exact absurd hr2 t3
    | ninf => rw [hr2] at hcmp; exact absurd trivial hcmp
    | pinf =>
      right
      refine ⟨rfl, ?_⟩
      rw [hv', hr2]
      have e1 : (Fl.pinf - Fl.fin a : Fl) = .pinf := rfl
      have e2 : (Fl.fin 2 * Fl.pinf : Fl) = .pinf := by
        show Fl.mulPinf 2 = _
        simp [Fl.mulPinf]
      rw [e1, e2]
      rfl
    | fin b =>
      left
      rw [hr2] at hcmp
      have hab : a ≤ b := not_lt.mp hcmp
      refine ⟨b, rfl, hab, ?_⟩
      rw [hv', hr2]
      simp only [Fl.fin_sub, Fl.fin_mul]
      rw [Fl.sqrt_fin (by linarith)]

/-! ### a scipy that finds true minima -/

namespace Ex

/-- `r` is a true minimum of the scipy problem -/
def IsMinS (c : ScipyCall) (r : ScipyOut) : Prop :=
  r.success = true ∧ SFeasible c r.x ∧ c.fcn r.x = .ok r.fval ∧ r.fval ≠ .nan ∧
    ∀ y v, SFeasible c y → c.fcn y = .ok v → ¬ v.lt r.fval

/-- finds the true minimum whenever there is one, otherwise reports failure; the Hesse matrix is the unit matrix -/
def optMinS : Optim where
  minuit := fun _ => .error .runtimeError
  minuitEvals := fun _ => []
  scipy := fun c => if h : ∃ r, IsMinS c r then .ok h.choose else .ok ⟨false, [], 0⟩
  scipyEvals := fun _ => []
  hessian := fun v => .ok (Mat.ofMatrix (1 : Matrix (Fin v.length) (Fin v.length) ℝ))

theorem optMinS_true : TrueMinScipy optMinS := by
  intro c r h hs
  simp only [optMinS] at h
  by_cases hc : ∃ r, IsMinS c r
  · rw [dif_pos hc] at h
    have := hc.choose_spec
    injection h with h
    rw [h] at this
    exact this.2
  · rw [dif_neg hc] at h
    injection h with h
    rw [← h] at hs; cases hs

theorem optMinS_ok {c : ScipyCall} {r : ScipyOut} (h : IsMinS c r) : ∃ r', optMinS.scipy c = .ok r' ∧ IsMinS c r' := by
  have hc : ∃ r, IsMinS c r := ⟨r, h⟩
  exact ⟨hc.choose, by simp only [optMinS]; rw [dif_pos hc], hc.choose_spec⟩

/-- a scan point is found or failed -/
theorem optMinS_point (fcn : Vec → Except Err Fl) (names : List String) (x : Vec) (hx : x.length = names.length) (i : ℕ) (pt : Fl) :
    ∃ res, PointIs optMinS .scipy fcn names x i pt res := by
  by_cases hc : ∃ r, IsMinS (scanScipy fcn names x i pt) r
  · obtain ⟨r, hr⟩ := hc
    obtain ⟨r', h1, h2⟩ := optMinS_ok hr
    refine ⟨.found r'.fval, r', h1, rfl, h2.1, ?_⟩
    have := h2.2.1.1
    rw [this]
    show (x.set i pt).length = _
    rw [List.length_set, hx]
  · exact ⟨.failed, .inr ⟨⟨false, [], 0⟩, by simp only [optMinS]; rw [dif_neg hc], rfl⟩⟩

end Ex

/-- a fit with this scipy returns if the problem handed over has a minimum -/
theorem doFit_optMinS {s : Sys} (hs : s.Reachable) {hist : List FitOp} (hk : KnownIds (s.m.paramNames s.w) hist) {x0 : Vec}
    (hx : s.m.x0 s.w = .ok x0) (hl : x0.length = (s.m.paramNames s.w).length) (fixNui : Bool)
    (hmin : ∃ r, Ex.IsMinS ((minRun .scipy (s.m.paramNames s.w)
      (setupOps (fitRun "scipy" hist) s.m.numProcesses (s.m.numNui s.w) fixNui none)).scipyCall (objective s.w s.m) x0) r) :
    ∃ r, ((fitRun "scipy" hist).doFit Ex.optMinS s.w s.m false true fixNui none).1 = .ok r ∧
      r.params.values.length = (s.m.paramNames s.w).length ∧ r.params.names = s.m.paramNames s.w ∧
      ∃ rr, Ex.IsMinS ((minRun .scipy (s.m.paramNames s.w)
        (setupOps (fitRun "scipy" hist) s.m.numProcesses (s.m.numNui s.w) fixNui none)).scipyCall (objective s.w s.m) x0) rr ∧
        r.fval = rr.fval ∧ r.params.values = rr.x := by
  obtain ⟨rr, hrr⟩ := hmin
  obtain ⟨r', h1, h2⟩ := Ex.optMinS_ok hrr
  have hzw := minRun_wf .scipy (s.m.paramNames s.w)
    (setupOps (fitRun "scipy" hist) s.m.numProcesses (s.m.numNui s.w) fixNui none)
  have hrl : r'.x.length = (s.m.paramNames s.w).length := by rw [h2.2.1.1]; exact hl
  obtain ⟨N, hN1, hN2⟩ := npInv_isReal (isReal_ofMatrix (1 : Matrix (Fin r'.x.length) (Fin r'.x.length) ℝ)) (by simp)
  rw [doFit_eq hs (minKind_scipy lower_scipy) hk]
  unfold runMinimizer Minimizer.minimize
  rw [hx, hzw.hk]
  simp only
  rcases scipy_cases Ex.optMinS _ (objective s.w s.m) x0 true with ⟨e, he, hh⟩ | ⟨q, hq, hh⟩
  · rw [h1] at he; cases he
  · rw [h1] at hq
    obtain rfl := Except.ok.inj hq
    have hH : Ex.optMinS.hessian r'.x = .ok (Mat.ofMatrix (1 : Matrix (Fin r'.x.length) (Fin r'.x.length) ℝ)) := rfl
    rcases hh with ⟨hh, _⟩ | ⟨_, hh, _⟩ | ⟨_, _, ⟨hh, _⟩ | ⟨_, e, hh, _⟩ | ⟨_, H, C, hh1, hh2, hh3, _⟩ | ⟨_, H, C, _, _, _, hh⟩⟩
    · rw [h2.1] at hh; cases hh
    · rw [hzw.hn] at hh; exact absurd hrl hh
    · cases hh
    · rcases hh with hh | ⟨H, hh1, hh2⟩
      · rw [hH] at hh; cases hh
      · rw [hH] at hh1
        rw [← Except.ok.inj hh1, hN1] at hh2
        cases hh2
    · rw [hH] at hh1
      rw [← Except.ok.inj hh1, hN1] at hh2
      obtain rfl := Except.ok.inj hh2
      exfalso
      apply hh3
      rw [hzw.hn, ← hrl]
      simp [Mat.diag, hN2.1]
    · rw [hh]
      exact ⟨_, rfl, hrl, hzw.hn, r', h2, rfl, rfl⟩

/-- non-vacuity of C106, C109 with scipy: a fit of the two-channel example to its own Asimov data with this scipy returns, with
the minimum 0; so does the profile -/
example : TrueMinScipy Ex.optMinS ∧
    ∃ r, ((Fitter.new "scipy").doFit Ex.optMinS Ex.sysQA.w Ex.sysQA.m false true false none).1 = .ok r ∧ r.fval = .fin 0 ∧
    ∃ sched R w', (Fitter.new "scipy").profile Ex.optMinS Ex.sysQA.w Ex.sysQA.m (.str "p_yield") 4 100 (.fin 2) true false sched =
      (.ok (some R), w') := by
  refine ⟨Ex.optMinS_true, ?_⟩
  obtain ⟨q1, q2, q3, q4, q5, q6, q7, q8, q9, q10, q11, d, q12, q13, q14⟩ := asimov_exact Ex.sysQ Ex.sysQ_built
    (by simp [Ex.sysQ, Ex.mQ]) Ex.SQ Ex.modelQ (by simp [Ex.sysQ, Ex.mQ, Mct.chanIds, Ex.wQ, Ex.chQa, Ex.chQb, AllTuple])
    Ex.yQ Ex.paramsQ Ex.sumsQ (fun _ => 8)
    (by simp only [Ex.sysQ]; intro p hp; simp [Ex.mQ] at hp; subst hp; exact Ex.yieldQ) Ex.shareQ
    (fun _ => 0) (fun _ => 1) (by intro p hp; simp [Ex.sysQ, Ex.mQ] at hp) (by intro p hp; simp [Ex.sysQ, Ex.mQ] at hp)
    Ex.posQ Ex.identQ Ex.sysQA rfl
  have hne : Ex.sysQA.m.channels ≠ [] := by rw [q2]; simp [Ex.sysQ, Ex.mQ]
  obtain ⟨m1, m2⟩ := C106_minimum Ex.sysQA q1 hne Ex.SQ q7 d q12 q13 _ _ q9 (fun _ => 8) q8 q14 q10 q11
  have hal := C51_aligned Ex.sysQA q1.reachable
  have hkn : KnownIds (Ex.sysQA.m.paramNames Ex.sysQA.w) [] := ⟨by simp, by simp⟩
  have hx : Ex.sysQA.m.x0 Ex.sysQA.w = .ok (paramVec Ex.sysQA Ex.SQ (fun _ => 8) fun _ _ _ => 0) := by rw [q4, q5, q6]
  have hl := paramVec_length (reachable_wf q1.reachable) q7 (fun _ => 8) (fun _ _ _ => 0)
  have hnone : ∀ (k : ℕ) (b : Bounds) (v : Fl),
      ((Ex.sysQA.m.paramNames Ex.sysQA.w).map fun _ => ((none, none) : Bounds))[k]? = some b → InBounds b v := by
    intro k b v hb
    have := List.mem_of_getElem? hb
    simp at this
    rw [this.2]
    exact ⟨fun _ h => (by cases h), fun _ h => (by cases h)⟩
  obtain ⟨r, hr, hrl, -, -⟩ := doFit_optMinS q1.reachable hkn hx (by rw [hl, hal.1]) false (by
    rw [free_scipy]
    refine ⟨⟨true, _, .fin 0⟩, rfl, ⟨rfl, fun k b v hb _ => hnone k b v hb, fun g hg => absurd hg List.not_mem_nil⟩, m1, by simp, ?_⟩
    intro y v hy hv
    exact (m2 y v (by rw [hy.1]; exact hl) hv).1)
  refine ⟨r, hr, ?_, ?_⟩
  · exact (C106_scipy Ex.sysQA q1 hne Ex.SQ q7 d q12 q13 _ _ q9 (fun _ => 8) hx q8 q14 q10 q11 Ex.optMinS Ex.optMinS_true "scipy"
      lower_scipy [] hkn false true false none (by intro pid b hb; simp at hb) (by intro b hb; cases hb) r hr).1
  · have hden : Denotes (Ex.sysQA.m.paramNames Ex.sysQA.w) (.str "p_yield") 0 := by
      have hp : "p" ∈ Ex.sysQA.m.processes := by rw [q2]; simp [Ex.sysQ, Ex.mQ]
      have := yield_denotes q1.reachable hp
      rw [show Ex.sysQA.m.processes.idxOf "p" = 0 by rw [q2]; simp [Ex.sysQ, Ex.mQ]] at this
      exact this
    obtain ⟨R, hR⟩ := C68_returns Ex.sysQA q1 (Fitter.new "scipy") .scipy (minKind_scipy lower_scipy) Ex.optMinS false r hr
      (.str "p_yield") 0 hden 100 (.fin 2) true (fun pt => Ex.optMinS_point _ _ _ hrl 0 pt)
    obtain ⟨-, sched, hs⟩ := hR 4 (by omega) []
    exact ⟨_, R, _, Prod.ext hs rfl⟩

namespace Ex

/-- the yield between 0 and 2, the nuisance parameters at 0 -/
def histB : List FitOp :=
  [.bound (.str "p_yield") (some (.fin 0), some (.fin 2)), .bound (.int 1) (some (.fin 0), some (.fin 0)),
   .bound (.int 2) (some (.fin 0), some (.fin 0))]

def boundsB : List Bounds := [(some (.fin 0), some (.fin 2)), (some (.fin 0), some (.fin 0)), (some (.fin 0), some (.fin 0))]

theorem knownB : KnownIds (sysZ.m.paramNames sysZ.w) histB := by
  rw [namesZ]
  constructor
  · intro pid hp; simp [histB] at hp
  · intro pid b hp
    simp [histB] at hp
    rcases hp with ⟨rfl, -⟩ | ⟨rfl, -⟩ | ⟨rfl, -⟩
    · exact ⟨0, by rw [denotes_iff]; simp [idToIndex]⟩
    · exact ⟨1, by rw [denotes_iff]; simp [idToIndex]⟩
    · exact ⟨2, by rw [denotes_iff]; simp [idToIndex]⟩

theorem inBounds_fin {a b : ℝ} {v : Fl} (h : InBounds (some (.fin a), some (.fin b)) v) : ∃ x : ℝ, v = .fin x ∧ a ≤ x ∧ x ≤ b := by
  have h1 := h.1 _ rfl
  have h2 := h.2 _ rfl
  cases v with
  | fin x =>
    refine ⟨x, rfl, ?_, ?_⟩
    · rcases h1 with h1 | h1
      · exact le_of_lt h1
      · exact le_of_eq h1
    · rcases h2 with h2 | h2
      · exact le_of_lt h2
      · exact le_of_eq h2
  | pinf => rcases h2 with h2 | h2 <;> exact absurd h2 id
  | ninf => rcases h1 with h1 | h1 <;> exact absurd h1 id
  | nan => rcases h1 with h1 | h1 <;> exact absurd h1 id

/-- the admissible points -/
theorem feasB {c : ScipyCall} (hb : c.bounds = boundsB) (hx : c.x0.length = 3) {y : Vec} (h : SFeasible c y) :
    ∃ x : ℝ, y = [.fin x, .fin 0, .fin 0] ∧ 0 ≤ x := by
  obtain ⟨h1, h2, -⟩ := h
  rw [hx] at h1
  match y, h1 with
  | [a, b, d], _ =>
    obtain ⟨x, rfl, e1, -⟩ := inBounds_fin (h2 0 _ a (by rw [hb]; rfl) rfl)
    obtain ⟨x1, rfl, e2, e3⟩ := inBounds_fin (h2 1 _ b (by rw [hb]; rfl) rfl)
    obtain ⟨x2, rfl, e4, e5⟩ := inBounds_fin (h2 2 _ d (by rw [hb]; rfl) rfl)
    rw [le_antisymm e3 e2, le_antisymm e5 e4]
    exact ⟨x, rfl, e1⟩

/-- the minimum, with or without the yield fixed at zero -/
theorem minB {c : ScipyCall} (hf : c.fcn = objective sysZ.w sysZ.m) (hb : c.bounds = boundsB) (hx : c.x0.length = 3)
    (hc : Feasible c [.fin 0, .fin 0, .fin 0]) : IsMinS c ⟨true, [.fin 0, .fin 0, .fin 0], .fin 0⟩ := by
  refine ⟨rfl, ⟨hx.symm, fun k b v hbk hv => ?_, hc⟩, by rw [hf]; exact nllZ 0 le_rfl, by simp, fun y v hy hv => ?_⟩
  · rw [hb] at hbk
    have key : ∀ b' ∈ boundsB, InBounds b' (.fin 0) := by
      intro b' hb'
      simp only [boundsB, List.mem_cons, List.not_mem_nil, or_false] at hb'
      have z0 : ∀ x : ℝ, 0 ≤ x → InBounds (some (.fin 0), some (.fin x)) (.fin 0) := by
        intro x hx
        refine ⟨fun lo h => ?_, fun hi h => ?_⟩
        · cases h; exact .inr rfl
        · cases h
          rcases eq_or_lt_of_le hx with h | h
          · exact .inr h
          · exact .inl h
      rcases hb' with rfl | rfl | rfl
      · exact z0 2 (by norm_num)
      · exact z0 0 le_rfl
      · exact z0 0 le_rfl
    have hv0 : v = .fin 0 := by
      have := List.mem_of_getElem? hv
      simpa using this
    rw [hv0]
    exact key b (List.mem_of_getElem? hbk)
  · obtain ⟨x, rfl, h0⟩ := feasB hb hx hy
    rw [hf, nllZ x h0] at hv
    rw [← Except.ok.inj hv]
    exact not_lt.mpr h0

end Ex

/-- non-vacuity of `C71_scipy_partial`: no data, yield bounded to [0, 2], nuisance parameters to 0: the significance is 0 -/
example : ((fitRun "scipy" Ex.histB).getSignificance Ex.optMinS Ex.sysZ.w Ex.sysZ.m "p" false).1 = .ok (.fin 0) := by
  have hp : "p" ∈ Ex.sysZ.m.processes := by simp [Ex.sysZ, Ex.mZ]
  have hR := Ex.sysZ_built.reachable
  have hal := C51_aligned Ex.sysZ hR
  have hlen : (Ex.sysZ.m.paramNames Ex.sysZ.w).length = 3 := by rw [Ex.namesZ]; rfl
  have hpo := setYield_paramOnly Ex.sysZ.w Ex.sysZ.m "p" 0
  have hB2 : (Ex.sysZ.step (.setYield "p" 0)).Built := Sys.Built.step Ex.sysZ_built (by simp [Op.structural])
  have hn2 : Ex.sysZ.m.paramNames (Ex.sysZ.step (.setYield "p" 0)).w = Ex.sysZ.m.paramNames Ex.sysZ.w :=
    (names_params hpo Ex.sysZ.m).1
  have hu2 : Ex.sysZ.m.numNui (Ex.sysZ.step (.setYield "p" 0)).w = Ex.sysZ.m.numNui Ex.sysZ.w :=
    (names_params hpo Ex.sysZ.m).2
  have hobj : objective (Ex.sysZ.step (.setYield "p" 0)).w Ex.sysZ.m = objective Ex.sysZ.w Ex.sysZ.m :=
    objective_params hpo Ex.sysZ_built.coherent Ex.sysZ.m (reachable_wf hR).lt
  have hz1 : ∀ x0, (minRun .scipy (Ex.sysZ.m.paramNames Ex.sysZ.w) (setupOps (fitRun "scipy" Ex.histB) Ex.sysZ.m.numProcesses
      (Ex.sysZ.m.numNui Ex.sysZ.w) false none)).scipyCall (objective Ex.sysZ.w Ex.sysZ.m) x0 =
      ⟨objective Ex.sysZ.w Ex.sysZ.m, x0, Ex.boundsB, []⟩ := by
    intro x0
    have e1 : (fitRun "scipy" Ex.histB).boundParams = [(.str "p_yield", (some (.fin 0), some (.fin 2))),
        (.int 1, (some (.fin 0), some (.fin 0))), (.int 2, (some (.fin 0), some (.fin 0)))] := by
      simp [fitRun, Ex.histB, fitStep, Fitter.setBounds, Fitter.new, dictSet]
    have e2 : (fitRun "scipy" Ex.histB).fixedParams = [] := by
      simp [fitRun, Ex.histB, fitStep, Fitter.setBounds, Fitter.new, dictSet]
    rw [Ex.namesZ]
    simp only [setupOps, e1, e2]
    simp [minRun, minStep, Minimizer.new, Minimizer.setBounds,
      idToIndex, Params.new, Minimizer.scipyCall, scipyConstraints, Ex.boundsB]
  have hz2 : ∀ x0, (minRun .scipy (Ex.sysZ.m.paramNames Ex.sysZ.w) (setupOps (fitRun "scipy" (Ex.histB ++ [.fix (.str "p_yield")]))
      Ex.sysZ.m.numProcesses (Ex.sysZ.m.numNui Ex.sysZ.w) false none)).scipyCall (objective Ex.sysZ.w Ex.sysZ.m) x0 =
      ⟨objective Ex.sysZ.w Ex.sysZ.m, x0, Ex.boundsB, [fun x => x.getD 0 0 - x0.getD 0 0]⟩ := by
    intro x0
    have e1 : (fitRun "scipy" (Ex.histB ++ [.fix (.str "p_yield")])).boundParams = [(.str "p_yield", (some (.fin 0), some (.fin 2))),
        (.int 1, (some (.fin 0), some (.fin 0))), (.int 2, (some (.fin 0), some (.fin 0)))] := by
      simp [fitRun, Ex.histB, fitStep, Fitter.setBounds, Fitter.setFixed, Fitter.new, dictSet]
    have e2 : (fitRun "scipy" (Ex.histB ++ [.fix (.str "p_yield")])).fixedParams = [.str "p_yield"] := by
      simp [fitRun, Ex.histB, fitStep, Fitter.setBounds, Fitter.setFixed, Fitter.new, dictSet]
    rw [Ex.namesZ]
    simp only [setupOps, e1, e2]
    simp [minRun, minStep, Minimizer.new, Minimizer.setBounds, Minimizer.setFixed,
      idToIndex, Params.new, Minimizer.scipyCall, scipyConstraints, Ex.boundsB]
  have hxl0 : ∀ x0 : Vec, Ex.sysZ.m.x0 Ex.sysZ.w = .ok x0 → x0 = [.fin 2, .fin 0, .fin 0] := fun x0 h => by
    rw [Ex.x0Z] at h; exact (Except.ok.inj h).symm
  have hx2 : Ex.sysZ.m.x0 (Ex.sysZ.step (.setYield "p" 0)).w = .ok [.fin 0, .fin 0, .fin 0] := by
    obtain ⟨y, hy, hyl, -⟩ := (C51_aligned _ hB2.reachable).2.2.2
      ⟨0, by simp [Ex.sysZ, Ex.mZ, Mct.chanIds, Sys.step], by
        show ((Ex.sysZ.m.setYield Ex.sysZ.w "p" 0).2.chans 0).templates ≠ []
        rw [hpo.chans]; simp [Ex.sysZ, Ex.wZ, Ex.chZ]⟩
    have hy : Ex.sysZ.m.x0 (Ex.sysZ.m.setYield Ex.sysZ.w "p" 0).2 = .ok y := hy
    obtain ⟨g1, g2⟩ := x0_setYield hR Ex.sysZ_hyps.1 Ex.sysZ_hyps.2 hp Ex.x0Z hy
    show Ex.sysZ.m.x0 (Ex.sysZ.m.setYield Ex.sysZ.w "p" 0).2 = _
    rw [hy]
    congr 1
    have hi : Ex.sysZ.m.processes.idxOf "p" = 0 := by simp [Ex.sysZ, Ex.mZ]
    rw [hi] at g1 g2
    apply List.ext_getElem?
    intro k
    by_cases h0 : k = 0
    · subst h0; rw [g1]; rfl
    · rw [g2 k h0]
      match k with
      | 0 => exact absurd rfl h0
      | 1 => rfl
      | 2 => rfl
      | (n + 3) => rfl
  obtain ⟨r1, hr1, -, hn1, q1, hq1, hf1, hv1⟩ := doFit_optMinS hR Ex.knownB Ex.x0Z (by rw [hlen]; rfl) false (by
    rw [hz1]
    exact ⟨_, Ex.minB rfl rfl rfl (fun g hg => absurd hg List.not_mem_nil)⟩)
  have hk2 : KnownIds (Ex.sysZ.m.paramNames Ex.sysZ.w) (Ex.histB ++ [.fix (.str "p_yield")]) := by
    constructor
    · intro pid hpm
      simp [Ex.histB] at hpm
      subst hpm
      rw [Ex.namesZ]
      exact ⟨0, by rw [denotes_iff]; simp [idToIndex]⟩
    · intro pid b hpm
      refine Ex.knownB.2 pid b ?_
      simpa using hpm
  obtain ⟨r2, hr2, -, hn2', q2, hq2, hf2, hv2⟩ := doFit_optMinS (s := Ex.sysZ.step (.setYield "p" 0)) hB2.reachable
    (hist := Ex.histB ++ [.fix (.str "p_yield")]) (by
      show KnownIds (Ex.sysZ.m.paramNames (Ex.sysZ.step (.setYield "p" 0)).w) _
      rw [hn2]; exact hk2) hx2 (by
      show _ = (Ex.sysZ.m.paramNames (Ex.sysZ.step (.setYield "p" 0)).w).length
      rw [hn2, hlen]; rfl) false (by
      show ∃ r, Ex.IsMinS ((minRun .scipy (Ex.sysZ.m.paramNames (Ex.sysZ.step (.setYield "p" 0)).w) (setupOps _
        Ex.sysZ.m.numProcesses (Ex.sysZ.m.numNui (Ex.sysZ.step (.setYield "p" 0)).w) false none)).scipyCall
          (objective (Ex.sysZ.step (.setYield "p" 0)).w Ex.sysZ.m) _) r
      rw [hn2, hu2, hobj, hz2]
      refine ⟨_, Ex.minB rfl rfl rfl (fun g hg => ?_)⟩
      have hg : g ∈ [fun x : Vec => x.getD 0 0 - ([.fin 0, .fin 0, .fin 0] : Vec).getD 0 0] := hg
      rw [List.mem_singleton] at hg
      rw [hg]
      simp [Fl.zero_def])
  -- values of the two fits
  have uniq : ∀ c : ScipyCall, ∀ q : ScipyOut, c.fcn = objective Ex.sysZ.w Ex.sysZ.m → c.bounds = Ex.boundsB → c.x0.length = 3 →
      Feasible c [.fin 0, .fin 0, .fin 0] → Ex.IsMinS c q → q.fval = .fin 0 ∧ q.x = [.fin 0, .fin 0, .fin 0] := by
    intro c q c1 c2 c3 c4 hq
    obtain ⟨x, hx, h0⟩ := Ex.feasB c2 c3 hq.2.1
    have hv := hq.2.2.1
    rw [hx, c1, Ex.nllZ x h0] at hv
    have hm := Ex.minB c1 c2 c3 c4
    have := hq.2.2.2.2 _ _ hm.2.1 hm.2.2.1
    rw [← Except.ok.inj hv] at this
    have hx0 : x = 0 := le_antisymm (not_lt.mp this) h0
    exact ⟨by rw [← Except.ok.inj hv, hx0], by rw [hx, hx0]⟩
  rw [hz1] at hq1
  obtain ⟨u1, u2⟩ := uniq _ q1 rfl rfl rfl (fun g hg => absurd hg List.not_mem_nil) hq1
  have hq2 : Ex.IsMinS ((minRun .scipy (Ex.sysZ.m.paramNames (Ex.sysZ.step (.setYield "p" 0)).w) (setupOps
        (fitRun "scipy" (Ex.histB ++ [.fix (.str "p_yield")]))
        Ex.sysZ.m.numProcesses (Ex.sysZ.m.numNui (Ex.sysZ.step (.setYield "p" 0)).w) false none)).scipyCall
          (objective (Ex.sysZ.step (.setYield "p" 0)).w Ex.sysZ.m) [.fin 0, .fin 0, .fin 0]) q2 := hq2
  rw [hn2, hu2, hobj, hz2] at hq2
  obtain ⟨u3, u4⟩ := uniq _ q2 rfl rfl rfl (fun g hg => by
      have hg : g ∈ [fun x : Vec => x.getD 0 0 - ([.fin 0, .fin 0, .fin 0] : Vec).getD 0 0] := hg
      rw [List.mem_singleton] at hg
      rw [hg]
      simp [Fl.zero_def]) hq2
  obtain ⟨y, hy, -, g2⟩ := (C71_formula Ex.sysZ Ex.sysZ_built (fitRun "scipy" Ex.histB) Ex.optMinS "p" hp
    false _ _ rfl rfl).2 r1 hr1
  have hpid : "p" ++ "_yield" = "p_yield" := rfl
  have hd : Denotes (Ex.sysZ.m.paramNames Ex.sysZ.w) (.str "p_yield") 0 := by
    rw [Ex.namesZ, denotes_iff]; simp [idToIndex, List.idxOf_cons]
  have hyv : y = .fin 0 := by
    rw [hpid] at hy
    simp only [Params.getValue, hn1, (denotes_iff _ _ _).mp hd, hv1, u2, List.getElem?_cons_zero, Except.ok.injEq] at hy
    exact hy.symm
  obtain ⟨-, g3⟩ := g2 (by rw [hyv, Fl.zero_def]; simp [Fl.lt])
  have hr2 : (((fitRun "scipy" Ex.histB).setFixed (.str ("p" ++ "_yield"))).doFit Ex.optMinS (Ex.sysZ.step (.setYield "p" 0)).w
      Ex.sysZ.m false true false none).1 = .ok r2 := by
    rw [← hr2]
    have : (fitRun "scipy" (Ex.histB ++ [.fix (.str "p_yield")])) = (fitRun "scipy" Ex.histB).setFixed (.str "p_yield") := by
      simp [fitRun, List.foldl_append, fitStep]
    rw [this]
    rfl
  have hs := g3 r2 hr2
  rw [hs, hf1, hf2, u1, u3]
  simp only [Fl.fin_sub, Fl.fin_mul, sub_self, mul_zero]
  rw [Fl.sqrt_fin le_rfl]
  simp

end

end TF.Props
