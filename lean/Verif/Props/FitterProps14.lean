import Verif.Props.FitterProps12
import Verif.Props.FitterProps13

set_option linter.unusedSimpArgs false

/-!
# Expected significance (C119)
-/

namespace TF.Props

open Classical Spec
open scoped Matrix

noncomputable section

/-- the value `get_significance` reads is the entry of the parameter vector of the fit -/
theorem getValue_entry {p : Params} {names : List String} (hn : p.names = names) {pid : ParamId} {k : ℕ}
    (hd : idToIndex names pid = .ok k) {y : Fl} (hy : p.getValue pid = .ok y) : p.values[k]? = some y := by
  simp only [Params.getValue, hn, hd] at hy
  split at hy <;> simp_all

theorem doFit_names {f : Fitter} {o : Optim} {w : World} {m : Mct} {g fixNui : Bool} {lim : Option Bounds}
    {kd : MinKind} (hid : minKindOf f.minimizerId = .ok kd) {z : Minimizer}
    (hz : f.setup kd (m.paramNames w) m.numProcesses (m.numNui w) fixNui lim = .ok z)
    (hzn : MinWF z kd (m.paramNames w)) {r : MinResult}
    (hr : (f.doFit o w m false g fixNui lim).1 = .ok r) : r.params.names = m.paramNames w := by
  unfold Fitter.doFit at hr
  rw [hid] at hr
  simp only at hr
  rw [hz] at hr
  simp only [Bool.false_eq_true, if_false] at hr
  generalize hq : runMinimizer o w m z g = q at hr
  obtain ⟨q1, w1⟩ := q
  cases q1 with
  | error e => simp at hr
  | ok v =>
    obtain ⟨r', z1⟩ := v
    simp only at hr
    have hr := Except.ok.inj hr
    subst hr
    have hok := runMinimizer_ok hq (by rw [hzn.hv, hzn.hn]) (by rw [hzn.he, hzn.hn])
    exact hok.2.1.trans hzn.hn

theorem finiteEffs_of_model {s : Sys} {S : ℕ → ChanSpec} (hS : ModelIs s S) : FiniteEffs s := by
  intro c hc e he
  obtain ⟨k, hk, rfl⟩ := List.getElem_of_mem hc
  have h1 := (hS k hk).2.2.2.effs
  have h2 : e.2 ∈ vec (S k).eff := by rw [← h1]; exact List.mem_map_of_mem he
  unfold vec at h2
  obtain ⟨i, hi⟩ := List.mem_ofFn.mp h2
  exact ⟨_, hi.symm⟩

/-- what the two fits of a significance have to give so that the value follows -/
theorem signif_from_fits {ν0 : ℝ} {v : Fl} {r2v : Fl} (hv : v = Fl.sqrt (.fin 2 * (r2v - .fin 0)))
    (hge : ¬ r2v.lt (.fin 0)) (hnn : r2v ≠ .nan) (hz : r2v = .fin 0 → ν0 = 0) (hz' : ν0 = 0 → r2v = .fin 0) :
    (ν0 = 0 → v = 0) ∧ (0 < ν0 → (∃ b : ℝ, 0 < b ∧ r2v = .fin b ∧ v = .fin (Real.sqrt (2 * b))) ∨ (r2v = .pinf ∧ v = .pinf)) := by
  subst hv
  constructor
  · intro h0
    rw [hz' h0]
    simp only [Fl.fin_sub, Fl.fin_mul, sub_self, mul_zero]
    rw [Fl.sqrt_fin le_rfl, Real.sqrt_zero, Fl.zero_def]
  · intro hpos
    cases r2v with
    | nan => exact absurd rfl hnn
    | ninf => exact absurd trivial hge
    | pinf =>
      right
      refine ⟨rfl, ?_⟩
      have e1 : (Fl.pinf - Fl.fin 0 : Fl) = .pinf := rfl
      have e2 : (Fl.fin 2 * Fl.pinf : Fl) = .pinf := by
        show Fl.mulPinf 2 = _
        simp [Fl.mulPinf]
      rw [e1, e2]
      rfl
    | fin b =>
      left
      have hb : 0 ≤ b := not_lt.mp hge
      have hb' : b ≠ 0 := fun h => hpos.ne' (hz (by rw [h]))
      refine ⟨b, lt_of_le_of_ne hb (Ne.symm hb'), rfl, ?_⟩
      simp only [Fl.fin_sub, Fl.fin_mul, sub_zero]
      rw [Fl.sqrt_fin (by linarith)]

/-- **C119, expected significance (iminuit).** Let the model describe its data exactly at its present parameters (as for
`C106_exact`: zero nuisance parameters, the expectation of each bin is its data, constraints centred on the present yields, yields
identifiable), for instance because the data are its Asimov data. With an optimiser that returns true constrained minima and any
fitter configuration whose bounds contain the present parameters, a value returned by `get_significance` is: 0 if the present
yield `ν p` of the process is zero or negative; otherwise positive, namely the square root of twice the minimum of the fit without
the process (+inf if that fit excludes the data altogether). -/
theorem C119_exact (s : Sys) (h : s.Built) (hne : s.m.channels ≠ []) (hu : Unshared s) (S : ℕ → ChanSpec) (hS : ModelIs s S)
    (d : ∀ k, Fin (S k).n → ℝ) (hd : DataIs s S d) (hpos : ∀ k < s.m.chanIds.length, ∀ i, (1e-100 : ℝ) ≤ d k i)
    (V E : String → ℝ) (hc : ConstraintsAre s V E)
    (ν : String → ℝ) (hx0 : s.m.x0 s.w = .ok (paramVec s S ν fun _ _ _ => 0))
    (hT0 : NonZeroSums s S fun _ _ _ => 0)
    (hdata : ∀ k < s.m.chanIds.length, ∀ i, expectedIn s S ν (fun _ _ _ => 0) k i = d k i)
    (hV : ∀ p ∈ s.m.constrained, V p = ν p) (hid : Identifiable s S)
    (o : Optim) (ho : TrueMin o) (id : String) (hmin : id.toLower = "iminuit") (hist : List FitOp)
    (hk : KnownIds (s.m.paramNames s.w) hist) (fixNui : Bool)
    (hb : ∀ pid b, FitOp.bound pid b ∈ hist → ∀ k v, Denotes (s.m.paramNames s.w) pid k →
      (paramVec s S ν fun _ _ _ => 0)[k]? = some v → InBounds b v)
    (p : String) (hp : p ∈ s.m.processes)
    (v : Fl) (hv : ((fitRun id hist).getSignificance o s.w s.m p fixNui).1 = .ok v) :
    (ν p ≤ 0 → v = 0) ∧
    (0 < ν p → ∃ r2, (((fitRun id hist).setFixed (.str (p ++ "_yield"))).doFit o (s.step (.setYield p 0)).w s.m
          false true fixNui none).1 = .ok r2 ∧
      ((∃ b : ℝ, 0 < b ∧ r2.fval = .fin b ∧ v = .fin (Real.sqrt (2 * b))) ∨ (r2.fval = .pinf ∧ v = .pinf))) := by
  have hw := reachable_wf h.reachable
  have hal := C51_aligned s h.reachable
  have hf := finiteEffs_of_model hS
  have hd1 := yield_denotes h.reachable hp
  have hdi := (denotes_iff _ _ _).mp hd1
  have hm1 : minKindOf (fitRun id hist).minimizerId = .ok .iminuit := by rw [fitRun_id]; exact minKind_iminuit hmin
  have hz := setup_eq (kd := .iminuit) (id := id) hal.1.symm hk fixNui none
  generalize hzz : minRun .iminuit (s.m.paramNames s.w)
      (setupOps (fitRun id hist) s.m.numProcesses (s.m.numNui s.w) fixNui none) = z at hz
  obtain ⟨-, hz2, hzw⟩ := signifSetup_second hdi hz
  obtain ⟨F1, F2⟩ := C71_formula s h (fitRun id hist) o p hp fixNui _ _ rfl rfl
  cases hfit1 : ((fitRun id hist).doFit o s.w s.m false true fixNui none).1 with
  | error e => rw [F1 e hfit1] at hv; cases hv
  | ok r1 =>
  obtain ⟨y, hy, h1, h2⟩ := F2 r1 hfit1
  obtain ⟨e1, e2⟩ := C106_exact s h hne S hS d hd hpos V E hc ν hx0 hT0 hdata hV hid o ho id hmin hist hk false true fixNui none
    hb (by intro b hb; cases hb) r1 hfit1
  rw [hx0] at e2
  have e2 := Except.ok.inj e2
  have hyv : y = .fin (ν p) := by
    have := getValue_entry (doFit_names hm1 hz hzw hfit1) hdi hy
    rw [← e2, paramVec_yield ν _ p hp] at this
    exact (Option.some.inj this).symm
  subst hyv
  rcases lt_or_ge (ν p) 0 with hneg | hnn
  · have hlt : (Fl.fin (ν p)).lt 0 := by rw [Fl.zero_def]; exact hneg
    rw [h1 hlt] at hv
    exact ⟨fun _ => (Except.ok.inj hv).symm, fun hp => absurd hp (not_lt.mpr hneg.le)⟩
  obtain ⟨h3, h4⟩ := h2 (by rw [Fl.zero_def]; exact not_lt.mpr hnn)
  cases hfit2 : (((fitRun id hist).setFixed (.str (p ++ "_yield"))).doFit o (s.step (.setYield p 0)).w s.m
          false true fixNui none).1 with
  | error e => rw [h3 e hfit2] at hv; cases hv
  | ok r2 =>
  have hv' := h4 r2 hfit2
  rw [hv, e1] at hv'
  have hv' := Except.ok.inj hv'
  have hpo := setYield_paramOnly s.w s.m p 0
  have hnm := names_params hpo s.m
  have es2 : (s.step (.setYield p 0)).w = (s.m.setYield s.w p 0).2 := rfl
  rw [es2] at hfit2
  have hm2 : minKindOf ((fitRun id hist).setFixed (.str (p ++ "_yield"))).minimizerId = .ok .iminuit := hm1
  rw [← hnm.1, ← hnm.2] at hz2
  have hsf : (z.setFixed (.str (p ++ "_yield"))).2 =
      { z with fixedFlags := z.fixedFlags.set (s.m.processes.idxOf p) true } := by
    simp [Minimizer.setFixed, hzw.hn, hdi, hzw.hk]
  obtain ⟨x2, q, hx2, hq, hf2, -⟩ := doFit_minuit_inv hm2 hz2 (by rw [hsf]; exact hzw.hk) hfit2
  obtain ⟨f2, t2, t3, t4⟩ := ho _ _ hq
  obtain ⟨hxa, hxb⟩ := x0_setYield h.reachable hu hf hp hx0 hx2
  have hobj := objective_params hpo h.coherent s.m hw.lt
  have hnames : ((z.setFixed (.str (p ++ "_yield"))).2.minuitCall (objective (s.m.setYield s.w p 0).2 s.m) x2).names =
      s.m.paramNames s.w := by rw [hsf]; exact hzw.hn
  have hplen := paramVec_length hw hS ν (fun _ _ _ => 0)
  have hql : q.values.length = s.m.numProcesses + s.m.numNui s.w := by rw [f2.1, hnames, hal.1]
  have hfcn : ((z.setFixed (.str (p ++ "_yield"))).2.minuitCall (objective (s.m.setYield s.w p 0).2 s.m) x2).fcn =
      objective s.w s.m := hobj
  have hltn : s.m.processes.idxOf p < (s.m.paramNames s.w).length := denotes_lt hd1
  have hlf : s.m.processes.idxOf p < z.fixedFlags.length := by
    have hfx := C58_iminuit (s.m.paramNames s.w) (setupOps (fitRun id hist) s.m.numProcesses (s.m.numNui s.w) fixNui none)
      (objective s.w s.m) x2
    rw [hzz] at hfx
    simp only [Minimizer.minuitCall] at hfx
    rw [hfx]; simpa using hltn
  obtain ⟨m1, m2⟩ := C106_minimum s h hne S hS d hd hpos V E hc ν hT0 hdata hV hid
  rw [hfcn] at t2
  obtain ⟨m3, m4⟩ := m2 q.values q.fval hql t2
  have hfixed : q.values[s.m.processes.idxOf p]? = some 0 := by
    rw [← hxa]
    refine (f2.2 _ (by rw [hnames]; exact hltn)).1 ?_
    rw [hsf]
    exact List.getElem?_set_self hlf
  obtain ⟨g1, g2⟩ := signif_from_fits (ν0 := ν p) (r2v := r2.fval) hv' (by rw [hf2]; exact m3) (by rw [hf2]; exact t3)
    (by
      intro hz0
      rw [m4 (by rw [← hf2, hz0]), paramVec_yield ν _ p hp, Fl.zero_def] at hfixed
      exact Fl.fin.inj (Option.some.inj hfixed))
    (by
      intro hz0
      have hx2e : x2 = paramVec s S ν fun _ _ _ => 0 := by
        apply List.ext_getElem?
        intro k
        by_cases hki : k = s.m.processes.idxOf p
        · rw [hki, hxa, paramVec_yield ν _ p hp, hz0, Fl.zero_def]
        · exact hxb k hki
      have hcmp := t4 (paramVec s S ν fun _ _ _ => 0) (.fin 0) (by
        refine ⟨by rw [hnames, hal.1, hplen], fun k hkn => ⟨fun _ => ?_, fun _ b v hbb hv => ?_⟩⟩
        · show _ = x2[k]?
          rw [hx2e]
        rw [hnames] at hkn
        have hbb' : z.bounds[k]? = some b := by rw [hsf] at hbb; exact hbb
        rw [← hzz] at hbb'
        rcases setup_bounds_mem hkn hbb' with rfl | ⟨pid, hp1, hp2⟩
        · exact ⟨fun _ h => (by cases h), fun _ h => (by cases h)⟩
        · exact hb pid b hp1 k v hp2 hv) (by rw [hfcn]; exact m1)
      rw [hf2]
      cases hfv : q.fval with
      | nan => exact absurd hfv t3
      | ninf => rw [hfv] at m3; exact absurd trivial m3
      | pinf => rw [hfv] at hcmp; exact absurd trivial hcmp
      | fin b =>
        rw [hfv] at hcmp m3
        have h1 : b ≤ 0 := not_lt.mp hcmp
        have h2 : 0 ≤ b := not_lt.mp m3
        rw [le_antisymm h1 h2])
  exact ⟨fun hle => g1 (le_antisymm hle hnn), fun hpos => ⟨r2, rfl, g2 hpos⟩⟩

/-- **C119, expected significance (scipy).** Let the model describe its data exactly at its present parameters (as for
`C106_scipy`: zero nuisance parameters, the expectation of each bin is its data, constraints centred on the present yields, yields
identifiable), for instance because the data are its Asimov data. With an optimiser that returns true constrained minima and any
fitter configuration whose bounds contain the present parameters, a value returned by `get_significance` is: 0 if the present
yield `ν p` of the process is zero or negative; otherwise positive, namely the square root of twice the minimum of the fit without
the process (+inf if that fit excludes the data altogether). -/
theorem C119_scipy (s : Sys) (h : s.Built) (hne : s.m.channels ≠ []) (hu : Unshared s) (S : ℕ → ChanSpec) (hS : ModelIs s S)
    (d : ∀ k, Fin (S k).n → ℝ) (hd : DataIs s S d) (hpos : ∀ k < s.m.chanIds.length, ∀ i, (1e-100 : ℝ) ≤ d k i)
    (V E : String → ℝ) (hc : ConstraintsAre s V E)
    (ν : String → ℝ) (hx0 : s.m.x0 s.w = .ok (paramVec s S ν fun _ _ _ => 0))
    (hT0 : NonZeroSums s S fun _ _ _ => 0)
    (hdata : ∀ k < s.m.chanIds.length, ∀ i, expectedIn s S ν (fun _ _ _ => 0) k i = d k i)
    (hV : ∀ p ∈ s.m.constrained, V p = ν p) (hid : Identifiable s S)
    (o : Optim) (ho : TrueMinScipy o) (id : String) (hmin : id.toLower = "scipy") (hist : List FitOp)
    (hk : KnownIds (s.m.paramNames s.w) hist) (fixNui : Bool)
    (hb : ∀ pid b, FitOp.bound pid b ∈ hist → ∀ k v, Denotes (s.m.paramNames s.w) pid k →
      (paramVec s S ν fun _ _ _ => 0)[k]? = some v → InBounds b v)
    (p : String) (hp : p ∈ s.m.processes)
    (v : Fl) (hv : ((fitRun id hist).getSignificance o s.w s.m p fixNui).1 = .ok v) :
    (ν p ≤ 0 → v = 0) ∧
    (0 < ν p → ∃ r2, (((fitRun id hist).setFixed (.str (p ++ "_yield"))).doFit o (s.step (.setYield p 0)).w s.m
          false true fixNui none).1 = .ok r2 ∧
      ((∃ b : ℝ, 0 < b ∧ r2.fval = .fin b ∧ v = .fin (Real.sqrt (2 * b))) ∨ (r2.fval = .pinf ∧ v = .pinf))) := by
  have hw := reachable_wf h.reachable
  have hal := C51_aligned s h.reachable
  have hf := finiteEffs_of_model hS
  have hd1 := yield_denotes h.reachable hp
  have hdi := (denotes_iff _ _ _).mp hd1
  have hm1 : minKindOf (fitRun id hist).minimizerId = .ok .scipy := by rw [fitRun_id]; exact minKind_scipy hmin
  have hz := setup_eq (kd := .scipy) (id := id) hal.1.symm hk fixNui none
  generalize hzz : minRun .scipy (s.m.paramNames s.w)
      (setupOps (fitRun id hist) s.m.numProcesses (s.m.numNui s.w) fixNui none) = z at hz
  obtain ⟨-, hz2, hzw⟩ := signifSetup_second hdi hz
  obtain ⟨F1, F2⟩ := C71_formula s h (fitRun id hist) o p hp fixNui _ _ rfl rfl
  cases hfit1 : ((fitRun id hist).doFit o s.w s.m false true fixNui none).1 with
  | error e => rw [F1 e hfit1] at hv; cases hv
  | ok r1 =>
  obtain ⟨y, hy, h1, h2⟩ := F2 r1 hfit1
  obtain ⟨e1, e2⟩ := C106_scipy s h hne S hS d hd hpos V E hc ν hx0 hT0 hdata hV hid o ho id hmin hist hk false true fixNui none
    hb (by intro b hb; cases hb) r1 hfit1
  rw [hx0] at e2
  have e2 := Except.ok.inj e2
  have hyv : y = .fin (ν p) := by
    have := getValue_entry (doFit_names hm1 hz hzw hfit1) hdi hy
    rw [← e2, paramVec_yield ν _ p hp] at this
    exact (Option.some.inj this).symm
  subst hyv
  rcases lt_or_ge (ν p) 0 with hneg | hnn
  · have hlt : (Fl.fin (ν p)).lt 0 := by rw [Fl.zero_def]; exact hneg
    rw [h1 hlt] at hv
    exact ⟨fun _ => (Except.ok.inj hv).symm, fun hp => absurd hp (not_lt.mpr hneg.le)⟩
  obtain ⟨h3, h4⟩ := h2 (by rw [Fl.zero_def]; exact not_lt.mpr hnn)
  cases hfit2 : (((fitRun id hist).setFixed (.str (p ++ "_yield"))).doFit o (s.step (.setYield p 0)).w s.m
          false true fixNui none).1 with
  | error e => rw [h3 e hfit2] at hv; cases hv
  | ok r2 =>
  have hv' := h4 r2 hfit2
  rw [hv, e1] at hv'
  have hv' := Except.ok.inj hv'
  have hpo := setYield_paramOnly s.w s.m p 0
  have hnm := names_params hpo s.m
  have es2 : (s.step (.setYield p 0)).w = (s.m.setYield s.w p 0).2 := rfl
  rw [es2] at hfit2
  have hm2 : minKindOf ((fitRun id hist).setFixed (.str (p ++ "_yield"))).minimizerId = .ok .scipy := hm1
  rw [← hnm.1, ← hnm.2] at hz2
  have hsf : (z.setFixed (.str (p ++ "_yield"))).2.bounds = z.bounds ∧
      (z.setFixed (.str (p ++ "_yield"))).2.kind = .scipy ∧
      (z.setFixed (.str (p ++ "_yield"))).2.fixedIdx = z.fixedIdx ++ [s.m.processes.idxOf p] := by
    simp [Minimizer.setFixed, hzw.hn, hdi, hzw.hk]
  obtain ⟨x2, q, hx2, hq, hsucc, hf2, -⟩ := doFit_scipy_inv hm2 hz2 hsf.2.1 hfit2
  obtain ⟨f2, t2, t3, t4⟩ := ho _ _ hq hsucc
  obtain ⟨hxa, hxb⟩ := x0_setYield h.reachable hu hf hp hx0 hx2
  have hobj := objective_params hpo h.coherent s.m hw.lt
  have hplen := paramVec_length hw hS ν (fun _ _ _ => 0)
  have hpl : s.m.processes.idxOf p < (paramVec s S ν fun _ _ _ => 0).length :=
    (List.getElem?_eq_some_iff.mp (paramVec_yield ν _ p hp)).1
  have hx2s : x2 = (paramVec s S ν fun _ _ _ => 0).set (s.m.processes.idxOf p) 0 := by
    apply List.ext_getElem?
    intro k
    by_cases hki : k = s.m.processes.idxOf p
    · rw [hki, hxa, List.getElem?_set_self hpl]
    · rw [List.getElem?_set_ne (Ne.symm hki)]
      exact hxb k hki
  have hql : q.x.length = s.m.numProcesses + s.m.numNui s.w := by
    rw [f2.1]
    show x2.length = _
    rw [hx2s, List.length_set, hplen]
  have hfcn : ((z.setFixed (.str (p ++ "_yield"))).2.scipyCall (objective (s.m.setYield s.w p 0).2 s.m) x2).fcn =
      objective s.w s.m := hobj
  obtain ⟨m1, m2⟩ := C106_minimum s h hne S hS d hd hpos V E hc ν hT0 hdata hV hid
  rw [hfcn] at t2
  obtain ⟨m3, m4⟩ := m2 q.x q.fval hql t2
  have hfixed : q.x[s.m.processes.idxOf p]? = some 0 := by
    have h1 := (feasible_iff _ _ _ _).mp f2.2.2
    rw [hsf.2.2, List.getLastD_concat] at h1
    rcases h1 with h1 | ⟨r, h1, h2⟩
    · simp at h1
    · rw [List.getD_eq_getElem?_getD, hxa] at h2
      have hlx : s.m.processes.idxOf p < q.x.length := by rw [hql, ← hplen]; exact hpl
      rw [List.getD_eq_getElem?_getD, List.getElem?_eq_getElem hlx] at h1
      rw [List.getElem?_eq_getElem hlx]
      simp only [Option.getD_some] at h1 h2
      rw [h1, h2]
  obtain ⟨g1, g2⟩ := signif_from_fits (ν0 := ν p) (r2v := r2.fval) hv' (by rw [hf2]; exact m3) (by rw [hf2]; exact t3)
    (by
      intro hz0
      rw [m4 (by rw [← hf2, hz0]), paramVec_yield ν _ p hp, Fl.zero_def] at hfixed
      exact Fl.fin.inj (Option.some.inj hfixed))
    (by
      intro hz0
      have hx2e : x2 = paramVec s S ν fun _ _ _ => 0 := by
        apply List.ext_getElem?
        intro k
        by_cases hki : k = s.m.processes.idxOf p
        · rw [hki, hxa, paramVec_yield ν _ p hp, hz0, Fl.zero_def]
        · exact hxb k hki
      have hcmp := t4 (paramVec s S ν fun _ _ _ => 0) (.fin 0) (by
        refine ⟨by show _ = x2.length; rw [hx2e], fun k b v hbb hv => ?_, ?_⟩
        · have hkn : k < (s.m.paramNames s.w).length := by
            rw [hal.1, ← hplen]; exact (List.getElem?_eq_some_iff.mp hv).1
          have hbb' : z.bounds[k]? = some b := by rw [← hsf.1]; exact hbb
          rw [← hzz] at hbb'
          rcases setup_bounds_mem hkn hbb' with rfl | ⟨pid, hp1, hp2⟩
          · exact ⟨fun _ h => (by cases h), fun _ h => (by cases h)⟩
          · exact hb pid b hp1 k v hp2 hv
        · rw [feasible_iff]
          right
          rw [hsf.2.2, List.getLastD_concat, hx2e, List.getD_eq_getElem?_getD, paramVec_yield ν _ p hp]
          exact ⟨_, rfl, rfl⟩) (by rw [hfcn]; exact m1)
      rw [hf2]
      cases hfv : q.fval with
      | nan => exact absurd hfv t3
      | ninf => rw [hfv] at m3; exact absurd trivial m3
      | pinf => rw [hfv] at hcmp; exact absurd trivial hcmp
      | fin b =>
        rw [hfv] at hcmp m3
        have h1 : b ≤ 0 := not_lt.mp hcmp
        have h2 : 0 ≤ b := not_lt.mp m3
        rw [le_antisymm h1 h2])
  exact ⟨fun hle => g1 (le_antisymm hle hnn), fun hpos => ⟨r2, rfl, g2 hpos⟩⟩

theorem unshared_asimov {s s' : Sys} (hu : Unshared s) (q2 : s'.m = s.m)
    (e4 : ∀ c, ∃ d, s'.w.chans c = { s.w.chans c with hdata := d }) : Unshared s' := by
  unfold Unshared
  rw [q2]
  have : (s.m.chanIds.map fun c => (s'.w.chans c).templates.map (·.2)) =
      s.m.chanIds.map fun c => (s.w.chans c).templates.map (·.2) := by
    refine List.map_congr_left fun c _ => ?_
    obtain ⟨d, hd⟩ := e4 c
    rw [hd]
  rw [this]
  exact hu

/-- **C119, Asimov data.** Take any model built channel by channel before evaluation whose nuisance parameters are zero, whose
efficiencies are the channel shares of the process yields `ν`, whose constraints, if any, are centred on the yields, with every bin
expecting events, identifiable yields and no template object used twice. Generate its Asimov data set and use it as data. Then,
with either minimizer finding true constrained minima and bounds that contain the present parameters, a significance returned by
`get_significance(p)` is 0 exactly when the yield the data were generated with is not positive; it is never negative or NaN. -/
theorem C119_asimov (s : Sys) (h : s.Built) (hne : s.m.channels ≠ []) (hu : Unshared s) (S : ℕ → ChanSpec) (hS : ModelIs s S)
    (htup : ∀ c ∈ s.m.chanIds, AllTuple (s.w.chans c).range)
    (y : ∀ k, Fin (S k).K → ℝ) (hp : ParamsAre s S y (fun _ _ _ => 0))
    (hT : ∀ k < s.m.chanIds.length, ∀ j, ∑ i, (S k).cnt j i ≠ 0)
    (ν : String → ℝ) (hν : ∀ p ∈ s.m.processes, s.m.getYield s.w p = .ok (.fin (ν p)))
    (hshare : ∀ k < s.m.chanIds.length, ∀ j, y k j = ν (procName s k j) * (S k).eff j)
    (V E : String → ℝ) (hc : ConstraintsAre s V E) (hV : ∀ p ∈ s.m.constrained, V p = ν p)
    (hpos : ∀ k < s.m.chanIds.length, ∀ i, (1e-100 : ℝ) ≤ ∑ j, y k j * ((S k).cnt j i / ∑ i', (S k).cnt j i'))
    (hid : Identifiable s S) (s' : Sys) (hs' : s' = s.step (.addAsimov false))
    (o : Optim) (id : String) (ho : (id.toLower = "iminuit" ∧ TrueMin o) ∨ (id.toLower = "scipy" ∧ TrueMinScipy o))
    (hist : List FitOp) (hk : KnownIds (s.m.paramNames s.w) hist) (fixNui : Bool)
    (hb : ∀ pid b, FitOp.bound pid b ∈ hist → ∀ k v x0, Denotes (s.m.paramNames s.w) pid k → s.m.x0 s.w = .ok x0 →
      x0[k]? = some v → InBounds b v)
    (p : String) (hpm : p ∈ s.m.processes)
    (v : Fl) (hv : ((fitRun id hist).getSignificance o s'.w s'.m p fixNui).1 = .ok v) :
    (v = 0 ↔ ν p ≤ 0) ∧ ((∃ b : ℝ, 0 ≤ b ∧ v = .fin b) ∨ v = .pinf) := by
  obtain ⟨q1, q2, q3, q4, q5, q6, q7, q8, q9, q10, q11, d, q12, q13, q14⟩ := asimov_exact s h hne S hS htup y hp hT ν hν
    hshare V E hc hV hpos hid s' hs'
  have hu' : Unshared s' := by
    have hT0 : NonZeroSums s S (fun _ _ _ => 0) := by
      intro k hk j
      simpa using hT k hk j
    obtain ⟨e1, e2, e3, e4, e5⟩ := asimov_step s h.reachable S hS htup y _ hp hT0
    rw [← hs'] at e4
    exact unshared_asimov hu q2 e4
  have hx : s'.m.x0 s'.w = .ok (paramVec s' S ν fun _ _ _ => 0) := by rw [q4, q5, q6]
  have hb' : ∀ pid b, FitOp.bound pid b ∈ hist → ∀ k v, Denotes (s'.m.paramNames s'.w) pid k →
      (paramVec s' S ν fun _ _ _ => 0)[k]? = some v → InBounds b v := by
    intro pid b hbm k v hdn hv
    rw [q3] at hdn
    rw [q6] at hv
    exact hb pid b hbm k v _ hdn q5 hv
  have key : (ν p ≤ 0 → v = 0) ∧ (0 < ν p → (∃ b : ℝ, 0 < b ∧ v = .fin b) ∨ v = .pinf) := by
    rcases ho with ⟨hmin, ho⟩ | ⟨hmin, ho⟩
    · obtain ⟨r1, r2⟩ := C119_exact s' q1 (by rw [q2]; exact hne) hu' S q7 d q12 q13 V E q9 ν hx q8 q14 q10 q11
        o ho id hmin hist (by rw [q3]; exact hk) fixNui hb' p (by rw [q2]; exact hpm) v hv
      refine ⟨r1, fun h0 => ?_⟩
      obtain ⟨-, -, ⟨b, b0, -, hb⟩ | ⟨-, hb⟩⟩ := r2 h0
      · exact .inl ⟨_, Real.sqrt_pos.mpr (by linarith), hb⟩
      · exact .inr hb
    · obtain ⟨r1, r2⟩ := C119_scipy s' q1 (by rw [q2]; exact hne) hu' S q7 d q12 q13 V E q9 ν hx q8 q14 q10 q11
        o ho id hmin hist (by rw [q3]; exact hk) fixNui hb' p (by rw [q2]; exact hpm) v hv
      refine ⟨r1, fun h0 => ?_⟩
      obtain ⟨-, -, ⟨b, b0, -, hb⟩ | ⟨-, hb⟩⟩ := r2 h0
      · exact .inl ⟨_, Real.sqrt_pos.mpr (by linarith), hb⟩
      · exact .inr hb
  rcases le_or_gt (ν p) 0 with h0 | h0
  · have hv0 := key.1 h0
    exact ⟨⟨fun _ => h0, fun _ => hv0⟩, .inl ⟨0, le_rfl, by rw [hv0, Fl.zero_def]⟩⟩
  · rcases key.2 h0 with ⟨b, hb, rfl⟩ | rfl
    · refine ⟨⟨fun hz => ?_, fun hz => absurd h0 (not_lt.mpr hz)⟩, .inl ⟨b, hb.le, rfl⟩⟩
      rw [Fl.zero_def] at hz
      exact absurd (Fl.fin.inj hz) hb.ne'
    · exact ⟨⟨fun hz => (by rw [Fl.zero_def] at hz; cases hz), fun hz => absurd h0 (not_lt.mpr hz)⟩, .inr rfl⟩

/-! ### a case: signal with yield zero on top of 6 background events -/

namespace Ex

/-- signal and background in one channel; the signal yield is set to zero -/
def opsSB : List Op :=
  [.binned1 ⟨[2], vec ![1, 1]⟩ ⟨true, [0, 1, 2]⟩ (some ⟨[2], vec ![1, 1]⟩),
   .binned1 ⟨[2], vec ![2, 4]⟩ ⟨true, [0, 1, 2]⟩ (some ⟨[2], vec ![1, 1]⟩), .newTmpl1 "t" 0, .newTmpl1 "u" 1,
   .defineChannel "a" (.int 2) (.d1 .tuple 0 2), .defineProcess "p", .defineProcess "q",
   .addTemplate "a" "p" 0 (.fin 1), .addTemplate "a" "q" 1 (.fin 1), .setYield "p" 0]

def chSB : Channel :=
  ⟨"a", [2], .d1 .tuple 0 2, ["p", "q"], [("p", 0), ("q", 1)], [("p", .fin 1), ("q", .fin 1)], none, some 1, some .t1,
    some .h1⟩

def wSB : World :=
  { World.init with
    hists := Function.update (Function.update (fun _ => dummyHist) 0 (bh ![1, 1] ![1, 1])) 1 (bh ![2, 4] ![1, 1])
    nHists := 2
    tmpls := Function.update (Function.update (fun _ => dummyTmpl) 0
      { bt "t" 0 ![1, 1] ![1, 1] with params := [.fin 0, .fin 0, .fin 0] }) 1 (bt "u" 1 ![2, 4] ![1, 1])
    nTmpls := 2
    chans := Function.update (fun _ => dummyChan) 0 chSB
    nChans := 1 }

def mSB : Mct := ⟨[("a", 0)], ["p", "q"], [], [], []⟩

def sysSB : Sys := ⟨wSB, mSB⟩

theorem runSB : Sys.init.run opsSB = sysSB := by
  simp only [opsSB, Sys.run, List.foldl_cons, List.foldl_nil, Sys.step, bh_eq, Sys.allocHist, World.newHist,
    Sys.init, World.init, Sys.allocTmpl, World.newTmpl]
  simp [bt_eq, Sys.allocTmpl, World.newTmpl, Function.update_apply]
  simp [Mct.defineChannel, Mct.defineProcess,
    Mct.addTemplate, World.addTemplate, Mct.empty, World.newChan, dictSet, dictGet, Mct.addData, World.addData,
    World.setChan, Channel.new, Channel.addTemplate, Channel.checkTemplate, Channel.procs, bt, bh,
    Hist.setBinned, Hist.blank, ChanBins.toTuple, Channel.addData, Channel.checkHist, sysSB, wSB, mSB, chSB,
    World.init, Function.update_apply, Mct.setYield, World.setYieldLoop, Mct.chanIds, Template.setYield, World.setTmpl,
    initParams]
  rw [Function.update_comm (by decide : (0 : ℕ) ≠ 1), Function.update_idem]
  simp only [Fl.zero_def, Fl.fin_mul, zero_mul]
  rw [Function.update_comm (by decide : (1 : ℕ) ≠ 0)]

theorem sysSB_built : sysSB.Built := by
  refine ⟨_, setupFirst_of_noEval ?_, runSB⟩
  intro o ho
  simp only [opsSB, List.mem_cons, List.not_mem_nil, or_false] at ho
  rcases ho with rfl | rfl | rfl | rfl | rfl | rfl | rfl | rfl | rfl | rfl <;> exact id

/-- description of the channel -/
def SSB (_ : ℕ) : ChanSpec :=
  ⟨2, 2, ![![1, 1], ![2, 4]], fun j i => (![1, 1] : Fin 2 → ℝ) i / (![![1, 1], ![2, 4]] : Fin 2 → Fin 2 → ℝ) j i, fun _ => 1,
    fun _ => 1⟩

theorem chanSB (k : ℕ) (hk : k < sysSB.m.chanIds.length) : k = 0 := by
  have : k < 1 := by simpa [sysSB, mSB, Mct.chanIds] using hk
  omega

theorem tmplsSB : sysSB.w.chanTmpls 0 = [{ bt "t" 0 ![1, 1] ![1, 1] with params := [.fin 0, .fin 0, .fin 0] },
    bt "u" 1 ![2, 4] ![1, 1]] := by
  simp [World.chanTmpls, sysSB, wSB, chSB]

theorem modelSB : ModelIs sysSB SSB := by
  intro k hk
  obtain rfl := chanSB k hk
  refine ⟨Nat.two_pos, Nat.two_pos, fun _ => Matrix.PosDef.one, ?_⟩
  show ChanIs sysSB.w 0 (![![1, 1], ![2, 4]] : Fin 2 → Fin 2 → ℝ)
    (fun j i => (![1, 1] : Fin 2 → ℝ) i / (![![1, 1], ![2, 4]] : Fin 2 → Fin 2 → ℝ) j i) (fun _ => 1) (fun _ => 1)
  refine ⟨by simp [sysSB, wSB], by simp [Channel.numTemplates, sysSB, wSB, chSB],
    by simp [sysSB, wSB, chSB, vec, List.ofFn_succ],
    ![{ bt "t" 0 ![1, 1] ![1, 1] with params := [.fin 0, .fin 0, .fin 0] }, bt "u" 1 ![2, 4] ![1, 1]], ?_, ?_⟩
  · rw [tmplsSB]; simp [List.ofFn_succ]
  · intro j
    rw [inv_one]
    fin_cases j
    · have h := bt_shape "t" 0 ![1, 1] ![1, 1] (by intro i; fin_cases i <;> simp) (by intro i; fin_cases i <;> simp)
      exact ⟨⟨h.bins, h.counts, h.rel, h.prod⟩, one_real, one_real⟩
    · exact ⟨bt_shape "u" 1 ![2, 4] ![1, 1] (by intro i; fin_cases i <;> simp) (by intro i; fin_cases i <;> simp),
        one_real, one_real⟩

/-- the template yields -/
def ySB (k : ℕ) : Fin (SSB k).K → ℝ := (![0, 6] : Fin 2 → ℝ)

theorem paramsSB : ParamsAre sysSB SSB ySB (fun _ _ _ => 0) := by
  intro k hk j t ht
  obtain rfl := chanSB k hk
  have hc : sysSB.m.chanIds[0] = 0 := by simp [sysSB, mSB, Mct.chanIds]
  rw [hc, tmplsSB] at ht
  revert j
  show ∀ j : Fin 2, _ → HasParams t ((![0, 6] : Fin 2 → ℝ) j) (fun _ : Fin 2 => 0)
  intro j ht
  fin_cases j
  · have := Option.some.inj ht
    subst this
    simp [HasParams, vec, List.ofFn_succ]
  · have := Option.some.inj ht
    subst this
    have := bt_params "u" 1 ![2, 4] ![1, 1]
    norm_num at this
    exact this

/-- the process yields -/
def νSB (p : String) : ℝ := if p = "p" then 0 else 6

theorem yieldSB : ∀ p ∈ sysSB.m.processes, sysSB.m.getYield sysSB.w p = .ok (.fin (νSB p)) := by
  intro p hp
  have : p = "p" ∨ p = "q" := by simpa [sysSB, mSB] using hp
  rcases this with rfl | rfl <;>
  simp [Mct.getYield, sysSB, mSB, Mct.processYields, Mct.chanIds, World.processYield, wSB, chSB, dictGet,
    Template.yieldParam, bt, initParams, bh, Hist.setBinned, npSum, vec, List.ofFn_succ, Fl.zero_def, νSB, List.idxOf_cons]
  norm_num

theorem procSB : procName sysSB 0 0 = "p" ∧ procName sysSB 0 1 = "q" := by
  simp [procName, sysSB, mSB, Mct.chanIds, wSB, chSB]

theorem shareSB : ∀ k < sysSB.m.chanIds.length, ∀ j, ySB k j = νSB (procName sysSB k j) * (SSB k).eff j := by
  intro k hk
  obtain rfl := chanSB k hk
  show ∀ j : Fin 2, (![0, 6] : Fin 2 → ℝ) j = νSB (procName sysSB 0 j) * 1
  intro j
  fin_cases j
  · simp [procSB.1, νSB]
  · simp [procSB.2, νSB]

theorem sumsSB : ∀ k < sysSB.m.chanIds.length, ∀ j, ∑ i, (SSB k).cnt j i ≠ 0 := by
  intro k hk
  show ∀ j : Fin 2, ∑ i : Fin 2, (![![1, 1], ![2, 4]] : Fin 2 → Fin 2 → ℝ) j i ≠ 0
  intro j
  fin_cases j <;> simp [Fin.sum_univ_two] <;> norm_num

theorem posSB : ∀ k < sysSB.m.chanIds.length, ∀ i, (1e-100 : ℝ) ≤ ∑ j, ySB k j * ((SSB k).cnt j i / ∑ i', (SSB k).cnt j i') := by
  intro k hk
  show ∀ i : Fin 2, (1e-100 : ℝ) ≤ ∑ j : Fin 2, (![0, 6] : Fin 2 → ℝ) j *
    ((![![1, 1], ![2, 4]] : Fin 2 → Fin 2 → ℝ) j i / ∑ i' : Fin 2, (![![1, 1], ![2, 4]] : Fin 2 → Fin 2 → ℝ) j i')
  intro i
  fin_cases i <;> simp [Fin.sum_univ_two] <;> norm_num

theorem identSB : Identifiable sysSB SSB := by
  intro δ h _ p hp
  have h0 := h 0 (by simp [sysSB, mSB, Mct.chanIds])
  have key : ∀ i : Fin 2, ∑ j : Fin 2, δ (procName sysSB 0 j) * 1 * ((![![1, 1], ![2, 4]] : Fin 2 → Fin 2 → ℝ) j i *
      (1 + 0 * ((![1, 1] : Fin 2 → ℝ) i / (![![1, 1], ![2, 4]] : Fin 2 → Fin 2 → ℝ) j i)) /
      ∑ i' : Fin 2, (![![1, 1], ![2, 4]] : Fin 2 → Fin 2 → ℝ) j i' *
        (1 + 0 * ((![1, 1] : Fin 2 → ℝ) i' / (![![1, 1], ![2, 4]] : Fin 2 → Fin 2 → ℝ) j i'))) = 0 := h0
  have k0 := key 0
  have k1 := key 1
  simp only [Fin.sum_univ_two] at k0 k1
  have e0 : procName sysSB 0 ((0 : Fin 2) : ℕ) = "p" := procSB.1
  have e1 : procName sysSB 0 ((1 : Fin 2) : ℕ) = "q" := procSB.2
  rw [e0, e1] at k0 k1
  simp at k0 k1
  norm_num at k0 k1
  have : p = "p" ∨ p = "q" := by simpa [sysSB, mSB] using hp
  rcases this with rfl | rfl <;> linarith

theorem unsharedSB : Unshared sysSB := by
  simp [Unshared, sysSB, mSB, Mct.chanIds, wSB, chSB]

end Ex

/-- with an optimiser that finds every minimum, the significance of a process whose yield is zero in exactly described data is
returned, and is zero -/
theorem signif_zero (s : Sys) (h : s.Built) (hne : s.m.channels ≠ []) (hu : Unshared s) (S : ℕ → ChanSpec) (hS : ModelIs s S)
    (d : ∀ k, Fin (S k).n → ℝ) (hd : DataIs s S d) (hpos : ∀ k < s.m.chanIds.length, ∀ i, (1e-100 : ℝ) ≤ d k i)
    (V E : String → ℝ) (hc : ConstraintsAre s V E)
    (ν : String → ℝ) (hx0 : s.m.x0 s.w = .ok (paramVec s S ν fun _ _ _ => 0))
    (hT0 : NonZeroSums s S fun _ _ _ => 0)
    (hdata : ∀ k < s.m.chanIds.length, ∀ i, expectedIn s S ν (fun _ _ _ => 0) k i = d k i)
    (hV : ∀ p ∈ s.m.constrained, V p = ν p) (hid : Identifiable s S) (p : String) (hp : p ∈ s.m.processes) (h0 : ν p = 0) :
    ((fitRun "iminuit" []).getSignificance Ex.optMin s.w s.m p false).1 = .ok 0 := by
  have hw := reachable_wf h.reachable
  have hal := C51_aligned s h.reachable
  have hf := finiteEffs_of_model hS
  obtain ⟨m1, m2⟩ := C106_minimum s h hne S hS d hd hpos V E hc ν hT0 hdata hV hid
  have hl := paramVec_length hw hS ν (fun _ _ _ => 0)
  obtain ⟨r1, hr1, -, -⟩ := fit_optMin_free s h.reachable _ hx0 hl _ hl 0 m1 m2
  obtain ⟨-, F2⟩ := C71_formula s h (fitRun "iminuit" []) Ex.optMin p hp false _ _ rfl rfl
  obtain ⟨y, -, h1, h2⟩ := F2 r1 hr1
  have key : ∀ v, ((fitRun "iminuit" []).getSignificance Ex.optMin s.w s.m p false).1 = .ok v → v = 0 := fun v hv =>
    (C119_exact s h hne hu S hS d hd hpos V E hc ν hx0 hT0 hdata hV hid Ex.optMin Ex.optMin_true "iminuit" lower_iminuit []
      ⟨by simp, by simp⟩ false (by simp) p hp v hv).1 h0.le
  by_cases hy : y.lt 0
  · exact h1 hy
  obtain ⟨-, h4⟩ := h2 hy
  have hpo := setYield_paramOnly s.w s.m p 0
  have hnm := names_params hpo s.m
  have hobj := objective_params hpo h.coherent s.m hw.lt
  have hB2 : (s.step (.setYield p 0)).Reachable := (Sys.Built.step h (o := .setYield p 0) (by simp [Op.structural])).reachable
  set s2 := s.step (.setYield p 0) with hs2
  have em : s2.m = s.m := rfl
  have ew : s2.w = (s.m.setYield s.w p 0).2 := rfl
  have hx2 : s2.m.x0 s2.w = .ok (paramVec s S ν fun _ _ _ => 0) := by
    rw [em, ew]
    cases hxx : s.m.x0 (s.m.setYield s.w p 0).2 with
    | error e =>
      exfalso
      have h0c : 0 < s.m.chanIds.length := by
        unfold Mct.chanIds
        rw [List.length_map]
        exact List.length_pos_iff.mpr hne
      obtain ⟨x, hx, -⟩ := (C51_aligned s2 hB2).2.2.2 ⟨s.m.chanIds[0], List.getElem_mem h0c, by
        rw [ew, hpo.chans]
        obtain ⟨T, hT, -⟩ := (hS 0 h0c).2.2.2.tmpls
        intro hnil
        unfold World.chanTmpls at hT
        rw [hnil, List.map_nil] at hT
        have := congrArg List.length hT
        rw [List.length_nil, List.length_ofFn] at this
        exact absurd this.symm (hS 0 h0c).1.ne'⟩
      rw [em, ew, hxx] at hx
      cases hx
    | ok x2 =>
      obtain ⟨hxa, hxb⟩ := x0_setYield h.reachable hu hf hp hx0 hxx
      congr 1
      apply List.ext_getElem?
      intro k
      by_cases hki : k = s.m.processes.idxOf p
      · rw [hki, hxa, paramVec_yield ν _ p hp, h0, Fl.zero_def]
      · exact hxb k hki
  have hn2 : s2.m.paramNames s2.w = s.m.paramNames s.w := by rw [em, ew]; exact hnm.1
  have ho2 : objective s2.w s2.m = objective s.w s.m := by rw [em, ew]; exact hobj
  have hkn : KnownIds (s2.m.paramNames s2.w) [.fix (.str (p ++ "_yield"))] := by
    refine ⟨?_, by simp⟩
    intro pid hpid
    simp only [List.mem_singleton, FitOp.fix.injEq] at hpid
    subst hpid
    exact ⟨_, by rw [hn2]; exact yield_denotes h.reachable hp⟩
  obtain ⟨r2, hr2, -⟩ := fit_optMin s2 hB2 [.fix (.str (p ++ "_yield"))] hkn _ hx2 false (.fin 0)
    (paramVec s S ν fun _ _ _ => 0) (by
      intro c c1 c2 c3 c4 c5
      rw [ho2] at c1
      rw [hn2] at c3
      have hfeas : MFeasible c (paramVec s S ν fun _ _ _ => 0) := by
        refine ⟨by rw [c3, hal.1, hl], fun k hk => ⟨fun _ => by rw [c2], fun _ b v hb hv => ?_⟩⟩
        obtain ⟨b', w1, w2⟩ := c5 k (by rw [hn2, ← c3]; exact hk) (by intro p q b c hb; simp at hb)
        rw [w2] at hb
        cases hb
        have hbb : b = (none, none) := by
          rcases w1 with ⟨pre, op, post, he, ⟨pid, rfl, _⟩, _⟩ | ⟨_, w1⟩
          · have : FitOp.bound pid b ∈ [FitOp.fix (.str (p ++ "_yield"))] := by rw [he]; simp
            simp at this
          · rw [w1]; split <;> rfl
        rw [hbb]
        exact ⟨fun _ h => (by cases h), fun _ h => (by cases h)⟩
      constructor
      · refine ⟨⟨⟨true, true, true⟩, ⟨true, true, true⟩, .fin 0, _, c.x0, .ok (Mat.zeros 1 1, Mat.zeros 1 1)⟩, hfeas, by rw [c1]; exact m1,
          by simp, ?_, by show List.length c.x0 = _; rw [c2, c3, hal.1, hl], _, _, rfl⟩
        intro x v hx hv
        rw [c1] at hv
        exact (m2 x v (by rw [hx.1, c3, hal.1]) hv).1
      · intro r hr
        have h1 := hr.2.1
        rw [c1] at h1
        obtain ⟨g1, g2⟩ := m2 r.values r.fval (by rw [hr.1.1, c3, hal.1]) h1
        have g3 := hr.2.2.2.1 _ _ hfeas (by rw [c1]; exact m1)
        have hz : r.fval = .fin 0 := by
          cases hfv : r.fval with
          | nan => exact absurd hfv hr.2.2.1
          | ninf => rw [hfv] at g1; exact absurd trivial g1
          | pinf => rw [hfv] at g3; exact absurd trivial g3
          | fin b =>
            rw [hfv] at g1 g3
            have h1 : b ≤ 0 := not_lt.mp g3
            have h2 : 0 ≤ b := not_lt.mp g1
            rw [le_antisymm h1 h2]
        exact ⟨hz, g2 hz⟩)
  have hv := h4 r2 hr2
  rw [hv, key _ hv]

/-- non-vacuity of C119: data with 6 background events and no signal, signal and background free: the significance of the signal
is returned, and is zero -/
example : TrueMin Ex.optMin ∧ Ex.νSB "p" = 0 ∧ Ex.νSB "q" = 6 ∧
    ((fitRun "iminuit" []).getSignificance Ex.optMin (Ex.sysSB.step (.addAsimov false)).w (Ex.sysSB.step (.addAsimov false)).m "p"
      false).1 = .ok 0 := by
  refine ⟨Ex.optMin_true, by simp [Ex.νSB], by simp [Ex.νSB], ?_⟩
  have hne : Ex.sysSB.m.channels ≠ [] := by simp [Ex.sysSB, Ex.mSB]
  have htup : ∀ c ∈ Ex.sysSB.m.chanIds, AllTuple (Ex.sysSB.w.chans c).range := by
    simp [Ex.sysSB, Ex.mSB, Mct.chanIds, Ex.wSB, Ex.chSB, AllTuple]
  obtain ⟨q1, q2, q3, q4, q5, q6, q7, q8, q9, q10, q11, d, q12, q13, q14⟩ := asimov_exact Ex.sysSB Ex.sysSB_built hne
    Ex.SSB Ex.modelSB htup Ex.ySB Ex.paramsSB Ex.sumsSB Ex.νSB Ex.yieldSB Ex.shareSB
    (fun _ => 0) (fun _ => 1) (by intro p hp; simp [Ex.sysSB, Ex.mSB] at hp) (by intro p hp; simp [Ex.sysSB, Ex.mSB] at hp)
    Ex.posSB Ex.identSB _ rfl
  have hT0 : NonZeroSums Ex.sysSB Ex.SSB (fun _ _ _ => 0) := by
    intro k hk j
    simpa using Ex.sumsSB k hk j
  obtain ⟨e1, e2, e3, e4, e5⟩ := asimov_step Ex.sysSB Ex.sysSB_built.reachable Ex.SSB Ex.modelSB htup Ex.ySB _ Ex.paramsSB hT0
  refine signif_zero _ q1 (by rw [q2]; exact hne) (unshared_asimov Ex.unsharedSB q2 e4) Ex.SSB q7 d q12 q13 _ _ q9 Ex.νSB
    (by rw [q4, q5, q6]) q8 q14 q10 q11 "p" (by rw [q2]; simp [Ex.sysSB, Ex.mSB]) (by simp [Ex.νSB])

end

end TF.Props
