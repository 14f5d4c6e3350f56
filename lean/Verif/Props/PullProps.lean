import Verif.Lemmas.PoissonPull
import Verif.Props.CoverProps
import Verif.Props.ToyStat7

set_option linter.unusedSimpArgs false
set_option linter.unusedVariables false

/-!
# The distribution of the pulls of a toy study (C144)
-/

namespace TF.Spec

open TF Classical MeasureTheory ProbabilityTheory

noncomputable section

/-- the errors Minuit returns (HESSE): the square roots of the diagonal of the inverse of the matrix of second derivatives with respect to the parameters that are not fixed -/
def ExactErrors (o : Optim) : Prop :=
  ∀ c r, o.minuit c = .ok r → ∀ (n : ℕ) (x : Fin n → ℝ) (A : Matrix (Fin n) (Fin n) ℝ), r.values = vec x → IsHesse c.fcn x A →
    ∀ q : {i : Fin n // c.fix[(i : ℕ)]? ≠ some true}, r.errors[(q.1 : ℕ)]? = some (.fin (√((A.submatrix Subtype.val Subtype.val)⁻¹ q q)))

/-- a toy study of one experiment on the model `s` returns, and its pull of the process `p` is `z` -/
def PullOf (s : Sys) (p : String) (draw : ℕ → Vec → ℕ → ℕ) (o : Optim) (z : ℝ) : Prop :=
  ∃ t', (Toy.new s.w "iminuit" 0).doExperiments ⟨fun _ => draw, fun _ => o⟩ s.m 1 1 = (.ok (), t') ∧ t'.pulls s.m p = .ok [.fin z]

/-- a model with one process `p` of yield `ν₀ > 0`, without constraints, with events expected in every bin of every channel; `y` and `θ₀` are its template yields and nuisance parameters -/
structure OneProcess (s : Sys) (S : ℕ → ChanSpec) (y : ∀ k, Fin (S k).K → ℝ) (θ₀ : ∀ k, Fin (S k).K → Fin (S k).n → ℝ) (p : String) (ν₀ : ℝ) : Prop where
  ne : s.m.channels ≠ []
  tup : ∀ c ∈ s.m.chanIds, Props.AllTuple (s.w.chans c).range
  params : ParamsAre s S y θ₀
  sums : NonZeroSums s S θ₀
  pos : ∀ k < s.m.chanIds.length, ∀ i, 0 < presentIn S y θ₀ k i
  free : s.m.constrained = []
  one : s.m.processes = [p]
  yields : ∀ k < s.m.chanIds.length, ∀ j, y k j = ν₀ * (S k).eff j
  value : s.m.getYield s.w p = .ok (.fin ν₀)
  accepts : 0 < acceptance s S p

/-- the probability that a standard normal number is at most `b` -/
def normalBelow (b : ℝ) : ℝ := (gaussianReal 0 1).real (Set.Iic b)

end

end TF.Spec

namespace TF.Props

open Classical Spec MeasureTheory ProbabilityTheory
open scoped Matrix NNReal ENNReal

noncomputable section

/-- what a successful `do_fit` with Minuit came from, with the errors and the fixed parameters -/
theorem doFit_call {s : Sys} (hs : s.Reachable) {id : String} (hid : id.toLower = "iminuit") {o : Optim} {g fixNui : Bool} {lim : Option Bounds}
    {r : MinResult} (hr : ((Fitter.new id).doFit o s.w s.m false g fixNui lim).1 = .ok r) :
    ∃ c rr, o.minuit c = .ok rr ∧ c.fcn = objective s.w s.m ∧
      c.fix = (List.range (s.m.paramNames s.w).length).map (fun k => decide (WantedFixed (s.m.paramNames s.w) [] s.m.numProcesses fixNui k)) ∧
      r.fval = rr.fval ∧ r.params.values = rr.values ∧ r.params.errors = rr.errors := by
  have hx : ∃ x0, s.m.x0 s.w = .ok x0 := by
    have hn := (C51_aligned s hs).1.symm
    have hz := setup_eq (kd := .iminuit) (id := id) (h := []) hn ⟨by simp, by simp⟩ fixNui lim
    have hzw := minRun_wf .iminuit (s.m.paramNames s.w) (setupOps (fitRun id []) s.m.numProcesses (s.m.numNui s.w) fixNui lim)
    have hm1 : minKindOf (fitRun id []).minimizerId = .ok .iminuit := by rw [fitRun_id]; exact minKind_iminuit hid
    obtain ⟨x0, q, hx0, -⟩ := doFit_minuit_inv' hm1 hz hzw.hk hr
    exact ⟨x0, hx0⟩
  obtain ⟨x0, hx0⟩ := hx
  have hn := (C51_aligned s hs).1.symm
  set z := minRun .iminuit (s.m.paramNames s.w) (setupOps (fitRun id []) s.m.numProcesses (s.m.numNui s.w) fixNui lim) with hz
  have hw : MinWF z .iminuit (s.m.paramNames s.w) := minRun_wf _ _ _
  have hm1 : minKindOf (fitRun id []).minimizerId = .ok .iminuit := by rw [fitRun_id]; exact minKind_iminuit hid
  have hset := setup_eq (kd := .iminuit) (id := id) (h := []) hn ⟨by simp, by simp⟩ fixNui lim
  have hr' : ((fitRun id []).doFit o s.w s.m false g fixNui lim).1 = .ok r := hr
  unfold Fitter.doFit at hr'
  rw [hm1] at hr'
  simp only at hr'
  rw [hset] at hr'
  simp only at hr'
  unfold runMinimizer at hr'
  rw [hx0] at hr'
  simp only [Minimizer.minimize, hw.hk, ← hz] at hr'
  refine ⟨z.minuitCall (objective s.w s.m) x0, ?_⟩
  rcases minuit_cases o z (objective s.w s.m) x0 with ⟨e, he, hh⟩ | ⟨rr, hrr, hh⟩
  · rw [hh] at hr'; simp at hr'
  · refine ⟨rr, hrr, rfl, ?_, ?_⟩
    · show (z.minuitCall (objective s.w s.m) x0).fix = _
      rw [hz, C58_iminuit]
      refine map_range_congr fun k hk' => ?_
      rw [decide_eq_decide]
      exact setup_fixed hn fixNui lim k hk'
    · rcases hh with ⟨_, hh⟩ | ⟨_, _, hh⟩ | ⟨_, _, ⟨e, _, hh⟩ | ⟨C, R, _, hh⟩⟩
      · rw [hh] at hr'; simp at hr'
      · rw [hh] at hr'; simp at hr'
      · rw [hh] at hr'; simp at hr'
      · rw [hh] at hr'
        simp only [if_false, Bool.false_eq_true, Except.ok.injEq] at hr'
        subst hr'
        exact ⟨rfl, rfl, rfl⟩

/-- the fit of one toy data set: one process, `N ≥ 1` drawn events. The fitted yield is `N / A`, its error `√N / A`. -/
theorem toyFit_yield (s : Sys) (h : s.Built) (hne : s.m.channels ≠ []) (S : ℕ → ChanSpec) (hS : ModelIs s S)
    (htup : ∀ c ∈ s.m.chanIds, AllTuple (s.w.chans c).range)
    (y : ∀ k, Fin (S k).K → ℝ) (θ₀ : ∀ k, Fin (S k).K → Fin (S k).n → ℝ) (hp : ParamsAre s S y θ₀) (hT₀ : NonZeroSums s S θ₀)
    (hnn : ∀ k < s.m.chanIds.length, ∀ i, 0 < presentIn S y θ₀ k i) (hnc : s.m.constrained = [])
    (p : String) (hone : s.m.processes = [p]) (ν₀ : ℝ) (hy : ∀ k < s.m.chanIds.length, ∀ j, y k j = ν₀ * (S k).eff j)
    (hν : s.m.getYield s.w p = .ok (.fin ν₀)) (hA0 : 0 < acceptance s S p)
    (draw : ℕ → Vec → ℕ → ℕ) (o : Optim) (ho : FiniteMin o) (he : ExactErrors o) (r : MinResult) (id : String) (hid : id.toLower = "iminuit")
    (hr : ((Fitter.new id).doFit o (s.step (.addToy draw)).w (s.step (.addToy draw)).m false true true none).1 = .ok r)
    (hN : 1 ≤ eventsDrawn s S (presentIn S y θ₀) draw) :
    r.params.values[0]? = some (.fin (eventsDrawn s S (presentIn S y θ₀) draw / acceptance s S p)) ∧
    r.params.errors[0]? = some (.fin (√(eventsDrawn s S (presentIn S y θ₀) draw) / acceptance s S p)) := by
  have hw := reachable_wf h.reachable
  have hal := (C51_aligned s h.reachable).1
  have hN0 : 0 < s.m.chanIds.length := by
    rw [List.length_pos_iff]; simpa [Mct.chanIds] using hne
  have hnp : s.m.numProcesses = 1 := by simp [Mct.numProcesses, hone]
  have hproc : ∀ k < s.m.chanIds.length, ∀ j : Fin (S k).K, procName s k j = p := by
    intro k hk j
    have := procName_mem hw hS k hk j
    rw [hone] at this
    simpa using this
  have hused : AllUsed s S := by
    intro q hq
    rw [hone] at hq
    simp at hq
    subst hq
    exact .inl ⟨0, hN0, ⟨0, (hS 0 hN0).1⟩, hproc 0 hN0 _⟩
  have hnn' : ∀ k < s.m.chanIds.length, ∀ i, 0 ≤ presentIn S y θ₀ k i := fun k hk i => (hnn k hk i).le
  have hacc : acceptance s S p = ∑ k ∈ Finset.range s.m.chanIds.length, ∑ j : Fin (S k).K, (S k).eff j := by
    unfold acceptance
    refine Finset.sum_congr rfl fun k hk => Finset.sum_congr rfl fun j _ => ?_
    rw [if_pos (hproc k (Finset.mem_range.mp hk) j)]
  have hsum : ∑ k ∈ Finset.range s.m.chanIds.length, ∑ j, y k j = ν₀ * acceptance s S p := by
    rw [hacc, Finset.mul_sum]
    refine Finset.sum_congr rfl fun k hk => ?_
    rw [Finset.mul_sum]
    exact Finset.sum_congr rfl fun j _ => hy k (Finset.mem_range.mp hk) j
  have hν₀ : 0 < ν₀ := by
    have : 0 < ∑ k ∈ Finset.range s.m.chanIds.length, ∑ j, y k j := by
      refine Finset.sum_pos (fun k hk => ?_) ⟨0, Finset.mem_range.mpr hN0⟩
      have hk := Finset.mem_range.mp hk
      rw [← present_sum y (hT₀ k hk)]
      exact Finset.sum_pos (fun i _ => hnn k hk i) ⟨⟨0, (hS k hk).2.1⟩, Finset.mem_univ _⟩
    rw [hsum] at this
    exact pos_of_mul_pos_left this hA0.le
  obtain ⟨q1, q2, q3, q4, q5, q6, q7⟩ := toy_model s h S hS htup y θ₀ hp hT₀ hnn' draw
  obtain ⟨n1, n2, n3⟩ := names_same (toy_same s draw) s.m
  obtain ⟨v, hv⟩ := fit_finite q1.reachable hid ho hr
  obtain ⟨ν, θ, e1, e2, e3⟩ := C137_events s h hne S hS htup y θ₀ hp hT₀ hnn' hnc hused draw _ rfl id hid [] ⟨by simp, by simp⟩
    (by intro k _ p q b c hb; simp at hb) o ho.1 false true true none r hr v hv (fun q x hq _ => .inr (mayMove_nil s true hq x))
  obtain ⟨x0, hx0, hb⟩ := C120_iminuit _ q1.reachable id hid [] ⟨by simp, by simp⟩ (by intro k _ p q b c hb; simp at hb) o ho.1
    false true true none r hr
  rw [q2, n3, x0_eq s h.reachable hne S hS y θ₀ hp (fun _ => ν₀) (by rw [hone]; intro q hq; rw [List.mem_singleton.mp hq]; exact hν)] at hx0
  obtain rfl := Except.ok.inj hx0
  have hfix := hb.1
  rw [q2, n1] at hfix
  have hth : ∀ k < s.m.chanIds.length, θ k = θ₀ k := by
    intro k hk
    funext j i
    have h1 := paramVec_nui hw hS ν θ k hk j i
    have h2 := paramVec_nui hw hS (fun _ => ν₀) θ₀ k hk j i
    have hlt : nuiOffset s k j + i < (s.m.paramNames s.w).length := by
      rw [hal, ← paramVec_length hw hS ν θ]
      exact (List.getElem?_eq_some_iff.mp h1).1
    have h3 := (hfix.2 _ hlt).1 (.inr ⟨rfl, by unfold nuiOffset Mct.numProcesses; omega⟩)
    rw [e1, h1, h2] at h3
    exact Fl.fin.inj (Option.some.inj h3)
  set N := eventsDrawn s S (presentIn S y θ₀) draw with hNdef
  have hNr : (1:ℝ) ≤ N := by exact_mod_cast hN
  have hνN : ν p = N / acceptance s S p := by
    rw [eq_div_iff hA0.ne', ← e3, eventsExpected_eq s S ν θ e2, hacc, Finset.mul_sum]
    refine Finset.sum_congr rfl fun k hk => ?_
    rw [Finset.mul_sum]
    exact Finset.sum_congr rfl fun j _ => by rw [hproc k (Finset.mem_range.mp hk)]
  have hνp : 0 < ν p := by rw [hνN]; positivity
  have hz := paramVec_yield (S := S) ν θ p (s := s) (by rw [hone]; simp)
  rw [hone, List.idxOf_cons_self] at hz
  refine ⟨by rw [e1, hz, hνN], ?_⟩
  -- expectations
  have hexp : ∀ (μ : String → ℝ), ∀ k < s.m.chanIds.length, ∀ i, expectedIn s S μ θ k i = μ p / ν₀ * presentIn S y θ₀ k i := by
    intro μ k hk i
    rw [expectedIn_eq]
    unfold presentIn fracIn
    rw [hth k hk, Finset.mul_sum]
    refine Finset.sum_congr rfl fun j _ => ?_
    rw [hproc k hk, hy k hk j]
    field_simp
  have hE : ∀ k < (s.step (.addToy draw)).m.chanIds.length, ∀ i, 0 < expectedIn (s.step (.addToy draw)) S ν θ k i := by
    intro k hk i
    rw [q2] at hk
    rw [q7, hexp ν k hk]
    have := hnn k hk i
    positivity
  have hc : ConstraintsAre (s.step (.addToy draw)) (fun _ => 0) (fun _ => 1) := by
    intro p hp; rw [q2, hnc] at hp; cases hp
  have hT' : NonZeroSums (s.step (.addToy draw)) S θ := by unfold NonZeroSums at e2 ⊢; rw [q2]; exact e2
  obtain ⟨c, rr, d1, d2, d3, d4, d5, d6⟩ := doFit_call q1.reachable hid hr
  have hlen : (paramVec s S ν θ).length = (s.m.paramNames s.w).length := by rw [paramVec_length hw hS ν θ, hal]
  have hn : 0 < (s.m.paramNames s.w).length := by rw [hal, hnp]; omega
  obtain ⟨x, hx⟩ := paramVec_real s S ν θ (n := (s.m.paramNames s.w).length) hlen
  obtain ⟨A, hA⟩ := C131_hesse_exists _ q1 (by rw [q2]; exact hne) S q3 _ q4 (fun k _ i => toyData_floor k i) _ _ hc ν θ hT' hE x (by rw [q5]; exact hx)
  obtain ⟨c0, f1, -, f3⟩ := C131_yields _ q1 (by rw [q2]; exact hne) S q3 _ q4 (fun k _ i => toyData_floor k i) _ _ hc ν θ hT' hE (fun _ => 1)
  have hA00 : A ⟨0, hn⟩ ⟨0, hn⟩ = c0 := by
    have g1 := hA.2 (Pi.single ⟨0, hn⟩ 1)
    have g2 : (fun t => objective (s.step (.addToy draw)).w (s.step (.addToy draw)).m (vec fun i => x i + t * (Pi.single ⟨0, hn⟩ 1 : Fin (s.m.paramNames s.w).length → ℝ) i)) =
        fun t => objective (s.step (.addToy draw)).w (s.step (.addToy draw)).m (paramVec (s.step (.addToy draw)) S (fun p => ν p + t * 1) θ) := by
      funext t
      congr 1
      rw [q5]
      have hpv : ∀ μ : String → ℝ, paramVec s S μ θ = .fin (μ p) :: (paramVec s S ν θ).drop 1 := by
        intro μ; unfold paramVec; rw [hone]; rfl
      rw [hpv fun p => ν p + t * 1]
      have hx' := hx
      rw [hpv ν] at hx'
      apply List.ext_getElem?
      intro q
      have hxq : ∀ q : ℕ, (vec x)[q]? = (Fl.fin (ν p) :: (paramVec s S ν θ).drop 1)[q]? := fun q => by rw [← hx']
      rcases q with _ | q
      · have := hxq 0
        simp [vec, hn] at this ⊢
        rw [this]
      · have := hxq (q + 1)
        rw [List.getElem?_cons_succ] at this ⊢
        rw [← this]
        by_cases hq : q + 1 < (s.m.paramNames s.w).length
        · simp [vec, hq]
        · simp [vec, hq]
    rw [g2] at g1
    have := HasCurvature_unique g1 f1
    simpa using this
  have hc0 : c0 = acceptance s S p ^ 2 / N := by
    rw [f3, q2, hnc]
    simp only [List.map_nil, List.sum_nil, add_zero]
    have hs : ∑ k ∈ Finset.range s.m.channels.length, ∑ i, toyData s S (presentIn S y θ₀) draw k i *
        (expectedIn (s.step (.addToy draw)) S (fun _ => 1) θ k i / expectedIn (s.step (.addToy draw)) S ν θ k i) ^ 2 = N * (1 / ν p) ^ 2 := by
      rw [hNdef, eventsDrawn_eq, Finset.sum_mul]
      have hlen : s.m.channels.length = s.m.chanIds.length := by simp [Mct.chanIds]
      rw [hlen]
      refine Finset.sum_congr rfl fun k hk => ?_
      have hk := Finset.mem_range.mp hk
      rw [Finset.sum_mul]
      refine Finset.sum_congr rfl fun i _ => ?_
      rw [q7, q7, hexp ν k hk, hexp (fun _ => 1) k hk]
      have := (hnn k hk i).ne'
      congr 2
      field_simp
    rw [hs, hνN]
    field_simp
  have hf0 : ∀ q : Fin (s.m.paramNames s.w).length, c.fix[(q : ℕ)]? ≠ some true ↔ q = ⟨0, hn⟩ := by
    intro q
    rw [d3, q2, n1]
    constructor
    · intro hq
      by_contra h0
      apply hq
      have : 1 ≤ (q : ℕ) := by
        rcases Nat.eq_zero_or_pos (q : ℕ) with h | h
        · exact absurd (Fin.ext h) h0
        · exact h
      simp [hnp, WantedFixed, this, q.2]
    · rintro rfl
      simp [hnp, WantedFixed, FitFixed, hn]
  have hq0 := (hf0 ⟨0, hn⟩).mpr rfl
  have g := he c rr d1 _ x A (by rw [← d5, e1, hx]) (by rw [d2]; exact hA) ⟨⟨0, hn⟩, hq0⟩
  have : Subsingleton {i : Fin (s.m.paramNames s.w).length // c.fix[(i : ℕ)]? ≠ some true} :=
    ⟨fun a b => Subtype.ext (((hf0 a.1).mp a.2).trans ((hf0 b.1).mp b.2).symm)⟩
  rw [Matrix.inv_subsingleton] at g
  simp only [Matrix.diagonal_apply_eq, Matrix.submatrix_apply, Ring.inverse_eq_inv', hA00, hc0] at g
  rw [d6, g, inv_div, Real.sqrt_div (by positivity), Real.sqrt_sq hA0.le]

theorem getYield_same {a b : World} (h : SameButData a b) (m : Mct) (p : String) : m.getYield b p = m.getYield a p := by
  have hpy : ∀ p cs, b.processYield p cs = a.processYield p cs := by
    intro p cs
    induction cs with
    | nil => rfl
    | cons c cs ih =>
      obtain ⟨d, hd⟩ := h.chans c
      simp only [World.processYield, ih, h.tmpls]
      rw [hd]
  unfold Mct.getYield Mct.processYields
  simp only [hpy]

/-- a study changes nothing in the model but the data -/
theorem study_same (s : Sys) (hs : s.Built) (env : ToyEnv) (t : Toy) (ht : t.w = s.w) (nExp maxTries : ℕ) (t' : Toy)
    (ht' : t.doExperiments env s.m nExp maxTries = (.ok (), t')) : SameButData s.w t'.w := by
  have hinv : ToyInv s.w t.resetState.w := ⟨by show SameButData s.w t.w; rw [ht]; exact SameButData.refl _, by
    show Coherent t.w; rw [ht]; exact hs.coherent⟩
  have hb : Sys.Built ⟨t.resetState.w, s.m⟩ := by show Sys.Built ⟨t.w, s.m⟩; rw [ht]; exact hs
  obtain ⟨h4, -⟩ := experiments_spec hs env true maxTries nExp t.resetState hinv hb _ rfl
  unfold Toy.doExperiments at ht'
  generalize t.resetState.experiments env s.m true maxTries nExp = q at h4 ht'
  obtain ⟨q1, t1⟩ := q
  cases q1 with
  | error e => simp at ht'
  | ok u =>
    simp only [Prod.mk.injEq] at ht'
    rw [← ht'.2]
    exact h4.same

/-- **C144, toy studies.** In a model with one process `p` of yield `ν₀`, accepting the fraction `A` of its events, without constraints and with events expected in every bin, let `do_experiments` of a toy study
with the iminuit minimizer return (true minima of finite value, exact errors). With `M = ν₀ A` the expected number of accepted events and `N` the number of events drawn in the attempt that row `i` belongs to: pull
number `i` of `get_toy_result_pulls` is `(N - M) / √N`, provided `N ≥ 1`. -/
theorem C144_study (s : Sys) (h : s.Built) (hne : s.m.channels ≠ []) (S : ℕ → ChanSpec) (hS : ModelIs s S)
    (htup : ∀ c ∈ s.m.chanIds, AllTuple (s.w.chans c).range)
    (y : ∀ k, Fin (S k).K → ℝ) (θ₀ : ∀ k, Fin (S k).K → Fin (S k).n → ℝ) (hp : ParamsAre s S y θ₀) (hT₀ : NonZeroSums s S θ₀)
    (hnn : ∀ k < s.m.chanIds.length, ∀ i, 0 < presentIn S y θ₀ k i) (hnc : s.m.constrained = [])
    (p : String) (hone : s.m.processes = [p]) (ν₀ : ℝ) (hy : ∀ k < s.m.chanIds.length, ∀ j, y k j = ν₀ * (S k).eff j)
    (hν : s.m.getYield s.w p = .ok (.fin ν₀)) (hA0 : 0 < acceptance s S p)
    (env : ToyEnv) (ho : ∀ k, FiniteMin (env.optim k)) (he : ∀ k, ExactErrors (env.optim k)) (t : Toy) (ht : t.w = s.w) (hid : t.minimizerId.toLower = "iminuit") (nExp maxTries : ℕ)
    (hn : 0 < nExp) (t' : Toy) (ht' : t.doExperiments env s.m nExp maxTries = (.ok (), t')) (M : ℝ) (hM : M = ν₀ * acceptance s S p) :
    ∃ (L : Vec) (ks : List ℕ) (K' : ℕ), t'.pulls s.m p = .ok L ∧ L.length = nExp ∧
      Consecutive (toyFit env s.m t.minimizerId true s.w) maxTries t.tries ks K' ∧ ks.length = nExp ∧
      ∀ (i k N : ℕ), ks[i]? = some k → N = eventsDrawn s S (presentIn S y θ₀) (env.draw k) → 1 ≤ N → L[i]? = some (.fin ((N - M) / √N)) := by
  obtain ⟨ps, us, ks, K', a1, a2, a3, a4, a5, -, a7⟩ := (C73_rows s h env t ht nExp maxTries t' (by rw [ht'])).1 (by rw [ht'])
  obtain ⟨ps', us', e, L, b1, b2, b3, b4, b5, b6⟩ := (C76_pulls s h env t ht nExp maxTries (by rw [ht']) t'.w p t' (by rw [ht'])).1 (by rw [hone]; simp) hn
  obtain rfl : ps' = ps := by rw [a1] at b1; exact (Except.ok.inj b1).symm
  obtain rfl : us' = us := by rw [a2] at b2; exact (Except.ok.inj b2).symm
  rw [getYield_same (study_same s h env t ht nExp maxTries t' ht'), hν] at b3
  obtain rfl := Except.ok.inj b3
  refine ⟨L, ks, K', b4, b5, a5, by rw [← a7.1, a3], fun i k N hi hNk hN => ?_⟩
  obtain ⟨p', u', c1, c2, c3⟩ := a7.2.2 i k hi
  have hilt : i < nExp := by
    rw [← a3]; exact (List.getElem?_eq_some_iff.mp c1).1
  obtain ⟨v, u, x, σ, g1, g2, g3, g4, g5⟩ := b6 i hilt
  obtain rfl : p' = v := Option.some.inj (c1.symm.trans g1)
  obtain rfl : u' = u := Option.some.inj (c2.symm.trans g2)
  obtain ⟨r, hr, rfl, rfl⟩ := toyFit_inv c3
  obtain ⟨j1, j2⟩ := toyFit_yield s h hne S hS htup y θ₀ hp hT₀ hnn hnc p hone ν₀ hy hν hA0 (env.draw k) (env.optim k) (ho k) (he k) r t.minimizerId hid hr
    (by rw [← hNk]; exact hN)
  rw [← hNk] at j1 j2
  rw [hone, List.idxOf_cons_self] at g3 g4
  obtain rfl := Option.some.inj (j1.symm.trans g3)
  obtain rfl := Option.some.inj (j2.symm.trans g4)
  rw [g5, hM]
  have hNr : (1:ℝ) ≤ N := by exact_mod_cast hN
  have hs : 0 < √(N:ℝ) := Real.sqrt_pos.mpr (by linarith)
  have hd : √(N:ℝ) / acceptance s S p ≠ 0 := by positivity
  congr 1
  show Fl.div (.fin _) (.fin _) = _
  simp only [Fl.div, if_neg hd]
  congr 1
  field_simp
  ring

/-- the pull of one toy data set -/
theorem C144_pull (s : Sys) (h : s.Built) (S : ℕ → ChanSpec) (hS : ModelIs s S) (y : ∀ k, Fin (S k).K → ℝ) (θ₀ : ∀ k, Fin (S k).K → Fin (S k).n → ℝ) (p : String) (ν₀ : ℝ)
    (h1 : OneProcess s S y θ₀ p ν₀) (draw : ℕ → Vec → ℕ → ℕ) (o : Optim) (ho : FiniteMin o) (he : ExactErrors o) (z : ℝ) (hz : PullOf s p draw o z)
    (N : ℕ) (hN : N = eventsDrawn s S (presentIn S y θ₀) draw) (hN1 : 1 ≤ N) : z = (N - ν₀ * acceptance s S p) / √N := by
  obtain ⟨t', ht', hp⟩ := hz
  obtain ⟨L, ks, K', b1, b2, -, b4, b5⟩ := C144_study s h h1.ne S hS h1.tup y θ₀ h1.params h1.sums h1.pos h1.free p h1.one ν₀ h1.yields h1.value h1.accepts
    ⟨fun _ => draw, fun _ => o⟩ (fun _ => ho) (fun _ => he) (Toy.new s.w "iminuit" 0) rfl lower_iminuit 1 1 one_pos t' ht' _ rfl
  rw [hp] at b1
  obtain rfl := Except.ok.inj b1
  match ks, b4 with
  | [k], _ =>
    have := b5 0 k N rfl hN hN1
    simpa using this

/-- the mean pull of the toys with events -/
theorem pull_mean_law (s : Sys) (h : s.Built) (S : ℕ → ChanSpec) (hS : ModelIs s S) (y : ∀ k, Fin (S k).K → ℝ) (θ₀ : ∀ k, Fin (S k).K → Fin (S k).n → ℝ) (p : String) (ν₀ : ℝ)
    (h1 : OneProcess s S y θ₀ p ν₀) {Ω : Type} [MeasurableSpace Ω] (P : Measure Ω) (draw : Ω → ℕ → Vec → ℕ → ℕ)
    (hd : PoissonLaw P s S (presentIn S y θ₀) draw) (hi : MutuallyIndep P s S (presentIn S y θ₀) draw)
    (o : Ω → Optim) (ho : ∀ ω, FiniteMin (o ω)) (he : ∀ ω, ExactErrors (o ω))
    (N : Ω → ℕ) (hN : ∀ ω, N ω = eventsDrawn s S (presentIn S y θ₀) (draw ω)) (M : ℝ) (hM : M = ν₀ * acceptance s S p)
    (Z : Ω → ℝ) (hZ : ∀ᵐ ω ∂P, 1 ≤ N ω → PullOf s p (draw ω) (o ω) (Z ω)) :
    0 < M ∧ HasLaw N (poissonMeasure M.toNNReal) P ∧ (fun ω => if 1 ≤ N ω then Z ω else 0) =ᵐ[P] fun ω => ((N ω : ℝ) - M) / √(N ω : ℝ) := by
  have hw := reachable_wf h.reachable
  have hN0 : 0 < s.m.chanIds.length := by
    rw [List.length_pos_iff]; simpa [Mct.chanIds] using h1.ne
  have hproc : ∀ k < s.m.chanIds.length, ∀ j : Fin (S k).K, procName s k j = p := by
    intro k hk j
    have := procName_mem hw hS k hk j
    rw [h1.one] at this
    simpa using this
  have hacc : acceptance s S p = ∑ k ∈ Finset.range s.m.chanIds.length, ∑ j : Fin (S k).K, (S k).eff j := by
    unfold acceptance
    refine Finset.sum_congr rfl fun k hk => Finset.sum_congr rfl fun j _ => ?_
    rw [if_pos (hproc k (Finset.mem_range.mp hk) j)]
  have hsum : ∑ k ∈ Finset.range s.m.chanIds.length, ∑ j, y k j = M := by
    rw [hM, hacc, Finset.mul_sum]
    refine Finset.sum_congr rfl fun k hk => ?_
    rw [Finset.mul_sum]
    exact Finset.sum_congr rfl fun j _ => h1.yields k (Finset.mem_range.mp hk) j
  obtain ⟨hP, hl⟩ := drawn_law s h1.ne S hS y θ₀ h1.sums (fun k hk i => (h1.pos k hk i).le) P draw hd hi
  rw [hsum, show (fun ω => eventsDrawn s S (presentIn S y θ₀) (draw ω)) = N from funext fun ω => (hN ω).symm] at hl
  refine ⟨?_, hl, ?_⟩
  · rw [← hsum]
    refine Finset.sum_pos (fun k hk => ?_) ⟨0, Finset.mem_range.mpr hN0⟩
    have hk := Finset.mem_range.mp hk
    rw [← present_sum y (h1.sums k hk)]
    exact Finset.sum_pos (fun i _ => h1.pos k hk i) ⟨⟨0, (hS k hk).2.1⟩, Finset.mem_univ _⟩
  · filter_upwards [hZ] with ω hω
    by_cases hc : 1 ≤ N ω
    · rw [if_pos hc, hM]
      exact C144_pull s h S hS y θ₀ p ν₀ h1 (draw ω) (o ω) (ho ω) (he ω) _ (hω hc) _ (hN ω) hc
    · rw [if_neg hc]
      have : N ω = 0 := by omega
      rw [this]; simp

/-- **C144, the pulls are biased.** Toy data sets of mutually independent Poisson numbers with at least 4 expected events, almost every one with events having a pull: the mean of the pulls over the toys with
events is negative. -/
theorem C144_biased (s : Sys) (h : s.Built) (S : ℕ → ChanSpec) (hS : ModelIs s S) (y : ∀ k, Fin (S k).K → ℝ) (θ₀ : ∀ k, Fin (S k).K → Fin (S k).n → ℝ) (p : String) (ν₀ : ℝ)
    (h1 : OneProcess s S y θ₀ p ν₀) {Ω : Type} [MeasurableSpace Ω] (P : Measure Ω) (draw : Ω → ℕ → Vec → ℕ → ℕ)
    (hd : PoissonLaw P s S (presentIn S y θ₀) draw) (hi : MutuallyIndep P s S (presentIn S y θ₀) draw)
    (o : Ω → Optim) (ho : ∀ ω, FiniteMin (o ω)) (he : ∀ ω, ExactErrors (o ω))
    (N : Ω → ℕ) (hN : ∀ ω, N ω = eventsDrawn s S (presentIn S y θ₀) (draw ω)) (M : ℝ) (hM : M = ν₀ * acceptance s S p) (hM4 : 4 ≤ M)
    (Z : Ω → ℝ) (hZ : ∀ᵐ ω ∂P, 1 ≤ N ω → PullOf s p (draw ω) (o ω) (Z ω)) :
    Integrable (fun ω => if 1 ≤ N ω then Z ω else 0) P ∧ ∫ ω, (if 1 ≤ N ω then Z ω else 0) ∂P < 0 := by
  obtain ⟨hM0, hl, hae⟩ := pull_mean_law s h S hS y θ₀ p ν₀ h1 P draw hd hi o ho he N hN M hM Z hZ
  have hr : (M.toNNReal : ℝ) = M := Real.coe_toNNReal _ hM0.le
  constructor
  · refine Integrable.congr ?_ hae.symm
    have := pull_integrable M.toNNReal
    rw [hr, ← hl.map_eq] at this
    exact this.comp_aemeasurable hl.aemeasurable
  · rw [integral_congr_ae hae, law_integral hl fun n : ℕ => ((n:ℝ) - M) / √(n:ℝ)]
    have := pull_mean_neg M.toNNReal (by rw [hr]; exact hM4)
    rwa [hr] at this

/-- **C144, the bias is small.** … but in size at most `2 / √M`. -/
theorem C144_mean_partial (s : Sys) (h : s.Built) (S : ℕ → ChanSpec) (hS : ModelIs s S) (y : ∀ k, Fin (S k).K → ℝ) (θ₀ : ∀ k, Fin (S k).K → Fin (S k).n → ℝ) (p : String) (ν₀ : ℝ)
    (h1 : OneProcess s S y θ₀ p ν₀) {Ω : Type} [MeasurableSpace Ω] (P : Measure Ω) (draw : Ω → ℕ → Vec → ℕ → ℕ)
    (hd : PoissonLaw P s S (presentIn S y θ₀) draw) (hi : MutuallyIndep P s S (presentIn S y θ₀) draw)
    (o : Ω → Optim) (ho : ∀ ω, FiniteMin (o ω)) (he : ∀ ω, ExactErrors (o ω))
    (N : Ω → ℕ) (hN : ∀ ω, N ω = eventsDrawn s S (presentIn S y θ₀) (draw ω)) (M : ℝ) (hM : M = ν₀ * acceptance s S p)
    (Z : Ω → ℝ) (hZ : ∀ᵐ ω ∂P, 1 ≤ N ω → PullOf s p (draw ω) (o ω) (Z ω)) :
    |∫ ω, (if 1 ≤ N ω then Z ω else 0) ∂P| ≤ 2 / √M := by
  obtain ⟨hM0, hl, hae⟩ := pull_mean_law s h S hS y θ₀ p ν₀ h1 P draw hd hi o ho he N hN M hM Z hZ
  have hr : (M.toNNReal : ℝ) = M := Real.coe_toNNReal _ hM0.le
  rw [integral_congr_ae hae, law_integral hl fun n : ℕ => ((n:ℝ) - M) / √(n:ℝ)]
  have := pull_mean_small M.toNNReal (by rw [hr]; exact hM0)
  rwa [hr] at this

/-- **C144, many events.** The distribution function of the pulls converges to the one of the standard normal distribution: for every `b` and `ε > 0` there is a number `M₀` such that in every model with one process
and at least `M₀` expected accepted events the probability of a toy having events and a pull of at most `b` is the standard normal probability of being at most `b`, up to `ε`. -/
theorem C144_limit_partial (b ε : ℝ) (hε : 0 < ε) : ∃ M₀ : ℝ, ∀ (s : Sys) (h : s.Built) (S : ℕ → ChanSpec) (hS : ModelIs s S) (y : ∀ k, Fin (S k).K → ℝ)
    (θ₀ : ∀ k, Fin (S k).K → Fin (S k).n → ℝ) (p : String) (ν₀ : ℝ)
    (h1 : OneProcess s S y θ₀ p ν₀) {Ω : Type} [MeasurableSpace Ω] (P : Measure Ω) (draw : Ω → ℕ → Vec → ℕ → ℕ)
    (hd : PoissonLaw P s S (presentIn S y θ₀) draw) (hi : MutuallyIndep P s S (presentIn S y θ₀) draw)
    (o : Ω → Optim) (ho : ∀ ω, FiniteMin (o ω)) (he : ∀ ω, ExactErrors (o ω))
    (N : Ω → ℕ) (hN : ∀ ω, N ω = eventsDrawn s S (presentIn S y θ₀) (draw ω)) (M : ℝ) (hM : M = ν₀ * acceptance s S p) (hM0 : M₀ ≤ M)
    (Z : Ω → ℝ) (hZ : ∀ᵐ ω ∂P, 1 ≤ N ω → PullOf s p (draw ω) (o ω) (Z ω)),
    |P.real {ω | 1 ≤ N ω ∧ Z ω ≤ b} - normalBelow b| ≤ ε := by
  obtain ⟨M₀, hM₀⟩ := pull_cdf b hε
  refine ⟨M₀, ?_⟩
  intro s h S hS y θ₀ p ν₀ h1 Ω mΩ P draw hd hi o ho he N hN M hM hM0 Z hZ
  obtain ⟨hMp, hl, hae⟩ := pull_mean_law s h S hS y θ₀ p ν₀ h1 P draw hd hi o ho he N hN M hM Z hZ
  have hr : (M.toNNReal : ℝ) = M := Real.coe_toNNReal _ hMp.le
  have h2 := hM₀ M.toNNReal (by rw [hr]; exact hM0)
  rw [hr] at h2
  have e : P.real {ω | 1 ≤ N ω ∧ Z ω ≤ b} = P.real {ω | N ω ∈ {k : ℕ | 1 ≤ k ∧ ((k:ℝ) - M) / √(k:ℝ) ≤ b}} := by
    refine measureReal_congr ?_
    filter_upwards [hae] with ω hω
    refine propext ?_
    show (1 ≤ N ω ∧ Z ω ≤ b) ↔ (1 ≤ N ω ∧ ((N ω : ℝ) - M) / √(N ω : ℝ) ≤ b)
    by_cases hc : 1 ≤ N ω
    · rw [if_pos hc] at hω
      rw [hω]
    · simp [hc]
  rw [e, law_real hl]
  exact h2

end
end TF.Props
