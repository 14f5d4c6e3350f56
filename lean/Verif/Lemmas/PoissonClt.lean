import Mathlib.Probability.Distributions.Poisson.Basic
import Mathlib.Probability.Distributions.Gaussian.Real
import Mathlib.MeasureTheory.Measure.LevyConvergence

/-!
# The Poisson distribution with a large mean

`poisson_coverage`: for a Poisson number `N` with mean `r`, the probability of `|N - r| ≤ t √N` converges for `r → ∞` to the probability of `[-t, t]` under the standard normal distribution.
-/

namespace TF

open MeasureTheory ProbabilityTheory Real Filter
open scoped NNReal Nat Topology

noncomputable section

/-- law of `(N - r) / √r` -/
def poissonStd (r : ℝ≥0) : Measure ℝ := (poissonMeasure r).map fun k : ℕ => (√(r:ℝ))⁻¹ * ((k:ℝ) - r)

instance (r : ℝ≥0) : IsProbabilityMeasure (poissonStd r) := by
  unfold poissonStd
  exact Measure.isProbabilityMeasure_map .of_discrete

theorem charFun_poissonStd (r : ℝ≥0) (t : ℝ) :
    charFun (poissonStd r) t = Complex.exp (r * (Complex.exp (((√(r:ℝ))⁻¹ * t : ℝ) * Complex.I) - 1 - ((√(r:ℝ))⁻¹ * t : ℝ) * Complex.I)) := by
  have h := charFun_map_cast_poissonMeasure r ((√(r:ℝ))⁻¹ * t)
  rw [charFun_apply, integral_map .of_discrete (by fun_prop)] at h
  unfold poissonStd
  rw [charFun_apply, integral_map .of_discrete (by fun_prop)]
  simp_rw [Real.inner_apply] at h ⊢
  have e : ∀ k : ℕ, Complex.exp ((((√(r:ℝ))⁻¹ * ((k:ℝ) - r) * t : ℝ) : ℂ) * Complex.I) =
      Complex.exp (-(r * ((√(r:ℝ))⁻¹ * t : ℝ) * Complex.I)) * Complex.exp ((((k:ℝ) * ((√(r:ℝ))⁻¹ * t) : ℝ) : ℂ) * Complex.I) := by
    intro k
    rw [← Complex.exp_add]
    congr 1
    push_cast
    ring
  simp_rw [e]
  rw [integral_const_mul, h, ← Complex.exp_add]
  congr 1
  ring

theorem charFun_poissonStd_tendsto {r : ℕ → ℝ≥0} (hr : Tendsto (fun n => (r n : ℝ)) atTop atTop) (t : ℝ) :
    Tendsto (fun n => charFun (poissonStd (r n)) t) atTop (𝓝 (charFun (gaussianReal 0 1) t)) := by
  rw [charFun_gaussianReal]
  simp_rw [charFun_poissonStd]
  refine (Complex.continuous_exp.tendsto _).comp ?_
  rw [tendsto_iff_norm_sub_tendsto_zero]
  have h1 : Tendsto (fun n => |t| ^ 3 * (√(r n : ℝ))⁻¹) atTop (𝓝 0) := by
    have := (tendsto_sqrt_atTop.comp hr).inv_tendsto_atTop.const_mul (|t| ^ 3)
    simpa using this
  refine squeeze_zero' (.of_forall fun _ => norm_nonneg _) ?_ h1
  filter_upwards [hr.eventually_ge_atTop (max 1 (t ^ 2))] with n hn
  have hr1 : (1:ℝ) ≤ r n := (le_max_left _ _).trans hn
  have hr2 : t ^ 2 ≤ r n := (le_max_right _ _).trans hn
  have hs : 0 < √(r n : ℝ) := Real.sqrt_pos.mpr (by linarith)
  have hss : √(r n : ℝ) ^ 2 = r n := Real.sq_sqrt (by linarith)
  generalize hs' : √(r n : ℝ) = s at *
  have hts : |t| ≤ s := by
    rw [← hs']; exact Real.abs_le_sqrt hr2
  have hz : ‖((s⁻¹ * t : ℝ) : ℂ) * Complex.I‖ = s⁻¹ * |t| := by
    rw [norm_mul, Complex.norm_I, mul_one, Complex.norm_real, Real.norm_eq_abs, abs_mul, abs_of_pos (inv_pos.mpr hs)]
  have hb := Complex.exp_bound (x := ((s⁻¹ * t : ℝ) : ℂ) * Complex.I) (by
    rw [hz, inv_mul_le_iff₀ hs]; linarith) (n := 3) (by norm_num)
  rw [hz] at hb
  have e : (r n : ℂ) = (s : ℂ) ^ 2 := by
    have : ((r n : ℝ) : ℂ) = ((s ^ 2 : ℝ) : ℂ) := by rw [hss]
    push_cast at this
    exact this
  have hsc : (s : ℂ) ≠ 0 := by exact_mod_cast hs.ne'
  have e2 : (r n : ℂ) * (Complex.exp (((s⁻¹ * t : ℝ) : ℂ) * Complex.I) - 1 - ((s⁻¹ * t : ℝ) : ℂ) * Complex.I) -
      (t * (0:ℝ) * Complex.I - (1:ℝ≥0) * t ^ 2 / 2) =
      (s : ℂ) ^ 2 * (Complex.exp (((s⁻¹ * t : ℝ) : ℂ) * Complex.I) - ∑ m ∈ Finset.range 3, (((s⁻¹ * t : ℝ) : ℂ) * Complex.I) ^ m / m.factorial) := by
    rw [e]
    simp [Finset.sum_range_succ, Nat.factorial, mul_pow]
    field_simp
    ring
  simp only [Complex.ofReal_zero, NNReal.coe_one] at e2
  have e3 : (r n : ℂ) * (Complex.exp (((s⁻¹ * t : ℝ) : ℂ) * Complex.I) - 1 - ((s⁻¹ * t : ℝ) : ℂ) * Complex.I) -
      (t * (0:ℂ) * Complex.I - (1:ℝ≥0) * t ^ 2 / 2) =
      (s : ℂ) ^ 2 * (Complex.exp (((s⁻¹ * t : ℝ) : ℂ) * Complex.I) - ∑ m ∈ Finset.range 3, (((s⁻¹ * t : ℝ) : ℂ) * Complex.I) ^ m / m.factorial) := e2
  refine le_trans (le_of_eq (congrArg norm ?_)) (b := ‖(s : ℂ) ^ 2 * (Complex.exp (((s⁻¹ * t : ℝ) : ℂ) * Complex.I) - ∑ m ∈ Finset.range 3, (((s⁻¹ * t : ℝ) : ℂ) * Complex.I) ^ m / m.factorial)‖) ?_
  · rw [← e3]; simp
  rw [norm_mul, norm_pow, Complex.norm_real, Real.norm_eq_abs, abs_of_pos hs]
  calc s ^ 2 * ‖_‖ ≤ s ^ 2 * ((s⁻¹ * |t|) ^ 3 * ((Nat.succ 3 : ℝ) * (Nat.factorial 3 * (3:ℕ) : ℝ)⁻¹)) := by gcongr
    _ ≤ s ^ 2 * ((s⁻¹ * |t|) ^ 3 * 1) := by
        gcongr
        norm_num [Nat.factorial]
    _ = |t| ^ 3 * s⁻¹ := by field_simp

/-- weak convergence of the standardised Poisson law -/
theorem poissonStd_tendsto {r : ℕ → ℝ≥0} (hr : Tendsto (fun n => (r n : ℝ)) atTop atTop) :
    Tendsto (β := ProbabilityMeasure ℝ) (fun n => ⟨poissonStd (r n), inferInstance⟩) atTop (𝓝 ⟨gaussianReal 0 1, inferInstance⟩) :=
  ProbabilityMeasure.tendsto_iff_tendsto_charFun.mpr fun t => charFun_poissonStd_tendsto hr t

theorem gaussian_le_volume (E : Set ℝ) : gaussianReal 0 1 E ≤ volume E := by
  rw [gaussianReal_of_var_ne_zero 0 one_ne_zero]
  refine le_trans (withDensity_mono (f := gaussianPDF 0 1) (g := 1) (.of_forall fun x => ?_) E) (le_of_eq (by rw [withDensity_one]))
  unfold gaussianPDF gaussianPDFReal
  rw [Pi.one_apply, ENNReal.ofReal_le_one]
  have h1 : (√(2 * π * ((1:ℝ≥0):ℝ)))⁻¹ ≤ 1 := by
    refine inv_le_one_of_one_le₀ ?_
    rw [Real.one_le_sqrt]
    have := Real.two_le_pi
    push_cast
    linarith
  have h2 : rexp (-(x - 0) ^ 2 / (2 * ((1:ℝ≥0):ℝ))) ≤ 1 := by
    rw [Real.exp_le_one_iff]
    have := sq_nonneg (x - 0)
    have h3 : -(x - 0) ^ 2 / (2 * ((1:ℝ≥0):ℝ)) = -((x - 0) ^ 2 / 2) := by push_cast; ring
    rw [h3]; linarith
  calc _ ≤ 1 * 1 := mul_le_mul h1 h2 (Real.exp_nonneg _) zero_le_one
    _ = 1 := one_mul 1

/-- probability of `[-t, t]` under the standard normal distribution -/
def normalWithin (t : ℝ) : ℝ := (gaussianReal 0 1).real (Set.Icc (-t) t)

theorem normalWithin_lip {a δ : ℝ} (hδ : 0 ≤ δ) : normalWithin (a + δ) ≤ normalWithin a + 2 * δ := by
  unfold normalWithin
  have hv : ∀ u v : ℝ, u ≤ v → (gaussianReal 0 1).real (Set.Icc u v) ≤ v - u := by
    intro u v h
    have := ENNReal.toReal_mono (by simp) (gaussian_le_volume (Set.Icc u v))
    rw [Real.volume_Icc, ENNReal.toReal_ofReal (by linarith)] at this
    exact this
  have hsub : Set.Icc (-(a + δ)) (a + δ) ⊆ Set.Icc (-a) a ∪ Set.Icc (-(a+δ)) (-a) ∪ Set.Icc a (a + δ) := by
    intro x hx
    simp only [Set.mem_union, Set.mem_Icc] at *
    by_cases h1 : -a ≤ x
    · by_cases h2 : x ≤ a
      · exact .inl (.inl ⟨h1, h2⟩)
      · exact .inr ⟨by linarith, hx.2⟩
    · exact .inl (.inr ⟨hx.1, by linarith⟩)
  calc _ ≤ (gaussianReal 0 1).real (Set.Icc (-a) a ∪ Set.Icc (-(a+δ)) (-a) ∪ Set.Icc a (a + δ)) := measureReal_mono hsub
    _ ≤ _ := measureReal_union_le _ _
    _ ≤ ((gaussianReal 0 1).real (Set.Icc (-a) a) + (gaussianReal 0 1).real (Set.Icc (-(a+δ)) (-a))) + (gaussianReal 0 1).real (Set.Icc a (a + δ)) := by
        gcongr; exact measureReal_union_le _ _
    _ ≤ (gaussianReal 0 1).real (Set.Icc (-a) a) + (-a - -(a+δ)) + (a + δ - a) := by
        gcongr
        · exact hv _ _ (by linarith)
        · exact hv _ _ (by linarith)
    _ = _ := by ring

theorem poissonStd_icc {r : ℕ → ℝ≥0} (hr : Tendsto (fun n => (r n : ℝ)) atTop atTop) (a : ℝ) :
    Tendsto (fun n => (poissonStd (r n)).real (Set.Icc (-a) a)) atTop (𝓝 (normalWithin a)) := by
  have h := ProbabilityMeasure.tendsto_measure_of_null_frontier_of_tendsto' (poissonStd_tendsto hr) (E := Set.Icc (-a) a) (by
    refine le_antisymm (le_trans (gaussian_le_volume _) ?_) zero_le
    rcases le_total (-a) a with h | h
    · rw [frontier_Icc h]; exact le_of_eq (((Set.finite_singleton a).insert (-a)).measure_zero _)
    · rcases h.lt_or_eq with h | h
      · rw [Set.Icc_eq_empty (not_le.mpr h)]; simp
      · rw [← h, Set.Icc_self]
        exact le_trans (measure_mono (frontier_subset_closure)) (by simp))
  exact (ENNReal.tendsto_toReal (measure_ne_top _ _)).comp h

/-- the standardised form of `|N - r| ≤ c √r` -/
theorem poissonStd_real (r : ℝ≥0) (hr : 0 < (r:ℝ)) (c : ℝ) :
    (poissonStd r).real (Set.Icc (-c) c) = (poissonMeasure r).real {k : ℕ | |(k:ℝ) - r| ≤ c * √(r:ℝ)} := by
  unfold poissonStd
  rw [map_measureReal_apply (.of_discrete) measurableSet_Icc]
  congr 1
  ext k
  have hs : 0 < √(r:ℝ) := Real.sqrt_pos.mpr hr
  simp only [Set.mem_preimage, Set.mem_Icc, Set.mem_ofPred, ← abs_le]
  rw [abs_mul, abs_of_pos (inv_pos.mpr hs), inv_mul_le_iff₀ hs, mul_comm]

/-- the probability of `|N - r| ≤ t √N`, along a sequence -/
theorem poisson_coverage_seq {r : ℕ → ℝ≥0} (hr : Tendsto (fun n => (r n : ℝ)) atTop atTop) {t : ℝ} (ht : 0 < t) :
    Tendsto (fun n => (poissonMeasure (r n)).real {k : ℕ | |(k:ℝ) - r n| ≤ t * √(k:ℝ)}) atTop (𝓝 (normalWithin t)) := by
  rw [Metric.tendsto_atTop]
  intro ε hε
  obtain ⟨δ, hδ, hδt, hδε⟩ : ∃ δ, 0 < δ ∧ δ < t ∧ 2 * δ < ε / 2 := ⟨min (t/2) (ε/8), by positivity, by
    have := min_le_left (t/2) (ε/8); linarith, by have := min_le_right (t/2) (ε/8); linarith⟩
  have h1 := Metric.tendsto_atTop.mp (poissonStd_icc hr (t - δ)) (ε/2) (by linarith)
  have h2 := Metric.tendsto_atTop.mp (poissonStd_icc hr (t + δ)) (ε/2) (by linarith)
  obtain ⟨n1, h1⟩ := h1
  obtain ⟨n2, h2⟩ := h2
  -- thresholds
  have hq : 0 < 1 - ((t - δ) / t) ^ 2 := by
    have h0 : 0 < (t - δ) / t := div_pos (by linarith) ht
    have h1 : (t - δ) / t < 1 := by rw [div_lt_one ht]; linarith
    nlinarith
  have hq' : 0 < 1 - (t / (t + δ)) ^ 2 := by
    have h0 : 0 < t / (t + δ) := div_pos (by linarith) (by linarith)
    have h1 : t / (t + δ) < 1 := by rw [div_lt_one (by linarith)]; linarith
    nlinarith
  obtain ⟨n3, h3⟩ := eventually_atTop.mp (hr.eventually_ge_atTop (max 1 (max ((t / (1 - ((t - δ) / t) ^ 2)) ^ 2) ((t / (1 - (t / (t + δ)) ^ 2)) ^ 2))))
  refine ⟨max n1 (max n2 n3), fun n hn => ?_⟩
  have h1 := h1 n ((le_max_left _ _).trans hn)
  have h2 := h2 n (((le_max_left _ _).trans (le_max_right _ _)).trans hn)
  have h3 := h3 n (((le_max_right _ _).trans (le_max_right _ _)).trans hn)
  have hr1 : (1:ℝ) ≤ r n := (le_max_left _ _).trans h3
  have hA : (t / (1 - ((t - δ) / t) ^ 2)) ^ 2 ≤ r n := ((le_max_left _ _).trans (le_max_right _ _)).trans h3
  have hB : (t / (1 - (t / (t + δ)) ^ 2)) ^ 2 ≤ r n := ((le_max_right _ _).trans (le_max_right _ _)).trans h3
  rw [poissonStd_real _ (by linarith)] at h1 h2
  have hs : 0 < √(r n : ℝ) := Real.sqrt_pos.mpr (by linarith)
  have hss : √(r n : ℝ) ^ 2 = r n := Real.sq_sqrt (by linarith)
  have hA' : t / (1 - ((t - δ) / t) ^ 2) ≤ √(r n : ℝ) := Real.le_sqrt_of_sq_le hA
  have hB' : t / (1 - (t / (t + δ)) ^ 2) ≤ √(r n : ℝ) := Real.le_sqrt_of_sq_le hB
  rw [div_le_iff₀ hq] at hA'
  rw [div_le_iff₀ hq'] at hB'
  have i1 : {k : ℕ | |(k:ℝ) - r n| ≤ (t - δ) * √(r n : ℝ)} ⊆ {k : ℕ | |(k:ℝ) - r n| ≤ t * √(k:ℝ)} := by
    intro k hk
    simp only [Set.mem_ofPred] at hk ⊢
    refine hk.trans ?_
    have hk2 := (abs_le.mp hk).1
    have : (t - δ) / t * √(r n : ℝ) ≤ √(k:ℝ) := by
      refine Real.le_sqrt_of_sq_le ?_
      rw [mul_pow, hss]
      have : t * √(r n : ℝ) ≤ (r n : ℝ) * (1 - ((t - δ) / t) ^ 2) := by
        calc _ ≤ (√(r n : ℝ) * (1 - ((t - δ) / t) ^ 2)) * √(r n : ℝ) := by gcongr
          _ = √(r n : ℝ) ^ 2 * (1 - ((t - δ) / t) ^ 2) := by ring
          _ = _ := by rw [hss]
      nlinarith
    calc (t - δ) * √(r n : ℝ) = t * ((t - δ) / t * √(r n : ℝ)) := by field_simp
      _ ≤ _ := by gcongr
  have i2 : {k : ℕ | |(k:ℝ) - r n| ≤ t * √(k:ℝ)} ⊆ {k : ℕ | |(k:ℝ) - r n| ≤ (t + δ) * √(r n : ℝ)} := by
    intro k hk
    simp only [Set.mem_ofPred] at hk ⊢
    refine hk.trans ?_
    have hk2 := (abs_le.mp hk).2
    have hkk : √(k:ℝ) ^ 2 = k := Real.sq_sqrt (Nat.cast_nonneg _)
    by_contra hcon
    push Not at hcon
    have hu0 : 0 < √(k:ℝ) := by
      by_contra h0
      have : √(k:ℝ) = 0 := le_antisymm (not_lt.mp h0) (Real.sqrt_nonneg _)
      rw [this, mul_zero] at hcon
      nlinarith
    have hlt : √(r n : ℝ) < t / (t + δ) * √(k:ℝ) := by
      rw [div_mul_eq_mul_div, lt_div_iff₀ (by linarith)]; linarith
    have hrs : (r n : ℝ) < (t / (t + δ)) ^ 2 * √(k:ℝ) ^ 2 := by
      rw [← hss, ← mul_pow]
      exact pow_lt_pow_left₀ hlt hs.le (by norm_num)
    have hle : √(r n : ℝ) < √(k:ℝ) := by
      refine hlt.trans_le ?_
      have : t / (t + δ) ≤ 1 := by rw [div_le_one (by linarith)]; linarith
      nlinarith
    have : √(k:ℝ) * (√(k:ℝ) * (1 - (t / (t + δ)) ^ 2)) < √(k:ℝ) * t := by nlinarith
    have := lt_of_mul_lt_mul_left this hu0.le
    have h5 : √(r n : ℝ) * (1 - (t / (t + δ)) ^ 2) < √(k:ℝ) * (1 - (t / (t + δ)) ^ 2) := mul_lt_mul_of_pos_right hle hq'
    linarith
  have j1 := measureReal_mono (μ := poissonMeasure (r n)) i1
  have j2 := measureReal_mono (μ := poissonMeasure (r n)) i2
  have g1 := normalWithin_lip (a := t - δ) hδ.le
  have g2 := normalWithin_lip (a := t) hδ.le
  rw [sub_add_cancel] at g1
  rw [Real.dist_eq, abs_lt] at h1 h2 ⊢
  constructor <;> linarith [h1.1, h1.2, h2.1, h2.2]

/-- **Coverage of a Poisson number.** For every `ε` there is a mean from which on the probability of `|N - r| ≤ t √N` differs from the probability of `[-t, t]` under the standard normal distribution by
at most `ε`. -/
theorem poisson_coverage {t : ℝ} (ht : 0 < t) {ε : ℝ} (hε : 0 < ε) : ∃ M : ℝ, ∀ r : ℝ≥0, M ≤ r →
    |(poissonMeasure r).real {k : ℕ | |(k:ℝ) - r| ≤ t * √(k:ℝ)} - normalWithin t| ≤ ε := by
  by_contra hcon
  push Not at hcon
  choose r hr1 hr2 using fun n : ℕ => hcon n
  have := Metric.tendsto_atTop.mp (poisson_coverage_seq (r := r) (tendsto_atTop_mono hr1 tendsto_natCast_atTop_atTop) ht) ε hε
  obtain ⟨n, hn⟩ := this
  have := hn n le_rfl
  rw [Real.dist_eq] at this
  exact absurd this (not_lt.mpr (hr2 n).le)

end
end TF
