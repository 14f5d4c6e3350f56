import Verif.Lemmas.PoissonClt
import Verif.Lemmas.Poisson
import Mathlib.Analysis.SpecialFunctions.Pow.Real

/-!
# The pull of a Poisson number: `(N - r) / √N`

Its mean over `N ≥ 1` is negative for `r ≥ 4` (`pull_mean_neg`) and at most `2 / √r` in size (`pull_mean_small`); its distribution converges to the standard normal one (`pull_cdf`).
-/

namespace TF

open MeasureTheory ProbabilityTheory Real Filter
open scoped NNReal Nat Topology

noncomputable section

/-- weights of the Poisson distribution -/
def pw (r : ℝ) (n : ℕ) : ℝ := rexp (-r) * r ^ n / n !

theorem pw_nonneg {r : ℝ} (hr : 0 ≤ r) (n : ℕ) : 0 ≤ pw r n := by unfold pw; positivity

theorem pw_sum (r : ℝ≥0) : HasSum (pw r) 1 := hasSum_one_poissonMeasure r

theorem pw_summable {r : ℝ} (hr : 0 ≤ r) : Summable (pw r) := (pw_sum ⟨r, hr⟩).summable

theorem pw_succ (r : ℝ) (n : ℕ) : pw r (n + 1) * (n + 1) = r * pw r n := by
  unfold pw
  rw [Nat.factorial_succ, pow_succ]
  push_cast
  have : (n ! : ℝ) ≠ 0 := by exact_mod_cast n.factorial_ne_zero
  have : ((n:ℝ) + 1) ≠ 0 := by positivity
  field_simp

/-- bounded functions are summable against the weights -/
theorem pw_mul_summable {r : ℝ} (hr : 0 ≤ r) {f : ℕ → ℝ} (hf : ∀ n, |f n| ≤ 1) : Summable fun n => pw r n * f n := by
  refine Summable.of_norm_bounded (pw_summable hr) fun n => ?_
  rw [Real.norm_eq_abs, abs_mul, abs_of_nonneg (pw_nonneg hr n)]
  exact mul_le_of_le_one_right (pw_nonneg hr n) (hf n)

theorem inv_sqrt_le (n : ℕ) : |(√(n:ℝ))⁻¹| ≤ 1 := by
  rw [abs_of_nonneg (by positivity)]
  rcases Nat.eq_zero_or_pos n with rfl | h
  · simp
  · refine inv_le_one_of_one_le₀ ?_
    rw [Real.one_le_sqrt]
    exact_mod_cast h

theorem inv_sqrt_succ_le (n : ℕ) : |(√((n:ℝ) + 1))⁻¹| ≤ 1 := by
  have := inv_sqrt_le (n + 1)
  push_cast at this
  exact this

/-- `1/√(n+1) - 1/√n`, with `1/√0 = 0` -/
def pullStep (n : ℕ) : ℝ := (√((n:ℝ) + 1))⁻¹ - (√(n:ℝ))⁻¹

theorem pullStep_neg {n : ℕ} (h : 0 < n) : pullStep n < 0 := by
  unfold pullStep
  have h0 : (0:ℝ) < n := by exact_mod_cast h
  rw [sub_neg]
  exact inv_strictAnti₀ (Real.sqrt_pos.mpr h0) (Real.sqrt_lt_sqrt h0.le (by linarith))

/-- the mean of the pull is `r · E[1/√(N+1) - 1/√N]` -/
theorem pull_hasSum (r : ℝ≥0) : Summable (fun n : ℕ => pw r n * pullStep n) ∧
    HasSum (fun n : ℕ => pw r n * (((n:ℝ) - r) / √(n:ℝ))) (r * ∑' n : ℕ, pw r n * pullStep n) := by
  have hr : (0:ℝ) ≤ r := r.coe_nonneg
  have s1 := pw_mul_summable hr inv_sqrt_le
  have s2 := pw_mul_summable hr inv_sqrt_succ_le
  have s3 : Summable (fun n : ℕ => pw r n * pullStep n) := by
    refine (s2.sub s1).congr fun n => ?_
    unfold pullStep; ring
  refine ⟨s3, ?_⟩
  have e1 : HasSum (fun n : ℕ => pw r n * √(n:ℝ)) (r * ∑' n : ℕ, pw r n * (√((n:ℝ) + 1))⁻¹) := by
    have h := s2.hasSum.mul_left (r:ℝ)
    have h2 : HasSum (fun n : ℕ => pw r (n + 1) * √(((n + 1 : ℕ):ℝ))) (r * ∑' n : ℕ, pw r n * (√((n:ℝ) + 1))⁻¹) := by
      refine h.congr_fun fun n => ?_
      rw [← mul_assoc, ← pw_succ]
      push_cast
      have h0 : (0:ℝ) ≤ (n:ℝ) + 1 := by positivity
      have h1 : √((n:ℝ) + 1) ≠ 0 := (Real.sqrt_pos.mpr (by positivity)).ne'
      rw [mul_assoc]
      congr 1
      rw [eq_mul_inv_iff_mul_eq₀ h1, Real.mul_self_sqrt h0]
    have h3 := (hasSum_nat_add_iff (f := fun n : ℕ => pw r n * √(n:ℝ)) 1).mp h2
    simpa using h3
  have e2 : HasSum (fun n : ℕ => pw r n * (r * (√(n:ℝ))⁻¹)) (r * ∑' n : ℕ, pw r n * (√(n:ℝ))⁻¹) := by
    refine (s1.hasSum.mul_left (r:ℝ)).congr_fun fun n => by ring
  have e3 := e1.sub e2
  have e4 : (r:ℝ) * ∑' n : ℕ, pw r n * (√((n:ℝ) + 1))⁻¹ - r * ∑' n : ℕ, pw r n * (√(n:ℝ))⁻¹ = r * ∑' n : ℕ, pw r n * pullStep n := by
    rw [← mul_sub, ← s2.tsum_sub s1]
    congr 1
    refine tsum_congr fun n => ?_
    unfold pullStep; ring
  rw [e4] at e3
  refine e3.congr_fun fun n => ?_
  rw [sub_div, Real.div_sqrt]
  ring

theorem pull_integrable (r : ℝ≥0) : Integrable (fun n : ℕ => ((n:ℝ) - r) / √(n:ℝ)) (poissonMeasure r) := by
  rw [integrable_poissonMeasure_iff]
  refine (pull_hasSum r).2.summable.abs.congr fun n => ?_
  rw [abs_mul, abs_of_nonneg (pw_nonneg r.coe_nonneg n)]
  rfl

theorem pull_integral (r : ℝ≥0) : ∫ n : ℕ, ((n:ℝ) - r) / √(n:ℝ) ∂(poissonMeasure r) = r * ∑' n : ℕ, pw r n * pullStep n := by
  rw [integral_poissonMeasure]
  exact (pull_hasSum r).2.tsum_eq

/-- the mean of the pull is negative -/
theorem pull_mean_neg (r : ℝ≥0) (hr : 4 ≤ (r:ℝ)) : ∫ n : ℕ, ((n:ℝ) - r) / √(n:ℝ) ∂(poissonMeasure r) < 0 := by
  rw [pull_integral]
  refine mul_neg_of_pos_of_neg (by linarith) ?_
  rw [← (pull_hasSum r).1.sum_add_tsum_nat_add 2]
  have h1 : ∑' n : ℕ, pw r (n + 2) * pullStep (n + 2) ≤ 0 :=
    tsum_nonpos fun n => mul_nonpos_of_nonneg_of_nonpos (pw_nonneg r.coe_nonneg _) (pullStep_neg (by omega)).le
  have h2 : ∑ n ∈ Finset.range 2, pw r n * pullStep n = rexp (-r) * (1 - r * (1 - (√2)⁻¹)) := by
    rw [Finset.sum_range_succ, Finset.sum_range_one]
    unfold pw pullStep
    norm_num
    ring
  have h3 : (√2)⁻¹ < (3/4 : ℝ) := by
    rw [inv_lt_comm₀ (by positivity) (by norm_num)]
    rw [Real.lt_sqrt (by norm_num)]; norm_num
  have h4 : 1 - (r:ℝ) * (1 - (√2)⁻¹) < 0 := by nlinarith
  have := mul_neg_of_pos_of_neg (Real.exp_pos (-(r:ℝ))) h4
  rw [h2]; linarith

theorem pullStep_bound {n : ℕ} (h : 0 < n) {r : ℝ} (hr : 0 < r) :
    -pullStep n ≤ 1/2 * (1/2 * (√r * (6 / (((n:ℝ) + 1) * (n + 2))) + (√r)⁻¹ * (2 / ((n:ℝ) + 1)))) := by
  have h0 : (1:ℝ) ≤ n := by exact_mod_cast h
  have hs : 0 < √(n:ℝ) := Real.sqrt_pos.mpr (by linarith)
  have hs1 : √(n:ℝ) < √((n:ℝ) + 1) := Real.sqrt_lt_sqrt (by linarith) (by linarith)
  have hss : √(n:ℝ) * √(n:ℝ) = n := Real.mul_self_sqrt (by linarith)
  have hss1 : √((n:ℝ) + 1) * √((n:ℝ) + 1) = n + 1 := Real.mul_self_sqrt (by linarith)
  have hq : 0 < √r := Real.sqrt_pos.mpr hr
  -- `1/√n - 1/√(n+1) ≤ 1/(2 n √n)`
  have a1 : -pullStep n ≤ 1/2 * ((n:ℝ)⁻¹ * (√(n:ℝ))⁻¹) := by
    unfold pullStep
    generalize √(n:ℝ) = a at *
    generalize √((n:ℝ) + 1) = b at *
    have hb : 0 < b := hs.trans hs1
    rw [← hss]
    have e : b - a = 1 / (b + a) := by
      rw [eq_div_iff (by positivity)]; nlinarith
    have e2 : -(b⁻¹ - a⁻¹) = (b - a) / (a * b) := by field_simp; ring
    have e3 : 1 / 2 * ((a * a)⁻¹ * a⁻¹) = 1 / (2 * (a * a * a)) := by field_simp
    rw [e2, e, e3, div_div]
    refine one_div_le_one_div_of_le (by positivity) ?_
    have : a * a ≤ a * b := by nlinarith
    nlinarith [mul_pos hs hb, mul_pos hs hs]
  -- arithmetic and geometric mean
  have a2 : (√(n:ℝ))⁻¹ ≤ 1/2 * (√r * (n:ℝ)⁻¹ + (√r)⁻¹) := by
    have : 0 ≤ (√r * (√(n:ℝ))⁻¹ - 1) ^ 2 := sq_nonneg _
    have e : (n:ℝ)⁻¹ = (√(n:ℝ))⁻¹ * (√(n:ℝ))⁻¹ := by rw [← mul_inv, hss]
    rw [e]
    generalize (√(n:ℝ))⁻¹ = a at *
    have h5 : 2 * (√r * a) ≤ (√r * a) * (√r * a) + 1 := by nlinarith
    have h6 : 2 * a = (2 * (√r * a)) * (√r)⁻¹ := by field_simp
    have h7 : ((√r * a) * (√r * a) + 1) * (√r)⁻¹ = √r * (a * a) + (√r)⁻¹ := by field_simp
    have := mul_le_mul_of_nonneg_right h5 (inv_pos.mpr hq).le
    rw [← h6, h7] at this
    linarith
  have b1 : (n:ℝ)⁻¹ * (n:ℝ)⁻¹ ≤ 6 / (((n:ℝ) + 1) * (n + 2)) := by
    rw [← mul_inv, inv_eq_one_div, div_le_div_iff₀ (by positivity) (by positivity)]
    nlinarith
  have b2 : (n:ℝ)⁻¹ ≤ 2 / ((n:ℝ) + 1) := by
    rw [inv_eq_one_div, div_le_div_iff₀ (by positivity) (by positivity)]
    linarith
  calc -pullStep n ≤ 1/2 * ((n:ℝ)⁻¹ * (√(n:ℝ))⁻¹) := a1
    _ ≤ 1/2 * ((n:ℝ)⁻¹ * (1/2 * (√r * (n:ℝ)⁻¹ + (√r)⁻¹))) := by gcongr
    _ = 1/2 * (1/2 * (√r * ((n:ℝ)⁻¹ * (n:ℝ)⁻¹) + (√r)⁻¹ * (n:ℝ)⁻¹)) := by ring
    _ ≤ _ := by gcongr

theorem pw_inv1 {r : ℝ} (hr : 0 < r) : Summable (fun n : ℕ => pw r n * (2 / ((n:ℝ) + 1))) ∧ ∑' n : ℕ, pw r n * (2 / ((n:ℝ) + 1)) ≤ 2 / r := by
  have h := (summable_nat_add_iff 1).mpr (pw_summable hr.le)
  have e : ∀ n : ℕ, pw r n * (2 / ((n:ℝ) + 1)) = 2 / r * pw r (n + 1) := by
    intro n
    have h1 : (n:ℝ) + 1 ≠ 0 := by positivity
    have := pw_succ r n
    field_simp
    linarith
  simp_rw [e]
  refine ⟨h.mul_left _, ?_⟩
  rw [tsum_mul_left]
  refine mul_le_of_le_one_right (by positivity) ?_
  have h2 := (pw_summable hr.le).sum_add_tsum_nat_add 1
  have e1 : ∑' n, pw r n = 1 := (pw_sum ⟨r, hr.le⟩).tsum_eq
  rw [e1, Finset.sum_range_one] at h2
  have := pw_nonneg hr.le 0
  linarith

theorem pw_inv2 {r : ℝ} (hr : 0 < r) : Summable (fun n : ℕ => pw r n * (6 / (((n:ℝ) + 1) * (n + 2)))) ∧
    ∑' n : ℕ, pw r n * (6 / (((n:ℝ) + 1) * (n + 2))) ≤ 6 / r ^ 2 := by
  have h := (summable_nat_add_iff 2).mpr (pw_summable hr.le)
  have e : ∀ n : ℕ, pw r n * (6 / (((n:ℝ) + 1) * (n + 2))) = 6 / r ^ 2 * pw r (n + 2) := by
    intro n
    have h1 : (n:ℝ) + 1 ≠ 0 := by positivity
    have h2 : (n:ℝ) + 2 ≠ 0 := by positivity
    have i1 := pw_succ r n
    have i2 := pw_succ r (n + 1)
    push_cast at i2
    have i3 : pw r (n + 2) * ((n:ℝ) + 2) = r * pw r (n + 1) := by
      rw [← i2]; ring
    have i4 : pw r (n + 2) * ((n:ℝ) + 2) * (n + 1) = r ^ 2 * pw r n := by
      rw [i3, mul_assoc, i1]; ring
    field_simp
    linarith
  simp_rw [e]
  refine ⟨h.mul_left _, ?_⟩
  rw [tsum_mul_left]
  refine mul_le_of_le_one_right (by positivity) ?_
  have h2 := (pw_summable hr.le).sum_add_tsum_nat_add 2
  have e1 : ∑' n, pw r n = 1 := (pw_sum ⟨r, hr.le⟩).tsum_eq
  rw [e1] at h2
  have := Finset.sum_nonneg (s := Finset.range 2) fun n _ => pw_nonneg hr.le n
  linarith

/-- the mean of the pull is small for large means -/
theorem pull_mean_small (r : ℝ≥0) (hr : 0 < (r:ℝ)) : |∫ n : ℕ, ((n:ℝ) - r) / √(n:ℝ) ∂(poissonMeasure r)| ≤ 2 / √(r:ℝ) := by
  rw [pull_integral]
  obtain ⟨s, -⟩ := pull_hasSum r
  have hq : 0 < √(r:ℝ) := Real.sqrt_pos.mpr hr
  have hqq : √(r:ℝ) * √(r:ℝ) = r := Real.mul_self_sqrt hr.le
  obtain ⟨u1, v1⟩ := pw_inv1 hr
  obtain ⟨u2, v2⟩ := pw_inv2 hr
  rw [abs_le]
  constructor
  · have hb : -∑' n : ℕ, pw r n * pullStep n ≤ 1/2 * (1/2 * (√(r:ℝ) * (6 / r ^ 2) + (√(r:ℝ))⁻¹ * (2 / r))) := by
      rw [← tsum_neg]
      have hsum : Summable fun n : ℕ => 1/2 * (1/2 * (√(r:ℝ) * (pw r n * (6 / (((n:ℝ) + 1) * (n + 2)))) + (√(r:ℝ))⁻¹ * (pw r n * (2 / ((n:ℝ) + 1))))) :=
        (((u2.mul_left _).add (u1.mul_left _)).mul_left _).mul_left _
      refine (s.neg.tsum_le_tsum (fun n => ?_) hsum).trans ?_
      · rcases Nat.eq_zero_or_pos n with rfl | hn
        · have h0 : 0 ≤ pw r 0 := pw_nonneg r.coe_nonneg 0
          have : pullStep 0 = 1 := by unfold pullStep; norm_num
          rw [this]
          have : 0 ≤ 1/2 * (1/2 * (√(r:ℝ) * (pw r 0 * (6 / (((0:ℕ):ℝ) + 1) / (((0:ℕ):ℝ) + 2))) + (√(r:ℝ))⁻¹ * (pw r 0 * (2 / (((0:ℕ):ℝ) + 1))))) := by positivity
          refine le_trans (by linarith) (this.trans (le_of_eq ?_))
          norm_num
        · have := mul_le_mul_of_nonneg_left (pullStep_bound hn hr) (pw_nonneg r.coe_nonneg n)
          calc _ = pw r n * -pullStep n := by ring
            _ ≤ _ := this
            _ = _ := by ring
      · rw [tsum_mul_left, tsum_mul_left, ((u2.mul_left _).tsum_add (u1.mul_left _)), tsum_mul_left, tsum_mul_left]
        gcongr
    have e : 1/2 * (1/2 * (√(r:ℝ) * (6 / r ^ 2) + (√(r:ℝ))⁻¹ * (2 / r))) = 2 / √(r:ℝ) / r := by
      have e2 : √(r:ℝ) * (6 / (r:ℝ) ^ 2) = 6 / √(r:ℝ) / r := by
        generalize √(r:ℝ) = q at *
        rw [div_div, ← hqq]; field_simp
      rw [e2]; field_simp; norm_num
    rw [e] at hb
    have := mul_le_mul_of_nonneg_left hb hr.le
    have e3 : (r:ℝ) * (2 / √(r:ℝ) / r) = 2 / √(r:ℝ) := by field_simp
    rw [e3] at this
    linarith
  · have h1 : ∑' n : ℕ, pw r n * pullStep n ≤ rexp (-r) := by
      rw [← s.sum_add_tsum_nat_add 1, Finset.sum_range_one]
      have h1 : ∑' n : ℕ, pw r (n + 1) * pullStep (n + 1) ≤ 0 :=
        tsum_nonpos fun n => mul_nonpos_of_nonneg_of_nonpos (pw_nonneg r.coe_nonneg _) (pullStep_neg (by omega)).le
      have : pw r 0 * pullStep 0 = rexp (-r) := by unfold pw pullStep; norm_num
      linarith
    have h2 : (r:ℝ) * rexp (-r) ≤ 2 / √(r:ℝ) := by
      rw [Real.exp_neg, ← div_eq_mul_inv, div_le_div_iff₀ (Real.exp_pos _) hq]
      have h3 := Real.quadratic_le_exp_of_nonneg hr.le
      have h4 : √(r:ℝ) ≤ 1/2 * (1 + r) := by nlinarith [sq_nonneg (√(r:ℝ) - 1)]
      have : (r:ℝ) * √(r:ℝ) ≤ r * (1/2 * (1 + r)) := mul_le_mul_of_nonneg_left h4 hr.le
      nlinarith
    exact (mul_le_mul_of_nonneg_left h1 hr.le).trans h2

/-! ### the distribution of the pull -/

theorem poissonStd_iic {r : ℕ → ℝ≥0} (hr : Tendsto (fun n => (r n : ℝ)) atTop atTop) (a : ℝ) :
    Tendsto (fun n => (poissonStd (r n)).real (Set.Iic a)) atTop (𝓝 ((gaussianReal 0 1).real (Set.Iic a))) := by
  have h := ProbabilityMeasure.tendsto_measure_of_null_frontier_of_tendsto' (poissonStd_tendsto hr) (E := Set.Iic a) (by
    refine le_antisymm (le_trans (gaussian_le_volume _) ?_) zero_le
    rw [frontier_Iic]
    simp)
  exact (ENNReal.tendsto_toReal (measure_ne_top _ _)).comp h

theorem gaussian_iic_lip {a b : ℝ} (h : a ≤ b) : (gaussianReal 0 1).real (Set.Iic b) ≤ (gaussianReal 0 1).real (Set.Iic a) + (b - a) := by
  have hv : (gaussianReal 0 1).real (Set.Icc a b) ≤ b - a := by
    have := ENNReal.toReal_mono (by simp) (gaussian_le_volume (Set.Icc a b))
    rw [Real.volume_Icc, ENNReal.toReal_ofReal (by linarith)] at this
    exact this
  have hsub : Set.Iic b ⊆ Set.Iic a ∪ Set.Icc a b := by
    intro x hx
    rcases le_total x a with h | h
    · exact .inl h
    · exact .inr ⟨h, hx⟩
  exact (measureReal_mono hsub).trans ((measureReal_union_le _ _).trans (by linarith))

theorem pull_le_iff {k : ℕ} (hk : 1 ≤ k) {r b : ℝ} (hr : 0 < r) :
    ((k:ℝ) - r) / √(k:ℝ) ≤ b ↔ (√r)⁻¹ * ((k:ℝ) - r) ≤ b * ((b / √r + √(b ^ 2 / r + 4)) / 2) := by
  have hk0 : (1:ℝ) ≤ k := by exact_mod_cast hk
  have hv : 0 < √(k:ℝ) := Real.sqrt_pos.mpr (by linarith)
  have hvv : √(k:ℝ) ^ 2 = k := Real.sq_sqrt (by linarith)
  have hs : 0 < √r := Real.sqrt_pos.mpr hr
  have hss : √r ^ 2 = r := Real.sq_sqrt hr.le
  generalize √(k:ℝ) = v at *
  generalize √r = s at *
  rw [← hvv, ← hss]
  have hd : 0 ≤ b ^ 2 / s ^ 2 + 4 := by positivity
  have hD := Real.sq_sqrt hd
  have hD0 : |b / s| < √(b ^ 2 / s ^ 2 + 4) := by
    rw [Real.lt_sqrt (abs_nonneg _), sq_abs, div_pow]; linarith
  generalize √(b ^ 2 / s ^ 2 + 4) = D at *
  obtain ⟨g1, g2⟩ := abs_lt.mp hD0
  -- the positive root
  have hu : 0 < s * ((b / s + D) / 2) := mul_pos hs (by linarith)
  have hw : 0 < s * ((D - b / s) / 2) := mul_pos hs (by linarith)
  have hf : v ^ 2 - b * v - s ^ 2 = (v - s * ((b / s + D) / 2)) * (v + s * ((D - b / s) / 2)) := by
    have e1 : s * ((b / s + D) / 2) = (b + s * D) / 2 := by field_simp
    have e2 : s * ((D - b / s) / 2) = (s * D - b) / 2 := by field_simp
    have e3 : s ^ 2 * D ^ 2 = b ^ 2 + 4 * s ^ 2 := by rw [hD]; field_simp
    rw [e1, e2]
    nlinarith
  have hu2 : (s * ((b / s + D) / 2)) ^ 2 - b * (s * ((b / s + D) / 2)) - s ^ 2 = 0 := by
    have e1 : s * ((b / s + D) / 2) = (b + s * D) / 2 := by field_simp
    have e3 : s ^ 2 * D ^ 2 = b ^ 2 + 4 * s ^ 2 := by rw [hD]; field_simp
    rw [e1]; nlinarith
  have e5 : b * ((b / s + D) / 2) = s⁻¹ * (b * (s * ((b / s + D) / 2))) := by field_simp
  generalize s * ((b / s + D) / 2) = u at *
  generalize s * ((D - b / s) / 2) = w at *
  rw [div_le_iff₀ hv, e5, mul_le_mul_iff_right₀ (inv_pos.mpr hs)]
  have k1 : v ^ 2 - s ^ 2 ≤ b * v ↔ v ≤ u := by
    constructor
    · intro h
      by_contra hc
      push Not at hc
      have : 0 < (v - u) * (v + w) := mul_pos (by linarith) (by linarith)
      linarith
    · intro h
      have : (v - u) * (v + w) ≤ 0 := mul_nonpos_of_nonpos_of_nonneg (by linarith) (by linarith)
      linarith
  have k2 : v ^ 2 - s ^ 2 ≤ b * u ↔ v ≤ u := by
    have : b * u = u ^ 2 - s ^ 2 := by linarith
    rw [this]
    constructor
    · intro h
      exact (pow_le_pow_iff_left₀ hv.le hu.le (by norm_num : (2:ℕ) ≠ 0)).mp (by linarith)
    · intro h
      have := (pow_le_pow_iff_left₀ hv.le hu.le (by norm_num : (2:ℕ) ≠ 0)).mpr h
      linarith
  rw [k1, k2]

theorem pull_threshold {r : ℕ → ℝ≥0} (hr : Tendsto (fun n => (r n : ℝ)) atTop atTop) (b : ℝ) :
    Tendsto (fun n => b * ((b / √(r n : ℝ) + √(b ^ 2 / (r n : ℝ) + 4)) / 2)) atTop (𝓝 b) := by
  have h1 : Tendsto (fun n => b / √(r n : ℝ)) atTop (𝓝 0) := (tendsto_sqrt_atTop.comp hr).const_div_atTop b
  have h2 : Tendsto (fun n => √(b ^ 2 / (r n : ℝ) + 4)) atTop (𝓝 (√(0 + 4))) :=
    ((hr.const_div_atTop (b ^ 2)).add_const 4).sqrt
  have h3 := ((h1.add h2).div_const 2).const_mul b
  have e : b * ((0 + √(0 + 4)) / 2) = b := by
    have : √(4:ℝ) = 2 := by rw [show (4:ℝ) = 2 ^ 2 by norm_num]; exact Real.sqrt_sq (by norm_num)
    rw [zero_add, zero_add, this]; ring
  rw [e] at h3
  exact h3

theorem poissonStd_iic_real (r : ℝ≥0) (c : ℝ) :
    (poissonStd r).real (Set.Iic c) = (poissonMeasure r).real {k : ℕ | (√(r:ℝ))⁻¹ * ((k:ℝ) - r) ≤ c} := by
  unfold poissonStd
  rw [map_measureReal_apply (.of_discrete) measurableSet_Iic]
  rfl

theorem pull_cdf_seq {r : ℕ → ℝ≥0} (hr : Tendsto (fun n => (r n : ℝ)) atTop atTop) (b : ℝ) :
    Tendsto (fun n => (poissonMeasure (r n)).real {k : ℕ | 1 ≤ k ∧ ((k:ℝ) - r n) / √(k:ℝ) ≤ b}) atTop (𝓝 ((gaussianReal 0 1).real (Set.Iic b))) := by
  rw [Metric.tendsto_atTop]
  intro ε hε
  have hδ : 0 < ε / 4 := by linarith
  have h1 := (Metric.tendsto_atTop.mp (poissonStd_iic hr (b - ε / 4)) (ε / 4) hδ)
  have h2 := (Metric.tendsto_atTop.mp (poissonStd_iic hr (b + ε / 4)) (ε / 4) hδ)
  have h3 := (Metric.tendsto_atTop.mp (pull_threshold hr b) (ε / 4) hδ)
  have h4 : Tendsto (fun n => rexp (-(r n : ℝ))) atTop (𝓝 0) := Real.tendsto_exp_neg_atTop_nhds_zero.comp hr
  have h4 := (Metric.tendsto_atTop.mp h4 (ε / 4) hδ)
  obtain ⟨n1, h1⟩ := h1
  obtain ⟨n2, h2⟩ := h2
  obtain ⟨n3, h3⟩ := h3
  obtain ⟨n4, h4⟩ := h4
  obtain ⟨n5, h5⟩ := eventually_atTop.mp (hr.eventually_gt_atTop 0)
  refine ⟨max n1 (max n2 (max n3 (max n4 n5))), fun n hn => ?_⟩
  simp only [ge_iff_le, max_le_iff] at hn
  obtain ⟨m1, m2, m3, m4, m5⟩ := hn
  have h1 := h1 n m1
  have h2 := h2 n m2
  have h3 := h3 n m3
  have h4 := h4 n m4
  have h5 := h5 n m5
  rw [Real.dist_eq, abs_lt] at h1 h2 h3 h4
  rw [poissonStd_iic_real] at h1 h2
  have i1 : {k : ℕ | (√(r n : ℝ))⁻¹ * ((k:ℝ) - r n) ≤ b - ε / 4} ⊆ {k : ℕ | 1 ≤ k ∧ ((k:ℝ) - r n) / √(k:ℝ) ≤ b} ∪ {0} := by
    intro k hk
    rcases Nat.eq_zero_or_pos k with rfl | h
    · exact .inr rfl
    · refine .inl ⟨h, (pull_le_iff h h5).mpr ?_⟩
      have hk : (√(r n : ℝ))⁻¹ * ((k:ℝ) - r n) ≤ b - ε / 4 := hk
      linarith [h3.1]
  have i2 : {k : ℕ | 1 ≤ k ∧ ((k:ℝ) - r n) / √(k:ℝ) ≤ b} ⊆ {k : ℕ | (√(r n : ℝ))⁻¹ * ((k:ℝ) - r n) ≤ b + ε / 4} := by
    rintro k ⟨h, hk⟩
    have := (pull_le_iff h h5).mp hk
    show (√(r n : ℝ))⁻¹ * ((k:ℝ) - r n) ≤ b + ε / 4
    linarith [h3.2]
  have j1 := (measureReal_mono (μ := poissonMeasure (r n)) i1).trans (measureReal_union_le _ _)
  have j2 := measureReal_mono (μ := poissonMeasure (r n)) i2
  have j3 : (poissonMeasure (r n)).real {0} = rexp (-(r n : ℝ)) := by
    rw [poissonMeasure_real_singleton]; simp
  rw [j3] at j1
  have g1 := gaussian_iic_lip (a := b - ε / 4) (b := b) (by linarith)
  have g2 := gaussian_iic_lip (a := b) (b := b + ε / 4) (by linarith)
  rw [Real.dist_eq, abs_lt]
  constructor <;> linarith [h1.1, h1.2, h2.1, h2.2, h4.1, h4.2]

/-- the distribution of the pull of a Poisson number converges to the standard normal distribution -/
theorem pull_cdf (b : ℝ) {ε : ℝ} (hε : 0 < ε) : ∃ M : ℝ, ∀ r : ℝ≥0, M ≤ r →
    |(poissonMeasure r).real {k : ℕ | 1 ≤ k ∧ ((k:ℝ) - r) / √(k:ℝ) ≤ b} - (gaussianReal 0 1).real (Set.Iic b)| ≤ ε := by
  by_contra hcon
  push Not at hcon
  choose r hr1 hr2 using fun n : ℕ => hcon n
  have := Metric.tendsto_atTop.mp (pull_cdf_seq (r := r) (tendsto_atTop_mono hr1 tendsto_natCast_atTop_atTop) b) ε hε
  obtain ⟨n, hn⟩ := this
  have := hn n le_rfl
  rw [Real.dist_eq] at this
  exact absurd this (not_lt.mpr (hr2 n).le)

end
end TF
