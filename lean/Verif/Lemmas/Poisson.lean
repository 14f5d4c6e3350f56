import Mathlib.Probability.Distributions.Poisson.Basic
import Mathlib.Probability.Moments.Variance
import Mathlib.Analysis.SpecialFunctions.Log.Basic

/-!
# Moments of the Poisson distribution
-/

namespace TF

open MeasureTheory ProbabilityTheory Real
open scoped NNReal Nat

noncomputable section

/-- factorial moments: `E[n (n-1) ... (n-k+1)] = r^k` -/
theorem poisson_hasSum_fact (r : ℝ≥0) (k : ℕ) :
    HasSum (fun n : ℕ => rexp (-r) * r ^ n / n ! * (n.descFactorial k : ℝ)) ((r:ℝ) ^ k) := by
  have h := (hasSum_one_poissonMeasure r).mul_left ((r:ℝ) ^ k)
  rw [mul_one] at h
  have h2 : HasSum (fun n : ℕ => rexp (-r) * (r:ℝ) ^ (n + k) / (n + k)! * ((n + k).descFactorial k : ℝ)) ((r:ℝ) ^ k) := by
    refine h.congr_fun ?_
    intro n
    have e : ((n + k)! : ℝ) = n ! * ((n + k).descFactorial k : ℝ) := by
      have := Nat.factorial_mul_descFactorial (n := n + k) (k := k) (by omega)
      rw [Nat.add_sub_cancel] at this
      exact_mod_cast this.symm
    have h0 : ((n + k).descFactorial k : ℝ) ≠ 0 := by
      have : (n + k).descFactorial k ≠ 0 := by
        rw [Ne, Nat.descFactorial_eq_zero_iff_lt]; omega
      exact_mod_cast this
    have h1 : ((n)! : ℝ) ≠ 0 := by exact_mod_cast n.factorial_ne_zero
    rw [e]
    field_simp
    ring
  have h3 := (hasSum_nat_add_iff (f := fun n : ℕ => rexp (-r) * (r:ℝ) ^ n / n ! * (n.descFactorial k : ℝ)) k).mp h2
  have : ∑ i ∈ Finset.range k, rexp (-r) * (r:ℝ) ^ i / i ! * (i.descFactorial k : ℝ) = 0 := by
    refine Finset.sum_eq_zero fun i hi => ?_
    rw [Nat.descFactorial_eq_zero_iff_lt.mpr (Finset.mem_range.mp hi)]
    simp
  rw [this, add_zero] at h3
  exact h3

theorem poisson_fact_integrable (r : ℝ≥0) (k : ℕ) : Integrable (fun n : ℕ => (n.descFactorial k : ℝ)) Po(r) := by
  rw [integrable_poissonMeasure_iff]
  simpa using (poisson_hasSum_fact r k).summable

theorem poisson_fact_integral (r : ℝ≥0) (k : ℕ) : ∫ n : ℕ, (n.descFactorial k : ℝ) ∂Po(r) = (r:ℝ) ^ k := by
  rw [integral_poissonMeasure]
  exact (poisson_hasSum_fact r k).tsum_eq

theorem poisson_integrable (r : ℝ≥0) : Integrable (fun n : ℕ => (n : ℝ)) Po(r) := by
  simpa using poisson_fact_integrable r 1

/-- mean -/
theorem poisson_mean (r : ℝ≥0) : ∫ n : ℕ, (n : ℝ) ∂Po(r) = r := by
  simpa using poisson_fact_integral r 1

theorem sq_fact (n : ℕ) : (n : ℝ) ^ 2 = (n.descFactorial 2 : ℝ) + (n.descFactorial 1 : ℝ) := by
  have : n ^ 2 = n.descFactorial 2 + n.descFactorial 1 := by
    rcases n with _ | n
    · simp
    · simp [Nat.descFactorial_succ]; ring
  exact_mod_cast this

theorem poisson_sq_integrable (r : ℝ≥0) : Integrable (fun n : ℕ => (n : ℝ) ^ 2) Po(r) := by
  simp only [sq_fact]
  exact (poisson_fact_integrable r 2).add (poisson_fact_integrable r 1)

/-- second moment -/
theorem poisson_sq (r : ℝ≥0) : ∫ n : ℕ, (n : ℝ) ^ 2 ∂Po(r) = (r:ℝ) ^ 2 + r := by
  simp only [sq_fact]
  rw [integral_add (poisson_fact_integrable r 2) (poisson_fact_integrable r 1), poisson_fact_integral, poisson_fact_integral, pow_one]

theorem poisson_memLp (r : ℝ≥0) : MemLp (fun n : ℕ => (n : ℝ)) 2 Po(r) := by
  rw [memLp_two_iff_integrable_sq .of_discrete]
  exact poisson_sq_integrable r

/-- variance -/
theorem poisson_var (r : ℝ≥0) : Var[fun n : ℕ => (n : ℝ); Po(r)] = r := by
  rw [variance_eq_sub (poisson_memLp r), poisson_mean]
  have : ∫ n : ℕ, ((fun n : ℕ => (n : ℝ)) ^ 2) n ∂Po(r) = (r:ℝ) ^ 2 + r := poisson_sq r
  rw [this]; ring

theorem quart_fact (n : ℕ) (r : ℝ) : ((n : ℝ) - r) ^ 4 = (n.descFactorial 4 : ℝ) + (6 - 4 * r) * (n.descFactorial 3 : ℝ) +
    (7 - 12 * r + 6 * r ^ 2) * (n.descFactorial 2 : ℝ) + (1 - 4 * r + 6 * r ^ 2 - 4 * r ^ 3) * (n.descFactorial 1 : ℝ) + r ^ 4 := by
  have e3 : (n : ℝ) ^ 3 = (n.descFactorial 3 : ℝ) + 3 * (n.descFactorial 2 : ℝ) + (n.descFactorial 1 : ℝ) := by
    have : n ^ 3 = n.descFactorial 3 + 3 * n.descFactorial 2 + n.descFactorial 1 := by
      rcases n with _ | _ | n
      · simp
      · simp [Nat.descFactorial_succ]
      · simp [Nat.descFactorial_succ]; ring
    exact_mod_cast this
  have e4 : (n : ℝ) ^ 4 = (n.descFactorial 4 : ℝ) + 6 * (n.descFactorial 3 : ℝ) + 7 * (n.descFactorial 2 : ℝ) + (n.descFactorial 1 : ℝ) := by
    have : n ^ 4 = n.descFactorial 4 + 6 * n.descFactorial 3 + 7 * n.descFactorial 2 + n.descFactorial 1 := by
      rcases n with _ | _ | _ | n
      · simp
      · simp [Nat.descFactorial_succ]
      · simp [Nat.descFactorial_succ]
      · simp [Nat.descFactorial_succ]; ring
    exact_mod_cast this
  have e2 := sq_fact n
  have e1 : (n.descFactorial 1 : ℝ) = n := by simp
  have : ((n : ℝ) - r) ^ 4 = (n:ℝ) ^ 4 - 4 * r * (n:ℝ) ^ 3 + 6 * r ^ 2 * (n:ℝ) ^ 2 - 4 * r ^ 3 * n + r ^ 4 := by ring
  rw [this, e4, e3, e2, e1]
  ring

theorem poisson_quart_integrable (r : ℝ≥0) : Integrable (fun n : ℕ => ((n : ℝ) - r) ^ 4) Po(r) := by
  simp only [quart_fact]
  exact ((((poisson_fact_integrable r 4).add ((poisson_fact_integrable r 3).const_mul _)).add
    ((poisson_fact_integrable r 2).const_mul _)).add ((poisson_fact_integrable r 1).const_mul _)).add (integrable_const _)

/-- fourth central moment -/
theorem poisson_quart (r : ℝ≥0) : ∫ n : ℕ, ((n : ℝ) - r) ^ 4 ∂Po(r) = 3 * (r:ℝ) ^ 2 + r := by
  simp only [quart_fact]
  have i4 := poisson_fact_integrable r 4
  have i3 := (poisson_fact_integrable r 3).const_mul (6 - 4 * (r:ℝ))
  have i2 := (poisson_fact_integrable r 2).const_mul (7 - 12 * (r:ℝ) + 6 * (r:ℝ) ^ 2)
  have i1 := (poisson_fact_integrable r 1).const_mul (1 - 4 * (r:ℝ) + 6 * (r:ℝ) ^ 2 - 4 * (r:ℝ) ^ 3)
  rw [integral_add (((i4.fun_add i3).fun_add i2).fun_add i1) (integrable_const _), integral_add ((i4.fun_add i3).fun_add i2) i1, integral_add (i4.fun_add i3) i2,
    integral_add i4 i3, integral_const_mul, integral_const_mul, integral_const_mul]
  simp only [poisson_fact_integral]
  simp
  ring

/-- second central moment -/
theorem poisson_central (r : ℝ≥0) : Integrable (fun n : ℕ => ((n : ℝ) - r) ^ 2) Po(r) ∧ ∫ n : ℕ, ((n : ℝ) - r) ^ 2 ∂Po(r) = r := by
  have e : (fun n : ℕ => ((n : ℝ) - r) ^ 2) = fun n : ℕ => (n : ℝ) ^ 2 + (-2 * (r:ℝ)) * n + (r:ℝ) ^ 2 := by funext n; ring
  have i1 := poisson_sq_integrable r
  have i2 := (poisson_integrable r).const_mul (-2 * (r:ℝ))
  rw [e]
  refine ⟨(i1.add i2).add (integrable_const _), ?_⟩
  rw [integral_add (i1.fun_add i2) (integrable_const _), integral_add i1 i2, integral_const_mul, poisson_sq, poisson_mean]
  simp
  ring

/-- `n log n` has a mean -/
theorem poisson_log_integrable (r : ℝ≥0) : Integrable (fun n : ℕ => (n : ℝ) * Real.log n) Po(r) := by
  refine (poisson_sq_integrable r).mono' .of_discrete (Filter.Eventually.of_forall fun n => ?_)
  rcases Nat.eq_zero_or_pos n with rfl | h
  · simp
  · have h1 : (1:ℝ) ≤ n := by exact_mod_cast h
    have h2 := Real.log_nonneg h1
    have h3 := Real.log_le_sub_one_of_pos (by linarith : (0:ℝ) < n)
    rw [Real.norm_eq_abs, abs_of_nonneg (by positivity)]
    nlinarith

end

end TF
