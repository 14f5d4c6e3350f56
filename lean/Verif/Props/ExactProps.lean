import Verif.Props.UtilityProps
import Verif.Props.StatsProps
import Verif.Props.MinimizerProps

set_option linter.unusedSimpArgs false

/-!
# Where exactly the refuted claims hold (C11, C18, C60)

Three claims are false of the code. Here the *exact* set of inputs on which they are true is determined.
-/

namespace TF.Props

open Classical Spec
open scoped Matrix

noncomputable section

/-! ## C11 -/

/-- **C11, exactly when.** For every covariance matrix with positive variances the documented round trip
(variances as second argument) gives the matrix back if and only if every variance is 1. -/
theorem C11_iff {n : ℕ} (M : Mat) (C : Matrix (Fin n) (Fin n) ℝ) (hM : IsReal M C) (hv : ∀ i, 0 < C i i) :
    IsReal (corr2cov (cov2corr M) (vec fun i => C i i)) C ↔ ∀ i, C i i = 1 := by
  have h1 : IsReal (cov2corr M) (corrOf C) := cov2corr_isReal hM (fun i => (hv i).le)
    (fun i j h => by rcases h with h | h <;> exact absurd h (hv _).ne')
  have h2 := (isReal_diagOf fun i => C i i).mul (h1.mul (isReal_diagOf fun i => C i i))
  constructor
  · intro h i
    have h3 := h.2.2 i i
    unfold corr2cov at h3
    rw [h2.2.2 i i, Matrix.diagonal_mul, Matrix.mul_diagonal] at h3
    simp only [Fl.fin_inj, corrOf, Matrix.of_apply, (hv i).ne', or_self, if_false,
      Real.mul_self_sqrt (hv i).le, div_self (hv i).ne', one_mul] at h3
    have := hv i
    nlinarith
  · intro h
    unfold corr2cov
    convert h2 using 1
    ext i j
    rw [Matrix.diagonal_mul, Matrix.mul_diagonal]
    simp [corrOf, h]

/-- non-vacuity of `C11_iff`: both sides occur -/
example : (∀ i, (1 : Matrix (Fin 2) (Fin 2) ℝ) i i = 1) ∧
    ¬ ∀ i, (Matrix.diagonal ![4, 9] : Matrix (Fin 2) (Fin 2) ℝ) i i = 1 :=
  ⟨by simp, by intro h; have := h 0; norm_num at this⟩

/-! ## C18 -/

theorem fin_of_add_fin {a b : Fl} {r : ℝ} (h : a + b = .fin r) : (∃ x, a = .fin x) ∧ ∃ y, b = .fin y := by
  cases a <;> cases b <;> first
    | exact ⟨⟨_, rfl⟩, _, rfl⟩
    | exact absurd h (by intro h; cases h)

theorem sum_fin_all (l : Vec) (r : ℝ) (h : l.sum = .fin r) : ∀ a ∈ l, ∃ x, a = Fl.fin x := by
  induction l generalizing r with
  | nil => simp
  | cons a l ih =>
    rw [List.sum_cons] at h
    obtain ⟨h1, y, h2⟩ := fin_of_add_fin h
    intro b hb
    rcases List.mem_cons.mp hb with rfl | hb
    · exact h1
    · exact ih y h2 b hb

theorem fin_of_two_mul {z : Fl} {r : ℝ} (h : Fl.fin 2 * z = .fin r) : ∃ x, z = .fin x := by
  cases z with
  | fin x => exact ⟨x, rfl⟩
  | pinf =>
    exfalso
    have e : Fl.fin 2 * Fl.pinf = Fl.pinf := by show Fl.mulPinf 2 = _; simp [Fl.mulPinf]
    rw [e] at h; cases h
  | ninf =>
    exfalso
    have e : Fl.fin 2 * Fl.ninf = Fl.ninf := by
      show Fl.neg (Fl.mulPinf 2) = _; simp [Fl.mulPinf, Fl.neg]
    rw [e] at h; cases h
  | nan => cases h

/-- one bin's term is a finite number exactly if data and expectation are non-zero with equal signs -/
theorem cowan_term_fin (d n : ℝ) :
    (∃ x, Fl.fin d * Fl.log (Fl.fin d / Fl.fin n) + Fl.fin n - Fl.fin d = .fin x) ↔ 0 < d * n := by
  constructor
  · rintro ⟨x, hx⟩
    obtain ⟨⟨y, hy⟩, _⟩ := fin_of_add_fin (a := Fl.fin d * Fl.log (Fl.fin d / Fl.fin n) + Fl.fin n)
      (b := Fl.neg (Fl.fin d)) hx
    obtain ⟨⟨z, hz⟩, _⟩ := fin_of_add_fin hy
    clear hx hy
    by_contra hle
    rw [not_lt] at hle
    by_cases hn : n = 0
    · subst hn
      have e : Fl.fin d / Fl.fin 0 = if d = 0 then .nan else if 0 < d then .pinf else .ninf := by
        show (if (0:ℝ) = 0 then _ else _) = _
        rw [if_pos rfl]
      rw [e] at hz
      by_cases h0 : d = 0
      · rw [if_pos h0] at hz; cases hz
      · rw [if_neg h0] at hz
        by_cases h1 : 0 < d
        · rw [if_pos h1] at hz
          have e2 : Fl.fin d * Fl.log .pinf = .pinf := by
            show Fl.mulPinf d = _; simp [Fl.mulPinf, h0, h1]
          rw [e2] at hz; cases hz
        · rw [if_neg h1] at hz; cases hz
    · rw [Fl.fin_div _ _ hn] at hz
      by_cases h0 : d = 0
      · subst h0
        have e2 : Fl.fin 0 * Fl.log (Fl.fin (0 / n)) = .nan := by
          have : Fl.log (Fl.fin (0 / n)) = .ninf := by simp [Fl.log]
          rw [this]
          show Fl.neg (Fl.mulPinf 0) = _; simp [Fl.mulPinf, Fl.neg]
        rw [e2] at hz; cases hz
      · have hlt : d * n < 0 := lt_of_le_of_ne hle (mul_ne_zero h0 hn)
        have hq : d / n < 0 := by
          rw [show d / n = d * n / (n * n) by field_simp]
          exact div_neg_of_neg_of_pos hlt (mul_self_pos.mpr hn)
        have : Fl.log (Fl.fin (d / n)) = .nan := by simp [Fl.log, hq]
        rw [this] at hz; cases hz
  · intro h
    have hn : n ≠ 0 := by rintro rfl; simp at h
    have hq : 0 < d / n := by
      rw [show d / n = d * n / (n * n) by field_simp]
      exact div_pos h (mul_self_pos.mpr hn)
    rw [Fl.fin_div _ _ hn, Fl.log_fin hq, Fl.fin_mul, Fl.fin_add, Fl.fin_sub]
    exact ⟨_, rfl⟩

/-- **C18, exactly when.** For real data and expectations (of any sign, zero included) and any number of
degrees of freedom the likelihood-ratio statistic is a finite number if and only if in every bin data and
expectation are both non-zero and of the same sign. In particular one empty bin, or one bin without
expectation, is enough to lose it. -/
theorem C18_finite_iff {n : ℕ} (pval : Fl → Fl → Fl) (data nu : Fin n → ℝ) (dof : Fl) :
    (∃ (chi : ℝ) (rest : Fl × Fl), cowanGof pval (vec data) (vec nu) dof = .ok (.fin chi, rest)) ↔
      ∀ i, 0 < data i * nu i := by
  have hb : ∀ (op : Fl → Fl → Fl) (a b : Vec), a.length = b.length →
      bop op a b = .ok (List.zipWith op a b) := by
    intro op a b h; simp [bop, h]
  have key : cowanGof pval (vec data) (vec nu) dof = .ok (chi2Result pval (Fl.fin 2 * npSum
      (List.ofFn fun i => Fl.fin (data i) * Fl.log (Fl.fin (data i) / Fl.fin (nu i)) + Fl.fin (nu i) -
        Fl.fin (data i))) dof) := by
    simp only [cowanGof, bind, Except.bind, pure, Except.pure]
    rw [hb _ _ _ (by simp [vec_length])]
    simp only
    rw [hb _ _ _ (by simp [vec_length])]
    simp only
    rw [hb _ _ _ (by simp [vec_length])]
    simp only
    rw [hb _ _ _ (by simp [vec_length])]
    simp only
    congr 5
    apply List.ext_getElem?
    intro i
    by_cases hi : i < n <;> simp [List.getElem?_zipWith, List.getElem?_map, List.getElem?_ofFn, vec, hi]
  rw [key]
  constructor
  · rintro ⟨chi, rest, h⟩ i
    have h := Except.ok.inj h
    simp only [chi2Result, Prod.mk.injEq] at h
    obtain ⟨x, hx⟩ := fin_of_two_mul h.1
    rw [npSum] at hx
    exact (cowan_term_fin _ _).mp (sum_fin_all _ x hx _ (by rw [List.mem_ofFn]; exact ⟨i, rfl⟩))
  · intro h
    choose t ht using fun i => (cowan_term_fin (data i) (nu i)).mpr (h i)
    simp only [ht]
    have e : npSum (List.ofFn fun i => Fl.fin (t i)) = .fin (∑ i, t i) := vec_sum t
    rw [e, Fl.fin_mul]
    exact ⟨_, _, rfl⟩

/-- non-vacuity of `C18_finite_iff`: both sides occur -/
example : (∀ i, 0 < (![3, 5] : Fin 2 → ℝ) i * (![2, 6] : Fin 2 → ℝ) i) ∧
    ¬ ∀ i, 0 < (![0, 5] : Fin 2 → ℝ) i * (![2, 6] : Fin 2 → ℝ) i :=
  ⟨by intro i; fin_cases i <;> norm_num, by intro h; have := h 0; norm_num at this⟩

/-! ## C60 -/

/-- **C60, exactly when.** After any history on a scipy minimizer, and for any real start values: every point
satisfying the constraints handed to scipy keeps every fixed parameter at its start value, if and only if at most
one parameter is fixed. -/
theorem C60_iff (names : List String) (h : List MinOp) (fcn : Vec → Except Err Fl) (x0 : Fin names.length → ℝ) :
    (∀ x : Fin names.length → ℝ, Feasible ((minRun .scipy names h).scipyCall fcn (vec x0)) (vec x) →
        ∀ k : Fin names.length, FixedIn names h k → x k = x0 k) ↔
      ∀ j k, FixedIn names h j → FixedIn names h k → j = k := by
  constructor
  · intro H
    by_contra hne
    push Not at hne
    obtain ⟨j, k, hj, hk, hjk⟩ := hne
    -- one of the two is not the last fixed index
    obtain ⟨i, hi, hil⟩ : ∃ i, FixedIn names h i ∧ i ≠ (minRun .scipy names h).fixedIdx.getLastD 0 := by
      by_cases h1 : j = (minRun .scipy names h).fixedIdx.getLastD 0
      · exact ⟨k, hk, fun h2 => hjk (h1.trans h2.symm)⟩
      · exact ⟨j, hj, h1⟩
    have hlt := fixedIn_lt hi
    have hne : (minRun .scipy names h).fixedIdx ≠ [] := List.ne_nil_of_mem ((C58_scipy names h i).mpr hi)
    have hm : (minRun .scipy names h).fixedIdx.getLastD 0 ∈ (minRun .scipy names h).fixedIdx := by
      rw [List.getLastD_eq_getLast?, List.getLast?_eq_getLast_of_ne_nil hne]
      simp [List.getLast_mem hne]
    have hlt2 := fixedIn_lt ((C58_scipy names h _).mp hm)
    have := H (Function.update x0 ⟨i, hlt⟩ (x0 ⟨i, hlt⟩ + 1)) (by
      rw [feasible_iff]
      right
      refine ⟨x0 ⟨_, hlt2⟩, ?_, vec_getD x0 ⟨_, hlt2⟩ 0⟩
      have := vec_getD (Function.update x0 ⟨i, hlt⟩ (x0 ⟨i, hlt⟩ + 1)) ⟨_, hlt2⟩ 0
      rw [Function.update_of_ne (by intro h; exact hil (congrArg Fin.val h).symm)] at this
      exact this) ⟨i, hlt⟩ hi
    simp at this
  · intro hone x hf k hk
    have := C60_single_partial names h k hk (fun j hj => hone j k hj hk) fcn (vec x0) (vec x)
      (by simp [vec_length]) (by simp [vec_length]) hf
    rw [vec_getElem? , vec_getElem?] at this
    simpa using this

end

end TF.Props
