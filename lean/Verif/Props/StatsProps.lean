import Verif.Lemmas.MatLemmas
import Verif.Model.Stats

set_option linter.unusedSimpArgs false

/-!
# Properties of `templatefitter.stats` (C17, C18)
-/

namespace TF.Props

open Classical Spec

noncomputable section

/-- **C17.** Value, non-negativity and definiteness of Pearson's statistic; statistic / dof and the
p-value (an arbitrary function `pval` of statistic and dof) complete the returned triple. -/
theorem C17_pearson {n : ℕ} (pval : Fl → Fl → Fl) (data nu : Fin n → ℝ) (dof : ℝ)
    (hnu : ∀ i, 0 < nu i) (hdof : dof ≠ 0) :
    ∃ chi : ℝ, pearsonChi2Test pval (vec data) (vec nu) (.fin dof) =
        .ok (.fin chi, .fin (chi / dof), pval (.fin chi) (.fin dof)) ∧
      chi = ∑ i, (data i - nu i) ^ 2 / nu i ∧ 0 ≤ chi ∧ (chi = 0 ↔ data = nu) := by
  refine ⟨∑ i, (data i - nu i) ^ 2 / nu i, ?_, rfl, ?_, ?_⟩
  · unfold pearsonChi2Test
    rw [bop_vec data nu _ (fun i => data i - nu i) (fun i => Fl.fin_sub _ _)]
    show (do
      let t ← bop (· / ·) (List.map Fl.sq (vec fun i => data i - nu i)) (vec nu)
      return chi2Result pval (npSum t) (.fin dof)) = _
    rw [map_vec _ _ (fun i => (data i - nu i) ^ 2) (fun i => Fl.sq_fin _),
      bop_vec _ nu _ (fun i => (data i - nu i) ^ 2 / nu i) (fun i => Fl.fin_div _ _ (hnu i).ne')]
    show Except.ok (chi2Result pval (npSum _) (.fin dof)) = _
    rw [npSum, vec_sum, chi2Result, Fl.fin_div _ _ hdof]
  · exact Finset.sum_nonneg fun i _ => div_nonneg (sq_nonneg _) (hnu i).le
  · rw [Finset.sum_eq_zero_iff_of_nonneg fun i _ => div_nonneg (sq_nonneg _) (hnu i).le]
    constructor
    · intro h
      funext i
      have := h i (Finset.mem_univ i)
      rw [div_eq_zero_iff] at this
      rcases this with h | h
      · have := pow_eq_zero_iff (two_ne_zero) |>.mp h; linarith
      · exact absurd h (hnu i).ne'
    · rintro rfl i _; simp

/-- **C17** for the test with explicit (non-zero) uncertainties. -/
theorem C17_default {n : ℕ} (pval : Fl → Fl → Fl) (data nu sigma : Fin n → ℝ) (dof : ℝ)
    (hs : ∀ i, sigma i ≠ 0) (hdof : dof ≠ 0) :
    ∃ chi : ℝ, defaultChi2Test pval (vec data) (vec nu) (vec sigma) (.fin dof) =
        .ok (.fin chi, .fin (chi / dof), pval (.fin chi) (.fin dof)) ∧
      chi = ∑ i, ((data i - nu i) / sigma i) ^ 2 ∧ 0 ≤ chi ∧ (chi = 0 ↔ data = nu) := by
  refine ⟨∑ i, ((data i - nu i) / sigma i) ^ 2, ?_, rfl, ?_, ?_⟩
  · unfold defaultChi2Test
    rw [bop_vec data nu _ (fun i => data i - nu i) (fun i => Fl.fin_sub _ _)]
    show (do
      let t ← bop (· / ·) (List.map Fl.sq (vec fun i => data i - nu i)) (List.map Fl.sq (vec sigma))
      return chi2Result pval (npSum t) (.fin dof)) = _
    rw [map_vec _ _ (fun i => (data i - nu i) ^ 2) (fun i => Fl.sq_fin _),
      map_vec _ _ (fun i => (sigma i) ^ 2) (fun i => Fl.sq_fin _),
      bop_vec _ _ _ (fun i => ((data i - nu i) / sigma i) ^ 2)
        (fun i => by rw [Fl.fin_div _ _ (pow_ne_zero 2 (hs i)), div_pow])]
    show Except.ok (chi2Result pval (npSum _) (.fin dof)) = _
    rw [npSum, vec_sum, chi2Result, Fl.fin_div _ _ hdof]
  · exact Finset.sum_nonneg fun i _ => sq_nonneg _
  · rw [Finset.sum_eq_zero_iff_of_nonneg fun i _ => sq_nonneg _]
    constructor
    · intro h
      funext i
      have := h i (Finset.mem_univ i)
      rw [pow_eq_zero_iff two_ne_zero, div_eq_zero_iff] at this
      rcases this with h | h
      · linarith
      · exact absurd h (hs i)
    · rintro rfl i _; simp

/-- non-vacuity of C17 -/
example : (∀ i, 0 < (![3, 5] : Fin 2 → ℝ) i) ∧ (2 : ℝ) ≠ 0 :=
  ⟨by intro i; fin_cases i <;> simp, by norm_num⟩

/-- `n log(n/ν) + ν - n ≥ 0` with equality exactly at `n = ν`; the convexity behind the likelihood -/
theorem cowan_term (x y : ℝ) (hx : 0 < x) (hy : 0 < y) :
    0 ≤ x * Real.log (x / y) + y - x ∧ (x * Real.log (x / y) + y - x = 0 ↔ x = y) := by
  have hr : 0 < y / x := div_pos hy hx
  have e : x * Real.log (x / y) + y - x = x * ((y / x - 1) - Real.log (y / x)) := by
    rw [show x / y = (y / x)⁻¹ by rw [inv_div], Real.log_inv]
    field_simp; ring
  have h1 := Real.log_le_sub_one_of_pos hr
  constructor
  · rw [e]; exact mul_nonneg hx.le (by linarith)
  · rw [e]
    constructor
    · intro h
      rcases mul_eq_zero.mp h with h | h
      · exact absurd h hx.ne'
      · by_contra hne
        have : y / x ≠ 1 := by
          intro h1; rw [div_eq_one_iff_eq hx.ne'] at h1; exact hne h1.symm
        have := Real.log_lt_sub_one_of_pos hr this
        linarith
    · rintro rfl; rw [div_self hx.ne']; simp

/-- **C18 (partial).** For positive data and expectations the likelihood-ratio statistic is finite,
has the documented value, is non-negative and vanishes exactly for `data = nu`. (Missing: data sets
with empty bins, where the claim is false, see `C18_refuted`.) -/
theorem C18_cowan_partial {n : ℕ} (pval : Fl → Fl → Fl) (data nu : Fin n → ℝ) (dof : ℝ)
    (hd : ∀ i, 0 < data i) (hnu : ∀ i, 0 < nu i) (hdof : dof ≠ 0) :
    ∃ chi : ℝ, cowanGof pval (vec data) (vec nu) (.fin dof) =
        .ok (.fin chi, .fin (chi / dof), pval (.fin chi) (.fin dof)) ∧
      chi = 2 * ∑ i, (data i * Real.log (data i / nu i) + nu i - data i) ∧ 0 ≤ chi ∧
      (chi = 0 ↔ data = nu) := by
  refine ⟨2 * ∑ i, (data i * Real.log (data i / nu i) + nu i - data i), ?_, rfl, ?_, ?_⟩
  · have hb1 := bop_vec data nu (· / ·) (fun i => data i / nu i) (fun i => Fl.fin_div _ _ (hnu i).ne')
    have hb2 := map_vec (fun i => data i / nu i) Fl.log (fun i => Real.log (data i / nu i))
      (fun i => Fl.log_fin (div_pos (hd i) (hnu i)))
    have hb3 := bop_vec data (fun i => Real.log (data i / nu i)) (· * ·)
      (fun i => data i * Real.log (data i / nu i)) (fun i => Fl.fin_mul _ _)
    have hb4 := bop_vec (fun i => data i * Real.log (data i / nu i)) nu (· + ·)
      (fun i => data i * Real.log (data i / nu i) + nu i) (fun i => Fl.fin_add _ _)
    have hb5 := bop_vec (fun i => data i * Real.log (data i / nu i) + nu i) data (· - ·)
      (fun i => data i * Real.log (data i / nu i) + nu i - data i) (fun i => Fl.fin_sub _ _)
    simp only [cowanGof, hb1, hb2, hb3, hb4, hb5, bind, Except.bind, pure, Except.pure]
    rw [npSum, vec_sum, chi2Result, Fl.fin_mul, Fl.fin_div _ _ hdof]
  · exact mul_nonneg (by norm_num)
      (Finset.sum_nonneg fun i _ => (cowan_term _ _ (hd i) (hnu i)).1)
  · rw [mul_eq_zero, or_iff_right (by norm_num),
      Finset.sum_eq_zero_iff_of_nonneg fun i _ => (cowan_term _ _ (hd i) (hnu i)).1]
    constructor
    · intro h; funext i
      exact (cowan_term _ _ (hd i) (hnu i)).2.mp (h i (Finset.mem_univ i))
    · rintro rfl i _; exact (cowan_term _ _ (hd i) (hnu i)).2.mpr rfl

theorem sum_nan_of_mem (l : Vec) (h : Fl.nan ∈ l) : l.sum = .nan := by
  induction l with
  | nil => simp at h
  | cons a l ih =>
    rcases List.mem_cons.mp h with rfl | h
    · simp
    · simp [ih h]

/-- **C18 is false of the code:** every data set with at least one empty bin (and positive
expectation there) yields NaN for the statistic and for statistic / dof, however many other bins
there are and whatever they hold. -/
theorem C18_refuted {n : ℕ} (pval : Fl → Fl → Fl) (data nu : Fin n → ℝ) (dof : Fl) (i : Fin n)
    (hd : data i = 0) (hnu : 0 < nu i) :
    ∃ p, cowanGof pval (vec data) (vec nu) dof = .ok (.nan, .nan, p) := by
  have hlen : (vec data).length = (vec nu).length := by simp [vec_length]
  have hb : ∀ (op : Fl → Fl → Fl) (a b : Vec), a.length = b.length →
      bop op a b = .ok (List.zipWith op a b) := by
    intro op a b h; simp [bop, h]
  simp only [cowanGof, bind, Except.bind, pure, Except.pure]
  rw [hb _ _ _ hlen]
  simp only
  rw [hb _ _ _ (by simp [vec_length])]
  simp only
  rw [hb _ _ _ (by simp [vec_length])]
  simp only
  rw [hb _ _ _ (by simp [vec_length])]
  refine ⟨pval .nan dof, ?_⟩
  simp only
  rw [npSum, sum_nan_of_mem]
  · simp [chi2Result]
  · rw [List.mem_iff_getElem?]
    refine ⟨i, ?_⟩
    have h1 : Fl.fin (data i) / Fl.fin (nu i) = Fl.fin 0 := by
      rw [hd, Fl.fin_div _ _ hnu.ne']; simp
    have h2 : Fl.log (Fl.fin 0) = .ninf := by simp [Fl.log]
    have h3 : Fl.fin 0 * Fl.ninf = .nan := by
      show Fl.neg (Fl.mulPinf 0) = .nan
      simp [Fl.mulPinf]; rfl
    simp only [List.getElem?_zipWith, vec_getElem?, List.getElem?_map, h1, h2, hd, h3, Option.map_some]
    rw [hd] at h1
    simp [h1, h2, h3, hd]

/-- non-vacuity of C18: positive data; and a data set with an empty bin -/
example : (∀ i, 0 < (![3, 5] : Fin 2 → ℝ) i) ∧ (![0, 5] : Fin 2 → ℝ) 0 = 0 :=
  ⟨by intro i; fin_cases i <;> simp, rfl⟩

end

end TF.Props
