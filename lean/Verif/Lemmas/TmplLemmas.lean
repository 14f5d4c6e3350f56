import Verif.Lemmas.MatLemmas
import Verif.Model.Template
import Mathlib.Algebra.Order.Star.Real

set_option linter.unusedSimpArgs false

namespace TF

open Classical Spec

noncomputable section

theorem binFractions_vec {n : ℕ} (θ c ε : Fin n → ℝ) (hT : ∑ j, varied c ε θ j ≠ 0) :
    binFractions (vec θ) (vec c) (vec ε) = .ok (vec (frac c ε θ)) := by
  have h1 := bop_vec θ ε (· * ·) (fun i => θ i * ε i) (fun i => rfl)
  have h2 := map_vec (fun i => θ i * ε i) ((1 : Fl) + ·) (fun i => 1 + θ i * ε i) (fun i => rfl)
  have h3 := bop_vec c (fun i => 1 + θ i * ε i) (· * ·) (varied c ε θ) (fun i => rfl)
  have h4 := map_vec (varied c ε θ) (· / npSum (vec (varied c ε θ))) (frac c ε θ) (fun i => by
    rw [npSum, vec_sum, Fl.fin_div _ _ hT]; rfl)
  simp only [binFractions, h1, h2, h3, h4, bind, Except.bind, pure, Except.pure]

theorem fractions_vec {t : Template} {n : ℕ} {c ε : Fin n → ℝ} (h : HasShape t c ε) (θ : Fin n → ℝ)
    (hT : ∑ j, varied c ε θ j ≠ 0) : t.fractions (vec θ) = .ok (vec (frac c ε θ)) := by
  unfold Template.fractions
  rw [h.counts, h.rel, binFractions_vec θ c ε hT]

theorem sum_frac {n : ℕ} (c ε θ : Fin n → ℝ) (hT : ∑ j, varied c ε θ j ≠ 0) :
    ∑ i, frac c ε θ i = 1 := by
  unfold frac
  rw [← Finset.sum_div, div_self hT]

theorem values_vec {t : Template} {n : ℕ} {c ε : Fin n → ℝ} (h : HasShape t c ε) {y : ℝ}
    {θ : Fin n → ℝ} (hp : HasParams t y θ) (hT : ∑ j, varied c ε θ j ≠ 0) :
    t.values = .ok ⟨t.bins, vec fun i => y * frac c ε θ i⟩ := by
  have hn : t.nuiParams = vec θ := by unfold Template.nuiParams; rw [hp]; rfl
  have hy : t.yieldParam = .fin y := by unfold Template.yieldParam; rw [hp]; rfl
  have hr : reshape (vec (frac c ε θ)) t.bins = .ok ⟨t.bins, vec (frac c ε θ)⟩ := by
    unfold reshape; rw [if_pos (by rw [vec_length, h.prod])]
  simp only [Template.values, hn, hy, fractions_vec h θ hT, hr, bind, Except.bind, pure, Except.pure,
    NdArr.map]
  rw [map_vec (frac c ε θ) (Fl.fin y * ·) (fun i => y * frac c ε θ i) (fun i => rfl)]

theorem errors_vec {t : Template} {n : ℕ} {c ε : Fin n → ℝ} (h : HasShape t c ε) {y : ℝ}
    {θ : Fin n → ℝ} (hp : HasParams t y θ) (hT : ∑ j, varied c ε θ j ≠ 0) :
    t.errors = .ok ⟨t.bins, vec fun i => ε i * (y * frac c ε θ i)⟩ := by
  have hr : reshape (vec ε) t.bins = .ok ⟨t.bins, vec ε⟩ := by
    unfold reshape; rw [if_pos (by rw [vec_length, h.prod])]
  simp only [Template.errors, values_vec h hp hT, h.rel, hr, bind, Except.bind, pure, Except.pure]
  rw [zipWith_vec ε (fun i => y * frac c ε θ i) (· * ·) (fun i => ε i * (y * frac c ε θ i))
    (fun i => rfl)]

/-! ### relative errors -/

/-- relative error from variance `v` and content `c` -/
def relOf (v c : ℝ) : ℝ := if c = 0 then 1e-7 else Real.sqrt v / c

theorem relErrs_vec {n : ℕ} {M : Mat} {C : Matrix (Fin n) (Fin n) ℝ} (hM : IsReal M C)
    (hv : ∀ i, 0 ≤ C i i) (c : Fin n → ℝ) :
    relErrs M (vec c) = vec fun i => relOf (C i i) (c i) := by
  unfold relErrs
  rw [isReal_diag hM]
  apply zipWith_vec
  intro i
  unfold relOf
  by_cases h : c i = 0
  · have : (Fl.fin (c i)).beq 0 := h
    rw [if_pos this, if_pos h]
  · have : ¬ (Fl.fin (c i)).beq 0 := h
    rw [if_neg this, if_neg h, Fl.sqrt_fin (hv i), Fl.fin_div _ _ h]

/-- statistical variance with the floor for empty bins -/
def statVar (s : ℝ) : ℝ := if s = 0 then 1e-14 else s

theorem statVar_pos {s : ℝ} (h : 0 ≤ s) : 0 < statVar s := by
  unfold statVar
  split
  · norm_num
  · exact lt_of_le_of_ne h (Ne.symm ‹_›)

theorem statErrSq_vec {n : ℕ} (s : Fin n → ℝ) : statErrSq (vec s) = vec fun i => statVar (s i) := by
  unfold statErrSq
  apply map_vec
  intro i
  unfold statVar
  by_cases h : s i = 0
  · have : (Fl.fin (s i)).beq 0 := h
    rw [if_pos this, if_pos h]
  · have : ¬ (Fl.fin (s i)).beq 0 := h
    rw [if_neg this, if_neg h]

/-! ### correlation and inverse -/

theorem corrOf_posDef {n : ℕ} {C : Matrix (Fin n) (Fin n) ℝ} (h : C.PosDef) : (corrOf C).PosDef := by
  have hd : ∀ i, 0 < C i i := fun i => h.diag_pos
  set D : Matrix (Fin n) (Fin n) ℝ := Matrix.diagonal fun i => 1 / Real.sqrt (C i i) with hD
  have e : corrOf C = D.conjTranspose * C * D := by
    ext i j
    have hDt : D.conjTranspose = D := by rw [hD, Matrix.diagonal_conjTranspose]; simp
    rw [hDt, hD, Matrix.mul_diagonal, Matrix.diagonal_mul]
    simp only [corrOf, Matrix.of_apply, (hd i).ne', (hd j).ne', or_self, if_false]
    ring
  rw [e]
  apply h.conjTranspose_mul_mul_same
  have hu : IsUnit D := by
    rw [Matrix.isUnit_iff_isUnit_det, hD, Matrix.det_diagonal, isUnit_iff_ne_zero]
    exact Finset.prod_ne_zero_iff.mpr fun i _ =>
      one_div_ne_zero (Real.sqrt_pos.mpr (hd i)).ne'
  exact Matrix.mulVec_injective_of_isUnit hu

theorem isReal_toMatrix {n : ℕ} {M : Mat} {A : Matrix (Fin n) (Fin n) ℝ} (h : IsReal M A) :
    M.toMatrix n = A := by
  ext i j; simp [Mat.toMatrix, h.2.2, Fl.toReal]

theorem npInv_isReal {n : ℕ} {M : Mat} {A : Matrix (Fin n) (Fin n) ℝ} (h : IsReal M A)
    (hdet : A.det ≠ 0) : ∃ N, npInv M = .ok N ∧ IsReal N A⁻¹ := by
  obtain ⟨r, c, e⟩ := M
  obtain ⟨hr, hc, he⟩ := h
  simp only at hr hc he
  subst hr
  have hm : (Mat.toMatrix ⟨r, c, e⟩ r) = A := by ext i j; simp [Mat.toMatrix, he, Fl.toReal]
  have hfin : ∀ i < r, ∀ j < r, (e i j).isFin := by
    intro i hi j hj
    have := he ⟨i, hi⟩ ⟨j, hj⟩
    simp only at this
    rw [this]; trivial
  refine ⟨Mat.ofMatrix A⁻¹, ?_, isReal_ofMatrix _⟩
  unfold npInv
  simp only [hc, ne_eq, not_true, if_false]
  rw [if_pos hfin]
  subst hc
  rw [hm, if_neg hdet]

theorem npInv_singular {n : ℕ} {M : Mat} {A : Matrix (Fin n) (Fin n) ℝ} (h : IsReal M A)
    (hdet : A.det = 0) : npInv M = .error .linAlgError := by
  obtain ⟨r, c, e⟩ := M
  obtain ⟨hr, hc, he⟩ := h
  simp only at hr hc he
  subst hr
  have hm : (Mat.toMatrix ⟨r, c, e⟩ r) = A := by ext i j; simp [Mat.toMatrix, he, Fl.toReal]
  have hfin : ∀ i < r, ∀ j < r, (e i j).isFin := by
    intro i hi j hj
    have := he ⟨i, hi⟩ ⟨j, hj⟩
    simp only at this
    rw [this]; trivial
  unfold npInv
  simp only [hc, ne_eq, not_true, if_false]
  rw [if_pos hfin]
  subst hc
  rw [hm, if_pos hdet]

end

end TF
