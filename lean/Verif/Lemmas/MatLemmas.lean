import Verif.Spec
import Verif.Model.Utility
import Mathlib.LinearAlgebra.Matrix.PosDef
import Mathlib.LinearAlgebra.Matrix.Rank
import Mathlib.Tactic.Linarith
import Mathlib.Tactic.FieldSimp
import Mathlib.Tactic.NormNum

set_option linter.unusedSimpArgs false

namespace TF

open Classical Spec

noncomputable section

theorem Spec.IsReal.mul {m n k : ℕ} {M N : Mat} {A : Matrix (Fin m) (Fin n) ℝ} {B : Matrix (Fin n) (Fin k) ℝ}
    (hA : IsReal M A) (hB : IsReal N B) : IsReal (M.mul N) (A * B) := by
  refine ⟨hA.1, hB.2.1, fun i j => ?_⟩
  simp only [Mat.mul, hA.2.1, Finset.sum_range, Matrix.mul_apply, hA.2.2, hB.2.2, Fl.fin_mul, Fl.sum_fin]

theorem Spec.IsReal.add {m n : ℕ} {M N : Mat} {A B : Matrix (Fin m) (Fin n) ℝ}
    (hA : IsReal M A) (hB : IsReal N B) : IsReal (M.add N) (A + B) :=
  ⟨hA.1, hA.2.1, fun i j => by simp [Mat.add, hA.2.2, hB.2.2]⟩

theorem Spec.IsReal.transpose {m n : ℕ} {M : Mat} {A : Matrix (Fin m) (Fin n) ℝ}
    (hA : IsReal M A) : IsReal M.transpose A.transpose :=
  ⟨hA.2.1, hA.1, fun i j => by simp [Mat.transpose, hA.2.2]⟩

theorem isReal_ofMatrix {n : ℕ} (A : Matrix (Fin n) (Fin n) ℝ) : IsReal (Mat.ofMatrix A) A :=
  ⟨rfl, rfl, fun i j => by simp [Mat.ofMatrix]⟩

theorem vec_length {n : ℕ} (f : Fin n → ℝ) : (vec f).length = n := by simp [vec]

theorem vec_getElem? {n : ℕ} (f : Fin n → ℝ) (i : Fin n) : (vec f)[(i : ℕ)]? = some (.fin (f i)) := by
  simp [vec]

theorem vec_getD {n : ℕ} (f : Fin n → ℝ) (i : Fin n) (d : Fl) : (vec f).getD i d = .fin (f i) := by
  simp [vec, List.getD]

theorem isReal_diagOf {n : ℕ} (f : Fin n → ℝ) : IsReal (Mat.diagOf (vec f)) (Matrix.diagonal f) := by
  refine ⟨by simp [Mat.diagOf, vec_length], by simp [Mat.diagOf, vec_length], fun i j => ?_⟩
  simp only [Mat.diagOf, vec_getD, Matrix.diagonal_apply, Fin.val_inj]
  split <;> rfl

theorem isReal_outer {m n : ℕ} (f : Fin m → ℝ) (g : Fin n → ℝ) :
    IsReal (Mat.outer (vec f) (vec g)) (Matrix.vecMulVec f g) := by
  refine ⟨by simp [Mat.outer, vec_length], by simp [Mat.outer, vec_length], fun i j => ?_⟩
  simp only [Mat.outer, vec_getD, Fl.fin_mul, Matrix.vecMulVec_apply]

theorem isReal_diag {n : ℕ} {M : Mat} {A : Matrix (Fin n) (Fin n) ℝ} (h : IsReal M A) :
    M.diag = vec fun i => A i i := by
  unfold Mat.diag vec
  rw [h.1]
  apply List.ext_getElem?
  intro i
  by_cases hi : i < n
  · simp [hi]; exact h.2.2 ⟨i, hi⟩ ⟨i, hi⟩
  · simp [hi]

theorem map_vec {n : ℕ} (f : Fin n → ℝ) (g : Fl → Fl) (k : Fin n → ℝ)
    (h : ∀ i, g (.fin (f i)) = .fin (k i)) : (vec f).map g = vec k := by
  unfold vec
  rw [List.map_ofFn]
  congr 1; funext i; exact h i

theorem vec_sum {n : ℕ} (f : Fin n → ℝ) : (vec f).sum = .fin (∑ i, f i) := by
  unfold vec
  rw [List.sum_ofFn, Fl.sum_fin]

theorem vec_inj {n : ℕ} {f g : Fin n → ℝ} (h : vec f = vec g) : f = g := by
  unfold vec at h
  have := List.ofFn_injective h
  funext i
  exact Fl.fin_inj.mp (congrFun this i)

theorem zipWith_vec {n : ℕ} (f g : Fin n → ℝ) (op : Fl → Fl → Fl) (k : Fin n → ℝ)
    (h : ∀ i, op (.fin (f i)) (.fin (g i)) = .fin (k i)) :
    List.zipWith op (vec f) (vec g) = vec k := by
  unfold vec
  apply List.ext_getElem?
  intro i
  by_cases hi : i < n
  · simp [List.getElem?_zipWith, hi, h]
  · simp [List.getElem?_zipWith, hi]

theorem bop_vec {n : ℕ} (f g : Fin n → ℝ) (op : Fl → Fl → Fl) (k : Fin n → ℝ)
    (h : ∀ i, op (.fin (f i)) (.fin (g i)) = .fin (k i)) :
    bop op (vec f) (vec g) = .ok (vec k) := by
  unfold bop
  rw [if_pos (by simp [vec_length]), zipWith_vec f g op k h]

theorem dot_vec {n : ℕ} (f g : Fin n → ℝ) : dot (vec f) (vec g) = .ok (.fin (∑ i, f i * g i)) := by
  unfold dot
  rw [if_pos (by simp [vec_length]), zipWith_vec f g _ (fun i => f i * g i) (fun i => rfl), vec_sum]

theorem vecMat_vec {m n : ℕ} (f : Fin m → ℝ) {M : Mat} {A : Matrix (Fin m) (Fin n) ℝ} (h : IsReal M A) :
    vecMat (vec f) M = .ok (vec fun j => ∑ i, f i * A i j) := by
  unfold vecMat
  rw [if_pos (by rw [vec_length, h.1])]
  congr 1
  apply List.ext_getElem?
  intro j
  by_cases hj : j < n
  · have : ∀ i : Fin m, M.e i j = .fin (A i ⟨j, hj⟩) := fun i => h.2.2 i ⟨j, hj⟩
    simp only [h.1, h.2.1, List.getElem?_map, List.getElem?_range hj, Option.map_some,
      Finset.sum_range, vec_getD, this, Fl.fin_mul, Fl.sum_fin]
    simp [vec, hj]
  · simp [vec, hj, h.2.1]

/-! ### cov2corr on reals -/

theorem sqrt_div_fin {v : ℝ} (h : 0 ≤ v) :
    Fl.nanToNum ((1 : Fl) / Fl.sqrt (.fin v)) =
      .fin (if v = 0 then Fl.maxFloat else 1 / Real.sqrt v) := by
  rw [Fl.sqrt_fin h]
  by_cases hv : v = 0
  · subst hv
    simp only [Real.sqrt_zero, if_true]
    rw [Fl.one_def, Fl.fin_pos_div_zero 1 one_pos]; rfl
  · have : Real.sqrt v ≠ 0 := (Real.sqrt_pos.mpr (lt_of_le_of_ne h (Ne.symm hv))).ne'
    rw [Fl.one_def, Fl.fin_div _ _ this, if_neg hv]; rfl

theorem isReal_invStdDiag {n : ℕ} {M : Mat} {C : Matrix (Fin n) (Fin n) ℝ} (h : IsReal M C)
    (hv : ∀ i, 0 ≤ C i i) : IsReal (invStdDiag M)
      (Matrix.diagonal fun i => if C i i = 0 then Fl.maxFloat else 1 / Real.sqrt (C i i)) := by
  unfold invStdDiag
  rw [isReal_diag h]
  refine ⟨by simp [Mat.map, Mat.diagOf, vec_length], by simp [Mat.map, Mat.diagOf, vec_length],
    fun i j => ?_⟩
  simp only [Mat.map, Mat.diagOf, Matrix.diagonal_apply, Fin.val_inj]
  split
  · have : (List.map (fun v => (1:Fl) / v.sqrt) (vec fun i => C i i)).getD i 0
        = (1:Fl) / (Fl.fin (C i i)).sqrt := by simp [vec, List.getD]
    rw [this, sqrt_div_fin (hv i)]
  · rfl

/-- general formula: all variances non-negative, rows and columns of zero variance vanish -/
theorem cov2corr_isReal {n : ℕ} {M : Mat} {C : Matrix (Fin n) (Fin n) ℝ} (h : IsReal M C)
    (hv : ∀ i, 0 ≤ C i i) (hz : ∀ i j, C i i = 0 ∨ C j j = 0 → C i j = 0) :
    IsReal (cov2corr M) (corrOf C) := by
  have hd := isReal_invStdDiag h hv
  have := hd.mul (h.mul hd)
  unfold cov2corr
  convert this using 1
  ext i j
  rw [Matrix.diagonal_mul, Matrix.mul_diagonal]
  simp only [corrOf, Matrix.of_apply]
  split
  · rename_i h0; rw [hz i j h0]; ring
  · rename_i h0
    rw [not_or] at h0
    rw [if_neg h0.1, if_neg h0.2]
    ring

theorem posSemidef_diag_nonneg {n : ℕ} {C : Matrix (Fin n) (Fin n) ℝ} (h : C.PosSemidef) (i : Fin n) :
    0 ≤ C i i := h.diag_nonneg

/-- 2×2 minors: Cauchy–Schwarz for positive semi-definite matrices -/
theorem posSemidef_minor {n : ℕ} {C : Matrix (Fin n) (Fin n) ℝ} (h : C.PosSemidef) (i j : Fin n) :
    C i j ^ 2 ≤ C i i * C j j := by
  have hs : C j i = C i j := by
    have := h.isHermitian.apply i j; simpa using this
  by_cases hij : i = j
  · subst hij; nlinarith
  have hq : ∀ a b : ℝ, 0 ≤ a ^ 2 * C i i + 2 * (a * b) * C i j + b ^ 2 * C j j := by
    intro a b
    have := h.dotProduct_mulVec_nonneg (Pi.single i a + Pi.single j b)
    simp only [star_trivial, Matrix.mulVec_add, dotProduct_add, add_dotProduct,
      Matrix.mulVec_single, single_dotProduct, Pi.smul_apply, MulOpposite.smul_eq_mul_unop,
      MulOpposite.unop_op, Matrix.col_apply] at this
    rw [hs] at this
    nlinarith
  have hii := hq 1 0
  have hjj := hq 0 1
  by_cases h0 : C j j = 0
  · by_cases hc : C i j = 0
    · rw [hc, h0]; simp
    · have h1 := hq 1 (-(C i i + 1) / C i j)
      rw [h0] at h1
      have h2 : 2 * (1 * (-(C i i + 1) / C i j)) * C i j = -(2 * (C i i + 1)) := by field_simp
      rw [h2] at h1
      simp at hii h1
      linarith
  · have h1 := hq (C j j) (-(C i j))
    have hp : 0 < C j j := lt_of_le_of_ne (by simpa using hjj) (Ne.symm h0)
    have : 0 ≤ C j j * (C i i * C j j - C i j ^ 2) := by nlinarith
    have := nonneg_of_mul_nonneg_right this hp
    linarith

theorem posSemidef_zero {n : ℕ} {C : Matrix (Fin n) (Fin n) ℝ} (h : C.PosSemidef) (i j : Fin n)
    (h0 : C i i = 0 ∨ C j j = 0) : C i j = 0 := by
  have := posSemidef_minor h i j
  rcases h0 with h0 | h0 <;> rw [h0] at this <;> nlinarith [sq_nonneg (C i j)]

end

end TF
