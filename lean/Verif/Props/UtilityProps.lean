import Verif.Lemmas.MatLemmas
import Mathlib.Algebra.Order.Star.Real

set_option linter.unusedSimpArgs false

/-!
# Properties of `templatefitter.utility` (C10–C16)
-/

namespace TF.Props

open Classical Spec

noncomputable section

/-! ## C10 -/

/-- **C10.** For a positive semi-definite covariance `cov2corr` returns the correlation matrix
`C i j / sqrt (C i i * C j j)`, with zero rows and columns where the variance vanishes (no NaN);
it is symmetric, its entries lie in `[-1, 1]` and its diagonal is one where the variance is not 0. -/
theorem C10_cov2corr {n : ℕ} (M : Mat) (C : Matrix (Fin n) (Fin n) ℝ) (hM : IsReal M C)
    (hC : C.PosSemidef) :
    ∃ R : Matrix (Fin n) (Fin n) ℝ, IsReal (cov2corr M) R ∧
      (∀ i j, C i i ≠ 0 → C j j ≠ 0 → R i j = C i j / Real.sqrt (C i i * C j j)) ∧
      (∀ i j, C i i = 0 ∨ C j j = 0 → R i j = 0) ∧
      R.IsSymm ∧ (∀ i, C i i ≠ 0 → R i i = 1) ∧ (∀ i j, -1 ≤ R i j ∧ R i j ≤ 1) := by
  have hd := posSemidef_diag_nonneg hC
  refine ⟨corrOf C, cov2corr_isReal hM hd (posSemidef_zero hC), ?_, ?_, ?_, ?_, ?_⟩
  · intro i j hi hj
    simp [corrOf, hi, hj, Real.sqrt_mul (hd i)]
  · intro i j h; simp [corrOf, h]
  · ext i j
    have hs : C j i = C i j := by simpa using hC.isHermitian.apply i j
    simp only [corrOf, Matrix.transpose_apply, Matrix.of_apply, hs, or_comm, mul_comm]
  · intro i hi
    have := Real.sqrt_pos.mpr (lt_of_le_of_ne (hd i) (Ne.symm hi))
    simp only [corrOf, Matrix.of_apply, hi, or_self, if_false]
    rw [Real.mul_self_sqrt (hd i)]
    exact div_self hi
  · intro i j
    by_cases h : C i i = 0 ∨ C j j = 0
    · simp [corrOf, h]
    · rw [not_or] at h
      have hi := Real.sqrt_pos.mpr (lt_of_le_of_ne (hd i) (Ne.symm h.1))
      have hj := Real.sqrt_pos.mpr (lt_of_le_of_ne (hd j) (Ne.symm h.2))
      have hij := mul_pos hi hj
      simp only [corrOf, Matrix.of_apply, h, or_self, if_false]
      have hm := posSemidef_minor hC i j
      have hsq : (Real.sqrt (C i i) * Real.sqrt (C j j)) ^ 2 = C i i * C j j := by
        rw [mul_pow, Real.sq_sqrt (hd i), Real.sq_sqrt (hd j)]
      rw [← hsq] at hm
      have := abs_le_of_sq_le_sq' hm hij.le
      constructor
      · rw [le_div_iff₀ hij]; linarith
      · rw [div_le_iff₀ hij]; linarith

/-- **C10** for any (not necessarily semi-definite) symmetric matrix with positive variances. -/
theorem C10_cov2corr_positive {n : ℕ} (M : Mat) (C : Matrix (Fin n) (Fin n) ℝ) (hM : IsReal M C)
    (hs : C.IsSymm) (hv : ∀ i, 0 < C i i) :
    ∃ R : Matrix (Fin n) (Fin n) ℝ, IsReal (cov2corr M) R ∧
      (∀ i j, R i j = C i j / Real.sqrt (C i i * C j j)) ∧ R.IsSymm ∧ (∀ i, R i i = 1) := by
  refine ⟨corrOf C, cov2corr_isReal hM (fun i => (hv i).le)
    (fun i j h => by rcases h with h | h <;> exact absurd h (hv _).ne'), ?_, ?_, ?_⟩
  · intro i j; simp [corrOf, (hv i).ne', (hv j).ne', Real.sqrt_mul (hv i).le]
  · ext i j
    have := hs.apply i j
    simp only [corrOf, Matrix.transpose_apply, Matrix.of_apply, this, or_comm, mul_comm]
  · intro i
    simp only [corrOf, Matrix.of_apply, (hv i).ne', or_self, if_false]
    rw [Real.mul_self_sqrt (hv i).le]; exact div_self (hv i).ne'

/-- non-vacuity of C10: the diagonal matrix with variances 4 and 0 -/
example : (Matrix.diagonal ![4, 0] : Matrix (Fin 2) (Fin 2) ℝ).PosSemidef :=
  Matrix.PosSemidef.diagonal (by intro i; fin_cases i <;> simp)

/-! ## C11 -/

/-- **C11 is false of the code:** with the variance vector as second argument (as documented) the
round trip fails, already for the 1×1 matrix `[[4]]`. -/
theorem C11_refuted : ∃ C : Matrix (Fin 1) (Fin 1) ℝ, C.PosSemidef ∧ (∀ i, 0 < C i i) ∧
    ¬ IsReal (corr2cov (cov2corr (Mat.ofMatrix C)) (vec fun i => C i i)) C := by
  refine ⟨Matrix.diagonal fun _ => 4, Matrix.PosSemidef.diagonal (by intro i; simp), by simp, ?_⟩
  intro h
  set C : Matrix (Fin 1) (Fin 1) ℝ := Matrix.diagonal fun _ => 4 with hC
  have h1 : IsReal (cov2corr (Mat.ofMatrix C)) (corrOf C) :=
    cov2corr_isReal (isReal_ofMatrix C) (by simp [hC]) (by intro i j; simp [hC])
  have h2 := (isReal_diagOf fun i => C i i).mul (h1.mul (isReal_diagOf fun i => C i i))
  have h3 := h.2.2 0 0
  unfold corr2cov at h3
  rw [h2.2.2 0 0, Matrix.diagonal_mul, Matrix.mul_diagonal] at h3
  simp only [Fl.fin_inj, corrOf, Matrix.of_apply, hC, Matrix.diagonal_apply_eq] at h3
  have hs : Real.sqrt 4 * Real.sqrt 4 = 4 := Real.mul_self_sqrt (by norm_num)
  rw [if_neg (by norm_num), hs] at h3
  norm_num at h3

/-- **C11 (partial).** The round trip holds when the *standard deviations* are handed over instead of
the documented variances. -/
theorem C11_roundtrip_partial {n : ℕ} (M : Mat) (C : Matrix (Fin n) (Fin n) ℝ) (hM : IsReal M C)
    (hv : ∀ i, 0 < C i i) :
    IsReal (corr2cov (cov2corr M) (vec fun i => Real.sqrt (C i i))) C := by
  have h1 : IsReal (cov2corr M) (corrOf C) := cov2corr_isReal hM (fun i => (hv i).le)
    (fun i j h => by rcases h with h | h <;> exact absurd h (hv _).ne')
  have h2 := (isReal_diagOf fun i => Real.sqrt (C i i)).mul
    (h1.mul (isReal_diagOf fun i => Real.sqrt (C i i)))
  unfold corr2cov
  convert h2 using 1
  ext i j
  rw [Matrix.diagonal_mul, Matrix.mul_diagonal]
  have hi := (Real.sqrt_pos.mpr (hv i)).ne'
  have hj := (Real.sqrt_pos.mpr (hv j)).ne'
  simp only [corrOf, Matrix.of_apply, (hv i).ne', (hv j).ne', or_self, if_false]
  field_simp

/-- non-vacuity of the partial C11 -/
example : ∀ i, 0 < (Matrix.diagonal ![4, 9] : Matrix (Fin 2) (Fin 2) ℝ) i i := by
  intro i; fin_cases i <;> simp

/-! ## C12 -/

/-- **C12.** Names: success exactly for known names, result is the first position. -/
theorem C12_name (names : List String) (s : String) (k : ℕ) :
    idToIndex names (.str s) = .ok k ↔
      names[k]? = some s ∧ ∀ j < k, names[j]? ≠ some s := by
  simp only [idToIndex]
  constructor
  · intro h
    split at h
    · rename_i hs
      obtain rfl := Except.ok.inj h
      have hlt := List.idxOf_lt_length_of_mem hs
      refine ⟨by simp [List.getElem?_eq_getElem hlt], fun j hj hjs => ?_⟩
      obtain ⟨hjl, hje⟩ := List.getElem?_eq_some_iff.mp hjs
      have : names.idxOf s ≤ j := by
        by_contra hc
        have := List.not_of_lt_findIdx (p := (· == s)) (xs := names) (i := j) hj
        simp [hje] at this
      omega
    · simp at h
  · rintro ⟨h1, h2⟩
    have hs : s ∈ names := List.mem_of_getElem? h1
    simp only [hs, if_true]
    congr 1
    have hlt := List.idxOf_lt_length_of_mem hs
    have hi : names[names.idxOf s]? = some s := by simp [List.getElem?_eq_getElem hlt]
    rcases lt_trichotomy (names.idxOf s) k with h | h | h
    · exact absurd hi (h2 _ h)
    · exact h
    · have := List.not_of_lt_findIdx (p := (· == s)) (xs := names) (i := k) h
      obtain ⟨hkl, hke⟩ := List.getElem?_eq_some_iff.mp h1
      simp [hke] at this

/-- **C12.** Integers: success exactly for `0 ≤ i < len(names)`, result is `i`. -/
theorem C12_int (names : List String) (i : ℤ) (k : ℕ) :
    idToIndex names (.int i) = .ok k ↔ 0 ≤ i ∧ i < names.length ∧ i = k := by
  simp only [idToIndex]
  constructor
  · intro h
    split at h
    · rename_i hs
      obtain rfl := Except.ok.inj h
      exact ⟨hs.1, hs.2, by simp [hs.1]⟩
    · simp at h
  · rintro ⟨h0, h1, rfl⟩
    simp only [h0, h1, and_self, if_true]; rfl

/-- **C12.** Everything else raises `ValueError`. -/
theorem C12_errors (names : List String) (pid : ParamId)
    (h : ∀ k, idToIndex names pid ≠ .ok k) : idToIndex names pid = .error .valueError := by
  cases pid with
  | str s => simp only [idToIndex] at h ⊢; split <;> simp_all
  | int i => simp only [idToIndex] at h ⊢; split <;> simp_all
  | other => rfl

/-- non-vacuity of C12: first position of a repeated name; a negative index is rejected -/
example : idToIndex ["a", "b", "a"] (.str "a") = .ok 0 ∧
    idToIndex ["a", "b", "a"] (.int (-1)) = .error .valueError ∧
    idToIndex ["a", "b", "a"] (.int 2) = .ok 2 := by
  refine ⟨?_, ?_, ?_⟩ <;> simp [idToIndex, List.idxOf_cons]

/-! ## C13 -/

/-- **C13.** `xlogyx x y = x * log (y / x)` for all `x ≥ 1e-100`, `y > 0`: both branches agree. -/
theorem C13_value (x y : ℝ) (hx : (1e-100 : ℝ) ≤ x) (hy : 0 < y) :
    xlogyx (.fin x) (.fin y) = .fin (x * Real.log (y / x)) := by
  have hx0 : 0 < x := lt_of_lt_of_le (by norm_num) hx
  unfold xlogyx
  simp only [Fl.isNan, if_false, Fl.lt_fin, not_lt.mpr hx]
  split
  · rename_i h
    rw [Fl.fin_sub, Fl.fin_div _ _ hx0.ne', Fl.log1p_fin (by
      have : 0 < (y - x) / x := div_pos (by linarith) hx0
      linarith)]
    rw [Fl.fin_mul]
    congr 3
    field_simp; ring
  · rename_i h
    rw [Fl.fin_sub, Fl.fin_div _ _ hy.ne', Fl.log1p_fin (by
      have : 0 ≤ (x - y) / y := div_nonneg (by linarith) hy.le
      linarith)]
    rw [Fl.fin_neg, Fl.fin_mul]
    congr 1
    have : 1 + (x - y) / y = (y / x)⁻¹ := by field_simp; ring
    rw [this, Real.log_inv]; ring

/-- **C13.** Below `1e-100` (in particular for `x ≤ 0`) and for NaN the result is 0, for every `y`. -/
theorem C13_small (x : Fl) (y : Fl) (hx : x = .nan ∨ x = .ninf ∨ ∃ r : ℝ, x = .fin r ∧ r < (1e-100 : ℝ)) :
    xlogyx x y = .fin 0 := by
  rcases hx with rfl | rfl | ⟨r, rfl, hr⟩
  · simp [xlogyx, Fl.isNan]; rfl
  · simp [xlogyx, Fl.isNan, Fl.lt]; rfl
  · unfold xlogyx
    simp only [Fl.isNan, if_false, Fl.lt_fin, hr, if_true]; rfl

/-- **C13.** Positive `x` with `y = 0` gives `-inf`. -/
theorem C13_zero (x : ℝ) (hx : (1e-100 : ℝ) ≤ x) : xlogyx (.fin x) (.fin 0) = .ninf := by
  have hx0 : 0 < x := lt_of_lt_of_le (by norm_num) hx
  unfold xlogyx
  simp only [Fl.isNan, if_false, Fl.lt_fin, not_lt.mpr hx, not_lt.mpr hx0.le]
  rw [Fl.fin_sub, sub_zero, Fl.fin_pos_div_zero x hx0, Fl.fin_neg]
  show Fl.mulPinf (-x) = _
  have h1 : ¬ (0 < -x) := by linarith
  simp [Fl.mulPinf, hx0.ne', h1, hx0.le]

/-- **C13.** Positive `x` with negative `y` gives NaN. -/
theorem C13_negative (x y : ℝ) (hx : (1e-100 : ℝ) ≤ x) (hy : y < 0) :
    xlogyx (.fin x) (.fin y) = .nan := by
  have hx0 : 0 < x := lt_of_lt_of_le (by norm_num) hx
  unfold xlogyx
  simp only [Fl.isNan, if_false, Fl.lt_fin, not_lt.mpr hx, not_lt.mpr (hy.le.trans hx0.le)]
  rw [Fl.fin_sub, Fl.fin_div _ _ hy.ne, Fl.fin_neg]
  have : (x - y) / y < -1 := by
    rw [div_lt_iff_of_neg hy]; linarith
  simp [Fl.log1p, this]

/-- **C13.** `y = +inf` gives `+inf`, NaN `y` gives NaN, infinite data give NaN (`y` finite positive). -/
theorem C13_special (x : ℝ) (hx : (1e-100 : ℝ) ≤ x) :
    xlogyx (.fin x) .pinf = .pinf ∧ xlogyx (.fin x) .nan = .nan ∧
    xlogyx .pinf .pinf = .nan := by
  have hx0 : 0 < x := lt_of_lt_of_le (by norm_num) hx
  have hs : ¬ (Fl.fin x).lt (Fl.fin (1e-100 : ℝ)) := not_lt.mpr hx
  have hn : ¬ (Fl.fin x).isNan := id
  refine ⟨?_, ?_, ?_⟩
  · have h2 : (Fl.fin x).lt Fl.pinf := trivial
    unfold xlogyx
    rw [if_neg hn, if_neg hs, if_pos h2]
    have h1 : ((Fl.pinf - Fl.fin x) / Fl.fin x) = Fl.pinf := by
      show Fl.div Fl.pinf (Fl.fin x) = _
      simp [Fl.div, hx0.le.not_gt]
    rw [h1]
    show Fl.mulPinf x = _
    simp [Fl.mulPinf, hx0.ne', hx0]
  · have h2 : ¬ (Fl.fin x).lt Fl.nan := id
    unfold xlogyx
    rw [if_neg hn, if_neg hs, if_neg h2]
    simp [Fl.log1p]
  · have h1 : ¬ Fl.pinf.isNan := id
    have h2 : ¬ Fl.pinf.lt (Fl.fin (1e-100 : ℝ)) := id
    have h3 : ¬ Fl.pinf.lt Fl.pinf := id
    unfold xlogyx
    rw [if_neg h1, if_neg h2, if_neg h3]
    have : (Fl.pinf - Fl.pinf) = Fl.nan := rfl
    rw [this]; rfl

/-- non-vacuity of C13: an empty bin, an ordinary bin -/
example : (1e-100 : ℝ) ≤ 3 ∧ (0 : ℝ) < (1e-100 : ℝ) := by norm_num

/-! ## C14, C15 -/

/-- The real number by which a bin is varied: the mean absolute shift, signed `-1` if up < down. -/
def shift (nom up down : ℝ) : ℝ :=
  (if up < down then -1 else 1) * ((|up - nom| + |down - nom|) / 2)

theorem signedDiff_fin (nom up down : ℝ) :
    signedDiff (.fin nom) (.fin up) (.fin down) = .fin (shift nom up down) := by
  unfold signedDiff shift
  simp only [Fl.lt_fin, Fl.fin_sub, Fl.abs_fin, Fl.fin_add]
  rw [Fl.fin_div _ _ (by norm_num)]
  split
  · rw [Fl.one_def, Fl.fin_neg, Fl.fin_mul]
  · rw [Fl.one_def, Fl.fin_mul]

theorem sysCov_eq {n : ℕ} (nom up down : Fin n → ℝ) :
    getSystematicCovMat (vec nom) (vec up) (vec down) =
      .ok (Mat.outer (vec fun i => shift (nom i) (up i) (down i))
        (vec fun i => shift (nom i) (up i) (down i))) := by
  unfold getSystematicCovMat
  rw [if_pos (by simp [vec_length])]
  have : List.zipWith (fun n ud => signedDiff n ud.1 ud.2) (vec nom) ((vec up).zip (vec down)) =
      vec fun i => shift (nom i) (up i) (down i) := by
    unfold vec
    apply List.ext_getElem?
    intro i
    by_cases hi : i < n
    · simp [List.getElem?_zipWith, hi, signedDiff_fin, List.zip, vec]
    · simp [List.getElem?_zipWith, hi]
  simp only [this]

/-- **C14.** The systematic covariance matrix is symmetric, positive semi-definite, of rank at most
one, with the squared mean absolute shift on the diagonal. -/
theorem C14_systematic_cov {n : ℕ} (nom up down : Fin n → ℝ) :
    ∃ (M : Mat) (S : Matrix (Fin n) (Fin n) ℝ),
      getSystematicCovMat (vec nom) (vec up) (vec down) = .ok M ∧ IsReal M S ∧
      S.IsSymm ∧ S.PosSemidef ∧ S.rank ≤ 1 ∧
      ∀ i, S i i = ((|up i - nom i| + |down i - nom i|) / 2) ^ 2 := by
  refine ⟨_, _, sysCov_eq nom up down, isReal_outer _ _, ?_, ?_, ?_, ?_⟩
  · ext i j; simp [Matrix.vecMulVec_apply, mul_comm]
  · have := Matrix.posSemidef_vecMulVec_self_star (R := ℝ)
      (fun i => shift (nom i) (up i) (down i))
    simpa using this
  · exact Matrix.rank_vecMulVec_le _ _
  · intro i
    simp only [Matrix.vecMulVec_apply, shift]
    split <;> ring

/-- **C14**, unequal numbers of bins are rejected. -/
theorem C14_mismatch (nom up down : Vec) (h : ¬ (nom.length = up.length ∧ up.length = down.length)) :
    getSystematicCovMat nom up down = .error .valueError := by
  simp [getSystematicCovMat, h]

/-- non-vacuity of C14: a two-bin variation with anticorrelated shifts -/
example : ∃ (M : Mat) (S : Matrix (Fin 2) (Fin 2) ℝ), getSystematicCovMat (vec ![10, 10]) (vec ![12, 9]) (vec ![8, 11]) = .ok M ∧
    IsReal M S ∧ S 0 1 = (-2 : ℝ) := by
  refine ⟨_, _, sysCov_eq _ _ _, isReal_outer _ _, ?_⟩
  simp [Matrix.vecMulVec_apply, shift]; norm_num

/-- **C15 (exact characterisation).** Exchanging up and down leaves the matrix unchanged if and only
if it is not the case that some bin has `up = down ≠ nom` while another has `up ≠ down`. -/
theorem C15_swap_iff {n : ℕ} (nom up down : Fin n → ℝ) :
    (∃ S : Matrix (Fin n) (Fin n) ℝ, ∃ M M', getSystematicCovMat (vec nom) (vec up) (vec down) = .ok M ∧
        getSystematicCovMat (vec nom) (vec down) (vec up) = .ok M' ∧ IsReal M S ∧ IsReal M' S) ↔
      ¬ ((∃ i, up i = down i ∧ up i ≠ nom i) ∧ ∃ j, up j ≠ down j) := by
  have hsym : ∀ i, up i ≠ down i → shift (nom i) (down i) (up i) = -shift (nom i) (up i) (down i) := by
    intro i h
    unfold shift
    rcases lt_or_gt_of_ne h with h | h
    · rw [if_pos h, if_neg (by linarith)]; ring
    · rw [if_pos h, if_neg (by linarith)]; ring
  have htie : ∀ i, up i = down i → shift (nom i) (down i) (up i) = shift (nom i) (up i) (down i) := by
    intro i h; rw [h]
  constructor
  · rintro ⟨S, M, M', h1, h2, h3, h4⟩ ⟨⟨i, hi, hi'⟩, j, hj⟩
    rw [sysCov_eq] at h1 h2
    obtain rfl := Except.ok.inj h1
    obtain rfl := Except.ok.inj h2
    have e1 := h3.2.2 i j
    have e2 := h4.2.2 i j
    rw [(isReal_outer _ _).2.2 i j] at e1 e2
    simp only [Matrix.vecMulVec_apply, Fl.fin_inj] at e1 e2
    rw [hsym j hj, htie i hi] at e2
    have hz : shift (nom i) (up i) (down i) * shift (nom j) (up j) (down j) = 0 := by linarith
    rcases mul_eq_zero.mp hz with h | h
    · rw [hi] at hi' h
      simp only [shift, lt_irrefl, if_false] at h
      have := abs_pos.mpr (sub_ne_zero.mpr hi')
      linarith
    · unfold shift at h
      have h1 := abs_nonneg (up j - nom j)
      have h2 := abs_nonneg (down j - nom j)
      have hsum : |up j - nom j| + |down j - nom j| = 0 := by
        split at h <;> linarith
      have a1 : |up j - nom j| = 0 := by linarith
      have a2 : |down j - nom j| = 0 := by linarith
      rw [abs_eq_zero] at a1 a2
      exact hj (by linarith)
  · intro h
    refine ⟨_, _, _, sysCov_eq _ _ _, sysCov_eq _ _ _, isReal_outer _ _, ?_⟩
    have hall : (∀ i, shift (nom i) (down i) (up i) = -shift (nom i) (up i) (down i)) ∨
        ∀ i, shift (nom i) (down i) (up i) = shift (nom i) (up i) (down i) := by
      by_cases hj : ∃ j, up j ≠ down j
      · left
        intro i
        by_cases hi : up i = down i
        · have : up i = nom i := by
            by_contra hc; exact h ⟨⟨i, hi, hc⟩, hj⟩
          unfold shift
          rw [← hi, this]; simp
        · exact hsym i hi
      · right
        intro i; exact htie i (by by_contra hc; exact hj ⟨i, hc⟩)
    have heq : Matrix.vecMulVec (fun i => shift (nom i) (up i) (down i))
        (fun i => shift (nom i) (up i) (down i)) =
        Matrix.vecMulVec (fun i => shift (nom i) (down i) (up i))
        (fun i => shift (nom i) (down i) (up i)) := by
      ext i j
      simp only [Matrix.vecMulVec_apply]
      rcases hall with h | h <;> rw [h i, h j]; ring
    rw [heq]
    exact isReal_outer _ _

/-- **C15 is false of the code:** a concrete variation whose covariance changes under the exchange. -/
theorem C15_refuted : ¬ ∃ S : Matrix (Fin 2) (Fin 2) ℝ, ∃ M M',
    getSystematicCovMat (vec ![1, 1]) (vec ![2, 2]) (vec ![2, 0]) = .ok M ∧
    getSystematicCovMat (vec ![1, 1]) (vec ![2, 0]) (vec ![2, 2]) = .ok M' ∧
    IsReal M S ∧ IsReal M' S := by
  rw [C15_swap_iff]
  push Not
  exact ⟨⟨0, by simp, by simp⟩, 1, by simp⟩

/-- **C15 (partial).** Whenever no bin has coinciding, non-vanishing up and down shifts, the
exchange changes nothing. -/
theorem C15_swap_partial {n : ℕ} (nom up down : Fin n → ℝ) (h : ∀ i, up i = down i → up i = nom i) :
    ∃ S : Matrix (Fin n) (Fin n) ℝ, ∃ M M', getSystematicCovMat (vec nom) (vec up) (vec down) = .ok M ∧
        getSystematicCovMat (vec nom) (vec down) (vec up) = .ok M' ∧ IsReal M S ∧ IsReal M' S := by
  rw [C15_swap_iff]
  rintro ⟨⟨i, h1, h2⟩, _⟩
  exact h2 (h i h1)

/-! ## C16 -/

/-- **C16.** The pieces concatenate to a prefix of the input. -/
theorem C16_prefix {α : Type} (xs : List α) (sizes : List (Option ℕ)) :
    (arraySplitInto xs sizes).flatten <+: xs := by
  induction sizes generalizing xs with
  | nil => simp [arraySplitInto]
  | cons s ss ih =>
    cases s with
    | none => simp [arraySplitInto]
    | some n =>
      simp only [arraySplitInto, List.flatten_cons]
      conv_rhs => rw [← List.take_append_drop n xs]
      exact (List.prefix_append_right_inj _).mpr (ih (xs.drop n))

/-- **C16.** Nothing is lost when a `None` size occurs or the sizes add up to at least the length. -/
theorem C16_complete {α : Type} (xs : List α) (sizes : List (Option ℕ))
    (h : none ∈ sizes ∨ xs.length ≤ (sizes.filterMap id).sum) :
    (arraySplitInto xs sizes).flatten = xs := by
  induction sizes generalizing xs with
  | nil => simp at h; simp [arraySplitInto, h]
  | cons s ss ih =>
    cases s with
    | none => simp [arraySplitInto]
    | some n =>
      simp only [arraySplitInto, List.flatten_cons]
      rw [ih (xs.drop n), List.take_append_drop]
      rcases h with h | h
      · left; simpa using h
      · right; simp at h ⊢; omega

/-- **C16.** One piece per size up to and including the first `None`; piece `k` has size `k`'s length
unless the input is exhausted; the `None` piece is everything that is left. -/
theorem C16_pieces {α : Type} (xs : List α) (before : List ℕ) (rest : List (Option ℕ)) :
    arraySplitInto xs (before.map some ++ none :: rest) =
      (List.range before.length).map (fun k => (xs.drop (before.take k).sum).take (before.getD k 0))
        ++ [xs.drop before.sum] ∧
    arraySplitInto xs (before.map some) =
      (List.range before.length).map (fun k => (xs.drop (before.take k).sum).take (before.getD k 0)) := by
  induction before generalizing xs with
  | nil => simp [arraySplitInto]
  | cons n ns ih =>
    simp only [List.map_cons, List.cons_append, arraySplitInto, (ih _).1, (ih _).2, List.length_cons,
      List.range_succ_eq_map, List.map_map, List.sum_cons]
    constructor <;> simp [Function.comp_def, List.drop_drop]

/-- non-vacuity of C16 -/
example : arraySplitInto [1, 2, 3, 4, 5] [some 2, some 1, none, some 7] = [[1, 2], [3], [4, 5]] := rfl

end

end TF.Props
