import Verif.Props.StatsProps
import Mathlib.Analysis.SpecialFunctions.Gamma.Basic
import Mathlib.MeasureTheory.Integral.Bochner.Set

set_option linter.unusedSimpArgs false

/-!
# p-values of the goodness-of-fit tests (C107)
-/

namespace TF.Spec

open Classical MeasureTheory

noncomputable section

/-- density of the chi-square distribution with `k` degrees of freedom -/
def chi2Density (k x : ℝ) : ℝ :=
  if 0 < x then x ^ (k / 2 - 1) * Real.exp (-x / 2) / (2 ^ (k / 2) * Real.Gamma (k / 2)) else 0

/-- its upper tail -/
def upperTail (k x : ℝ) : ℝ := ∫ t in Set.Ioi x, chi2Density k t

/-- the numerical integration `quad(chi2.pdf, chi_sq, inf, args=(dof,))[0]` is exact -/
def ExactTail (pval : Fl → Fl → Fl) : Prop :=
  ∀ x k : ℝ, 0 < k → pval (.fin x) (.fin k) = .fin (upperTail k x)

end

end TF.Spec

namespace TF.Props

open Classical Spec MeasureTheory

noncomputable section

theorem chi2_on_pos (k : ℝ) : Set.EqOn (chi2Density k)
    (fun t => (2 ^ (k / 2) * Real.Gamma (k / 2))⁻¹ * (t ^ (k / 2 - 1) * Real.exp (-(2⁻¹ * t)))) (Set.Ioi 0) := by
  intro t ht
  have ht : 0 < t := ht
  simp only [chi2Density, if_pos ht]
  rw [show -t / 2 = -(2⁻¹ * t) by ring]
  field_simp

theorem chi2_integrable {k : ℝ} (hk : 0 < k) : IntegrableOn (chi2Density k) (Set.Ioi 0) := by
  have hk2 : 0 < k / 2 := by positivity
  have h1 := Real.GammaIntegral_convergent hk2
  have h2 := (integrableOn_Ioi_comp_mul_left_iff (fun x : ℝ => Real.exp (-x) * x ^ (k / 2 - 1)) 0
    (show (0:ℝ) < 2⁻¹ by norm_num)).mpr (by simpa using h1)
  have h3 : IntegrableOn (fun t : ℝ => ((2 ^ (k / 2) * Real.Gamma (k / 2))⁻¹ / (2⁻¹ : ℝ) ^ (k / 2 - 1)) *
      (Real.exp (-(2⁻¹ * t)) * (2⁻¹ * t) ^ (k / 2 - 1))) (Set.Ioi 0) := h2.const_mul _
  refine h3.congr_fun ?_ measurableSet_Ioi
  intro t ht
  have ht' : 0 < t := ht
  simp only
  rw [chi2_on_pos k ht, Real.mul_rpow (by norm_num) ht'.le]
  have : (2⁻¹ : ℝ) ^ (k / 2 - 1) ≠ 0 := (Real.rpow_pos_of_pos (by norm_num) _).ne'
  field_simp

theorem upperTail_zero {k : ℝ} (hk : 0 < k) : upperTail k 0 = 1 := by
  have hk2 : 0 < k / 2 := by positivity
  unfold upperTail
  rw [setIntegral_congr_fun measurableSet_Ioi (chi2_on_pos k), integral_const_mul,
    Real.integral_rpow_mul_exp_neg_mul_Ioi hk2 (by norm_num)]
  have hG := Real.Gamma_pos_of_pos hk2
  have h2 : (0:ℝ) < 2 ^ (k / 2) := Real.rpow_pos_of_pos (by norm_num) _
  rw [show (1 / 2⁻¹ : ℝ) = 2 by norm_num]
  field_simp

theorem chi2_pos {k t : ℝ} (hk : 0 < k) (ht : 0 < t) : 0 < chi2Density k t := by
  have hk2 : 0 < k / 2 := by positivity
  have hG := Real.Gamma_pos_of_pos hk2
  simp only [chi2Density, if_pos ht]
  positivity

theorem upperTail_split {k x y : ℝ} (hk : 0 < k) (hx : 0 ≤ x) (hxy : x < y) :
    upperTail k x = (∫ t in Set.Ioc x y, chi2Density k t) + upperTail k y ∧ 0 < ∫ t in Set.Ioc x y, chi2Density k t := by
  have hi := chi2_integrable hk
  have h1 : IntegrableOn (chi2Density k) (Set.Ioc x y) :=
    hi.mono_set fun t ht => lt_of_le_of_lt hx ht.1
  have h2 : IntegrableOn (chi2Density k) (Set.Ioi y) := hi.mono_set fun t ht => lt_of_le_of_lt (hx.trans hxy.le) ht
  constructor
  · unfold upperTail
    rw [← Set.Ioc_union_Ioi_eq_Ioi hxy.le]
    exact setIntegral_union (Set.Ioc_disjoint_Ioi le_rfl) measurableSet_Ioi h1 h2
  · rw [setIntegral_pos_iff_support_of_nonneg_ae ?_ h1]
    · have : Set.Ioc x y ⊆ Function.support (chi2Density k) ∩ Set.Ioc x y := fun t ht =>
        ⟨(chi2_pos hk (lt_of_le_of_lt hx ht.1)).ne', ht⟩
      refine lt_of_lt_of_le ?_ (measure_mono this)
      simp [hxy]
    · refine (ae_restrict_iff' measurableSet_Ioc).mpr (Filter.Eventually.of_forall fun t ht => ?_)
      exact (chi2_pos hk (lt_of_le_of_lt hx ht.1)).le

theorem upperTail_nonneg {k x : ℝ} (hk : 0 < k) (hx : 0 ≤ x) : 0 ≤ upperTail k x :=
  setIntegral_nonneg measurableSet_Ioi fun t ht => (chi2_pos hk (lt_of_le_of_lt hx ht)).le

theorem upperTail_lt {k x y : ℝ} (hk : 0 < k) (hx : 0 ≤ x) (hxy : x < y) : upperTail k y < upperTail k x := by
  obtain ⟨h1, h2⟩ := upperTail_split hk hx hxy
  linarith

theorem upperTail_pos {k x : ℝ} (hk : 0 < k) (hx : 0 ≤ x) : 0 < upperTail k x :=
  lt_of_le_of_lt (upperTail_nonneg hk (by linarith : 0 ≤ x + 1)) (upperTail_lt hk hx (by linarith))

/-- facts about the p-value of a non-negative statistic -/
theorem upperTail_facts {k x : ℝ} (hk : 0 < k) (hx : 0 ≤ x) :
    0 < upperTail k x ∧ upperTail k x ≤ 1 ∧ (upperTail k x = 1 ↔ x = 0) := by
  refine ⟨upperTail_pos hk hx, ?_, ?_, ?_⟩
  · rcases hx.eq_or_lt with rfl | h
    · exact (upperTail_zero hk).le
    · rw [← upperTail_zero hk]; exact (upperTail_lt hk le_rfl h).le
  · intro h
    by_contra hne
    have := upperTail_lt hk le_rfl (lt_of_le_of_ne hx (Ne.symm hne))
    rw [upperTail_zero hk, h] at this
    exact lt_irrefl _ this
  · rintro rfl; exact upperTail_zero hk

/-- **C107.** With an exact integration the third component returned by each of the three tests is a probability: positive,
at most 1, and 1 exactly if data and expectation agree in every bin (all expectations positive; for the likelihood ratio
also all data positive, see C18; for the plain chi-square all uncertainties non-zero). -/
theorem C107_probability {n : ℕ} (pval : Fl → Fl → Fl) (hp : ExactTail pval) (data nu sigma : Fin n → ℝ) (dof : ℝ)
    (hdof : 0 < dof) :
    ((∀ i, 0 < nu i) → ∃ (c p : ℝ), pearsonChi2Test pval (vec data) (vec nu) (.fin dof) = .ok (.fin c, .fin (c / dof), .fin p) ∧
      0 < p ∧ p ≤ 1 ∧ (p = 1 ↔ data = nu)) ∧
    ((∀ i, sigma i ≠ 0) → ∃ (c p : ℝ), defaultChi2Test pval (vec data) (vec nu) (vec sigma) (.fin dof) =
        .ok (.fin c, .fin (c / dof), .fin p) ∧ 0 < p ∧ p ≤ 1 ∧ (p = 1 ↔ data = nu)) ∧
    ((∀ i, 0 < nu i) → (∀ i, 0 < data i) → ∃ (c p : ℝ), cowanGof pval (vec data) (vec nu) (.fin dof) =
        .ok (.fin c, .fin (c / dof), .fin p) ∧ 0 < p ∧ p ≤ 1 ∧ (p = 1 ↔ data = nu)) := by
  refine ⟨fun h => ?_, fun h => ?_, fun h h' => ?_⟩
  · obtain ⟨c, h1, -, h2, h3⟩ := C17_pearson pval data nu dof h hdof.ne'
    rw [hp c dof hdof] at h1
    obtain ⟨f1, f2, f3⟩ := upperTail_facts hdof h2
    exact ⟨c, _, h1, f1, f2, f3.trans h3⟩
  · obtain ⟨c, h1, -, h2, h3⟩ := C17_default pval data nu sigma dof h hdof.ne'
    rw [hp c dof hdof] at h1
    obtain ⟨f1, f2, f3⟩ := upperTail_facts hdof h2
    exact ⟨c, _, h1, f1, f2, f3.trans h3⟩
  · obtain ⟨c, h1, -, h2, h3⟩ := C18_cowan_partial pval data nu dof h' h hdof.ne'
    rw [hp c dof hdof] at h1
    obtain ⟨f1, f2, f3⟩ := upperTail_facts hdof h2
    exact ⟨c, _, h1, f1, f2, f3.trans h3⟩

/-- the statistic `c` and p-value `p` returned by one of the three tests in its domain -/
def TestResult {n : ℕ} (pval : Fl → Fl → Fl) (data nu sigma : Fin n → ℝ) (dof c p : ℝ) : Prop :=
  (∃ q, (∀ i, 0 < nu i) ∧ pearsonChi2Test pval (vec data) (vec nu) (.fin dof) = .ok (.fin c, q, .fin p)) ∨
  (∃ q, (∀ i, sigma i ≠ 0) ∧ defaultChi2Test pval (vec data) (vec nu) (vec sigma) (.fin dof) = .ok (.fin c, q, .fin p)) ∨
  (∃ q, (∀ i, 0 < nu i) ∧ (∀ i, 0 < data i) ∧ cowanGof pval (vec data) (vec nu) (.fin dof) = .ok (.fin c, q, .fin p))

theorem testResult_tail {n : ℕ} {pval : Fl → Fl → Fl} (hp : ExactTail pval) {data nu sigma : Fin n → ℝ} {dof c p : ℝ}
    (hdof : 0 < dof) (h : TestResult pval data nu sigma dof c p) : 0 ≤ c ∧ p = upperTail dof c := by
  rcases h with ⟨q, h1, h2⟩ | ⟨q, h1, h2⟩ | ⟨q, h1, h1', h2⟩
  · obtain ⟨b, e1, -, e2, -⟩ := C17_pearson pval data nu dof h1 hdof.ne'
    rw [e1, hp b dof hdof] at h2
    injection h2 with h2
    injection h2 with h3 h4
    injection h4 with _ h5
    rw [← Fl.fin.inj h3, ← Fl.fin.inj h5]
    exact ⟨e2, rfl⟩
  · obtain ⟨b, e1, -, e2, -⟩ := C17_default pval data nu sigma dof h1 hdof.ne'
    rw [e1, hp b dof hdof] at h2
    injection h2 with h2
    injection h2 with h3 h4
    injection h4 with _ h5
    rw [← Fl.fin.inj h3, ← Fl.fin.inj h5]
    exact ⟨e2, rfl⟩
  · obtain ⟨b, e1, -, e2, -⟩ := C18_cowan_partial pval data nu dof h1' h1 hdof.ne'
    rw [e1, hp b dof hdof] at h2
    injection h2 with h2
    injection h2 with h3 h4
    injection h4 with _ h5
    rw [← Fl.fin.inj h3, ← Fl.fin.inj h5]
    exact ⟨e2, rfl⟩

/-- **C107.** Of any two results of the three tests (of the same or of different tests, whatever the data) with the same number
of degrees of freedom, the one with the larger statistic has the smaller p-value. -/
theorem C107_order {n m : ℕ} (pval : Fl → Fl → Fl) (hp : ExactTail pval) (data nu sigma : Fin n → ℝ)
    (data' nu' sigma' : Fin m → ℝ) (dof : ℝ) (hdof : 0 < dof) (c p c' p' : ℝ) (h : TestResult pval data nu sigma dof c p)
    (h' : TestResult pval data' nu' sigma' dof c' p') : (c < c' ↔ p' < p) ∧ (c = c' ↔ p = p') := by
  obtain ⟨h2, rfl⟩ := testResult_tail hp hdof h
  obtain ⟨h2', rfl⟩ := testResult_tail hp hdof h'
  constructor
  · refine ⟨fun h => upperTail_lt hdof h2 h, fun h => ?_⟩
    by_contra hc
    rcases (not_lt.mp hc).eq_or_lt with h3 | h3
    · rw [h3] at h; exact lt_irrefl _ h
    · exact lt_asymm h (upperTail_lt hdof h2' h3)
  · refine ⟨fun h => by rw [h], fun h => ?_⟩
    rcases lt_trichotomy c c' with h3 | h3 | h3
    · exact absurd h (upperTail_lt hdof h2 h3).ne'
    · exact h3
    · exact absurd h (upperTail_lt hdof h2' h3).ne

/-- non-vacuity: an exact integration exists, and with it data `[1, 3]` against the expectation `[2, 2]` have statistic 1 and a
p-value strictly between 0 and 1 -/
example : ∃ pval, ExactTail pval ∧ ∃ p : ℝ, pearsonChi2Test pval (vec ![1, 3]) (vec ![2, 2]) (.fin 1) =
    .ok (.fin 1, .fin 1, .fin p) ∧ 0 < p ∧ p < 1 := by
  refine ⟨fun x k => match x, k with
    | .fin x, .fin k => .fin (upperTail k x)
    | _, _ => .nan, fun x k _ => rfl, upperTail 1 1, ?_, ?_, ?_⟩
  · obtain ⟨c, h1, h2, -⟩ := C17_pearson (fun x k => match x, k with
      | .fin x, .fin k => .fin (upperTail k x)
      | _, _ => .nan) ![1, 3] ![2, 2] 1 (by intro i; fin_cases i <;> simp) one_ne_zero
    rw [h1]
    have : c = 1 := by rw [h2, Fin.sum_univ_two]; norm_num
    rw [this]; norm_num
  · exact upperTail_pos one_pos zero_le_one
  · have := upperTail_lt one_pos le_rfl one_pos
    rwa [upperTail_zero one_pos] at this

end

end TF.Props
