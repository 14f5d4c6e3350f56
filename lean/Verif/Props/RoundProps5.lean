import Verif.Props.RoundProps4

set_option linter.unusedSimpArgs false

/-!
# Double precision (C125, C126, C127)

The statements of `RoundProps2`–`RoundProps4` for IEEE 754 double precision: `u = 2⁻⁵³`, smallest normal number `2⁻¹⁰²²`.
-/

namespace TF.Props

open Classical Spec

noncomputable section

/-- **C125 in double precision.** For shape variations with `-1 ≤ θ ε ≤ 2⁵²` the fractions that double precision computes are NaN or
between 0 and 1, and NaN only if the sum of the varied counts is zero or overflows. -/
theorem C125_double {sum : Vec → Fl} (hsum : Summation float64 sum) {n : ℕ} (θ c ε : Fin n → ℝ) (hc : ∀ i, 0 ≤ c i)
    (hw : ∀ i, -1 ≤ θ i * ε i ∧ θ i * ε i ≤ 2 ^ 52) :
    ∃ fs, binFractionsR float64 sum (vec θ) (vec c) (vec ε) = .ok fs ∧ fs.length = n ∧ (∀ x ∈ fs, NanOrBetween 0 1 x) ∧
      (sum (List.ofFn (weightedR float64 θ c ε)) ≠ 0 → sum (List.ofFn (weightedR float64 θ c ε)) ≠ .pinf → ∀ x ∈ fs, x ≠ .nan) := by
  refine C125_fractions float64_ieee hsum θ c ε hc (2 ^ 52) ?_ ?_ hw
  · have := float64_int (2 ^ 52) (by norm_num)
    unfold Representable
    norm_num at this ⊢
    exact this
  · have := float64_int (1 + 2 ^ 52) (by norm_num)
    unfold Representable
    norm_num at this ⊢
    exact this

/-- **C126 in double precision, fractions.** -/
theorem C126_fractions_double {n : ℕ} {c ε θ : Fin n → ℝ} (h : InRange (2 ^ (-1022 : ℤ)) Fl.maxFloat c ε θ) {sum : Vec → Fl}
    (hsum : Summation float64 sum) (hn : n + 6 ≤ 2 ^ 52) :
    ∃ f : Fin n → ℝ, binFractionsR float64 sum (vec θ) (vec c) (vec ε) = .ok (vec f) ∧
      (∀ i, |f i - frac c ε θ i| ≤ ((n + 6 : ℕ) : ℝ) * 2 ^ (-52 : ℤ) * frac c ε θ i) ∧
      |∑ i, f i - 1| ≤ ((n + 6 : ℕ) : ℝ) * 2 ^ (-52 : ℤ) := by
  have hn' : ((n + 6 : ℕ) : ℝ) ≤ 2 ^ 52 := by exact_mod_cast hn
  have e : ∀ k : ℝ, k * 2 ^ (-52 : ℤ) = 2 * k * 2 ^ (-53 : ℤ) := fun k => by norm_num; ring
  rw [e]
  exact C126_fractions float64_accurate h hsum (by rw [← e]; norm_num; push_cast at hn'; linarith)

/-- **C126 in double precision, expected events.** -/
theorem C126_expected_double {sum : Vec → Fl} (hsum : Summation float64 sum) {dot : List (Fl × Fl) → Fl}
    (hdot : DotProduct float64 dot) {K n : ℕ} (w : World) (c : ℕ) (cnt ε : Fin K → Fin n → ℝ) (eff : Fin K → ℝ)
    (S : Fin K → Matrix (Fin n) (Fin n) ℝ) (h : ChanStored w c cnt ε eff S) (hK : 0 < K) (hw : Coherent w) (ν : Fin K → ℝ)
    (θ : Fin K → Fin n → ℝ) (hin : ∀ k, InRange (2 ^ (-1022 : ℤ)) Fl.maxFloat (cnt k) (ε k) (θ k))
    (hν : ∀ k, 0 ≤ ν k * eff k ∧ ν k * eff k ≤ Fl.maxFloat ∧ (ν k * eff k = 0 ∨ 2 ^ (-1022 : ℤ) ≤ ν k * eff k))
    (hp : ∀ k i, ν k * eff k * frac (cnt k) (ε k) (θ k) i = 0 ∨ 2 * 2 ^ (-1022 : ℤ) ≤ ν k * eff k * frac (cnt k) (ε k) (θ k) i)
    (hE : ∀ i, 4 * expected cnt ε eff ν θ i ≤ Fl.maxFloat) (hn : n + K + 7 ≤ 2 ^ 52) :
    ∃ Ê E : Fin n → ℝ, (w.expectedEvtsR float64 sum dot c (vec ν) (nuiVec θ)).1 = .ok (vec Ê) ∧
      (w.expectedEvts c (vec ν) (nuiVec θ)).1 = .ok (vec E) ∧
      ∀ i, |Ê i - E i| ≤ ((n + K + 7 : ℕ) : ℝ) * 2 ^ (-52 : ℤ) * E i := by
  have hn' : ((n + K + 7 : ℕ) : ℝ) ≤ 2 ^ 52 := by exact_mod_cast hn
  have e : ∀ k : ℝ, k * 2 ^ (-52 : ℤ) = 2 * k * 2 ^ (-53 : ℤ) := fun k => by norm_num; ring
  rw [e]
  exact C126_expected float64_accurate hsum hdot w c cnt ε eff S h hK hw ν θ hin hν hp hE
    (by rw [← e]; norm_num; push_cast at hn'; linarith)

/-- **C127 in double precision.** With a `log1p` whose relative error is at most one unit in the last place (`2⁻⁵²`). -/
theorem C127_double {lg : Fl → Fl} (hlg : LogAccurate float64 (2 ^ (-53 : ℤ)) 2 lg) {sum : Vec → Fl}
    (hsum : Summation float64 sum) {dot : List (Fl × Fl) → Fl} (hdot : DotProduct float64 dot) {K n : ℕ} (w : World) (c : ℕ)
    (cnt ε : Fin K → Fin n → ℝ) (eff : Fin K → ℝ) (S : Fin K → Matrix (Fin n) (Fin n) ℝ) (h : ChanStored w c cnt ε eff S)
    (hw : Coherent w) (hK : 0 < K) (hn : 0 < n) (hid : ℕ) (hd : (w.chans c).hdata = some hid) (d : Fin n → ℝ)
    (hdd : (w.hists hid).counts.data = vec d) (ν : Fin K → ℝ) (θ : Fin K → Fin n → ℝ)
    (hr : NllInRange float64 (2 ^ (-1022 : ℤ)) Fl.maxFloat cnt ε eff S d ν θ) (hsize : 6 * (K * n) + 2 * K + 40 ≤ 2 ^ 53) :
    ∃ vr v : ℝ, (w.nllContributionR float64 lg sum dot c (vec ν) (nuiVec θ)).1 = .ok (.fin vr) ∧
      (w.nllContribution c (vec ν) (nuiVec θ)).1 = .ok (.fin v) ∧
      |vr - v| ≤ (6 * (n:ℝ) + 2 * K + 40) * 2 ^ (-53 : ℤ) * ∑ i, poissonSize (d i) (expected cnt ε eff ν θ i) +
        (3 * ((K * n : ℕ) : ℝ) + 4) * 2 ^ (-53 : ℤ) * penaltySize (2 ^ (-1022 : ℤ)) S θ := by
  have hs : (6 * ((K * n : ℕ) : ℝ) + 2 * K + 40) ≤ 2 ^ 53 := by exact_mod_cast hsize
  have hKn : (n : ℝ) ≤ ((K * n : ℕ) : ℝ) := by exact_mod_cast Nat.le_mul_of_pos_left n hK
  have hK0 : (0:ℝ) ≤ K := Nat.cast_nonneg _
  have e : (6 * (n:ℝ) + 2 * K + 40) = (6 * (n:ℝ) + 2 * K + 3 * 2 + 34) := by ring
  have hz : (2:ℝ) ^ (-53 : ℤ) = 1 / 2 ^ 53 := by norm_num
  rw [e]
  refine C127_likelihood float64_accurate (by norm_num) hlg hsum hdot w c cnt ε eff S h hw hK hn hid hd d hdd ν θ hr ?_ ?_
  · rw [hz, mul_one_div, div_le_one (by positivity)]
    linarith
  · rw [hz, mul_one_div, div_le_one (by positivity)]
    linarith

/-! ### a correctly rounded `log1p` -/

/-- `log1p` rounded to double precision -/
def lg64 : Fl → Fl
  | .fin z => if z < 2 ^ (-100 : ℤ) then .fin z else float64 (Real.log (1 + z))
  | x => x.log1p

theorem lg64_accurate : LogAccurate float64 (2 ^ (-53 : ℤ)) 2 lg64 := by
  intro z hz rz
  have hlog : z / (1 + z) ≤ Real.log (1 + z) := by
    have h1 : (0:ℝ) < 1 + z := by linarith
    have := Real.one_sub_inv_le_log_of_pos h1
    have e : 1 - (1 + z)⁻¹ = z / (1 + z) := by field_simp; ring
    linarith
  have hup : Real.log (1 + z) ≤ z := by
    have := Real.log_le_sub_one_of_pos (show (0:ℝ) < 1 + z by linarith)
    linarith
  have hl0 : 0 ≤ Real.log (1 + z) := Real.log_nonneg (by linarith)
  unfold lg64
  simp only
  split_ifs with hs
  · refine ⟨z, rfl, ?_⟩
    rw [abs_of_nonneg (by linarith)]
    have h1 : z ≤ (1 + z) * Real.log (1 + z) := by
      rwa [div_le_iff₀ (by linarith), mul_comm] at hlog
    have h2 : z * Real.log (1 + z) ≤ 2 ^ (-100 : ℤ) * Real.log (1 + z) := mul_le_mul_of_nonneg_right hs.le hl0
    have h3 : (2:ℝ) ^ (-100 : ℤ) ≤ 2 * 2 ^ (-53 : ℤ) := by norm_num
    have h4 := mul_le_mul_of_nonneg_right h3 hl0
    linarith
  · push Not at hs
    have hzM : z ≤ Fl.maxFloat := by
      unfold Representable float64 at rz
      split_ifs at rz with g1 g2
      have := Fl.fin.inj rz
      linarith
    obtain ⟨r, er, hr⟩ := float64_accurate.rel (Real.log (1 + z)) (by rw [abs_of_nonneg hl0]; linarith)
    refine ⟨r, er, ?_⟩
    have hlo : (2:ℝ) ^ (-1022 : ℤ) ≤ Real.log (1 + z) := by
      have h1 : (2:ℝ) ^ (-1022 : ℤ) ≤ 2 ^ (-101 : ℤ) := zpow_le_zpow_right₀ (by norm_num) (by norm_num)
      have h2 : (2:ℝ) ^ (-101 : ℤ) ≤ z / (1 + z) := by
        rw [le_div_iff₀ (by linarith)]
        have : (2:ℝ) ^ (-100 : ℤ) = 2 * 2 ^ (-101 : ℤ) := by norm_num
        rw [this] at hs
        have h3 : (2:ℝ) ^ (-101 : ℤ) ≤ 1 / 2 := by norm_num
        have h4 := mul_le_mul_of_nonneg_right h3 hz
        generalize (2:ℝ) ^ (-101 : ℤ) = t at *
        linarith
      exact h1.trans (h2.trans hlog)
    rw [abs_of_nonneg hl0, max_eq_left hlo] at hr
    have := mul_nonneg (show (0:ℝ) ≤ 2 ^ (-53 : ℤ) by positivity) hl0
    linarith

/-- non-vacuity of C127: the example channel with observed counts 10 and 5 in double precision; yields 10 and 20 and one nuisance
parameter at one standard deviation -/
example : ∃ vr v : ℝ,
    (Ex.w1.nllContributionR float64 lg64 (sumLeft float64) (dotLeft float64) 0 (vec ![10, 20]) (nuiVec ![![1, 0], ![0, 0]])).1 =
      .ok (.fin vr) ∧
    (Ex.w1.nllContribution 0 (vec ![10, 20]) (nuiVec ![![1, 0], ![0, 0]])).1 = .ok (.fin v) ∧
    |vr - v| ≤ 1 / 10 ^ 12 := by
  have e0 : ∀ i, Ex.epsA 0 i = 1 / 2 := by intro i; fin_cases i <;> norm_num [Ex.epsA]
  have hexp : ∀ i, expected Ex.cntA Ex.epsA ![1 / 2, 1] ![10, 20] ![![1, 0], ![0, 0]] i = 25 / 2 := by
    intro i
    fin_cases i <;> simp [expected, Ex.cntA, e0] <;> norm_num
  have l1 : |10 * Real.log (25 / 2 / 10)| ≤ 5 := by
    have h1 := Real.log_le_sub_one_of_pos (show (0:ℝ) < 25 / 2 / 10 by norm_num)
    have h2 := Real.log_nonneg (show (1:ℝ) ≤ 25 / 2 / 10 by norm_num)
    rw [abs_of_nonneg (by linarith)]
    linarith
  have l2 : |5 * Real.log (25 / 2 / 5)| ≤ 10 := by
    have h1 := Real.log_le_sub_one_of_pos (show (0:ℝ) < 25 / 2 / 5 by norm_num)
    have h2 := Real.log_nonneg (show (1:ℝ) ≤ 25 / 2 / 5 by norm_num)
    rw [abs_of_nonneg (by linarith)]
    linarith
  have hP : ∑ i, poissonSize ((![10, 5] : Fin 2 → ℝ) i) (expected Ex.cntA Ex.epsA ![1 / 2, 1] ![10, 20] ![![1, 0], ![0, 0]] i) ≤ 60 := by
    simp only [hexp, Fin.sum_univ_two, poissonSize, Matrix.cons_val_zero, Matrix.cons_val_one]
    linarith
  obtain ⟨lo, hi, A, hl, hh⟩ : ∃ lo hi, Accurate float64 (2 ^ (-53 : ℤ)) lo hi ∧ lo ≤ 1 / 1024 ∧ 1024 ≤ hi :=
    ⟨_, _, float64_accurate, small_lo, large_hi⟩
  have hl0 := A.lo0
  have hQ : penaltySize lo (K := 2) (n := 2) (fun _ => 1⁻¹) ![![1, 0], ![0, 0]] ≤ 2 := by
    simp [penaltySize, Fin.sum_univ_two, Matrix.one_apply]
    linarith
  have hlgA := lg64_accurate
  have hr : NllInRange float64 lo hi Ex.cntA Ex.epsA ![1 / 2, 1] (fun _ => 1⁻¹) ![10, 5] ![10, 20] ![![1, 0], ![0, 0]] := by
    refine ⟨?_, ?_, ?_, ?_, ?_, ?_, ?_, ?_⟩
    · intro k
      fin_cases k
      · refine ⟨fun i => ?_, ?_, ?_, fun i => ?_, fun i => ?_⟩
        · right; fin_cases i <;> simp [Ex.cntA] <;> linarith
        · simp [varied, Ex.cntA, e0]; norm_num
        · simp [varied, Ex.cntA, e0]; norm_num; linarith
        · fin_cases i <;> simp [e0] <;> norm_num <;> linarith
        · right; fin_cases i <;> simp [frac, varied, Ex.cntA, e0] <;> norm_num <;> linarith
      · refine ⟨fun i => ?_, ?_, ?_, fun i => ?_, fun i => ?_⟩
        · right; fin_cases i <;> simp [Ex.cntA] <;> linarith
        · simp [varied, Ex.cntA]
        · simp [varied, Ex.cntA]; norm_num; linarith
        · fin_cases i <;> simp <;> norm_num <;> linarith
        · right; fin_cases i <;> simp [frac, varied, Ex.cntA] <;> norm_num <;> linarith
    · intro k
      fin_cases k <;> simp <;> norm_num <;> refine ⟨?_, ?_⟩ <;> linarith
    · intro k i
      right
      fin_cases k <;> fin_cases i <;> simp [frac, varied, Ex.cntA, e0] <;> norm_num <;> linarith
    · intro i
      have h10 := float64_int 10 (by norm_num)
      have h5 := float64_int 5 (by norm_num)
      unfold Representable
      fin_cases i
      · simpa using h10
      · simpa using h5
    · intro i
      right
      rw [hexp]
      fin_cases i
      · refine ⟨?_, ?_, ?_, ?_, ?_⟩ <;> simp <;> norm_num <;> linarith
      · refine ⟨?_, ?_, ?_, ?_, ?_⟩ <;> simp <;> norm_num <;> linarith
    · linarith
    · intro k j
      fin_cases k <;> fin_cases j <;> simp [Fin.sum_univ_two, Matrix.one_apply] <;> linarith
    · linarith
  obtain ⟨vr, v, h1, h2, h3⟩ := C127_likelihood A (κ := 2) (by norm_num) hlgA (sumLeft_ok _) (dotLeft_ok _) Ex.w1 0 Ex.cntA Ex.epsA
    ![1 / 2, 1] (fun _ => 1⁻¹) Ex.chanA.stored Ex.w1_coherent (by norm_num) (by norm_num) 2 Ex.dataA.1 ![10, 5] Ex.dataA.2
    ![10, 20] ![![1, 0], ![0, 0]] hr (by norm_num) (by norm_num)
  refine ⟨vr, v, h1, h2, h3.trans ?_⟩
  have a1 := mul_le_mul_of_nonneg_left hP (show (0:ℝ) ≤ (6 * ((2:ℕ):ℝ) + 2 * ((2:ℕ):ℝ) + 3 * 2 + 34) * 2 ^ (-53 : ℤ) by positivity)
  have a2 := mul_le_mul_of_nonneg_left hQ (show (0:ℝ) ≤ (3 * ((2 * 2 : ℕ):ℝ) + 4) * 2 ^ (-53 : ℤ) by positivity)
  refine (add_le_add a1 a2).trans ?_
  norm_num

end

end TF.Props
