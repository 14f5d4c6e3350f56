import Verif.Props.RoundProps10

set_option linter.unusedSimpArgs false

/-!
# Goodness-of-fit statistics in double precision (C133, C134)
-/

namespace TF.Props

open Classical Spec

noncomputable section

/-- rounding to the nearest double, away from ties -/
theorem float64_nearest {x : ℝ} (k m : ℤ) (h1 : (2:ℝ) ^ k ≤ |x|) (h2 : |x| < 2 ^ (k + 1)) (hk : -1022 ≤ k) (hk2 : k ≤ 900)
    (hm : |x / 2 ^ (k - 52) - m| < 1 / 2) (hm2 : |m| ≤ 2 ^ 53) : float64 x = .fin (m * 2 ^ (k - 52)) := by
  have hr : round64 x = m * 2 ^ (k - 52) := by
    unfold round64
    rw [exp64_eq h1 h2 hk]
    congr 1
    obtain ⟨j, hj⟩ := rintR_is_int (x / 2 ^ (k - 52))
    have hd := rintR_dist (x / 2 ^ (k - 52))
    rw [hj] at hd ⊢
    have : |(j:ℝ) - m| < 1 := by
      have := abs_sub_le (j:ℝ) (x / 2 ^ (k - 52)) m
      linarith
    have h3 : |j - m| < 1 := by exact_mod_cast this
    have : j = m := by rw [Int.abs_lt_one_iff] at h3; omega
    rw [this]
  rw [float64_fin, hr]
  rw [hr, abs_mul, abs_of_pos (two_zpow_pos _)]
  have e1 : |(m:ℝ)| ≤ 2 ^ 53 := by
    rw [← Int.cast_abs]; exact_mod_cast hm2
  have e2 : (2:ℝ) ^ (k - 52) ≤ 2 ^ (848 : ℤ) := zpow_le_zpow_right₀ (by norm_num) (by omega)
  have e3 : |(m:ℝ)| * 2 ^ (k - 52) ≤ 2 ^ 53 * 2 ^ (848 : ℤ) := mul_le_mul e1 e2 (two_zpow_pos _).le (by positivity)
  refine e3.trans ?_
  unfold Fl.maxFloat
  have h2 : (1:ℝ) ≤ 2 - 2 ^ (-52 : ℤ) := by norm_num
  have h3 : (2:ℝ) ^ 53 * 2 ^ (848 : ℤ) ≤ 2 ^ (1023:ℕ) := by
    have e : (2:ℝ) ^ 53 * 2 ^ (848 : ℤ) = 2 ^ (901:ℕ) := by
      rw [show (2:ℝ) ^ (848:ℤ) = 2 ^ (848:ℕ) from zpow_ofNat 2 848, ← pow_add]
    rw [e]
    exact pow_le_pow_right₀ (by norm_num : (1:ℝ) ≤ 2) (by norm_num)
  have h4 : (0:ℝ) ≤ 2 ^ (1023:ℕ) := by positivity
  exact h3.trans (le_mul_of_one_le_left h4 h2)

theorem float64_dyadic {x : ℝ} (h : IsDyadic64 x) (hb : |x| ≤ 2 ^ 53) : float64 x = .fin x := by
  have hr := round64_dyadic h
  rw [float64_fin, hr]
  rw [hr]
  refine hb.trans ?_
  unfold Fl.maxFloat
  have h2 : (1:ℝ) ≤ 2 - 2 ^ (-52 : ℤ) := by norm_num
  have h3 : (2:ℝ) ^ (53:ℕ) ≤ (2:ℝ) ^ (1023:ℕ) := pow_le_pow_right₀ (by norm_num : (1:ℝ) ≤ 2) (by norm_num : 53 ≤ 1023)
  have h4 : (0:ℝ) ≤ 2 ^ (1023:ℕ) := by positivity
  generalize (2:ℝ) ^ (1023:ℕ) = B at *
  generalize (2:ℝ) - 2 ^ (-52 : ℤ) = c at *
  nlinarith

/-- **C134 (refuted).** Eleven events in a bin with expectation `11 - 2⁻⁴⁸`: whatever logarithm with an error of at most one unit in the
last place is used, the likelihood-ratio statistic computed in double precision is negative; the exact statistic is positive. -/
theorem C134_refuted {lg : Fl → Fl} (hlg : LnAccurate float64 (2 ^ (-53 : ℤ)) 2 lg) {sum : Vec → Fl} (hsum : Summation float64 sum)
    (pval : Fl → Fl → Fl) (dof : Fl) :
    ∃ chi : ℝ, chi < 0 ∧ Representable float64 11 ∧ Representable float64 (11 - 2 ^ (-48 : ℤ)) ∧
      cowanGofR float64 lg sum pval (vec ![11]) (vec ![11 - 2 ^ (-48 : ℤ)]) dof =
        .ok (.fin chi, (.fin chi / dof : Fl).rd float64, pval (.fin chi) dof) ∧
      (∑ i, (![11] i * Real.log (![11] i / ![11 - 2 ^ (-48 : ℤ)] i) + ![11 - 2 ^ (-48 : ℤ)] i - ![11] i) : ℝ) > 0 := by
  set e : ℝ := 11 - 2 ^ (-48 : ℤ) with he
  have re11 : Representable float64 11 := by
    have := float64_int 11 (by norm_num)
    exact_mod_cast this
  have ree : Representable float64 e := by
    apply float64_dyadic
    · exact ⟨11 * 2 ^ 48 - 1, -48, by rw [he]; norm_num, by norm_num, by norm_num⟩
    · rw [he]; norm_num [abs_le]
  have hepos : 0 < e := by rw [he]; norm_num
  -- the quotient
  have hq : float64 (11 / e) = .fin (1 + 2 ^ (-52 : ℤ)) := by
    rw [float64_nearest (x := 11 / e) 0 (2 ^ 52 + 1)]
    · norm_num
    · rw [abs_of_pos (by positivity), he]; norm_num
    · rw [abs_of_pos (by positivity), he]; norm_num
    · norm_num
    · norm_num
    · rw [he]; norm_num [abs_lt]
    · norm_num
  have rq : Representable float64 (1 + 2 ^ (-52 : ℤ)) := float64_ieee.idem _ _ hq
  obtain ⟨l, el, hl⟩ := hlg (1 + 2 ^ (-52 : ℤ)) (by positivity) rq
  set L := Real.log (1 + 2 ^ (-52 : ℤ)) with hL
  have hL1 : L ≤ 2 ^ (-52 : ℤ) := by
    have := Real.log_le_sub_one_of_pos (show (0:ℝ) < 1 + 2 ^ (-52 : ℤ) by positivity)
    linarith
  have hL2 : 2 ^ (-52 : ℤ) * (1 - 2 ^ (-52 : ℤ)) ≤ L := by
    have := Real.one_sub_inv_le_log_of_pos (show (0:ℝ) < 1 + 2 ^ (-52 : ℤ) by positivity)
    refine le_trans ?_ this
    norm_num
  have hL0 : 0 ≤ L := le_trans (by norm_num) hL2
  rw [abs_of_nonneg hL0] at hl
  obtain ⟨hl1, hl2⟩ := abs_le.mp hl
  have hl3 : l ≤ 2 ^ (-52 : ℤ) * (1 + 2 ^ (-50 : ℤ)) := by
    norm_num at hL1 hl2 ⊢; linarith
  have hl4 : 2 ^ (-52 : ℤ) * (1 - 2 ^ (-50 : ℤ)) ≤ l := by
    norm_num at hL1 hL2 hl1 ⊢; linarith
  have hl0 : 0 < l := lt_of_lt_of_le (by norm_num) hl4
  obtain ⟨p, ep, hp⟩ := float64_accurate.rel (11 * l) (by
    have h1 := float64_accurate.hi1
    rw [abs_of_pos (by linarith)]
    refine le_trans ?_ h1
    norm_num at hl3 ⊢; linarith)
  have hlo : (2:ℝ) ^ (-1022 : ℤ) ≤ 11 * l := by
    have h1 : (2:ℝ) ^ (-1022 : ℤ) ≤ 2 ^ (-53 : ℤ) := zpow_le_zpow_right₀ (by norm_num) (by norm_num)
    refine h1.trans ?_
    norm_num at hl4 ⊢; linarith
  rw [abs_of_pos (show 0 < 11 * l by linarith), max_eq_left hlo] at hp
  obtain ⟨hp1, hp2⟩ := abs_le.mp hp
  have hp3 : p ≤ 11 * 2 ^ (-52 : ℤ) * (1 + 2 ^ (-49 : ℤ)) := by
    norm_num at hl3 hl4 hp2 ⊢; linarith
  have hp4 : 11 * 2 ^ (-52 : ℤ) * (1 - 2 ^ (-49 : ℤ)) ≤ p := by
    norm_num at hl3 hl4 hp1 ⊢; linarith
  have hs : float64 (p + e) = .fin (11 - 2 ^ (-49 : ℤ)) := by
    rw [float64_nearest (x := p + e) 3 (11 * 2 ^ 49 - 1)]
    · norm_num
    · rw [abs_of_pos (by norm_num at hp4; linarith), he]; norm_num at hp4 ⊢; linarith
    · rw [abs_of_pos (by norm_num at hp4; linarith), he]; norm_num at hp3 ⊢; linarith
    · norm_num
    · norm_num
    · rw [he, abs_lt]; norm_num at hp3 hp4 ⊢; constructor <;> linarith
    · norm_num
  have rt : Representable float64 (-2 ^ (-49 : ℤ)) :=
    float64_dyadic ⟨-1, -49, by norm_num, by norm_num, by norm_num⟩ (by norm_num)
  have ht : float64 (11 - 2 ^ (-49 : ℤ) - 11) = .fin (-2 ^ (-49 : ℤ)) := by
    rw [show (11 - 2 ^ (-49 : ℤ) - 11 : ℝ) = -2 ^ (-49 : ℤ) by ring]; exact rt
  obtain ⟨S, eS, -, hS⟩ := sum_err float64_accurate (hsum [.fin (-2 ^ (-49 : ℤ))]) (by
    intro x hx
    rw [List.mem_singleton.mp hx]
    exact ⟨_, rfl, rt⟩) (by norm_num) (by
      have h1 := float64_accurate.hi1
      refine le_trans ?_ h1
      simp only [List.map_cons, List.map_nil, List.sum_cons, List.sum_nil, Fl.toReal]
      norm_num)
  simp only [List.map_cons, List.map_nil, List.sum_cons, List.sum_nil, Fl.toReal, List.length_singleton, Nat.sub_self, pow_zero,
    sub_self, zero_mul, add_zero, abs_nonpos_iff, sub_eq_zero] at hS
  subst hS
  have hc : float64 (2 * -2 ^ (-49 : ℤ)) = .fin (-2 ^ (-48 : ℤ)) := by
    rw [show (2 * -2 ^ (-49 : ℤ) : ℝ) = -2 ^ (-48 : ℤ) by norm_num]
    exact float64_dyadic ⟨-1, -48, by norm_num, by norm_num, by norm_num⟩ (by norm_num)
  have v1 : ∀ x : ℝ, vec ![x] = [.fin x] := by intro x; simp [vec]
  refine ⟨-2 ^ (-48 : ℤ), by norm_num, re11, ree, ?_, ?_⟩
  · unfold cowanGofR
    have b1 : ∀ (f : Fl → Fl → Fl) (a b : Fl), bop f [a] [b] = .ok [f a b] := by intro f a b; simp [bop]
    simp only [v1, b1, List.map_cons, List.map_nil, Fl.fin_div _ _ hepos.ne', rd_fin, hq, el, Fl.fin_mul, Fl.fin_add, Fl.fin_sub, ep, hs, ht,
      bind, Except.bind, pure, Except.pure, eS, hc, chi2ResultR]
  · rw [Fin.sum_univ_one]
    have := (cowan_term 11 e (by norm_num) hepos)
    have hne : (11:ℝ) ≠ e := by rw [he]; norm_num
    exact lt_of_le_of_ne this.1 (fun h => hne (this.2.mp h.symm))

/-- `log` rounded to double precision -/
def ln64 : Fl → Fl
  | .fin z => if |Real.log z| < 2 ^ (-1022 : ℤ) then .fin (Real.log z) else if Fl.maxFloat < |Real.log z| then .fin (Real.log z) else float64 (Real.log z)
  | x => x.log

theorem ln64_accurate : LnAccurate float64 (2 ^ (-53 : ℤ)) 2 ln64 := by
  intro z hz rz
  unfold ln64
  simp only
  have h0 := abs_nonneg (Real.log z)
  split_ifs with h1 h2
  · exact ⟨_, rfl, by rw [sub_self, abs_zero]; positivity⟩
  · exact ⟨_, rfl, by rw [sub_self, abs_zero]; positivity⟩
  · obtain ⟨r, er, hr⟩ := float64_accurate.rel (Real.log z) (not_lt.mp h2)
    rw [max_eq_left (not_lt.mp h1)] at hr
    refine ⟨r, er, hr.trans ?_⟩
    have : (0:ℝ) ≤ 2 ^ (-53 : ℤ) * |Real.log z| := by positivity
    linarith

/-- doubles reach from `2 ^ (-1022)` to beyond `2 ^ 1022` -/
theorem range64 : (2:ℝ) ^ (1022 : ℤ) ≤ Fl.maxFloat := by
  unfold Fl.maxFloat
  have h2 : (1:ℝ) ≤ 2 - 2 ^ (-52 : ℤ) := by norm_num
  have h4 : (0:ℝ) ≤ 2 ^ (1023:ℕ) := by positivity
  refine le_trans ?_ (le_mul_of_one_le_left h4 h2)
  rw [← zpow_natCast]
  exact zpow_le_zpow_right₀ (by norm_num) (by norm_num)

/-- **C133 in double precision.** Up to `2 ^ 50` bins; expectations between `2 ^ (-200)` and `2 ^ 200`; every difference between data
and expectation zero or between `2 ^ (-300)` and `2 ^ 300` in size; at most `2 ^ 50` degrees of freedom. -/
theorem C133_double {sum : Vec → Fl} (hsum : Summation float64 sum) (pval : Fl → Fl → Fl) {n : ℕ}
    (data nu : Fin n → ℝ) (dof : ℝ) (hd : ∀ i, Representable float64 (data i)) (hν : ∀ i, Representable float64 (nu i))
    (hnu : ∀ i, (2:ℝ) ^ (-200 : ℤ) ≤ nu i ∧ nu i ≤ 2 ^ (200 : ℤ)) (hn : n ≤ 2 ^ 50)
    (hdiff : ∀ i, data i = nu i ∨ ((2:ℝ) ^ (-300 : ℤ) ≤ |data i - nu i| ∧ |data i - nu i| ≤ 2 ^ (300 : ℤ)))
    (hdof : 1 ≤ dof ∧ dof ≤ 2 ^ (50 : ℤ)) :
    ∃ chi red : ℝ, pearsonChi2TestR float64 sum pval (vec data) (vec nu) (.fin dof) =
        .ok (.fin chi, .fin red, pval (.fin chi) (.fin dof)) ∧ 0 ≤ chi ∧ (chi = 0 ↔ data = nu) ∧
      |chi - ∑ i, (data i - nu i) ^ 2 / nu i| ≤ (n + 3) * 2 ^ (-52 : ℤ) * ∑ i, (data i - nu i) ^ 2 / nu i ∧
      |red - (∑ i, (data i - nu i) ^ 2 / nu i) / dof| ≤ (n + 4) * 2 ^ (-52 : ℤ) * ((∑ i, (data i - nu i) ^ 2 / nu i) / dof) := by
  have e : ∀ k : ℝ, k * 2 ^ (-52 : ℤ) = 2 * k * 2 ^ (-53 : ℤ) := fun k => by norm_num; ring
  have hp : ∀ i, 0 < nu i := fun i => lt_of_lt_of_le (two_zpow_pos _) (hnu i).1
  have z2 : (2:ℝ) ≠ 0 := by norm_num
  have hsq : ∀ i, data i ≠ nu i → (2:ℝ) ^ (-600 : ℤ) ≤ (data i - nu i) ^ 2 := by
    intro i hi
    have h := ((hdiff i).resolve_left hi).1
    rw [← sq_abs, show (-600 : ℤ) = -300 + -300 by norm_num, zpow_add₀ z2, sq]
    exact mul_le_mul h h (two_zpow_pos _).le (abs_nonneg _)
  have hsq2 : ∀ i, (data i - nu i) ^ 2 ≤ (2:ℝ) ^ (600 : ℤ) := by
    intro i
    rcases hdiff i with h | h
    · rw [h, sub_self, zero_pow two_ne_zero]; positivity
    · rw [← sq_abs, show (600 : ℤ) = 300 + 300 by norm_num, zpow_add₀ z2, sq]
      exact mul_le_mul h.2 h.2 (abs_nonneg _) (two_zpow_pos _).le
  have ht1 : ∀ i, data i ≠ nu i → (2:ℝ) ^ (-800 : ℤ) ≤ (data i - nu i) ^ 2 / nu i := by
    intro i hi
    rw [le_div_iff₀ (hp i)]
    refine le_trans ?_ (hsq i hi)
    rw [show (-600 : ℤ) = -800 + 200 by norm_num, zpow_add₀ z2]
    exact mul_le_mul_of_nonneg_left (hnu i).2 (two_zpow_pos _).le
  have ht2 : ∀ i, (data i - nu i) ^ 2 / nu i ≤ (2:ℝ) ^ (800 : ℤ) := by
    intro i
    rw [div_le_iff₀ (hp i)]
    refine (hsq2 i).trans ?_
    rw [show (600 : ℤ) = 800 + -200 by norm_num, zpow_add₀ z2]
    exact mul_le_mul_of_nonneg_left (hnu i).1 (two_zpow_pos _).le
  have hT0 : ∀ i, 0 ≤ (data i - nu i) ^ 2 / nu i := fun i => div_nonneg (sq_nonneg _) (hp i).le
  have hX2 : ∑ i, (data i - nu i) ^ 2 / nu i ≤ (2:ℝ) ^ (850 : ℤ) := by
    have h1 : ∑ i, (data i - nu i) ^ 2 / nu i ≤ ∑ _i : Fin n, (2:ℝ) ^ (800 : ℤ) := Finset.sum_le_sum fun i _ => ht2 i
    rw [Finset.sum_const, Finset.card_univ, Fintype.card_fin, nsmul_eq_mul] at h1
    refine h1.trans ?_
    rw [show (850 : ℤ) = 50 + 800 by norm_num, zpow_add₀ z2]
    refine mul_le_mul_of_nonneg_right ?_ (two_zpow_pos _).le
    have : (n:ℝ) ≤ ((2 ^ 50 : ℕ) : ℝ) := by exact_mod_cast hn
    rw [show (2:ℝ) ^ (50:ℤ) = 2 ^ (50:ℕ) from zpow_ofNat 2 50]
    exact_mod_cast this
  have hX0 : 0 ≤ ∑ i, (data i - nu i) ^ 2 / nu i := Finset.sum_nonneg fun i _ => hT0 i
  have hd0 : 0 < dof := by linarith [hdof.1]
  have up : ∀ {x : ℝ} {k : ℤ}, x ≤ 2 ^ k → k ≤ 1020 → 4 * x ≤ Fl.maxFloat := by
    intro x k hx hk
    have h1 : (2:ℝ) ^ k ≤ 2 ^ (1020 : ℤ) := zpow_le_zpow_right₀ (by norm_num) hk
    refine le_trans ?_ range64
    rw [show (1022 : ℤ) = 2 + 1020 by norm_num, zpow_add₀ z2]
    have h2 : (2:ℝ) ^ (2:ℤ) = 4 := by norm_num
    rw [h2]
    linarith
  have down : ∀ {x : ℝ} {k : ℤ}, 2 ^ k ≤ x → -1021 ≤ k → 2 * (2:ℝ) ^ (-1022 : ℤ) ≤ x := by
    intro x k hx hk
    have h1 : (2:ℝ) ^ (-1021 : ℤ) ≤ 2 ^ k := zpow_le_zpow_right₀ (by norm_num) hk
    rw [show (-1021 : ℤ) = 1 + -1022 by norm_num, zpow_add₀ z2, zpow_one] at h1
    exact h1.trans hx
  rw [e, e]
  refine C133_pearson float64_accurate hsum pval data nu dof hd hν hp ?_ ?_ ?_ (up hX2 (by norm_num)) hd0 ?_ ?_
  · have : (n:ℝ) ≤ ((2 ^ 50 : ℕ) : ℝ) := by exact_mod_cast hn
    push_cast at this ⊢
    rw [show (2:ℝ) ^ (-53:ℤ) = 1 / 9007199254740992 by norm_num]
    linarith
  · intro i
    by_cases hi : data i = nu i
    · exact .inl hi
    · exact .inr ⟨down (hsq i hi) (by norm_num), down (ht1 i hi) (by norm_num)⟩
  · intro i
    refine ⟨?_, ?_⟩
    · rcases hdiff i with h | h
      · rw [h, sub_self, abs_zero]; exact le_trans (by positivity) range64
      · have := up h.2 (by norm_num)
        linarith [abs_nonneg (data i - nu i)]
    · have := up (hsq2 i) (by norm_num)
      linarith [sq_nonneg (data i - nu i)]
  · by_cases h : data = nu
    · exact .inl h
    · right
      obtain ⟨i, hi⟩ := Function.ne_iff.mp h
      have h1 : (2:ℝ) ^ (-800 : ℤ) ≤ ∑ i, (data i - nu i) ^ 2 / nu i :=
        (ht1 i hi).trans (Finset.single_le_sum (f := fun i => (data i - nu i) ^ 2 / nu i) (fun i _ => hT0 i) (Finset.mem_univ i))
      refine down (k := -850) ?_ (by norm_num)
      rw [le_div_iff₀ hd0]
      refine le_trans ?_ h1
      rw [show (-800 : ℤ) = -850 + 50 by norm_num, zpow_add₀ z2]
      exact mul_le_mul_of_nonneg_left hdof.2 (two_zpow_pos _).le
  · have h1 : (∑ i, (data i - nu i) ^ 2 / nu i) / dof ≤ 2 ^ (850 : ℤ) := (div_le_self hX0 hdof.1).trans hX2
    have h2 := up h1 (by norm_num)
    linarith [div_nonneg hX0 hd0.le]

/-- non-vacuity of C133: counts 3 and 5, expectations 5/2 and 9/2, one degree of freedom -/
example : ∃ chi red : ℝ, pearsonChi2TestR float64 (sumLeft float64) (fun _ _ => 1) (vec ![3, 5]) (vec ![5 / 2, 9 / 2]) (.fin 1) =
        .ok (.fin chi, .fin red, 1) ∧ 0 < chi ∧ |chi - 7 / 45| ≤ 2 ^ (-52 : ℤ) := by
  have r : ∀ m : ℤ, |m| ≤ 100 → Representable float64 (m * 2 ^ (-1 : ℤ)) := by
    intro m hm
    have hm' : |(m:ℝ)| ≤ 100 := by rw [← Int.cast_abs]; exact_mod_cast hm
    apply float64_dyadic ⟨m, -1, rfl, hm.trans (by norm_num), by norm_num⟩
    rw [abs_mul]
    norm_num
    linarith
  obtain ⟨chi, red, h1, h2, h3, h4, -⟩ := C133_double (sumLeft_ok float64) (fun _ _ => 1) ![3, 5] ![5 / 2, 9 / 2] 1
    (by
      intro i
      fin_cases i
      · have := r 6 (by norm_num); norm_num at this ⊢; exact this
      · have := r 10 (by norm_num); norm_num at this ⊢; exact this)
    (by
      intro i
      fin_cases i
      · have := r 5 (by norm_num); norm_num at this ⊢; exact this
      · have := r 9 (by norm_num); norm_num at this ⊢; exact this)
    (by intro i; fin_cases i <;> norm_num) (by norm_num)
    (by
      have b1 : (2:ℝ) ^ (-300 : ℤ) ≤ 2 ^ (-1 : ℤ) := zpow_le_zpow_right₀ (by norm_num) (by norm_num)
      have b2 : (2:ℝ) ^ (0 : ℤ) ≤ 2 ^ (300 : ℤ) := zpow_le_zpow_right₀ (by norm_num) (by norm_num)
      rw [zpow_zero] at b2
      rw [show (2:ℝ) ^ (-1 : ℤ) = 1 / 2 by norm_num] at b1
      have a1 : |(3:ℝ) - 5 / 2| = 1 / 2 := by norm_num [abs_of_pos]
      have a2 : |(5:ℝ) - 9 / 2| = 1 / 2 := by norm_num [abs_of_pos]
      intro i
      right
      fin_cases i
      · show _ ≤ |(3:ℝ) - 5 / 2| ∧ |(3:ℝ) - 5 / 2| ≤ _
        rw [a1]; exact ⟨b1, le_trans (by norm_num) b2⟩
      · show _ ≤ |(5:ℝ) - 9 / 2| ∧ |(5:ℝ) - 9 / 2| ≤ _
        rw [a2]; exact ⟨b1, le_trans (by norm_num) b2⟩)
    (by norm_num)
  refine ⟨chi, red, h1, ?_, ?_⟩
  · refine lt_of_le_of_ne h2 fun h => ?_
    have := congrFun (h3.mp h.symm) 0
    norm_num at this
  · norm_num [Fin.sum_univ_two] at h4 ⊢
    refine h4.trans (by norm_num)

/-- non-vacuity of `C134_refuted`: the rounded logarithm and summation from the left -/
example : LnAccurate float64 (2 ^ (-53 : ℤ)) 2 ln64 ∧ Summation float64 (sumLeft float64) := ⟨ln64_accurate, sumLeft_ok _⟩

/-- non-vacuity of `C134_cowan_partial`: counts 3 and 5, expectations 5/2 and 9/2 -/
example : ∃ chi : ℝ, cowanGofR float64 ln64 (sumLeft float64) (fun _ _ => 1) (vec ![3, 5]) (vec ![5 / 2, 9 / 2]) (.fin 1) =
        .ok (.fin chi, (.fin chi / .fin 1 : Fl).rd float64, 1) ∧
      |chi - 2 * ((3 * Real.log (3 / (5 / 2)) + 5 / 2 - 3) + (5 * Real.log (5 / (9 / 2)) + 9 / 2 - 5))| ≤ 2 ^ (-42 : ℤ) := by
  have r : ∀ m : ℤ, |m| ≤ 100 → Representable float64 (m * 2 ^ (-1 : ℤ)) := by
    intro m hm
    have hm' : |(m:ℝ)| ≤ 100 := by rw [← Int.cast_abs]; exact_mod_cast hm
    apply float64_dyadic ⟨m, -1, rfl, hm.trans (by norm_num), by norm_num⟩
    rw [abs_mul]
    norm_num
    linarith
  have l1 : |Real.log (3 / (5 / 2))| ≤ 1 := by
    rw [abs_of_nonneg (Real.log_nonneg (by norm_num))]
    exact (Real.log_le_sub_one_of_pos (by norm_num)).trans (by norm_num)
  have l2 : |Real.log (5 / (9 / 2))| ≤ 1 := by
    rw [abs_of_nonneg (Real.log_nonneg (by norm_num))]
    exact (Real.log_le_sub_one_of_pos (by norm_num)).trans (by norm_num)
  have b1 : (2:ℝ) ^ (-1022 : ℤ) ≤ 1 := by
    rw [← zpow_zero (2:ℝ)]; exact zpow_le_zpow_right₀ (by norm_num) (by norm_num)
  have b2 : (2:ℝ) ^ (10 : ℤ) ≤ Fl.maxFloat := le_trans (zpow_le_zpow_right₀ (by norm_num) (by norm_num)) range64
  rw [show (2:ℝ) ^ (10 : ℤ) = 1024 by norm_num] at b2
  obtain ⟨chi, h1, h2⟩ := C134_cowan_partial float64_accurate (κ := 2) (by norm_num) ln64_accurate (sumLeft_ok float64) (fun _ _ => 1)
    (n := 2) (by norm_num) ![3, 5] ![5 / 2, 9 / 2] (.fin 1)
    (by
      intro i
      fin_cases i
      · have := r 6 (by norm_num); norm_num at this ⊢; exact this
      · have := r 10 (by norm_num); norm_num at this ⊢; exact this)
    (by
      intro i
      fin_cases i
      · have := r 5 (by norm_num); norm_num at this ⊢; exact this
      · have := r 9 (by norm_num); norm_num at this ⊢; exact this)
    (by intro i; fin_cases i <;> norm_num) (by norm_num)
    (by
      intro i
      fin_cases i
      · exact ⟨b1.trans (by norm_num), b1.trans (by norm_num)⟩
      · exact ⟨b1.trans (by norm_num), b1.trans (by norm_num)⟩)
    (by
      intro i
      fin_cases i
      · exact le_trans (by norm_num) b2
      · exact le_trans (by norm_num) b2)
    (by
      refine le_trans ?_ b2
      rw [Fin.sum_univ_two]
      simp only [Matrix.cons_val_zero, Matrix.cons_val_one]
      linarith)
  refine ⟨chi, h1, ?_⟩
  simp only [Fin.sum_univ_two, Matrix.cons_val_zero, Matrix.cons_val_one] at h2
  refine h2.trans ?_
  have : (8 * ((2:ℕ):ℝ) + 2 * 2 + 32) * 2 ^ (-53 : ℤ) *
      (3 * |Real.log (3 / (5 / 2))| + 3 + 5 / 2 + (5 * |Real.log (5 / (9 / 2))| + 5 + 9 / 2)) ≤
      (8 * ((2:ℕ):ℝ) + 2 * 2 + 32) * 2 ^ (-53 : ℤ) * 23 := mul_le_mul_of_nonneg_left (by linarith) (by positivity)
  exact this.trans (by norm_num)

end

end TF.Props
