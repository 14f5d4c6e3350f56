import Verif.Model.Round
import Mathlib.Tactic.Linarith
import Mathlib.Tactic.NormNum
import Mathlib.Tactic.FieldSimp
import Mathlib.Tactic.Positivity

/-!
# Double precision rounding
-/

namespace TF.Props

open Classical

noncomputable section

theorem rintR_int (n : ℤ) : Fl.rintR (n : ℝ) = n := by
  unfold Fl.rintR
  simp

theorem rintR_is_int (x : ℝ) : ∃ n : ℤ, Fl.rintR x = n := by
  unfold Fl.rintR
  split
  · exact ⟨_, rfl⟩
  split
  · exact ⟨⌊x⌋ + 1, by push_cast; rfl⟩
  split
  · exact ⟨_, rfl⟩
  · exact ⟨⌊x⌋ + 1, by push_cast; rfl⟩

theorem rintR_dist (x : ℝ) : |Fl.rintR x - x| ≤ 1 / 2 := by
  unfold Fl.rintR
  have h0 := Int.floor_le x
  have h1 := Int.lt_floor_add_one x
  rw [abs_le]
  split
  · constructor <;> linarith
  split
  · constructor <;> linarith
  have : x - ⌊x⌋ = 1 / 2 := by linarith
  split <;> constructor <;> linarith

theorem rintR_mono {x y : ℝ} (h : x ≤ y) : Fl.rintR x ≤ Fl.rintR y := by
  by_cases hf : ⌊x⌋ = ⌊y⌋
  · unfold Fl.rintR
    rw [hf]
    split_ifs <;> linarith
  · have hlt : ⌊x⌋ + 1 ≤ ⌊y⌋ := by
      have := Int.floor_mono h
      omega
    have h1 : Fl.rintR x ≤ ⌊x⌋ + 1 := by
      unfold Fl.rintR
      split_ifs <;> linarith
    have h2 : (⌊y⌋ : ℝ) ≤ Fl.rintR y := by
      unfold Fl.rintR
      split_ifs <;> linarith
    have : ((⌊x⌋ + 1 : ℤ) : ℝ) ≤ ⌊y⌋ := by exact_mod_cast hlt
    push_cast at this
    linarith

theorem rintR_neg (x : ℝ) : Fl.rintR (-x) = -Fl.rintR x := by
  by_cases hx : x = ⌊x⌋
  · rw [hx, rintR_int, ← Int.cast_neg, rintR_int]
  have h0 := Int.floor_le x
  have h1 := Int.lt_floor_add_one x
  have hlt : (⌊x⌋ : ℝ) < x := lt_of_le_of_ne h0 (Ne.symm hx)
  have hn : ⌊-x⌋ = -⌊x⌋ - 1 := by
    rw [Int.floor_eq_iff]
    push_cast
    constructor <;> linarith
  unfold Fl.rintR
  rw [hn]
  push_cast
  by_cases a : x - ⌊x⌋ < 1 / 2
  · rw [if_neg (by linarith), if_pos (by linarith), if_pos a]; ring
  by_cases b : 1 / 2 < x - ⌊x⌋
  · rw [if_pos (by linarith), if_neg a, if_pos b]; ring
  rw [if_neg (by linarith), if_neg (by linarith), if_neg a, if_neg b]
  by_cases e : Even ⌊x⌋
  · have : ¬ Even (-⌊x⌋ - 1) := by
      rw [Int.even_sub, even_neg]
      simp [e]
    rw [if_neg this, if_pos e]; ring
  · have : Even (-⌊x⌋ - 1) := by
      rw [Int.even_sub, even_neg]
      simp [e]
    rw [if_pos this, if_neg e]; ring

/-- the numbers `m · 2^k` with 53-bit `m` and `k ≥ -1074`: the finite doubles when at most the largest one -/
def IsDyadic64 (x : ℝ) : Prop := ∃ (m k : ℤ), x = m * 2 ^ k ∧ |m| ≤ 2 ^ 53 ∧ -1074 ≤ k

theorem two_zpow_pos (k : ℤ) : (0:ℝ) < 2 ^ k := by positivity

theorem exp64_ge (x : ℝ) : -1022 ≤ exp64 x := le_max_right _ _

theorem abs_lt_exp (x : ℝ) : |x| < 2 ^ (exp64 x + 1) := by
  have h1 : |x| < (2:ℝ) ^ (Int.log 2 |x| + 1) := by
    have := Int.lt_zpow_succ_log_self (R := ℝ) (b := 2) (by norm_num) |x|
    simpa using this
  refine h1.trans_le (zpow_le_zpow_right₀ (by norm_num) ?_)
  unfold exp64
  have := le_max_left (Int.log 2 |x|) (-1022)
  omega

theorem exp_le_abs (x : ℝ) (h : exp64 x ≠ -1022) (hx : x ≠ 0) : (2:ℝ) ^ exp64 x ≤ |x| := by
  have : exp64 x = Int.log 2 |x| := by
    unfold exp64 at *
    rcases le_total (Int.log 2 |x|) (-1022) with h' | h'
    · exact absurd (max_eq_right h') h
    · exact max_eq_left h'
  rw [this]
  have := Int.zpow_log_le_self (R := ℝ) (b := 2) (by norm_num) (abs_pos.mpr hx)
  simpa using this

theorem exp64_neg (x : ℝ) : exp64 (-x) = exp64 x := by unfold exp64; rw [abs_neg]

theorem round64_neg (x : ℝ) : round64 (-x) = -round64 x := by
  unfold round64
  rw [exp64_neg, neg_div, rintR_neg, neg_mul]

theorem round64_zero : round64 0 = 0 := by
  have := rintR_int 0
  simp only [Int.cast_zero] at this
  unfold round64
  rw [zero_div, this, zero_mul]

/-- dyadic numbers are not changed -/
theorem round64_dyadic {x : ℝ} (h : IsDyadic64 x) : round64 x = x := by
  obtain ⟨m, k, rfl, hm, hk⟩ := h
  by_cases h0 : m = 0
  · subst h0; simp [round64_zero]
  set x : ℝ := m * 2 ^ k with hx
  have hx0 : x ≠ 0 := mul_ne_zero (by exact_mod_cast h0) (two_zpow_pos k).ne'
  -- it suffices that `x` is an integer multiple of the spacing
  suffices ∃ n : ℤ, x = n * 2 ^ (exp64 x - 52) by
    obtain ⟨n, hn⟩ := this
    unfold round64
    have : x / 2 ^ (exp64 x - 52) = n := by
      rw [div_eq_iff (two_zpow_pos _).ne']; exact hn
    rw [this, rintR_int, ← hn]
  have habs : |x| = |m| * 2 ^ k := by
    rw [hx, abs_mul, abs_of_pos (two_zpow_pos k)]; push_cast; rfl
  -- multiples of a larger power are multiples of a smaller one
  have key : exp64 x - 52 ≤ k → ∃ n : ℤ, x = n * 2 ^ (exp64 x - 52) := by
    intro hle
    refine ⟨m * 2 ^ (k - (exp64 x - 52)).toNat, ?_⟩
    have : (k - (exp64 x - 52)).toNat = k - (exp64 x - 52) := Int.toNat_of_nonneg (by omega)
    push_cast
    rw [mul_assoc, ← zpow_natCast (2:ℝ), this, ← zpow_add₀ (by norm_num : (2:ℝ) ≠ 0), hx]
    congr 2
    omega
  by_cases he : exp64 x = -1022
  · exact key (by omega)
  have hle := exp_le_abs x he hx0
  by_cases hm' : |m| = 2 ^ 53
  · by_cases hk' : exp64 x - 52 ≤ k
    · exact key hk'
    · have hlt : (2:ℝ) ^ exp64 x ≤ 2 ^ (53 + k) := by
        refine hle.trans (le_of_eq ?_)
        rw [habs, hm', zpow_add₀ (by norm_num : (2:ℝ) ≠ 0)]
        push_cast
        norm_cast
      have hle' : exp64 x ≤ 53 + k := (zpow_le_zpow_iff_right₀ (by norm_num : (1:ℝ) < 2)).mp hlt
      have heq : exp64 x - 52 = k + 1 := by omega
      rw [heq]
      rcases abs_eq (by norm_num : (0:ℤ) ≤ 2 ^ 53) |>.mp hm' with e | e
      · refine ⟨2 ^ 52, ?_⟩
        rw [hx, e, zpow_add_one₀ (by norm_num : (2:ℝ) ≠ 0)]
        push_cast
        ring
      · refine ⟨-2 ^ 52, ?_⟩
        rw [hx, e, zpow_add_one₀ (by norm_num : (2:ℝ) ≠ 0)]
        push_cast
        ring
  · have hm2 : |m| < 2 ^ 53 := lt_of_le_of_ne hm hm'
    have hlt : (2:ℝ) ^ exp64 x < 2 ^ (53 + k) := by
      refine hle.trans_lt ?_
      rw [habs, zpow_add₀ (by norm_num : (2:ℝ) ≠ 0)]
      refine mul_lt_mul_of_pos_right ?_ (two_zpow_pos k)
      have : ((|m| : ℤ) : ℝ) < ((2 ^ 53 : ℤ) : ℝ) := by exact_mod_cast hm2
      refine this.trans_le ?_
      push_cast
      norm_cast
    have := (zpow_lt_zpow_iff_right₀ (by norm_num : (1:ℝ) < 2)).mp hlt
    exact key (by omega)

theorem round64_mono_pos {x y : ℝ} (hx : 0 < x) (h : x ≤ y) : round64 x ≤ round64 y := by
  have hy : 0 < y := hx.trans_le h
  have he : exp64 x ≤ exp64 y := by
    unfold exp64
    refine max_le_max ?_ le_rfl
    rw [abs_of_pos hx, abs_of_pos hy]
    exact Int.log_mono_right hx h
  rcases he.lt_or_eq with hlt | heq
  · have h1 : round64 x ≤ 2 ^ (exp64 x + 1) := by
      have := abs_lt_exp x
      rw [abs_of_pos hx] at this
      unfold round64
      have h2 : x / 2 ^ (exp64 x - 52) ≤ ((2 ^ 53 : ℤ) : ℝ) := by
        rw [div_le_iff₀ (two_zpow_pos _)]
        refine this.le.trans (le_of_eq ?_)
        have : ((2 ^ 53 : ℤ) : ℝ) = (2:ℝ) ^ (53:ℤ) := by norm_num
        rw [this, ← zpow_add₀ (by norm_num : (2:ℝ) ≠ 0)]
        congr 1; omega
      have h3 := rintR_mono h2
      rw [rintR_int] at h3
      refine (mul_le_mul_of_nonneg_right h3 (two_zpow_pos _).le).trans (le_of_eq ?_)
      have : ((2 ^ 53 : ℤ) : ℝ) = (2:ℝ) ^ (53:ℤ) := by norm_num
      rw [this, ← zpow_add₀ (by norm_num : (2:ℝ) ≠ 0)]
      congr 1; omega
    have h2 : (2:ℝ) ^ exp64 y ≤ round64 y := by
      have hle := exp_le_abs y (by have := exp64_ge x; omega) hy.ne'
      rw [abs_of_pos hy] at hle
      unfold round64
      have h2 : ((2 ^ 52 : ℤ) : ℝ) ≤ y / 2 ^ (exp64 y - 52) := by
        rw [le_div_iff₀ (two_zpow_pos _)]
        refine (le_of_eq ?_).trans hle
        have : ((2 ^ 52 : ℤ) : ℝ) = (2:ℝ) ^ (52:ℤ) := by norm_num
        rw [this, ← zpow_add₀ (by norm_num : (2:ℝ) ≠ 0)]
        congr 1; omega
      have h3 := rintR_mono h2
      rw [rintR_int] at h3
      refine (le_of_eq ?_).trans (mul_le_mul_of_nonneg_right h3 (two_zpow_pos _).le)
      have : ((2 ^ 52 : ℤ) : ℝ) = (2:ℝ) ^ (52:ℤ) := by norm_num
      rw [this, ← zpow_add₀ (by norm_num : (2:ℝ) ≠ 0)]
      congr 1; omega
    exact h1.trans ((zpow_le_zpow_right₀ (by norm_num) (by omega)).trans h2)
  · unfold round64
    rw [heq]
    exact mul_le_mul_of_nonneg_right (rintR_mono (div_le_div_of_nonneg_right h (two_zpow_pos _).le)) (two_zpow_pos _).le

theorem round64_nonneg {x : ℝ} (hx : 0 ≤ x) : 0 ≤ round64 x := by
  unfold round64
  refine mul_nonneg ?_ (two_zpow_pos _).le
  have := rintR_mono (x := 0) (y := x / 2 ^ (exp64 x - 52)) (div_nonneg hx (two_zpow_pos _).le)
  have h0 := rintR_int 0
  simp only [Int.cast_zero] at h0
  rwa [h0] at this

theorem round64_mono {x y : ℝ} (h : x ≤ y) : round64 x ≤ round64 y := by
  rcases lt_trichotomy x 0 with hx | hx | hx
  · rcases lt_or_ge y 0 with hy | hy
    · have := round64_mono_pos (x := -y) (y := -x) (by linarith) (by linarith)
      rw [round64_neg, round64_neg] at this
      linarith
    · have h1 := round64_nonneg hy
      have h2 := round64_nonneg (x := -x) (by linarith)
      rw [round64_neg] at h2
      linarith
  · rw [hx, round64_zero]; exact round64_nonneg (by linarith)
  · exact round64_mono_pos hx h

/-- results are dyadic -/
theorem round64_isDyadic (x : ℝ) : IsDyadic64 (round64 x) := by
  obtain ⟨n, hn⟩ := rintR_is_int (x / 2 ^ (exp64 x - 52))
  refine ⟨n, exp64 x - 52, by unfold round64; rw [hn], ?_, by have := exp64_ge x; omega⟩
  have h1 := abs_lt_exp x
  have h2 : |x / 2 ^ (exp64 x - 52)| ≤ ((2 ^ 53 : ℤ) : ℝ) := by
    rw [abs_div, abs_of_pos (two_zpow_pos _), div_le_iff₀ (two_zpow_pos _)]
    refine h1.le.trans (le_of_eq ?_)
    have : ((2 ^ 53 : ℤ) : ℝ) = (2:ℝ) ^ (53:ℤ) := by norm_num
    rw [this, ← zpow_add₀ (by norm_num : (2:ℝ) ≠ 0)]
    congr 1; omega
  obtain ⟨h3, h4⟩ := abs_le.mp h2
  have h5 := rintR_mono h3
  have h6 := rintR_mono h4
  rw [← Int.cast_neg, rintR_int, hn] at h5
  rw [rintR_int, hn] at h6
  rw [abs_le]
  exact ⟨by exact_mod_cast h5, by exact_mod_cast h6⟩

theorem round64_idem (x : ℝ) : round64 (round64 x) = round64 x := round64_dyadic (round64_isDyadic x)

/-- absolute error: half a unit in the last place -/
theorem round64_err (x : ℝ) : |round64 x - x| ≤ 2 ^ (exp64 x - 53) := by
  unfold round64
  set q : ℝ := 2 ^ (exp64 x - 52) with hq
  have hqp : 0 < q := two_zpow_pos _
  have h := rintR_dist (x / q)
  have e : Fl.rintR (x / q) * q - x = (Fl.rintR (x / q) - x / q) * q := by
    rw [sub_mul, div_mul_cancel₀ _ hqp.ne']
  rw [e, abs_mul, abs_of_pos hqp]
  refine (mul_le_mul_of_nonneg_right h hqp.le).trans (le_of_eq ?_)
  rw [hq, show exp64 x - 52 = (exp64 x - 53) + 1 by ring, zpow_add_one₀ (by norm_num : (2:ℝ) ≠ 0)]
  ring

/-- relative error of normal numbers: 2^-53 -/
theorem round64_rel {x : ℝ} (h : x = 0 ∨ (2:ℝ) ^ (-1022 : ℤ) ≤ |x|) : |round64 x - x| ≤ 2 ^ (-53 : ℤ) * |x| := by
  rcases h with rfl | h
  · simp [round64_zero]
  have hx : x ≠ 0 := by
    rintro rfl
    simp only [abs_zero] at h
    exact absurd h (not_le.mpr (two_zpow_pos _))
  refine (round64_err x).trans ?_
  rw [show exp64 x - 53 = -53 + exp64 x by ring, zpow_add₀ (by norm_num : (2:ℝ) ≠ 0)]
  refine mul_le_mul_of_nonneg_left ?_ (two_zpow_pos _).le
  by_cases he : exp64 x = -1022
  · rw [he]; exact h
  · exact exp_le_abs x he hx

/-- sums of doubles have a relative error of at most 2^-53, also below the normal range -/
theorem round64_add {x y : ℝ} (hx : IsDyadic64 x) (hy : IsDyadic64 y) :
    |round64 (x + y) - (x + y)| ≤ 2 ^ (-53 : ℤ) * |x + y| := by
  by_cases h : (2:ℝ) ^ (-1022 : ℤ) ≤ |x + y|
  · exact round64_rel (.inr h)
  · have mult : ∀ z, IsDyadic64 z → ∃ n : ℤ, z = n * 2 ^ (-1074 : ℤ) := by
      rintro z ⟨m, k, rfl, -, hk⟩
      refine ⟨m * 2 ^ (k + 1074).toNat, ?_⟩
      have : (k + 1074).toNat = k + 1074 := Int.toNat_of_nonneg (by omega)
      push_cast
      rw [mul_assoc, ← zpow_natCast (2:ℝ), this, ← zpow_add₀ (by norm_num : (2:ℝ) ≠ 0)]
      congr 2; omega
    obtain ⟨a, ha⟩ := mult x hx
    obtain ⟨b, hb⟩ := mult y hy
    have hs : x + y = ((a + b : ℤ) : ℝ) * 2 ^ (-1074 : ℤ) := by rw [ha, hb]; push_cast; ring
    have hd : IsDyadic64 (x + y) := by
      refine ⟨a + b, -1074, hs, ?_, le_rfl⟩
      rw [not_le, hs, abs_mul, abs_of_pos (two_zpow_pos _)] at h
      have h2 : (2:ℝ) ^ (-1022 : ℤ) = 2 ^ (52 : ℤ) * 2 ^ (-1074 : ℤ) := by
        rw [← zpow_add₀ (by norm_num : (2:ℝ) ≠ 0)]; norm_num
      rw [h2] at h
      have h3 := lt_of_mul_lt_mul_right h (two_zpow_pos _).le
      have h4 : ((|a + b| : ℤ) : ℝ) < ((2 ^ 52 : ℤ) : ℝ) := by
        rw [Int.cast_abs]
        refine h3.trans_le (le_of_eq ?_)
        norm_num
      have h5 : |a + b| < 2 ^ 52 := by exact_mod_cast h4
      omega
    rw [round64_dyadic hd, sub_self, abs_zero]
    positivity

theorem maxFloat_pos : 0 < Fl.maxFloat := by
  unfold Fl.maxFloat
  have : (2:ℝ) ^ (-52 : ℤ) < 2 := by norm_num
  have : (0:ℝ) < 2 - 2 ^ (-52 : ℤ) := by linarith
  positivity

theorem float64_fin {x : ℝ} (h : |round64 x| ≤ Fl.maxFloat) : float64 x = .fin (round64 x) := by
  obtain ⟨h1, h2⟩ := abs_le.mp h
  unfold float64
  rw [if_neg (not_lt.mpr h2), if_neg (not_lt.mpr h1)]

/-- integers of at most 53 bits are represented exactly -/
theorem float64_int (n : ℤ) (h : |n| ≤ 2 ^ 53) : float64 n = .fin n := by
  have hd : IsDyadic64 (n : ℝ) := ⟨n, 0, by simp, h, by norm_num⟩
  have hr := round64_dyadic hd
  rw [float64_fin, hr]
  rw [hr]
  have h1 : ((|n| : ℤ) : ℝ) ≤ ((2 ^ 53 : ℤ) : ℝ) := by exact_mod_cast h
  rw [Int.cast_abs] at h1
  refine h1.trans ?_
  unfold Fl.maxFloat
  have h2 : (1:ℝ) ≤ 2 - 2 ^ (-52 : ℤ) := by norm_num
  have h3 : ((2 ^ 53 : ℤ) : ℝ) ≤ (2:ℝ) ^ (1023:ℕ) := by
    have e : ((2 ^ 53 : ℤ) : ℝ) = (2:ℝ) ^ (53:ℕ) := by norm_num
    rw [e]
    exact pow_le_pow_right₀ (by norm_num : (1:ℝ) ≤ 2) (by norm_num : 53 ≤ 1023)
  have h4 : (0:ℝ) ≤ 2 ^ (1023:ℕ) := by positivity
  generalize (2:ℝ) ^ (1023:ℕ) = B at *
  generalize (2:ℝ) - 2 ^ (-52 : ℤ) = c at *
  nlinarith

theorem exp64_eq {x : ℝ} {k : ℤ} (h1 : (2:ℝ) ^ k ≤ |x|) (h2 : |x| < 2 ^ (k + 1)) (hk : -1022 ≤ k) : exp64 x = k := by
  have hx : x ≠ 0 := by
    rintro rfl
    simp only [abs_zero] at h1
    exact absurd h1 (not_le.mpr (two_zpow_pos _))
  have h3 := abs_lt_exp x
  have h4 : k < exp64 x + 1 := (zpow_lt_zpow_iff_right₀ (by norm_num : (1:ℝ) < 2)).mp (h1.trans_lt h3)
  by_cases he : exp64 x = -1022
  · omega
  · have h5 := exp_le_abs x he hx
    have h6 : exp64 x < k + 1 := (zpow_lt_zpow_iff_right₀ (by norm_num : (1:ℝ) < 2)).mp (h5.trans_lt h2)
    omega

/-- the first integer that is not a double -/
theorem float64_tie : float64 (2 ^ 53 + 1) = .fin (2 ^ 53) := by
  have he : exp64 (2 ^ 53 + 1) = 53 := by
    apply exp64_eq
    · rw [abs_of_pos (by positivity)]; norm_num
    · rw [abs_of_pos (by positivity)]; norm_num
    · norm_num
  have hr : round64 (2 ^ 53 + 1) = 2 ^ 53 := by
    unfold round64
    rw [he]
    have hd : ((2 ^ 53 + 1 : ℝ) / 2 ^ ((53:ℤ) - 52)) = ((2 ^ 52 : ℤ) : ℝ) + 1 / 2 := by norm_num
    have hf : ⌊((2 ^ 52 : ℤ) : ℝ) + 1 / 2⌋ = 2 ^ 52 := by
      rw [Int.floor_intCast_add]
      norm_num
    rw [hd]
    unfold Fl.rintR
    rw [hf, if_neg (by norm_num), if_neg (by norm_num), if_pos (by decide)]
    norm_num
  rw [float64_fin, hr]
  rw [hr]
  have := float64_int (2 ^ 53) (by norm_num)
  rw [abs_of_pos (by positivity)]
  unfold Fl.maxFloat
  have h2 : (1:ℝ) ≤ 2 - 2 ^ (-52 : ℤ) := by norm_num
  have h3 : (2:ℝ) ^ 53 ≤ (2:ℝ) ^ (1023:ℕ) := pow_le_pow_right₀ (by norm_num : (1:ℝ) ≤ 2) (by norm_num : 53 ≤ 1023)
  have h4 : (0:ℝ) ≤ 2 ^ (1023:ℕ) := by positivity
  generalize (2:ℝ) ^ (1023:ℕ) = B at *
  generalize (2:ℝ) - 2 ^ (-52 : ℤ) = c at *
  nlinarith

end

end TF.Props
