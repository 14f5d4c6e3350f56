import Verif.Lemmas.Near
import Mathlib.Analysis.SpecialFunctions.Log.Basic

set_option linter.unusedSimpArgs false

/-!
# Absolute error bounds for signed sums, dot products and `xlogyx`
-/

namespace TF.Spec

open TF

/-- a library function for `log1p` whose relative error is at most `κ u` on nonnegative floating-point numbers -/
def LogAccurate (ρ : ℝ → Fl) (u κ : ℝ) (lg : Fl → Fl) : Prop :=
  ∀ z, 0 ≤ z → Representable ρ z → ∃ r, lg (.fin z) = .fin r ∧ |r - Real.log (1 + z)| ≤ κ * u * Real.log (1 + z)

end TF.Spec

namespace TF.Props

open Classical Spec

noncomputable section

variable {ρ : ℝ → Fl} {u lo hi : ℝ}

theorem growth {k : ℕ} (hu0 : 0 ≤ u) (hu : u ≤ 1 / 8) (hk : 2 * k * u ≤ 1) : (1 + u) ^ k - 1 ≤ 2 * k * u := by
  have h1 := half_pow hu hk
  have bern : 1 - k * u ≤ (1 - u) ^ k := by
    have := one_add_mul_le_pow (show (-2:ℝ) ≤ -u by linarith) k
    have e : 1 + (-u) = 1 - u := by ring
    rw [e] at this
    linarith
  have h2 : (1 + u) ^ k * (1 - u) ^ k ≤ 1 := by
    rw [← mul_pow]
    exact pow_le_one₀ (by nlinarith) (by nlinarith)
  have h3 : 0 ≤ (1 + u) ^ k := by positivity
  have h4 : (1 + u) ^ k * (1 - k * u) ≤ 1 := (mul_le_mul_of_nonneg_left bern h3).trans h2
  have h5 : 0 ≤ k * u := by positivity
  by_contra hc
  have hc : 1 + 2 * k * u < (1 + u) ^ k := by linarith
  have h6 : (1 + 2 * (k * u)) * (1 - k * u) < (1 + u) ^ k * (1 - k * u) := by
    apply mul_lt_mul_of_pos_right _ (by linarith)
    linarith
  nlinarith

/-- a finite floating-point number -/
def FinR (ρ : ℝ → Fl) (x : Fl) : Prop := ∃ r, x = .fin r ∧ Representable ρ r

/-- the step of adding two partial results -/
theorem add_step_err (A : Accurate ρ u lo hi) {m : ℕ} {s t S T B C : ℝ} (hs : |s - S| ≤ ((1 + u) ^ m - 1) * B)
    (ht : |t - T| ≤ ((1 + u) ^ m - 1) * C) (hS : |S| ≤ B) (hT : |T| ≤ C)
    (rs : Representable ρ s) (rt : Representable ρ t) (hm1 : 2 * ((m : ℕ) : ℝ) * u ≤ 1) (hh : 2 * (B + C) ≤ hi) :
    ∃ r, ρ (s + t) = .fin r ∧ Representable ρ r ∧ |r - (S + T)| ≤ ((1 + u) ^ (m + 1) - 1) * (B + C) := by
  have hu0 := A.u0
  have hu1 := A.u1
  have g := growth hu0 hu1 hm1
  have B0 := (abs_nonneg S).trans hS
  have C0 := (abs_nonneg T).trans hT
  have h1 : |(s + t) - (S + T)| ≤ ((1 + u) ^ m - 1) * (B + C) := by
    rw [show s + t - (S + T) = (s - S) + (t - T) by ring, mul_add]
    exact (abs_add_le _ _).trans (add_le_add hs ht)
  have h2 : |S + T| ≤ B + C := (abs_add_le _ _).trans (add_le_add hS hT)
  have h3 : |s + t| ≤ (1 + u) ^ m * (B + C) := by
    have : |s + t| ≤ |(s + t) - (S + T)| + |S + T| := by
      have := abs_add_le ((s + t) - (S + T)) (S + T)
      rwa [sub_add_cancel] at this
    nlinarith
  have h4 : |s + t| ≤ hi := by nlinarith
  obtain ⟨r, e, he⟩ := A.add s t rs rt h4
  refine ⟨r, e, A.idem _ _ e, ?_⟩
  have h5 : |r - (S + T)| ≤ |r - (s + t)| + |(s + t) - (S + T)| := abs_sub_le _ _ _
  have h6 : u * |s + t| ≤ u * ((1 + u) ^ m * (B + C)) := mul_le_mul_of_nonneg_left h3 hu0
  rw [pow_succ]
  nlinarith

theorem grow_mono {k m : ℕ} {B : ℝ} (hu0 : 0 ≤ u) (hB : 0 ≤ B) (h : k ≤ m) {x : ℝ} (hx : x ≤ ((1 + u) ^ k - 1) * B) :
    x ≤ ((1 + u) ^ m - 1) * B := by
  have : (1 + u) ^ k ≤ (1 + u) ^ m := pow_le_pow_right₀ (by linarith) h
  exact hx.trans (mul_le_mul_of_nonneg_right (by linarith) hB)

theorem abs_sumR_le (l : Vec) : |(l.map Fl.toReal).sum| ≤ (l.map fun x => |x.toReal|).sum := by
  induction l with
  | nil => simp
  | cons x l ih =>
    simp only [List.map_cons, List.sum_cons]
    exact (abs_add_le _ _).trans (add_le_add le_rfl ih)

theorem abs_sumR_nonneg (l : Vec) : 0 ≤ (l.map fun x => |x.toReal|).sum := (abs_nonneg _).trans (abs_sumR_le l)

/-- **summation.** Adding floating-point numbers of any sign in any order and bracketing -/
theorem sum_err (A : Accurate ρ u lo hi) {l : Vec} {v : Fl} (h : SumR ρ l v) (hl : ∀ x ∈ l, FinR ρ x) (hlen : 2 * (l.length : ℝ) * u ≤ 1)
    (hhi : 2 * (l.map fun x => |x.toReal|).sum ≤ hi) :
    ∃ s, v = .fin s ∧ Representable ρ s ∧
      |s - (l.map Fl.toReal).sum| ≤ ((1 + u) ^ (l.length - 1) - 1) * (l.map fun x => |x.toReal|).sum := by
  induction h with
  | nil => exact ⟨0, rfl, A.zero, by simp⟩
  | one x =>
    obtain ⟨r, rfl, hr⟩ := hl x (by simp)
    exact ⟨r, rfl, hr, by simp [Fl.toReal]⟩
  | @add l l' a b hla hlb iha ihb =>
    have hl1 : ∀ x ∈ l, FinR ρ x := fun x hx => hl x (by simp [hx])
    have hl2 : ∀ x ∈ l', FinR ρ x := fun x hx => hl x (by simp [hx])
    have n1 := abs_sumR_nonneg l
    have n2 := abs_sumR_nonneg l'
    simp only [List.length_append, List.map_append, List.sum_append, Nat.cast_add] at hlen hhi ⊢
    have c1 : (0:ℝ) ≤ (l.length : ℝ) * u := mul_nonneg (Nat.cast_nonneg _) A.u0
    have c2 : (0:ℝ) ≤ (l'.length : ℝ) * u := mul_nonneg (Nat.cast_nonneg _) A.u0
    obtain ⟨s, rfl, rs, hs⟩ := iha hl1 (by linarith) (by linarith)
    obtain ⟨t, rfl, rt, ht⟩ := ihb hl2 (by linarith) (by linarith)
    rw [Fl.fin_add, rd_fin]
    by_cases e1 : l = []
    · subst e1
      simp only [List.map_nil, List.sum_nil, List.length_nil, sub_zero, mul_zero] at hs
      have := abs_nonpos_iff.mp hs
      subst this
      rw [zero_add]
      exact ⟨t, rt, rt, by simpa using ht⟩
    by_cases e2 : l' = []
    · subst e2
      simp only [List.map_nil, List.sum_nil, List.length_nil, sub_zero, mul_zero] at ht
      have := abs_nonpos_iff.mp ht
      subst this
      rw [add_zero]
      exact ⟨s, rs, rs, by simpa using hs⟩
    have p1 := List.length_pos_iff.mpr e1
    have p2 := List.length_pos_iff.mpr e2
    have em : l.length + l'.length - 1 = (l.length + l'.length - 2) + 1 := by omega
    rw [em]
    refine add_step_err A (grow_mono A.u0 n1 (by omega) hs) (grow_mono A.u0 n2 (by omega) ht) (abs_sumR_le l) (abs_sumR_le l') rs rt ?_ hhi
    have : ((l.length + l'.length - 2 : ℕ) : ℝ) ≤ (l.length : ℝ) + l'.length := by
      rw [← Nat.cast_add]; exact_mod_cast (by omega)
    nlinarith [A.u0]
  | @perm l l' a hla hp ih =>
    have hp1 := hp.map Fl.toReal
    have hp2 := hp.map fun x => |x.toReal|
    rw [← hp.length_eq] at hlen ⊢
    rw [← hp2.sum_eq] at hhi ⊢
    rw [← hp1.sum_eq]
    exact ih (fun x hx => hl x (hp.mem_iff.mp hx)) hlen hhi

/-- the size of a term of a dot product, with a floor for underflow -/
def sizeR (lo : ℝ) (p : Fl × Fl) : ℝ := |prodR p| + lo

theorem size_sum_le (h0 : 0 ≤ lo) (l : List (Fl × Fl)) : |(l.map prodR).sum| ≤ (l.map (sizeR lo)).sum := by
  induction l with
  | nil => simp
  | cons x l ih =>
    simp only [List.map_cons, List.sum_cons]
    refine (abs_add_le _ _).trans (add_le_add ?_ ih)
    unfold sizeR; linarith

/-- a pair of finite numbers -/
def FinPair (p : Fl × Fl) : Prop := ∃ a b, p = (.fin a, .fin b)

/-- **dot product** of vectors of any sign, in any order, with or without fused multiply-add -/
theorem dot_err (A : Accurate ρ u lo hi) {l : List (Fl × Fl)} {v : Fl} (h : DotR ρ l v) (hl : ∀ x ∈ l, FinPair x)
    (hlen : 2 * (l.length : ℝ) * u ≤ 1) (hhi : 2 * (l.map (sizeR lo)).sum ≤ hi) :
    ∃ s, v = .fin s ∧ Representable ρ s ∧ |s - (l.map prodR).sum| ≤ ((1 + u) ^ l.length - 1) * (l.map (sizeR lo)).sum := by
  have hu0 := A.u0
  have hu1 := A.u1
  induction h with
  | nil => exact ⟨0, rfl, A.zero, by simp⟩
  | one x y =>
    obtain ⟨a, b, e⟩ := hl (x, y) (by simp)
    obtain ⟨rfl, rfl⟩ := Prod.mk.inj e
    simp only [List.map_cons, List.map_nil, List.sum_cons, List.sum_nil, add_zero, prodR, sizeR, Fl.toReal, List.length_singleton,
      pow_one] at hhi ⊢
    rw [Fl.fin_mul, rd_fin]
    obtain ⟨r, e, he⟩ := A.rel (a * b) (by linarith [abs_nonneg (a * b), A.lo0])
    refine ⟨r, e, A.idem _ _ e, he.trans ?_⟩
    have : max |a * b| lo ≤ |a * b| + lo := max_le (by linarith [A.lo0]) (by linarith [abs_nonneg (a * b)])
    nlinarith
  | @add l l' a b hla hlb iha ihb =>
    have hl1 : ∀ x ∈ l, FinPair x := fun x hx => hl x (by simp [hx])
    have hl2 : ∀ x ∈ l', FinPair x := fun x hx => hl x (by simp [hx])
    have n1 := (abs_nonneg _).trans (size_sum_le A.lo0 l)
    have n2 := (abs_nonneg _).trans (size_sum_le A.lo0 l')
    simp only [List.length_append, List.map_append, List.sum_append, Nat.cast_add] at hlen hhi ⊢
    have c1 : (0:ℝ) ≤ (l.length : ℝ) * u := mul_nonneg (Nat.cast_nonneg _) A.u0
    have c2 : (0:ℝ) ≤ (l'.length : ℝ) * u := mul_nonneg (Nat.cast_nonneg _) A.u0
    obtain ⟨s, rfl, rs, hs⟩ := iha hl1 (by linarith) (by linarith)
    obtain ⟨t, rfl, rt, ht⟩ := ihb hl2 (by linarith) (by linarith)
    rw [Fl.fin_add, rd_fin]
    by_cases e1 : l = []
    · subst e1
      simp only [List.map_nil, List.sum_nil, List.length_nil, sub_zero, mul_zero] at hs
      have := abs_nonpos_iff.mp hs
      subst this
      rw [zero_add]
      exact ⟨t, rt, rt, by simpa using ht⟩
    by_cases e2 : l' = []
    · subst e2
      simp only [List.map_nil, List.sum_nil, List.length_nil, sub_zero, mul_zero] at ht
      have := abs_nonpos_iff.mp ht
      subst this
      rw [add_zero]
      exact ⟨s, rs, rs, by simpa using hs⟩
    have p1 := List.length_pos_iff.mpr e1
    have p2 := List.length_pos_iff.mpr e2
    have em : l.length + l'.length = (l.length + l'.length - 1) + 1 := by omega
    rw [em]
    refine add_step_err A (grow_mono A.u0 n1 (by omega) hs) (grow_mono A.u0 n2 (by omega) ht) (size_sum_le A.lo0 l)
      (size_sum_le A.lo0 l') rs rt ?_ hhi
    have : ((l.length + l'.length - 1 : ℕ) : ℝ) ≤ (l.length : ℝ) + l'.length := by
      rw [← Nat.cast_add]; exact_mod_cast (by omega)
    nlinarith [A.u0]
  | @fma l s x y hls ih =>
    have hl1 : ∀ x ∈ l, FinPair x := fun x hx => hl x (by simp [hx])
    have hSle := size_sum_le A.lo0 l
    have n1 := (abs_nonneg _).trans hSle
    obtain ⟨a, b, e⟩ := hl (x, y) (by simp)
    obtain ⟨rfl, rfl⟩ := Prod.mk.inj e
    rw [List.length_cons] at hlen ⊢
    rw [List.map_cons, List.map_cons, List.sum_cons, List.sum_cons]
    rw [List.map_cons, List.sum_cons] at hhi
    push_cast at hlen
    have e1 : prodR (Fl.fin a, Fl.fin b) = a * b := rfl
    have e2 : sizeR lo (Fl.fin a, Fl.fin b) = |a * b| + lo := rfl
    rw [e2] at hhi ⊢
    rw [e1]
    have hlo := A.lo0
    have hab := abs_nonneg (a * b)
    obtain ⟨s, rfl, rs, hs⟩ := ih hl1 (by linarith) (by linarith)
    have hlen' : 2 * (l.length : ℝ) * u ≤ 1 := by linarith
    have g := growth hu0 hu1 hlen'
    set S := (l.map prodR).sum
    set B := (l.map (sizeR lo)).sum
    rw [Fl.fin_mul, Fl.fin_add, rd_fin]
    have hsB : |s| ≤ (1 + u) ^ l.length * B := by
      have : |s| ≤ |s - S| + |S| := by
        have := abs_add_le (s - S) S
        rwa [sub_add_cancel] at this
      nlinarith
    have hx : |a * b + s| ≤ |a * b| + (1 + u) ^ l.length * B := (abs_add_le _ _).trans (add_le_add le_rfl hsB)
    have g1 : (1:ℝ) ≤ (1 + u) ^ l.length := one_le_pow₀ (by linarith)
    obtain ⟨r, e, he⟩ := A.rel (a * b + s) (by nlinarith)
    refine ⟨r, e, A.idem _ _ e, ?_⟩
    have hmax : max |a * b + s| lo ≤ (|a * b| + lo) + (1 + u) ^ l.length * B := max_le (by linarith) (by nlinarith)
    have h5 : |r - (a * b + S)| ≤ |r - (a * b + s)| + |s - S| := by
      have := abs_sub_le r (a * b + s) (a * b + S)
      rwa [show a * b + s - (a * b + S) = s - S by ring] at this
    have h6 := mul_le_mul_of_nonneg_left hmax hu0
    rw [pow_succ]
    have h7 : u * (|a * b| + lo) ≤ ((1 + u) ^ l.length * (1 + u) - 1) * (|a * b| + lo) :=
      mul_le_mul_of_nonneg_right (by nlinarith) (by linarith)
    nlinarith
  | @perm l l' a hla hp ih =>
    have hp1 := hp.map prodR
    have hp2 := hp.map (sizeR lo)
    rw [← hp.length_eq] at hlen ⊢
    rw [← hp2.sum_eq] at hhi ⊢
    rw [← hp1.sum_eq]
    exact ih (fun x hx => hl x (hp.mem_iff.mp hx)) hlen hhi

/-! ### xlogyx -/

theorem log_ratio {z q : ℝ} (hu0 : 0 ≤ u) (hu1 : u ≤ 1 / 8) (h0 : 0 ≤ lo) (h1 : lo ≤ 1 / 4) (hz : 0 ≤ z) (hq : 0 ≤ q)
    (h : |q - z| ≤ u * (3 * z + lo)) : |Real.log (1 + q) - Real.log (1 + z)| ≤ 6 * u * Real.log (1 + z) + 2 * u * lo := by
  have hz1 : 0 < 1 + z := by linarith
  have hq1 : 0 < 1 + q := by linarith
  obtain ⟨ha, hb⟩ := abs_le.mp h
  -- z/(1+z) ≤ log(1+z)
  have hzl : z / (1 + z) ≤ Real.log (1 + z) := by
    have := Real.one_sub_inv_le_log_of_pos hz1
    have e : 1 - (1 + z)⁻¹ = z / (1 + z) := by field_simp; ring
    rwa [e] at this
  have hl : lo / (1 + z) ≤ lo := div_le_self h0 (by linarith)
  have key : 2 * (u * (3 * z + lo)) / (1 + z) ≤ 6 * u * Real.log (1 + z) + 2 * u * lo := by
    have e : 2 * (u * (3 * z + lo)) / (1 + z) = 6 * u * (z / (1 + z)) + 2 * u * (lo / (1 + z)) := by field_simp; ring
    rw [e]
    exact add_le_add (mul_le_mul_of_nonneg_left hzl (by linarith)) (mul_le_mul_of_nonneg_left hl (by linarith))
  have hN : 0 ≤ u * (3 * z + lo) := mul_nonneg hu0 (by linarith)
  rcases le_total z q with hzq | hzq
  · have hlog : Real.log (1 + z) ≤ Real.log (1 + q) := Real.log_le_log hz1 (by linarith)
    rw [abs_of_nonneg (by linarith), ← Real.log_div hq1.ne' hz1.ne']
    refine le_trans (Real.log_le_sub_one_of_pos (by positivity)) (le_trans ?_ key)
    rw [show (1 + q) / (1 + z) - 1 = (q - z) / (1 + z) by field_simp; ring]
    exact div_le_div_of_nonneg_right (by linarith) hz1.le
  · have hlog : Real.log (1 + q) ≤ Real.log (1 + z) := Real.log_le_log hq1 (by linarith)
    rw [abs_sub_comm, abs_of_nonneg (by linarith), ← Real.log_div hz1.ne' hq1.ne']
    refine le_trans (Real.log_le_sub_one_of_pos (by positivity)) (le_trans ?_ key)
    rw [show (1 + z) / (1 + q) - 1 = (z - q) / (1 + q) by field_simp; ring, div_le_div_iff₀ hq1 hz1]
    have h2 : (1 + z) / 2 ≤ 1 + q := by nlinarith
    nlinarith

/-- the common part of both branches of `xlogyx`: `m log1p (d / p)` -/
theorem branch_err (A : Accurate ρ u lo hi) {κ : ℝ} (hκ : 0 ≤ κ) (hκu : (2 * κ + 8) * u ≤ 1) {lg : Fl → Fl} (hlg : LogAccurate ρ u κ lg)
    {a b m x : ℝ} (ra : Representable ρ a) (rb : Representable ρ b) (hab : b ≤ a) {p : ℝ} (hp : 0 < p) (hm : |m| = x) (hx : lo ≤ x)
    (hd : a - b ≤ hi) (hq : 2 * ((a - b) / p) ≤ hi) (hr : 2 * (x * Real.log (1 + (a - b) / p)) + 2 * x ≤ hi) :
    ∃ r, (Fl.fin m * lg (((Fl.fin a - Fl.fin b).rd ρ / Fl.fin p).rd ρ)).rd ρ = .fin r ∧ Representable ρ r ∧
      |r - m * Real.log (1 + (a - b) / p)| ≤ (2 * κ + 8) * u * (x * Real.log (1 + (a - b) / p)) + (κ + 4) * u * x := by
  have hu0 := A.u0
  have hu1 := A.u1
  have hlo0 := A.lo0
  have hlo1 := A.lo1
  have hd0 : 0 ≤ a - b := by linarith
  have hx0 : 0 ≤ x := by rw [← hm]; exact abs_nonneg _
  obtain ⟨d, ed, hde⟩ := A.add a (-b) ra (A.neg _ rb) (by rw [← sub_eq_add_neg, abs_of_nonneg hd0]; exact hd)
  rw [← sub_eq_add_neg] at ed hde
  rw [abs_of_nonneg hd0] at hde
  obtain ⟨hde1, hde2⟩ := abs_le.mp hde
  have hdn : 0 ≤ d := A.sign _ _ hd0 ed
  set z := (a - b) / p with hz
  have hz0 : 0 ≤ z := div_nonneg hd0 hp.le
  have hdz : |d / p - z| ≤ u * z := by
    rw [hz, ← sub_div, abs_div, abs_of_pos hp, ← mul_div_assoc]
    exact div_le_div_of_nonneg_right hde hp.le
  obtain ⟨hdz1, hdz2⟩ := abs_le.mp hdz
  have hdp0 : 0 ≤ d / p := div_nonneg hdn hp.le
  have huz : u * z ≤ z := by nlinarith
  obtain ⟨q, eq, hqe⟩ := A.rel (d / p) (by rw [abs_of_nonneg hdp0]; linarith)
  have hqn : 0 ≤ q := A.sign _ _ hdp0 eq
  rw [abs_of_nonneg hdp0] at hqe
  have hqz : |q - z| ≤ u * (3 * z + lo) := by
    have h1 : |q - z| ≤ |q - d / p| + |d / p - z| := abs_sub_le _ _ _
    have h2 : max (d / p) lo ≤ 2 * z + lo := max_le (by linarith) (by linarith)
    have h3 := mul_le_mul_of_nonneg_left h2 hu0
    linarith
  have hL := log_ratio hu0 hu1 hlo0 hlo1 hz0 hqn hqz
  set ℓ := Real.log (1 + z) with hℓ
  have hℓ0 : 0 ≤ ℓ := Real.log_nonneg (by linarith)
  obtain ⟨t, et, hte⟩ := hlg q hqn (A.idem _ _ eq)
  have hLq : Real.log (1 + q) ≤ 2 * ℓ + lo := by
    have := (abs_le.mp hL).2
    have h1 : 6 * u * ℓ ≤ ℓ := by nlinarith
    have h2 : 2 * u * lo ≤ lo := by nlinarith
    linarith
  have hκu' : 0 ≤ κ * u := mul_nonneg hκ hu0
  have htl : |t - ℓ| ≤ (2 * κ + 6) * u * ℓ + (κ + 2) * u * lo := by
    have h1 : |t - ℓ| ≤ |t - Real.log (1 + q)| + |Real.log (1 + q) - ℓ| := abs_sub_le _ _ _
    have h2 := mul_le_mul_of_nonneg_left hLq hκu'
    linarith
  have hxt : |m * t - m * ℓ| ≤ (2 * κ + 6) * u * (x * ℓ) + (κ + 2) * u * lo * x := by
    rw [← mul_sub, abs_mul, hm]
    have := mul_le_mul_of_nonneg_left htl hx0
    linarith
  have hxl : 0 ≤ x * ℓ := mul_nonneg hx0 hℓ0
  have hlx : lo * x ≤ x / 4 := by nlinarith
  have hlx0 : 0 ≤ lo * x := mul_nonneg hlo0 hx0
  have hmt : |m * t| ≤ 2 * (x * ℓ) + lo * x := by
    have h1 : |m * t| ≤ |m * t - m * ℓ| + |m * ℓ| := by
      have := abs_add_le (m * t - m * ℓ) (m * ℓ)
      rwa [sub_add_cancel] at this
    have h2 : |m * ℓ| = x * ℓ := by rw [abs_mul, hm, abs_of_nonneg hℓ0]
    have h3 : (2 * κ + 6) * u * (x * ℓ) ≤ 1 * (x * ℓ) := mul_le_mul_of_nonneg_right (by linarith) hxl
    have h4 : (κ + 2) * u * (lo * x) ≤ 1 * (lo * x) := mul_le_mul_of_nonneg_right (by linarith) hlx0
    linarith
  obtain ⟨r, er, hre⟩ := A.rel (m * t) (by linarith)
  refine ⟨r, ?_, A.idem _ _ er, ?_⟩
  · rw [Fl.fin_sub, rd_fin, ed, Fl.fin_div _ _ hp.ne', rd_fin, eq, et, Fl.fin_mul, rd_fin, er]
  · have h1 : |r - m * ℓ| ≤ |r - m * t| + |m * t - m * ℓ| := abs_sub_le _ _ _
    have h2 : max |m * t| lo ≤ 2 * (x * ℓ) + lo * x + x := max_le (by linarith) (by linarith)
    have h3 := mul_le_mul_of_nonneg_left h2 hu0
    have h4 : (κ + 2) * u * (lo * x) ≤ (κ + 2) * u * (x / 4) := mul_le_mul_of_nonneg_left hlx (mul_nonneg (by linarith) hu0)
    have h5 : u * (lo * x) ≤ u * (x / 4) := mul_le_mul_of_nonneg_left hlx hu0
    have h6 : 0 ≤ u * x := mul_nonneg hu0 hx0
    have h7 : 0 ≤ κ * (u * x) := mul_nonneg hκ h6
    linarith

/-- **xlogyx.** relative error `(2κ+8) u` plus `(κ+4) u x` -/
theorem xlogyx_err (A : Accurate ρ u lo hi) {κ : ℝ} (hκ : 0 ≤ κ) (hκu : (2 * κ + 8) * u ≤ 1) {lg : Fl → Fl} (hlg : LogAccurate ρ u κ lg)
    {x y : ℝ} (rx : Representable ρ x) (ry : Representable ρ y) (hx : (1e-100 : ℝ) ≤ x) (hxlo : lo ≤ x) (hy : 0 < y)
    (h1 : x ≤ hi) (h2 : y ≤ hi) (h3 : 2 * (x / y) ≤ hi) (h4 : 2 * (y / x) ≤ hi) (h5 : 2 * |x * Real.log (y / x)| + 2 * x ≤ hi) :
    ∃ r, xlogyxR ρ lg (.fin x) (.fin y) = .fin r ∧ Representable ρ r ∧
      |r - x * Real.log (y / x)| ≤ (2 * κ + 8) * u * |x * Real.log (y / x)| + (κ + 4) * u * x := by
  have hx0 : 0 < x := lt_of_lt_of_le (by norm_num) hx
  unfold xlogyxR
  rw [if_neg (by simp [Fl.isNan]), if_neg (by rw [Fl.lt_fin]; exact not_lt.mpr hx)]
  by_cases hxy : x < y
  · rw [if_pos (by rw [Fl.lt_fin]; exact hxy)]
    have e : 1 + (y - x) / x = y / x := by field_simp; ring
    have hl : 0 ≤ x * Real.log (y / x) := mul_nonneg hx0.le (Real.log_nonneg ((one_le_div hx0).mpr hxy.le))
    rw [abs_of_nonneg hl] at h5 ⊢
    have hyx : (y - x) / x ≤ y / x := div_le_div_of_nonneg_right (by linarith) hx0.le
    have := branch_err A hκ hκu hlg ry rx hxy.le hx0 (abs_of_pos hx0) hxlo (by linarith) (by linarith) (by rw [e]; exact h5)
    rwa [e] at this
  · rw [if_neg (by rw [Fl.lt_fin]; exact hxy)]
    have hyx := not_lt.mp hxy
    have e : 1 + (x - y) / y = x / y := by field_simp; ring
    have e2 : Real.log (x / y) = -Real.log (y / x) := by rw [← Real.log_inv, inv_div]
    have hl : 0 ≤ Real.log (x / y) := Real.log_nonneg ((one_le_div hy).mpr hyx)
    have e3 : |x * Real.log (y / x)| = x * Real.log (x / y) := by
      rw [e2, abs_mul, abs_of_pos hx0]
      congr 1
      rw [e2] at hl
      exact abs_of_nonpos (by linarith)
    rw [e3] at h5 ⊢
    have hyx' : (x - y) / y ≤ x / y := div_le_div_of_nonneg_right (by linarith) hy.le
    have := branch_err A hκ hκu hlg rx ry hyx hy (m := -x) (x := x) (by rw [abs_neg, abs_of_pos hx0]) hxlo (by linarith) (by linarith)
      (by rw [e]; exact h5)
    rw [e, e2] at this
    rw [e2]
    rwa [neg_mul_neg] at this

end

end TF.Props
