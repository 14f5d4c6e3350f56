import Verif.Props.RoundProps2
import Verif.Model.RoundChannel
import Mathlib.Algebra.Order.Ring.Pow

set_option linter.unusedSimpArgs false

/-!
# Relative error calculus
-/

namespace TF.Spec

open TF

/-- what a binary floating-point format with rounding to nearest guarantees: the relative error of an operation is at most `u` for
results of at least `lo` (the smallest normal number) and the absolute one at most `u lo` below; additions have no underflow
error; results up to `hi` (the largest number) do not overflow; the sign of results is right -/
structure Accurate (ρ : ℝ → Fl) (u lo hi : ℝ) : Prop where
  u0 : 0 ≤ u
  u1 : u ≤ 1 / 8
  lo0 : 0 ≤ lo
  lo1 : lo ≤ 1 / 4
  hi1 : 4 ≤ hi
  zero : ρ 0 = .fin 0
  one : ρ 1 = .fin 1
  idem : ∀ x y, ρ x = .fin y → ρ y = .fin y
  neg : ∀ x, ρ x = .fin x → ρ (-x) = .fin (-x)
  sign : ∀ x r, 0 ≤ x → ρ x = .fin r → 0 ≤ r
  rel : ∀ x, |x| ≤ hi → ∃ r, ρ x = .fin r ∧ |r - x| ≤ u * max |x| lo
  add : ∀ x y, ρ x = .fin x → ρ y = .fin y → |x + y| ≤ hi → ∃ r, ρ (x + y) = .fin r ∧ |r - (x + y)| ≤ u * |x + y|

/-- `a` and `b` agree up to `k` rounding errors of relative size `u` -/
def Near (u : ℝ) (k : ℕ) (a b : ℝ) : Prop := (1 - u) ^ k * b ≤ a ∧ (1 - u) ^ k * a ≤ b

end TF.Spec

namespace TF.Props

open Classical Spec

noncomputable section

theorem maxFloat_dyadic : IsDyadic64 Fl.maxFloat := by
  refine ⟨2 ^ 53 - 1, 971, ?_, by norm_num, by norm_num⟩
  unfold Fl.maxFloat
  have e : (2:ℝ) ^ 1023 = 2 ^ 52 * 2 ^ 971 := by rw [← pow_add]
  have e2 : (2:ℝ) ^ (971 : ℤ) = 2 ^ 971 := zpow_ofNat 2 971
  rw [e, e2, ← mul_assoc]
  congr 1
  norm_num

theorem float64_accurate : Accurate float64 (2 ^ (-53 : ℤ)) (2 ^ (-1022 : ℤ)) Fl.maxFloat where
  u0 := by positivity
  u1 := by norm_num
  lo0 := by positivity
  lo1 := by
    rw [show (1 / 4 : ℝ) = 2 ^ (-2 : ℤ) by norm_num]
    exact zpow_le_zpow_right₀ (by norm_num) (by norm_num)
  hi1 := by
    unfold Fl.maxFloat
    have h1 : (2:ℝ) ^ 2 ≤ 2 ^ 1023 := pow_le_pow_right₀ (by norm_num) (by norm_num)
    have h2 : (1:ℝ) ≤ 2 - 2 ^ (-52 : ℤ) := by norm_num
    have h3 : (4:ℝ) = 1 * 2 ^ 2 := by norm_num
    rw [h3]
    exact mul_le_mul h2 h1 (by positivity) (by linarith)
  zero := by simpa using float64_int 0 (by norm_num)
  one := by simpa using float64_int 1 (by norm_num)
  idem := float64_ieee.idem
  neg := by
    intro x hx
    unfold float64 at hx ⊢
    split_ifs at hx with h1 h2
    have e := Fl.fin.inj hx
    rw [round64_neg, if_neg (by linarith), if_neg (by linarith), e]
  sign := by
    intro x r h0 hx
    unfold float64 at hx
    split_ifs at hx with h1 h2
    rw [← Fl.fin.inj hx]
    exact round64_nonneg h0
  rel := by
    intro x hx
    have hM : round64 Fl.maxFloat = Fl.maxFloat := round64_dyadic maxFloat_dyadic
    have h : |round64 x| ≤ Fl.maxFloat := by
      rw [abs_le] at hx ⊢
      refine ⟨?_, ?_⟩
      · have := round64_mono hx.1
        rwa [round64_neg, hM] at this
      · have := round64_mono hx.2
        rwa [hM] at this
    refine ⟨_, float64_fin h, ?_⟩
    by_cases h0 : x = 0
    · subst h0
      rw [round64_zero]
      simp
    by_cases hn : (2:ℝ) ^ (-1022 : ℤ) ≤ |x|
    · exact (round64_rel (.inr hn)).trans (mul_le_mul_of_nonneg_left (le_max_left _ _) (by positivity))
    · refine (round64_err x).trans ?_
      have he : exp64 x = -1022 := by
        by_contra h'
        have := exp_le_abs x h' h0
        have h2 : (2:ℝ) ^ (-1022 : ℤ) ≤ 2 ^ exp64 x := zpow_le_zpow_right₀ (by norm_num) (exp64_ge x)
        exact hn (h2.trans this)
      rw [he, show (-1022 - 53 : ℤ) = -53 + -1022 by norm_num, zpow_add₀ (by norm_num : (2:ℝ) ≠ 0)]
      exact mul_le_mul_of_nonneg_left (le_max_right _ _) (by positivity)
  add := by
    intro x y hx hy hxy
    have hd : ∀ z, float64 z = .fin z → IsDyadic64 z := by
      intro z hz
      unfold float64 at hz
      split_ifs at hz
      have := Fl.fin.inj hz
      rw [← this]
      exact round64_isDyadic z
    have hM : round64 Fl.maxFloat = Fl.maxFloat := round64_dyadic maxFloat_dyadic
    have h : |round64 (x + y)| ≤ Fl.maxFloat := by
      rw [abs_le] at hxy ⊢
      refine ⟨?_, ?_⟩
      · have := round64_mono hxy.1
        rwa [round64_neg, hM] at this
      · have := round64_mono hxy.2
        rwa [hM] at this
    exact ⟨_, float64_fin h, round64_add (hd x hx) (hd y hy)⟩

/-! ### Near -/

variable {u : ℝ}

theorem _root_.TF.Spec.Near.symm {k : ℕ} {a b : ℝ} (h : Near u k a b) : Near u k b a := ⟨h.2, h.1⟩

theorem near_refl (a : ℝ) : Near u 0 a a := by constructor <;> simp

theorem _root_.TF.Spec.Near.nonneg {k : ℕ} {a b : ℝ} (hu : u ≤ 1 / 8) (h : Near u k a b) (hb : 0 ≤ b) : 0 ≤ a :=
  (mul_nonneg (pow_nonneg (by linarith) _) hb).trans h.1

theorem _root_.TF.Spec.Near.pos {k : ℕ} {a b : ℝ} (hu : u ≤ 1 / 8) (h : Near u k a b) (hb : 0 < b) : 0 < a :=
  (mul_pos (pow_pos (by linarith) _) hb).trans_le h.1

theorem _root_.TF.Spec.Near.mono {k l : ℕ} {a b : ℝ} (hu0 : 0 ≤ u) (hu : u ≤ 1 / 8) (h : Near u k a b) (hb : 0 ≤ b) (hkl : k ≤ l) : Near u l a b := by
  have ha := h.nonneg hu hb
  have : (1 - u) ^ l ≤ (1 - u) ^ k := pow_le_pow_of_le_one (by linarith) (by linarith) hkl
  exact ⟨(mul_le_mul_of_nonneg_right this hb).trans h.1, (mul_le_mul_of_nonneg_right this ha).trans h.2⟩

theorem _root_.TF.Spec.Near.trans {k l : ℕ} {a b c : ℝ} (hu : u ≤ 1 / 8) (h : Near u k a b) (h' : Near u l b c) : Near u (k + l) a c := by
  have p : ∀ k : ℕ, 0 ≤ (1 - u) ^ k := fun k => pow_nonneg (by linarith) _
  constructor
  · rw [pow_add, mul_assoc]
    exact (mul_le_mul_of_nonneg_left h'.1 (p k)).trans h.1
  · rw [pow_add, mul_comm ((1 - u) ^ k), mul_assoc]
    exact (mul_le_mul_of_nonneg_left h.2 (p l)).trans h'.2

theorem _root_.TF.Spec.Near.mul {k l : ℕ} {a b c d : ℝ} (hu : u ≤ 1 / 8) (h : Near u k a b) (h' : Near u l c d) (hb : 0 ≤ b) (hd : 0 ≤ d) :
    Near u (k + l) (a * c) (b * d) := by
  have p : ∀ k : ℕ, 0 ≤ (1 - u) ^ k := fun k => pow_nonneg (by linarith) _
  have ha := h.nonneg hu hb
  have hc := h'.nonneg hu hd
  constructor
  · rw [pow_add, mul_mul_mul_comm]
    exact mul_le_mul h.1 h'.1 (mul_nonneg (p l) hd) ha
  · rw [pow_add, mul_mul_mul_comm]
    exact mul_le_mul h.2 h'.2 (mul_nonneg (p l) hc) hb

theorem _root_.TF.Spec.Near.inv {k : ℕ} {a b : ℝ} (hu : u ≤ 1 / 8) (h : Near u k a b) (hb : 0 < b) : Near u k a⁻¹ b⁻¹ := by
  have ha := h.pos hu hb
  constructor
  · rw [← div_eq_mul_inv, div_le_iff₀ hb, mul_comm, ← div_eq_mul_inv, le_div_iff₀ ha]
    exact h.2
  · rw [← div_eq_mul_inv, div_le_iff₀ ha, mul_comm, ← div_eq_mul_inv, le_div_iff₀ hb]
    exact h.1

theorem _root_.TF.Spec.Near.div {k l : ℕ} {a b c d : ℝ} (hu : u ≤ 1 / 8) (h : Near u k a b) (h' : Near u l c d) (hb : 0 ≤ b) (hd : 0 < d) :
    Near u (k + l) (a / c) (b / d) := by
  rw [div_eq_mul_inv, div_eq_mul_inv]
  exact h.mul hu (h'.inv hu hd) hb (inv_nonneg.mpr hd.le)

theorem _root_.TF.Spec.Near.add {k : ℕ} {a b c d : ℝ} (h : Near u k a b) (h' : Near u k c d) : Near u k (a + c) (b + d) :=
  ⟨by rw [mul_add]; exact add_le_add h.1 h'.1, by rw [mul_add]; exact add_le_add h.2 h'.2⟩

theorem near_sum {k : ℕ} {n : ℕ} {f g : Fin n → ℝ} (h : ∀ i, Near u k (f i) (g i)) : Near u k (∑ i, f i) (∑ i, g i) := by
  constructor
  · rw [Finset.mul_sum]
    exact Finset.sum_le_sum fun i _ => (h i).1
  · rw [Finset.mul_sum]
    exact Finset.sum_le_sum fun i _ => (h i).2

/-- one rounding -/
theorem near_round {x r : ℝ} (hu0 : 0 ≤ u) (hu : u ≤ 1 / 8) (hx : 0 ≤ x) (h : |r - x| ≤ u * x) : Near u 1 r x := by
  obtain ⟨h1, h2⟩ := abs_le.mp h
  constructor
  · rw [pow_one]; linarith
  · rw [pow_one]
    have : (1 - u) * r ≤ (1 - u) * (x + u * x) := mul_le_mul_of_nonneg_left (by linarith) (by linarith)
    nlinarith [mul_nonneg (mul_nonneg hu0 hu0) hx]

/-- `k` errors of relative size `u` are a relative error of at most `2 k u` -/
theorem _root_.TF.Spec.Near.rel_error {k : ℕ} {a b : ℝ} (hu0 : 0 ≤ u) (hu : u ≤ 1 / 8) (h : Near u k a b) (hb : 0 ≤ b) (hk : 2 * k * u ≤ 1) :
    |a - b| ≤ 2 * k * u * b := by
  have ha := h.nonneg hu hb
  have bern : 1 - k * u ≤ (1 - u) ^ k := by
    have := one_add_mul_le_pow (show (-2:ℝ) ≤ -u by linarith) k
    have e : 1 + (-u) = 1 - u := by ring
    rw [e] at this
    linarith
  have hku : 0 ≤ k * u := by positivity
  rw [abs_le]
  constructor
  · have := (mul_le_mul_of_nonneg_right bern hb).trans h.1
    nlinarith [mul_nonneg hku hb]
  · have h2 := (mul_le_mul_of_nonneg_right bern ha).trans h.2
    have h3 : (1 / 2 : ℝ) ≤ 1 - k * u := by linarith
    have h4 : (1 - k * u) * (a - b) ≤ k * u * b := by nlinarith
    have h5 : 0 ≤ k * u * b := mul_nonneg hku hb
    by_cases hab : a ≤ b
    · nlinarith
    · nlinarith

/-- half of the number survives -/
theorem half_pow {k : ℕ} (hu : u ≤ 1 / 8) (hk : 2 * k * u ≤ 1) : (1 / 2 : ℝ) ≤ (1 - u) ^ k := by
  have := one_add_mul_le_pow (show (-2:ℝ) ≤ -u by linarith) k
  have e : 1 + (-u) = 1 - u := by ring
  rw [e] at this
  linarith

theorem _root_.TF.Spec.Near.half {k : ℕ} {a b : ℝ} (hu : u ≤ 1 / 8) (h : Near u k a b) (hb : 0 ≤ b) (hk : 2 * k * u ≤ 1) :
    b / 2 ≤ a ∧ a ≤ 2 * b := by
  have h2 := half_pow hu hk
  have ha := h.nonneg hu hb
  have := h.1
  have := h.2
  constructor <;> nlinarith

/-! ### operations -/

variable {ρ : ℝ → Fl} {lo hi : ℝ}

variable {ρ : ℝ → Fl} {lo hi : ℝ}

theorem rd_near (A : Accurate ρ u lo hi) {x : ℝ} (hx : 0 ≤ x) (h : x = 0 ∨ lo ≤ x) (hh : x ≤ hi) :
    ∃ r, ρ x = .fin r ∧ Representable ρ r ∧ 0 ≤ r ∧ Near u 1 r x := by
  rcases h with rfl | h
  · exact ⟨0, A.zero, A.zero, le_rfl, by simp, by simp⟩
  · obtain ⟨r, e, he⟩ := A.rel x (by rwa [abs_of_nonneg hx])
    rw [abs_of_nonneg hx, max_eq_left h] at he
    have hn := near_round A.u0 A.u1 hx he
    exact ⟨r, e, A.idem _ _ e, hn.nonneg A.u1 hx, hn⟩

theorem add_near (A : Accurate ρ u lo hi) {x y : ℝ} (hx : 0 ≤ x) (hy : 0 ≤ y) (rx : Representable ρ x) (ry : Representable ρ y)
    (hh : x + y ≤ hi) : ∃ r, ρ (x + y) = .fin r ∧ Representable ρ r ∧ 0 ≤ r ∧ Near u 1 r (x + y) := by
  obtain ⟨r, e, he⟩ := A.add x y rx ry (by rwa [abs_of_nonneg (add_nonneg hx hy)])
  rw [abs_of_nonneg (add_nonneg hx hy)] at he
  have hn := near_round A.u0 A.u1 (add_nonneg hx hy) he
  exact ⟨r, e, A.idem _ _ e, hn.nonneg A.u1 (add_nonneg hx hy), hn⟩

theorem near_zero {k : ℕ} {a : ℝ} (hu : u ≤ 1 / 8) (h : Near u k a 0) : a = 0 := by
  have h1 := h.1
  have h2 := h.2
  have : 0 < (1 - u) ^ k := pow_pos (by linarith) _
  rw [mul_zero] at h1
  have : a ≤ 0 := by
    by_contra hh
    have := mul_pos this (not_le.mp hh)
    linarith
  linarith

/-- a nonnegative floating-point number -/
def NNR (ρ : ℝ → Fl) (x : Fl) : Prop := ∃ r, x = .fin r ∧ 0 ≤ r ∧ Representable ρ r

theorem nnr_sum_nonneg {l : Vec} (h : ∀ x ∈ l, NNR ρ x) : 0 ≤ (l.map Fl.toReal).sum := by
  apply List.sum_nonneg
  intro y hy
  obtain ⟨x, hx, rfl⟩ := List.mem_map.mp hy
  obtain ⟨r, rfl, h0, -⟩ := h x hx
  exact h0

/-- the addition step of a sum or a dot product: `p`, `q` numbers of terms, at least one each -/
theorem add_step (A : Accurate ρ u lo hi) {p q : ℕ} {s t S T : ℝ} (hs : Near u p s S) (ht : Near u q t T) (hS : 0 ≤ S) (hT : 0 ≤ T)
    (rs : Representable ρ s) (rt : Representable ρ t) (m : ℕ) (hm : max p q ≤ m) (hm1 : 2 * ((m + 1 : ℕ) : ℝ) * u ≤ 1) (hh : 2 * (S + T) ≤ hi) :
    ∃ r, ρ (s + t) = .fin r ∧ Representable ρ r ∧ 0 ≤ r ∧ Near u (m + 1) r (S + T) := by
  have hst : Near u m (s + t) (S + T) :=
    (hs.mono A.u0 A.u1 hS (by omega)).add (ht.mono A.u0 A.u1 hT (by omega))
  have hb : s + t ≤ 2 * (S + T) := (hst.half A.u1 (by linarith) (by push_cast at hm1; nlinarith [A.u0])).2
  obtain ⟨r, e, rr, r0, hn⟩ := add_near A (hs.nonneg A.u1 hS) (ht.nonneg A.u1 hT) rs rt (hb.trans hh)
  refine ⟨r, e, rr, r0, ?_⟩
  rw [add_comm m 1]
  exact hn.trans A.u1 hst

/-- **summation.** Adding nonnegative floating-point numbers in any order and bracketing -/
theorem sum_near (A : Accurate ρ u lo hi) {l : Vec} {v : Fl} (h : SumR ρ l v) (hl : ∀ x ∈ l, NNR ρ x) (hlen : 2 * (l.length : ℝ) * u ≤ 1)
    (hhi : 2 * (l.map Fl.toReal).sum ≤ hi) :
    ∃ s, v = .fin s ∧ Representable ρ s ∧ 0 ≤ s ∧ Near u (l.length - 1) s (l.map Fl.toReal).sum := by
  induction h with
  | nil => exact ⟨0, rfl, A.zero, le_rfl, by simpa using near_refl 0⟩
  | one x =>
    obtain ⟨r, rfl, h0, hr⟩ := hl x (by simp)
    exact ⟨r, rfl, hr, h0, by simpa [Fl.toReal] using near_refl r⟩
  | @add l l' a b hla hlb iha ihb =>
    have hl1 : ∀ x ∈ l, NNR ρ x := fun x hx => hl x (by simp [hx])
    have hl2 : ∀ x ∈ l', NNR ρ x := fun x hx => hl x (by simp [hx])
    have n1 := nnr_sum_nonneg hl1
    have n2 := nnr_sum_nonneg hl2
    simp only [List.length_append, List.map_append, List.sum_append, Nat.cast_add] at hlen hhi ⊢
    have c1 : (0:ℝ) ≤ (l.length : ℝ) * u := mul_nonneg (Nat.cast_nonneg _) A.u0
    have c2 : (0:ℝ) ≤ (l'.length : ℝ) * u := mul_nonneg (Nat.cast_nonneg _) A.u0
    obtain ⟨s, rfl, rs, s0, hs⟩ := iha hl1 (by linarith) (by linarith)
    obtain ⟨t, rfl, rt, t0, ht⟩ := ihb hl2 (by linarith) (by linarith)
    rw [Fl.fin_add, rd_fin]
    by_cases e1 : l = []
    · subst e1
      simp only [List.map_nil, List.sum_nil, List.length_nil] at hs
      have := near_zero A.u1 hs
      subst this
      rw [zero_add]
      exact ⟨t, rt, rt, t0, by simpa using ht⟩
    by_cases e2 : l' = []
    · subst e2
      simp only [List.map_nil, List.sum_nil, List.length_nil] at ht
      have := near_zero A.u1 ht
      subst this
      rw [add_zero]
      exact ⟨s, rs, rs, s0, by simpa using hs⟩
    have p1 := List.length_pos_iff.mpr e1
    have p2 := List.length_pos_iff.mpr e2
    have em : l.length + l'.length - 1 = (l.length + l'.length - 2) + 1 := by omega
    rw [em]
    refine add_step A hs ht n1 n2 rs rt _ (by omega) ?_ hhi
    have : ((l.length + l'.length - 2 + 1 : ℕ) : ℝ) ≤ (l.length : ℝ) + l'.length := by
      rw [← Nat.cast_add]; exact_mod_cast (by omega)
    nlinarith [A.u0]
  | @perm l l' a hla hp ih =>
    have hp' := hp.map Fl.toReal
    rw [← hp.length_eq] at hlen ⊢
    rw [← hp'.sum_eq] at hhi ⊢
    exact ih (fun x hx => hl x (hp.mem_iff.mp hx)) hlen hhi

/-- the exact product of a pair of finite floats -/
def prodR (p : Fl × Fl) : ℝ := p.1.toReal * p.2.toReal

/-- two nonnegative finite numbers whose product is zero or not below the normal range -/
def NNPair (lo : ℝ) (p : Fl × Fl) : Prop := ∃ a b, p = (.fin a, .fin b) ∧ 0 ≤ a ∧ 0 ≤ b ∧ (a * b = 0 ∨ lo ≤ a * b)

theorem nnpair_sum_nonneg {l : List (Fl × Fl)} (h : ∀ x ∈ l, NNPair lo x) : 0 ≤ (l.map prodR).sum := by
  apply List.sum_nonneg
  intro y hy
  obtain ⟨x, hx, rfl⟩ := List.mem_map.mp hy
  obtain ⟨a, b, rfl, h0, h1, -⟩ := h x hx
  exact mul_nonneg h0 h1

/-- **dot product.** In any order, with or without fused multiply-add -/
theorem dot_near (A : Accurate ρ u lo hi) {l : List (Fl × Fl)} {v : Fl} (h : DotR ρ l v) (hl : ∀ x ∈ l, NNPair lo x)
    (hlen : 2 * (l.length : ℝ) * u ≤ 1) (hhi : 2 * (l.map prodR).sum ≤ hi) :
    ∃ s, v = .fin s ∧ Representable ρ s ∧ 0 ≤ s ∧ Near u l.length s (l.map prodR).sum := by
  induction h with
  | nil => exact ⟨0, rfl, A.zero, le_rfl, by simpa using near_refl 0⟩
  | one x y =>
    obtain ⟨a, b, e, ha, hb, hab⟩ := hl (x, y) (by simp)
    obtain ⟨rfl, rfl⟩ := Prod.mk.inj e
    simp only [List.map_cons, List.map_nil, List.sum_cons, List.sum_nil, add_zero, prodR, Fl.toReal] at hhi ⊢
    rw [Fl.fin_mul, rd_fin]
    exact rd_near A (mul_nonneg ha hb) hab (by nlinarith [mul_nonneg ha hb])
  | @add l l' a b hla hlb iha ihb =>
    have hl1 : ∀ x ∈ l, NNPair lo x := fun x hx => hl x (by simp [hx])
    have hl2 : ∀ x ∈ l', NNPair lo x := fun x hx => hl x (by simp [hx])
    have n1 := nnpair_sum_nonneg hl1
    have n2 := nnpair_sum_nonneg hl2
    simp only [List.length_append, List.map_append, List.sum_append, Nat.cast_add] at hlen hhi ⊢
    have c1 : (0:ℝ) ≤ (l.length : ℝ) * u := mul_nonneg (Nat.cast_nonneg _) A.u0
    have c2 : (0:ℝ) ≤ (l'.length : ℝ) * u := mul_nonneg (Nat.cast_nonneg _) A.u0
    obtain ⟨s, rfl, rs, s0, hs⟩ := iha hl1 (by linarith) (by linarith)
    obtain ⟨t, rfl, rt, t0, ht⟩ := ihb hl2 (by linarith) (by linarith)
    rw [Fl.fin_add, rd_fin]
    by_cases e1 : l = []
    · subst e1
      simp only [List.map_nil, List.sum_nil, List.length_nil] at hs
      have := near_zero A.u1 hs
      subst this
      rw [zero_add]
      exact ⟨t, rt, rt, t0, by simpa using ht⟩
    by_cases e2 : l' = []
    · subst e2
      simp only [List.map_nil, List.sum_nil, List.length_nil] at ht
      have := near_zero A.u1 ht
      subst this
      rw [add_zero]
      exact ⟨s, rs, rs, s0, by simpa using hs⟩
    have p1 := List.length_pos_iff.mpr e1
    have p2 := List.length_pos_iff.mpr e2
    have em : l.length + l'.length = (l.length + l'.length - 1) + 1 := by omega
    rw [em]
    refine add_step A hs ht n1 n2 rs rt _ (by omega) ?_ hhi
    have : ((l.length + l'.length - 1 + 1 : ℕ) : ℝ) ≤ (l.length : ℝ) + l'.length := by
      rw [← Nat.cast_add]; exact_mod_cast (by omega)
    nlinarith [A.u0]
  | @fma l s x y hls ih =>
    have hl1 : ∀ x ∈ l, NNPair lo x := fun x hx => hl x (by simp [hx])
    have n1 := nnpair_sum_nonneg hl1
    obtain ⟨a, b, e, ha, hb, hab⟩ := hl (x, y) (by simp)
    obtain ⟨rfl, rfl⟩ := Prod.mk.inj e
    have hp := mul_nonneg ha hb
    simp only [List.length_cons, List.map_cons, List.sum_cons, Nat.cast_add, Nat.cast_one, prodR, Fl.toReal] at hlen hhi ⊢
    have e0 : (l.map prodR).sum = (l.map fun p : Fl × Fl => p.1.toReal * p.2.toReal).sum := rfl
    obtain ⟨s, rfl, rs, s0, hs⟩ := ih hl1 (by linarith [A.u0]) (by
      change 2 * (a * b + (l.map prodR).sum) ≤ hi at hhi; linarith)
    change 2 * (a * b + (l.map prodR).sum) ≤ hi at hhi
    change ∃ s_1, _ = Fl.fin s_1 ∧ _ ∧ _ ∧ Near u (l.length + 1) s_1 (a * b + (l.map prodR).sum)
    rw [Fl.fin_mul, Fl.fin_add, rd_fin]
    have hx : Near u l.length (a * b + s) (a * b + (l.map prodR).sum) :=
      ((near_refl (a * b)).mono A.u0 A.u1 hp (by omega)).add hs
    have hb2 := (hx.half A.u1 (by linarith) (by linarith [A.u0])).2
    have hcase : a * b = 0 ∨ lo ≤ a * b + s := hab.imp id fun h => by linarith
    rcases hcase with h0 | h0
    · rw [h0, zero_add] at hx ⊢
      exact ⟨s, rs, rs, s0, hx.mono A.u0 A.u1 (by linarith) (by omega)⟩
    · obtain ⟨r, e, rr, r0, hn⟩ := rd_near A (add_nonneg hp s0) (.inr h0) (hb2.trans hhi)
      refine ⟨r, e, rr, r0, ?_⟩
      rw [add_comm l.length 1]
      exact hn.trans A.u1 hx
  | @perm l l' a hla hp ih =>
    have hp' := hp.map prodR
    rw [← hp.length_eq] at hlen ⊢
    rw [← hp'.sum_eq] at hhi ⊢
    exact ih (fun x hx => hl x (hp.mem_iff.mp hx)) hlen hhi

end

end TF.Props
