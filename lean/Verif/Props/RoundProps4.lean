import Verif.Props.RoundProps3
import Verif.Lemmas.RoundErr

set_option linter.unusedSimpArgs false

/-!
# Accuracy of the likelihood in floating point (C127)
-/

namespace TF.Spec

open TF

noncomputable section

/-- the size of the terms of the Poisson likelihood of a bin with `n` observed and `ν` expected events -/
def poissonSize (n ν : ℝ) : ℝ := ν + n + |n * Real.log (ν / n)|

/-- the size of the terms of the penalty `θᵀ S θ`, with a floor of `lo` per product for underflow -/
def penaltySize (lo : ℝ) {K n : ℕ} (S : Fin K → Matrix (Fin n) (Fin n) ℝ) (θ : Fin K → Fin n → ℝ) : ℝ :=
  ∑ k, ∑ j, ((∑ i, |θ k i * S k i j| + (K * n : ℕ) * lo) * |θ k j| + lo)

/-- everything that is computed stays in the range of normal numbers: conditions on the exact values -/
structure NllInRange (ρ : ℝ → Fl) (lo hi : ℝ) {K n : ℕ} (cnt ε : Fin K → Fin n → ℝ) (eff : Fin K → ℝ)
    (S : Fin K → Matrix (Fin n) (Fin n) ℝ) (d : Fin n → ℝ) (ν : Fin K → ℝ) (θ : Fin K → Fin n → ℝ) : Prop where
  tmpls : ∀ k, InRange lo hi (cnt k) (ε k) (θ k)
  yields : ∀ k, 0 ≤ ν k * eff k ∧ ν k * eff k ≤ hi ∧ (ν k * eff k = 0 ∨ lo ≤ ν k * eff k)
  prods : ∀ k i, ν k * eff k * frac (cnt k) (ε k) (θ k) i = 0 ∨ 2 * lo ≤ ν k * eff k * frac (cnt k) (ε k) (θ k) i
  floats : ∀ i, Representable ρ (d i)
  data : ∀ i, d i = 0 ∨ ((1e-100 : ℝ) ≤ d i ∧ lo ≤ d i ∧ 0 < expected cnt ε eff ν θ i ∧
    4 * (expected cnt ε eff ν θ i / d i) ≤ hi ∧ 4 * (d i / expected cnt ε eff ν θ i) ≤ hi)
  size : 16 * ∑ i, poissonSize (d i) (expected cnt ε eff ν θ i) ≤ hi
  columns : ∀ k j, 2 * (∑ i, |θ k i * S k i j| + (K * n : ℕ) * lo) ≤ hi
  penalty : 16 * penaltySize lo S θ ≤ hi

/-- the exact contribution of a channel to the likelihood -/
def chanNll {K n : ℕ} (cnt ε : Fin K → Fin n → ℝ) (eff : Fin K → ℝ) (S : Fin K → Matrix (Fin n) (Fin n) ℝ) (d : Fin n → ℝ)
    (ν : Fin K → ℝ) (θ : Fin K → Fin n → ℝ) : ℝ :=
  ∑ i, poissonBin (d i) (expected cnt ε eff ν θ i) + 1 / 2 * ∑ k, ∑ j, (∑ i, θ k i * S k i j) * θ k j

end

end TF.Spec

namespace TF.Props

open Classical Spec

noncomputable section

variable {ρ : ℝ → Fl} {u lo hi : ℝ}

/-! ### one bin -/

/-- `log` of a value with `m` relative errors -/
theorem near_log {m : ℕ} {a b : ℝ} (hu0 : 0 ≤ u) (hu1 : u ≤ 1 / 8) (h : Near u m a b) (hb : 0 < b) :
    |Real.log a - Real.log b| ≤ 2 * m * u := by
  have ha := h.pos hu1 hb
  have hp : 0 < 1 - u := by linarith
  have hl : -(2 * u) ≤ Real.log (1 - u) := by
    have h1 := Real.one_sub_inv_le_log_of_pos hp
    have h2 : -(2 * u) ≤ 1 - (1 - u)⁻¹ := by
      have : (1 - u)⁻¹ ≤ 1 + 2 * u := by
        rw [inv_le_iff_one_le_mul₀ hp]
        nlinarith
      linarith
    linarith
  have hm : -(2 * m * u) ≤ m * Real.log (1 - u) := by
    have : (0:ℝ) ≤ m := Nat.cast_nonneg _
    nlinarith
  have h1 := Real.log_le_log (mul_pos (pow_pos hp m) hb) h.1
  have h2 := Real.log_le_log (mul_pos (pow_pos hp m) ha) h.2
  rw [Real.log_mul (pow_pos hp m).ne' hb.ne', Real.log_pow] at h1
  rw [Real.log_mul (pow_pos hp m).ne' ha.ne', Real.log_pow] at h2
  rw [abs_le]
  constructor <;> linarith

/-- the rounded difference of two floating-point numbers -/
theorem sub_err (A : Accurate ρ u lo hi) {x y : ℝ} (rx : Representable ρ x) (ry : Representable ρ y) (h : |x| + |y| ≤ hi) :
    ∃ r, (Fl.fin x - Fl.fin y).rd ρ = .fin r ∧ Representable ρ r ∧ |r - (x - y)| ≤ u * (|x| + |y|) := by
  have habs : |x + -y| ≤ |x| + |y| := by
    have := abs_add_le x (-y)
    rwa [abs_neg] at this
  obtain ⟨r, e, he⟩ := A.add x (-y) rx (A.neg _ ry) (habs.trans h)
  rw [← sub_eq_add_neg] at e he habs
  exact ⟨r, by rw [Fl.fin_sub, rd_fin, e], A.idem _ _ e, he.trans (mul_le_mul_of_nonneg_left habs A.u0)⟩

/-- the computed term of one bin -/
def binTermR (ρ : ℝ → Fl) (lg : Fl → Fl) (d e : Fl) : Fl := ((e - d).rd ρ - xlogyxR ρ lg d e).rd ρ

theorem poissonSize_nonneg {d E : ℝ} (hd : 0 ≤ d) (hE : 0 ≤ E) : 0 ≤ poissonSize d E := by
  unfold poissonSize
  have := abs_nonneg (d * Real.log (E / d))
  linarith

theorem poissonBin_le_size {d E : ℝ} (hd : 0 ≤ d) (hE : 0 ≤ E) : |poissonBin d E| ≤ poissonSize d E := by
  unfold poissonBin poissonSize
  have h0 := abs_nonneg (d * Real.log (E / d))
  split_ifs with h
  · rw [abs_of_nonneg hE]; linarith
  · have h1 := abs_sub (E - d) (d * Real.log (E / d))
    have h2 := abs_sub E d
    rw [abs_of_nonneg hE, abs_of_nonneg hd] at h2
    linarith

/-- a bin: `2m + 3κ + 18` errors of the size of the terms -/
theorem bin_err (A : Accurate ρ u lo hi) {κ : ℝ} (hκ : 0 ≤ κ) {lg : Fl → Fl} (hlg : LogAccurate ρ u κ lg) {m : ℕ}
    (hm : (2 * m + 3 * κ + 18) * u ≤ 1) {d e E : ℝ} (rd' : Representable ρ d) (re : Representable ρ e) (he : Near u m e E) (hE : 0 ≤ E)
    (hd : d = 0 ∨ ((1e-100 : ℝ) ≤ d ∧ lo ≤ d ∧ 0 < E ∧ 4 * (E / d) ≤ hi ∧ 4 * (d / E) ≤ hi)) (hs : 16 * poissonSize d E ≤ hi) :
    ∃ t, binTermR ρ lg (.fin d) (.fin e) = .fin t ∧ Representable ρ t ∧
      |t - poissonBin d E| ≤ (2 * m + 3 * κ + 18) * u * poissonSize d E := by
  have hu0 := A.u0
  have hu1 := A.u1
  have hm0 : (0:ℝ) ≤ m := Nat.cast_nonneg _
  have hmu : 0 ≤ m * u := mul_nonneg hm0 hu0
  have hκu : 0 ≤ κ * u := mul_nonneg hκ hu0
  have hm2 : 2 * (m:ℝ) * u ≤ 1 := by nlinarith
  have hhalf := he.half hu1 hE hm2
  have he0 := he.nonneg hu1 hE
  have hrel := he.rel_error hu0 hu1 hE hm2
  rcases hd with rfl | ⟨h1, h2, hE0, h3, h4⟩
  · refine ⟨e, ?_, re, ?_⟩
    · unfold binTermR xlogyxR
      rw [if_neg (by simp [Fl.isNan]), if_pos (by rw [Fl.lt_fin]; norm_num)]
      rw [Fl.fin_sub, rd_fin, sub_zero, re, Fl.zero_def, Fl.fin_sub, rd_fin, sub_zero, re]
    · have e1 : poissonBin 0 E = E := by simp [poissonBin]
      have e2 : poissonSize 0 E = E := by simp [poissonSize]
      rw [e1, e2]
      refine hrel.trans ?_
      have := mul_nonneg hκu hE
      have := mul_nonneg hu0 hE
      nlinarith
  · have hd0 : 0 < d := lt_of_lt_of_le (by norm_num) h1
    set L := |d * Real.log (E / d)| with hL
    have hL0 : 0 ≤ L := abs_nonneg _
    unfold poissonSize at hs ⊢
    rw [← hL] at hs ⊢
    have hepos := he.pos hu1 hE0
    have hlog := near_log hu0 hu1 he hE0
    have hdl : |d * Real.log (e / d) - d * Real.log (E / d)| ≤ 2 * m * u * d := by
      rw [Real.log_div hepos.ne' hd0.ne', Real.log_div hE0.ne' hd0.ne', ← mul_sub, abs_mul, abs_of_pos hd0,
        show Real.log e - Real.log d - (Real.log E - Real.log d) = Real.log e - Real.log E by ring]
      nlinarith
    set L' := |d * Real.log (e / d)| with hL'
    have hLL : L' ≤ L + 2 * m * u * d := by
      have := abs_sub_abs_le_abs_sub (d * Real.log (e / d)) (d * Real.log (E / d))
      rw [← hL, ← hL'] at this
      linarith
    have hL'0 : 0 ≤ L' := abs_nonneg _
    have hmd : 2 * m * u * d ≤ d := by nlinarith
    have hed : e / d ≤ 2 * (E / d) := by
      rw [← mul_div_assoc]
      exact div_le_div_of_nonneg_right hhalf.2 hd0.le
    have hde : d / e ≤ 2 * (d / E) := by
      rw [← mul_div_assoc, div_le_div_iff₀ hepos hE0]
      nlinarith
    have hκ8 : (2 * κ + 8) * u ≤ 1 := by nlinarith
    have hκ4 : (κ + 4) * u ≤ 1 := by nlinarith
    obtain ⟨b, eb, rb, hb⟩ := xlogyx_err A hκ hκ8 hlg rd' re h1 h2 hepos (by linarith) (by linarith) (by linarith) (by linarith)
      (by rw [← hL']; linarith)
    rw [← hL'] at hb
    obtain ⟨a, ea, ra, ha⟩ := sub_err A re rd' (by rw [abs_of_pos hepos, abs_of_pos hd0]; linarith)
    rw [abs_of_pos hepos, abs_of_pos hd0] at ha
    have habs : |a| ≤ 2 * (e + d) := by
      have h5 : |a| ≤ |a - (e - d)| + |e - d| := by
        have := abs_add_le (a - (e - d)) (e - d)
        rwa [sub_add_cancel] at this
      have h6 := abs_sub e d
      rw [abs_of_pos hepos, abs_of_pos hd0] at h6
      nlinarith
    have hbabs : |b| ≤ 2 * L' + d := by
      have h5 : |b| ≤ |b - d * Real.log (e / d)| + |d * Real.log (e / d)| := by
        have := abs_add_le (b - d * Real.log (e / d)) (d * Real.log (e / d))
        rwa [sub_add_cancel] at this
      rw [← hL'] at h5
      have h6 := mul_le_mul_of_nonneg_right hκ8 hL'0
      have h7 := mul_le_mul_of_nonneg_right hκ4 hd0.le
      linarith
    obtain ⟨t, et, rt, ht⟩ := sub_err A ra rb (by linarith)
    refine ⟨t, ?_, rt, ?_⟩
    · unfold binTermR
      rw [ea, eb, et]
    · unfold poissonBin
      rw [if_neg hd0.ne']
      have h5 : |t - (E - d - d * Real.log (E / d))| ≤ |t - (a - b)| + |a - (e - d)| + |b - d * Real.log (e / d)| + |e - E| +
          |d * Real.log (e / d) - d * Real.log (E / d)| := by
        have e1 : t - (E - d - d * Real.log (E / d)) = (t - (a - b)) + (a - (e - d)) - (b - d * Real.log (e / d)) + (e - E) -
            (d * Real.log (e / d) - d * Real.log (E / d)) := by ring
        rw [e1]
        refine (abs_sub _ _).trans (add_le_add ?_ le_rfl)
        refine (abs_add_le _ _).trans (add_le_add ?_ le_rfl)
        refine (abs_sub _ _).trans (add_le_add ?_ le_rfl)
        exact abs_add_le _ _
      have h6 : u * (|a| + |b|) ≤ u * (2 * (e + d) + (2 * L' + d)) := mul_le_mul_of_nonneg_left (by linarith) hu0
      have h7 : u * e ≤ u * (2 * E) := mul_le_mul_of_nonneg_left hhalf.2 hu0
      have h8 : (2 * κ + 10) * u * L' ≤ (2 * κ + 10) * u * (L + d) := mul_le_mul_of_nonneg_left (by linarith) (by linarith)
      have p1 := mul_nonneg hu0 hE
      have p2 := mul_nonneg hu0 hd0.le
      have p3 := mul_nonneg hu0 hL0
      have p4 := mul_nonneg hκu hE
      have p5 := mul_nonneg hκu hd0.le
      have p6 := mul_nonneg hκu hL0
      have p7 := mul_nonneg hmu hL0
      linarith

/-! ### the Poisson term of a channel -/

theorem poissonTermR_eq (ρ : ℝ → Fl) (lg : Fl → Fl) (sum : Vec → Fl) {n : ℕ} (d e : Fin n → ℝ) :
    poissonTermR ρ lg sum (vec d) (vec e) = .ok (sum (List.ofFn fun i => binTermR ρ lg (.fin (d i)) (.fin (e i)))) := by
  unfold poissonTermR
  simp only [vec_eq, bop_vec, bind, Except.bind, pure, Except.pure]
  rfl

theorem poisson_err (A : Accurate ρ u lo hi) {κ : ℝ} (hκ : 0 ≤ κ) {lg : Fl → Fl} (hlg : LogAccurate ρ u κ lg) {sum : Vec → Fl}
    (hsum : Summation ρ sum) {m n : ℕ} (hm : (2 * m + 4 * n + 3 * κ + 18) * u ≤ 1) {d e E : Fin n → ℝ} (rd' : ∀ i, Representable ρ (d i))
    (re : ∀ i, Representable ρ (e i)) (he : ∀ i, Near u m (e i) (E i)) (hE : ∀ i, 0 ≤ E i)
    (hd : ∀ i, d i = 0 ∨ ((1e-100 : ℝ) ≤ d i ∧ lo ≤ d i ∧ 0 < E i ∧ 4 * (E i / d i) ≤ hi ∧ 4 * (d i / E i) ≤ hi))
    (hs : 16 * ∑ i, poissonSize (d i) (E i) ≤ hi) :
    ∃ p, poissonTermR ρ lg sum (vec d) (vec e) = .ok (.fin p) ∧ Representable ρ p ∧
      |p - ∑ i, poissonBin (d i) (E i)| ≤ (2 * m + 4 * n + 3 * κ + 18) * u * ∑ i, poissonSize (d i) (E i) := by
  have hu0 := A.u0
  have hu1 := A.u1
  have hm0 : (0:ℝ) ≤ m := Nat.cast_nonneg _
  have hn0 : (0:ℝ) ≤ n := Nat.cast_nonneg _
  have hmu : 0 ≤ m * u := mul_nonneg hm0 hu0
  have hnu : 0 ≤ n * u := mul_nonneg hn0 hu0
  have hκu : 0 ≤ κ * u := mul_nonneg hκ hu0
  have hd0 : ∀ i, 0 ≤ d i := fun i => by
    rcases hd i with h | h
    · exact h.ge
    · linarith [A.lo0, h.2.1]
  have hM0 : ∀ i, 0 ≤ poissonSize (d i) (E i) := fun i => poissonSize_nonneg (hd0 i) (hE i)
  have hMle : ∀ i, poissonSize (d i) (E i) ≤ ∑ i, poissonSize (d i) (E i) := fun i =>
    Finset.single_le_sum (fun j _ => hM0 j) (Finset.mem_univ i)
  have hC : (2 * m + 3 * κ + 18) * u ≤ 1 := by nlinarith
  have hb := fun i => bin_err A hκ hlg hC (rd' i) (re i) (he i) (hE i) (hd i) (by linarith [hMle i])
  choose t et rt ht using hb
  set P := ∑ i, poissonSize (d i) (E i) with hP
  have hP0 : 0 ≤ P := Finset.sum_nonneg fun i _ => hM0 i
  have hlist : (List.ofFn fun i => binTermR ρ lg (.fin (d i)) (.fin (e i))) = vec t := by
    rw [vec_eq]; congr 1; funext i; exact et i
  have e1 : ((vec t).map Fl.toReal).sum = ∑ i, t i := by
    rw [vec_eq, List.map_ofFn, List.sum_ofFn]; rfl
  have e2 : ((vec t).map fun x => |x.toReal|).sum = ∑ i, |t i| := by
    rw [vec_eq, List.map_ofFn, List.sum_ofFn]; rfl
  have htabs : ∀ i, |t i| ≤ 2 * poissonSize (d i) (E i) := fun i => by
    have h1 : |t i| ≤ |t i - poissonBin (d i) (E i)| + |poissonBin (d i) (E i)| := by
      have := abs_add_le (t i - poissonBin (d i) (E i)) (poissonBin (d i) (E i))
      rwa [sub_add_cancel] at this
    have h2 := poissonBin_le_size (hd0 i) (hE i)
    have h3 := mul_le_mul_of_nonneg_right hC (hM0 i)
    linarith [ht i]
  have hsumabs : ∑ i, |t i| ≤ 2 * P := by
    rw [hP, Finset.mul_sum]
    exact Finset.sum_le_sum fun i _ => htabs i
  obtain ⟨p, ep, rp, hp⟩ := sum_err A (hsum (vec t)) (by
      intro x hx
      rw [vec_eq] at hx
      obtain ⟨i, rfl⟩ := (List.mem_ofFn' _ _).mp hx
      exact ⟨t i, rfl, rt i⟩) (by rw [vec_length]; nlinarith) (by rw [e2]; linarith)
  rw [e1, e2, vec_length] at hp
  refine ⟨p, ?_, rp, ?_⟩
  · rw [poissonTermR_eq, hlist, ep]
  · have hg : (1 + u) ^ (n - 1) - 1 ≤ 2 * n * u := by
      have h1 := growth hu0 hu1 (k := n) (by nlinarith)
      have h2 : (1 + u) ^ (n - 1) ≤ (1 + u) ^ n := pow_le_pow_right₀ (by linarith) (by omega)
      linarith
    have h1 : |∑ i, t i - ∑ i, poissonBin (d i) (E i)| ≤ (2 * m + 3 * κ + 18) * u * P := by
      rw [← Finset.sum_sub_distrib, hP, Finset.mul_sum]
      exact (Finset.abs_sum_le_sum_abs _ _).trans (Finset.sum_le_sum fun i _ => ht i)
    have h2 : |p - ∑ i, poissonBin (d i) (E i)| ≤ |p - ∑ i, t i| + |∑ i, t i - ∑ i, poissonBin (d i) (E i)| := abs_sub_le _ _ _
    have h3 : ((1 + u) ^ (n - 1) - 1) * ∑ i, |t i| ≤ 2 * n * u * (2 * P) :=
      mul_le_mul hg hsumabs (Finset.sum_nonneg fun i _ => abs_nonneg _) (by positivity)
    linarith

/-! ### the penalty of a channel -/

theorem blockDiag_size {K n : ℕ} (M : Fin K → Mat) (S : Fin K → Matrix (Fin n) (Fin n) ℝ)
    (hM : ∀ k, IsReal (M k) (S k)) (θ : Fin K → Fin n → ℝ) :
    ∃ (N : ℕ) (B : Matrix (Fin N) (Fin N) ℝ) (Θ : Fin N → ℝ), N = K * n ∧
      IsReal (blockDiag (List.ofFn M)) B ∧ (List.ofFn fun k => vec (θ k)).flatten = vec Θ ∧
      ∑ j, (∑ i, Θ i * B i j) * Θ j = ∑ k, ∑ j, (∑ i, θ k i * S k i j) * θ k j ∧
      (∀ a b : ℝ, ∑ j, ((∑ i, |Θ i * B i j| + a) * |Θ j| + b) = ∑ k, ∑ j, ((∑ i, |θ k i * S k i j| + a) * |θ k j| + b)) ∧
      (∀ a : ℝ, (∀ k j, ∑ i, |θ k i * S k i j| ≤ a) → ∀ j, ∑ i, |Θ i * B i j| ≤ a) := by
  induction K with
  | zero =>
    refine ⟨0, 0, Fin.elim0, by simp, ⟨rfl, rfl, fun i => i.elim0⟩, by simp [vec], by simp, by simp, fun _ _ j => j.elim0⟩
  | succ K ih =>
    obtain ⟨N, B, Θ, hN, hB, hΘ, hq, hs, hc⟩ := ih (fun k => M k.succ) (fun k => S k.succ) (fun k => hM k.succ)
      (fun k => θ k.succ)
    refine ⟨n + N, Matrix.of fun i j => Fin.addCases (fun i => Fin.addCases (fun j => S 0 i j) (fun _ => 0) j)
      (fun i => Fin.addCases (fun _ => 0) (fun j => B i j) j) i, Fin.append (θ 0) Θ, by rw [hN]; ring, ?_, ?_, ?_, ?_, ?_⟩
    · have h0 := hM 0
      simp only [List.ofFn_succ, blockDiag]
      refine ⟨by simp [h0.1, hB.1], by simp [h0.2.1, hB.2.1], fun i j => ?_⟩
      refine Fin.addCases (fun i => ?_) (fun i => ?_) i <;> refine Fin.addCases (fun j => ?_) (fun j => ?_) j
      · simp [h0.1, h0.2.1, h0.2.2]
      · simp [h0.1, h0.2.1]; rfl
      · simp [h0.1, h0.2.1]; rfl
      · simp [h0.1, h0.2.1, hB.2.2]
    · simp only [List.ofFn_succ, List.flatten_cons]
      rw [hΘ]
      unfold vec
      have := List.ofFn_fin_append (fun i => Fl.fin (θ 0 i)) (fun i => Fl.fin (Θ i))
      rw [← this]
      congr 1
      funext i
      refine Fin.addCases (fun i => ?_) (fun i => ?_) i <;> simp
    · rw [Fin.sum_univ_succ, ← hq, Fin.sum_univ_add]
      simp [Fin.sum_univ_add]
    · intro a b
      rw [Fin.sum_univ_succ, ← hs a b, Fin.sum_univ_add]
      simp [Fin.sum_univ_add]
    · intro a ha j
      have h1 := hc a (fun k j => ha k.succ j)
      refine Fin.addCases (fun j => ?_) (fun j => ?_) j
      · simpa [Fin.sum_univ_add] using ha 0 j
      · simpa [Fin.sum_univ_add] using h1 j

/-- quadratic form `Θᵀ B Θ` computed with two products -/
theorem quad_err (A : Accurate ρ u lo hi) {dot : List (Fl × Fl) → Fl} (hdot : DotProduct ρ dot) {N : ℕ} {M : Mat}
    {B : Matrix (Fin N) (Fin N) ℝ} (hM : IsReal M B) (Θ : Fin N → ℝ) (hN : 6 * (N:ℝ) * u ≤ 1)
    (hcol : ∀ j, 2 * (∑ i, |Θ i * B i j| + N * lo) ≤ hi)
    (hQ : 4 * ∑ j, ((∑ i, |Θ i * B i j| + N * lo) * |Θ j| + lo) ≤ hi) :
    ∃ v q, vecMatR dot (vec Θ) M = .ok v ∧ v.length = N ∧ dot (v.zip (vec Θ)) = .fin q ∧
      |q - ∑ j, (∑ i, Θ i * B i j) * Θ j| ≤ 6 * N * u * ∑ j, ((∑ i, |Θ i * B i j| + N * lo) * |Θ j| + lo) := by
  have hu0 := A.u0
  have hu1 := A.u1
  have hlo := A.lo0
  have hN0 : (0:ℝ) ≤ N := Nat.cast_nonneg _
  have hNu : 0 ≤ N * u := mul_nonneg hN0 hu0
  have hN2 : 2 * (N:ℝ) * u ≤ 1 := by linarith
  have hg := growth hu0 hu1 hN2
  set W : Fin N → ℝ := fun j => ∑ i, |Θ i * B i j| + N * lo with hW
  have hW0 : ∀ j, 0 ≤ W j := fun j => add_nonneg (Finset.sum_nonneg fun i _ => abs_nonneg _) (mul_nonneg hN0 hlo)
  have key : ∀ j, ∃ s, dot (List.ofFn fun i => ((.fin (Θ i) : Fl), (.fin (B i j) : Fl))) = .fin s ∧
      |s - ∑ i, Θ i * B i j| ≤ 2 * N * u * W j := by
    intro j
    have e1 : ((List.ofFn fun i => ((.fin (Θ i) : Fl), (.fin (B i j) : Fl))).map prodR).sum = ∑ i, Θ i * B i j := by
      rw [List.map_ofFn, List.sum_ofFn]; rfl
    have e2 : ((List.ofFn fun i => ((.fin (Θ i) : Fl), (.fin (B i j) : Fl))).map (sizeR lo)).sum = W j := by
      rw [List.map_ofFn, List.sum_ofFn, hW]
      show ∑ i, (|Θ i * B i j| + lo) = _
      rw [Finset.sum_add_distrib]
      simp
    obtain ⟨s, es, -, hs⟩ := dot_err A (hdot (List.ofFn fun i => ((.fin (Θ i) : Fl), (.fin (B i j) : Fl)))) (by
        intro x hx
        obtain ⟨i, rfl⟩ := (List.mem_ofFn' _ _).mp hx
        exact ⟨_, _, rfl⟩) (by rw [List.length_ofFn]; exact hN2) (by rw [e2]; exact hcol j)
    rw [e1, e2, List.length_ofFn] at hs
    exact ⟨s, es, hs.trans (mul_le_mul_of_nonneg_right hg (hW0 j))⟩
  choose s es hs using key
  have hWle : ∀ j, |∑ i, Θ i * B i j| ≤ W j := fun j =>
    (Finset.abs_sum_le_sum_abs _ _).trans (le_add_of_nonneg_right (mul_nonneg hN0 hlo))
  have hsabs : ∀ j, |s j| ≤ 2 * W j := fun j => by
    have h1 : |s j| ≤ |s j - ∑ i, Θ i * B i j| + |∑ i, Θ i * B i j| := by
      have := abs_add_le (s j - ∑ i, Θ i * B i j) (∑ i, Θ i * B i j)
      rwa [sub_add_cancel] at this
    have h2 := mul_le_mul_of_nonneg_right hN2 (hW0 j)
    linarith [hs j, hWle j]
  set Q := ∑ j, (W j * |Θ j| + lo) with hQd
  have hv : vecMatR dot (vec Θ) M = .ok (vec s) := by
    rw [vecMatR_vec dot Θ hM, vec_eq]
    congr 2
    funext j
    exact es j
  have hzip : (vec s).zip (vec Θ) = List.ofFn fun j => ((.fin (s j) : Fl), (.fin (Θ j) : Fl)) := by
    rw [vec_eq, vec_eq]
    apply List.ext_getElem
    · simp
    · intro i h1 h2
      simp
  have e1 : ((List.ofFn fun j => ((.fin (s j) : Fl), (.fin (Θ j) : Fl))).map prodR).sum = ∑ j, s j * Θ j := by
    rw [List.map_ofFn, List.sum_ofFn]; rfl
  have e2 : ((List.ofFn fun j => ((.fin (s j) : Fl), (.fin (Θ j) : Fl))).map (sizeR lo)).sum ≤ 2 * Q := by
    rw [List.map_ofFn, List.sum_ofFn, hQd, Finset.mul_sum]
    refine Finset.sum_le_sum fun j _ => ?_
    show |s j * Θ j| + lo ≤ _
    rw [abs_mul]
    have := mul_le_mul_of_nonneg_right (hsabs j) (abs_nonneg (Θ j))
    linarith
  have e3 : 0 ≤ ((List.ofFn fun j => ((.fin (s j) : Fl), (.fin (Θ j) : Fl))).map (sizeR lo)).sum :=
    (abs_nonneg _).trans (size_sum_le hlo _)
  obtain ⟨q, eq, -, hq⟩ := dot_err A (hdot (List.ofFn fun j => ((.fin (s j) : Fl), (.fin (Θ j) : Fl)))) (by
      intro x hx
      obtain ⟨i, rfl⟩ := (List.mem_ofFn' _ _).mp hx
      exact ⟨_, _, rfl⟩) (by rw [List.length_ofFn]; exact hN2) (by linarith)
  rw [e1, List.length_ofFn] at hq
  refine ⟨vec s, q, hv, vec_length s, by rw [hzip, eq], ?_⟩
  have h1 : |∑ j, s j * Θ j - ∑ j, (∑ i, Θ i * B i j) * Θ j| ≤ 2 * N * u * Q := by
    rw [← Finset.sum_sub_distrib, hQd, Finset.mul_sum]
    refine (Finset.abs_sum_le_sum_abs _ _).trans (Finset.sum_le_sum fun j _ => ?_)
    rw [← sub_mul, abs_mul]
    have h2 := mul_le_mul_of_nonneg_right (hs j) (abs_nonneg (Θ j))
    have h3 : 0 ≤ 2 * N * u * lo := by positivity
    linarith
  have h2 : ((1 + u) ^ N - 1) * ((List.ofFn fun j => ((.fin (s j) : Fl), (.fin (Θ j) : Fl))).map (sizeR lo)).sum ≤ 2 * N * u * (2 * Q) :=
    mul_le_mul hg e2 e3 (by positivity)
  have h3 : |q - ∑ j, (∑ i, Θ i * B i j) * Θ j| ≤ |q - ∑ j, s j * Θ j| + |∑ j, s j * Θ j - ∑ j, (∑ i, Θ i * B i j) * Θ j| :=
    abs_sub_le _ _ _
  linarith

/-- the penalty term of a channel -/
theorem gauss_err (A : Accurate ρ u lo hi) {dot : List (Fl × Fl) → Fl} (hdot : DotProduct ρ dot) {K n : ℕ} {w : World} {c : ℕ}
    {cnt ε : Fin K → Fin n → ℝ} {eff : Fin K → ℝ} {S : Fin K → Matrix (Fin n) (Fin n) ℝ} (h : ChanStored w c cnt ε eff S)
    (hw : Coherent w) (θ : Fin K → Fin n → ℝ) (hpos : 0 < K * n) (hN : 6 * ((K * n : ℕ) : ℝ) * u ≤ 1)
    (hcol : ∀ k j, 2 * (∑ i, |θ k i * S k i j| + (K * n : ℕ) * lo) ≤ hi) (hQ : 16 * penaltySize lo S θ ≤ hi) :
    ∃ g, (w.gaussTermR ρ dot c (nuiVec θ)).1 = .ok (.fin g) ∧ Representable ρ g ∧
      |g - 1 / 2 * ∑ k, ∑ j, (∑ i, θ k i * S k i j) * θ k j| ≤ (3 * ((K * n : ℕ) : ℝ) + 2) * u * penaltySize lo S θ ∧
      |1 / 2 * ∑ k, ∑ j, (∑ i, θ k i * S k i j) * θ k j| ≤ penaltySize lo S θ := by
  have hu0 := A.u0
  have hu1 := A.u1
  have hlo := A.lo0
  obtain ⟨T, hT1, hT2⟩ := h.tmpls
  obtain ⟨N, B, Θ, hNe, hB, hΘ, hq, hsz, hcb⟩ := blockDiag_size (fun k => (T k).invCorr) S (fun k => (hT2 k).2) θ
  subst hNe
  have hmap : (w.chanTmpls c).map (·.invCorr) = List.ofFn fun k => (T k).invCorr := by
    rw [hT1, List.map_ofFn]; rfl
  have hNR : (0:ℝ) ≤ ((K * n : ℕ) : ℝ) := Nat.cast_nonneg _
  have hsize : ∑ j, ((∑ i, |Θ i * B i j| + ((K * n : ℕ) : ℝ) * lo) * |Θ j| + lo) = penaltySize lo S θ := hsz _ _
  set Q := penaltySize lo S θ with hQd
  have hcol' : ∀ j, 2 * (∑ i, |Θ i * B i j| + ((K * n : ℕ) : ℝ) * lo) ≤ hi := fun j => by
    have := hcb (hi / 2 - ((K * n : ℕ) : ℝ) * lo) (fun k j => by linarith [hcol k j]) j
    linarith
  have hQ0 : lo ≤ Q := by
    rw [← hsize]
    have hj : ∀ j ∈ Finset.univ, 0 ≤ (∑ i, |Θ i * B i j| + ((K * n : ℕ) : ℝ) * lo) * |Θ j| + lo := fun j _ =>
      add_nonneg (mul_nonneg (add_nonneg (Finset.sum_nonneg fun i _ => abs_nonneg _) (mul_nonneg hNR hlo)) (abs_nonneg _)) hlo
    refine le_trans ?_ (Finset.single_le_sum hj (Finset.mem_univ ⟨0, hpos⟩))
    exact le_add_of_nonneg_left (mul_nonneg (add_nonneg (Finset.sum_nonneg fun i _ => abs_nonneg _) (mul_nonneg hNR hlo)) (abs_nonneg _))
  have hQnn : 0 ≤ Q := hlo.trans hQ0
  obtain ⟨v, q, hv, hvl, hq1, hq2⟩ := quad_err A hdot hB Θ hN hcol' (by rw [hsize]; linarith)
  rw [hsize, hq] at hq2
  set X := ∑ k, ∑ j, (∑ i, θ k i * S k i j) * θ k j with hX
  have hXQ : |X| ≤ Q := by
    rw [← hq, ← hsize]
    refine (Finset.abs_sum_le_sum_abs _ _).trans (Finset.sum_le_sum fun j _ => ?_)
    rw [abs_mul]
    have h1 : |∑ i, Θ i * B i j| ≤ ∑ i, |Θ i * B i j| + ((K * n : ℕ) : ℝ) * lo :=
      (Finset.abs_sum_le_sum_abs _ _).trans (le_add_of_nonneg_right (mul_nonneg hNR hlo))
    have := mul_le_mul_of_nonneg_right h1 (abs_nonneg (Θ j))
    linarith
  have hqabs : |q| ≤ 2 * Q := by
    have h1 : |q| ≤ |q - X| + |X| := by
      have := abs_add_le (q - X) X
      rwa [sub_add_cancel] at this
    have := mul_le_mul_of_nonneg_right hN hQnn
    linarith
  have hhalf : |1 / 2 * q| = |q| / 2 := by rw [abs_mul, abs_of_pos (by norm_num : (0:ℝ) < 1 / 2)]; ring
  obtain ⟨g, eg, hg⟩ := A.rel (1 / 2 * q) (by rw [hhalf]; linarith)
  rw [hhalf] at hg
  have hval : (w.gaussTermR ρ dot c (nuiVec θ)).1 = .ok (.fin g) := by
    obtain ⟨h1, h2⟩ := invCorrBlock_coh hw c h.alloc
    unfold World.gaussTermR
    generalize w.invCorrBlock c = r at h1 h2 ⊢
    obtain ⟨r1, w1⟩ := r
    simp only at h1 h2
    subst h1
    have e0 : nuiVec θ = vec Θ := hΘ
    rw [hmap, e0]
    simp only [hv]
    rw [if_pos (by rw [hvl, vec_length]), hq1, Fl.fin_mul, rd_fin, eg]
  refine ⟨g, hval, A.idem _ _ eg, ?_, ?_⟩
  · have h1 : |g - 1 / 2 * X| ≤ |g - 1 / 2 * q| + |1 / 2 * q - 1 / 2 * X| := abs_sub_le _ _ _
    have h2 : |1 / 2 * q - 1 / 2 * X| = |q - X| / 2 := by
      rw [← mul_sub, abs_mul, abs_of_pos (by norm_num : (0:ℝ) < 1 / 2)]; ring
    have h3 : max (|q| / 2) lo ≤ 2 * Q := max_le (by linarith) (by linarith)
    have h4 := mul_le_mul_of_nonneg_left h3 hu0
    linarith
  · rw [abs_mul, abs_of_pos (by norm_num : (0:ℝ) < 1 / 2)]
    linarith [abs_nonneg X]

/-! ### the contribution of a channel -/

theorem expectedEvtsR_frame (sum : Vec → Fl) (dot : List (Fl × Fl) → Fl) {w : World} (hw : Coherent w) (c : ℕ) (hc : c < w.nChans)
    (y n : Vec) : CacheOnly w (w.expectedEvtsR ρ sum dot c y n).2 ∧ Coherent (w.expectedEvtsR ρ sum dot c y n).2 := by
  obtain ⟨-, h2⟩ := effArray_coh hw c hc
  have h3 := effArray_frame w c
  unfold World.expectedEvtsR
  generalize w.effArray c = r at h2 h3 ⊢
  obtain ⟨r1, w1⟩ := r
  simp only at h2 h3
  cases r1 with
  | error e => exact ⟨h3, h2⟩
  | ok eff =>
    simp only
    cases bop (fun x y => (x * y).rd ρ) y eff with
    | error e => exact ⟨h3, h2⟩
    | ok v =>
      simp only
      cases w1.chanFractionsR ρ sum c n with
      | error e => exact ⟨h3, h2⟩
      | ok F => exact ⟨h3, h2⟩

theorem chanNll_exact {K n : ℕ} {w : World} {c : ℕ} {cnt ε : Fin K → Fin n → ℝ} {eff : Fin K → ℝ}
    {S : Fin K → Matrix (Fin n) (Fin n) ℝ} (h : ChanStored w c cnt ε eff S) (hK : 0 < K) (hw : Coherent w) {hid : ℕ}
    (hd : (w.chans c).hdata = some hid) {d : Fin n → ℝ} (hdd : (w.hists hid).counts.data = vec d) (ν : Fin K → ℝ)
    (θ : Fin K → Fin n → ℝ) (hT : ∀ k, ∑ j, cnt k j * (1 + θ k j * ε k j) ≠ 0)
    (hdE : ∀ i, d i = 0 ∨ ((1e-100 : ℝ) ≤ d i ∧ 0 < expected cnt ε eff ν θ i)) :
    (w.nllContribution c (vec ν) (nuiVec θ)).1 = .ok (.fin (chanNll cnt ε eff S d ν θ)) := by
  rw [(nllContribution_coh hw c h.alloc _ _).1]
  have hg : gaussPure w c (nuiVec θ) = .ok (.fin (1 / 2 * ∑ k, ∑ j, (∑ i, θ k i * S k i j) * θ k j)) := by
    obtain ⟨T, hT1, hT2⟩ := h.tmpls
    obtain ⟨N, B, Θ, hB, hΘ, hq⟩ := blockDiag_form (fun k => (T k).invCorr) S (fun k => (hT2 k).2) θ
    have hmap : (w.chanTmpls c).map (·.invCorr) = List.ofFn fun k => (T k).invCorr := by
      rw [hT1, List.map_ofFn]; rfl
    unfold gaussPure nuiVec
    rw [hmap, hΘ, vecMat_vec _ hB]
    simp only
    rw [dot_vec]
    simp only [Fl.fin_mul]
    rw [hq]
  unfold contribPure
  simp only [hd, expectedPure_stored h hK ν θ hT, hdd, poissonTerm_zip, hg]
  have hb : ∀ i, binTerm (.fin (d i)) (.fin (expected cnt ε eff ν θ i)) = .fin (poissonBin (d i) (expected cnt ε eff ν θ i)) := by
    intro i
    rcases hdE i with h0 | h0
    · unfold binTerm poissonBin
      rw [h0, C13_small (.fin 0) _ (Or.inr (Or.inr ⟨0, rfl, by norm_num⟩))]
      simp
    · exact binTerm_fin (.inr h0.1) h0.2
  have : (List.ofFn fun i => binTerm (.fin (d i)) (.fin (expected cnt ε eff ν θ i))).sum =
      .fin (∑ i, poissonBin (d i) (expected cnt ε eff ν θ i)) := by
    simp only [hb]
    exact vec_sum _
  rw [this, Fl.fin_add]
  rfl

/-- the contribution of a channel to the likelihood in floating point -/
theorem contribR_err (A : Accurate ρ u lo hi) {κ : ℝ} (hκ : 0 ≤ κ) {lg : Fl → Fl} (hlg : LogAccurate ρ u κ lg) {sum : Vec → Fl}
    (hsum : Summation ρ sum) {dot : List (Fl × Fl) → Fl} (hdot : DotProduct ρ dot) {K n : ℕ} (w : World) (c : ℕ)
    (cnt ε : Fin K → Fin n → ℝ) (eff : Fin K → ℝ) (S : Fin K → Matrix (Fin n) (Fin n) ℝ) (h : ChanStored w c cnt ε eff S)
    (hw : Coherent w) (hK : 0 < K) (hn : 0 < n) (hid : ℕ) (hd : (w.chans c).hdata = some hid) (d : Fin n → ℝ)
    (hdd : (w.hists hid).counts.data = vec d) (ν : Fin K → ℝ) (θ : Fin K → Fin n → ℝ) (hr : NllInRange ρ lo hi cnt ε eff S d ν θ)
    (hu : (6 * (n:ℝ) + 2 * K + 3 * κ + 34) * u ≤ 1) (hu' : (6 * ((K * n : ℕ) : ℝ) + 4) * u ≤ 1) :
    ∃ vr : ℝ, (w.nllContributionR ρ lg sum dot c (vec ν) (nuiVec θ)).1 = .ok (.fin vr) ∧ Representable ρ vr ∧
      |vr - chanNll cnt ε eff S d ν θ| ≤
        (6 * (n:ℝ) + 2 * K + 3 * κ + 34) * u * ∑ i, poissonSize (d i) (expected cnt ε eff ν θ i) +
        (3 * ((K * n : ℕ) : ℝ) + 4) * u * penaltySize lo S θ ∧
      |chanNll cnt ε eff S d ν θ| ≤ ∑ i, poissonSize (d i) (expected cnt ε eff ν θ i) + penaltySize lo S θ ∧
      0 ≤ ∑ i, poissonSize (d i) (expected cnt ε eff ν θ i) ∧ 0 ≤ penaltySize lo S θ := by
  have hu0 := A.u0
  have hu1 := A.u1
  have hn0 : (0:ℝ) ≤ n := Nat.cast_nonneg _
  have hK0 : (0:ℝ) ≤ K := Nat.cast_nonneg _
  have hN0 : (0:ℝ) ≤ ((K * n : ℕ) : ℝ) := Nat.cast_nonneg _
  have hnu := mul_nonneg hn0 hu0
  have hKu := mul_nonneg hK0 hu0
  have hκu := mul_nonneg hκ hu0
  have hNu := mul_nonneg hN0 hu0
  have hT : ∀ k, ∑ j, cnt k j * (1 + θ k j * ε k j) ≠ 0 := fun k => (hr.tmpls k).pos.ne'
  have hEnn : ∀ i, 0 ≤ expected cnt ε eff ν θ i := fun i => by
    rw [expected_frac]
    exact Finset.sum_nonneg fun k _ => mul_nonneg (hr.yields k).1 (frac_range A (hr.tmpls k) i).1
  have hd0 : ∀ i, 0 ≤ d i := fun i => by
    rcases hr.data i with h | h
    · exact h.ge
    · linarith [A.lo0, h.2.1]
  have hP0 : ∀ i, 0 ≤ poissonSize (d i) (expected cnt ε eff ν θ i) := fun i => poissonSize_nonneg (hd0 i) (hEnn i)
  have hsz := hr.size
  set P := ∑ i, poissonSize (d i) (expected cnt ε eff ν θ i) with hP
  have hPnn : 0 ≤ P := Finset.sum_nonneg fun i _ => hP0 i
  have hE4 : ∀ i, 4 * expected cnt ε eff ν θ i ≤ hi := fun i => by
    have h1 : expected cnt ε eff ν θ i ≤ poissonSize (d i) (expected cnt ε eff ν θ i) := by
      unfold poissonSize
      linarith [hd0 i, abs_nonneg (d i * Real.log (expected cnt ε eff ν θ i / d i))]
    have h2 : poissonSize (d i) (expected cnt ε eff ν θ i) ≤ P := Finset.single_le_sum (fun j _ => hP0 j) (Finset.mem_univ i)
    linarith
  obtain ⟨E, eE, hE⟩ := expectedR_near A hsum hdot w c cnt ε eff S h hK hw ν θ hr.tmpls hr.yields hr.prods hE4
    (by push_cast; nlinarith)
  obtain ⟨p, ep, rp, hp⟩ := poisson_err A hκ hlg hsum (m := n + K + 7) (by push_cast; nlinarith) hr.floats (fun i => (hE i).2.1)
    (fun i => (hE i).2.2) hEnn hr.data hsz
  rw [← hP] at hp
  obtain ⟨hfr, hcoh⟩ := expectedEvtsR_frame (ρ := ρ) sum dot hw c h.alloc (vec ν) (nuiVec θ)
  have h' : ChanStored (w.expectedEvtsR ρ sum dot c (vec ν) (nuiVec θ)).2 c cnt ε eff S := by
    obtain ⟨T, t1, t2⟩ := h.tmpls
    exact ⟨by rw [hfr.nChans]; exact h.alloc, by rw [hfr.chans]; exact h.num, by rw [hfr.chans]; exact h.effs, T,
      by rw [hfr.chanTmpls]; exact t1, t2⟩
  obtain ⟨g, eg, rg, hg, hg2⟩ := gauss_err A hdot h' hcoh θ (Nat.mul_pos hK hn) (by linarith) hr.columns hr.penalty
  have hpen := hr.penalty
  set Q := penaltySize lo S θ with hQ
  have hQnn : 0 ≤ Q := (abs_nonneg _).trans hg2
  set X := 1 / 2 * ∑ k, ∑ j, (∑ i, θ k i * S k i j) * θ k j with hX
  set Y := ∑ i, poissonBin (d i) (expected cnt ε eff ν θ i) with hY
  have hYP : |Y| ≤ P :=
    (Finset.abs_sum_le_sum_abs _ _).trans (Finset.sum_le_sum fun i _ => poissonBin_le_size (hd0 i) (hEnn i))
  push_cast at hp
  have hp' : |p - Y| ≤ (6 * (n:ℝ) + 2 * K + 3 * κ + 32) * u * P := by
    refine hp.trans (le_of_eq ?_)
    ring
  have hpabs : |p| ≤ 2 * P := by
    have h1 : |p| ≤ |p - Y| + |Y| := by
      have := abs_add_le (p - Y) Y
      rwa [sub_add_cancel] at this
    have h2 : (6 * (n:ℝ) + 2 * K + 3 * κ + 32) * u * P ≤ 1 * P := mul_le_mul_of_nonneg_right (by linarith) hPnn
    linarith
  have hgabs : |g| ≤ 2 * Q := by
    have h1 : |g| ≤ |g - X| + |X| := by
      have := abs_add_le (g - X) X
      rwa [sub_add_cancel] at this
    have h2 : (3 * ((K * n : ℕ) : ℝ) + 2) * u * Q ≤ 1 * Q := mul_le_mul_of_nonneg_right (by linarith) hQnn
    linarith
  have hpg : |p + g| ≤ 2 * P + 2 * Q := (abs_add_le _ _).trans (add_le_add hpabs hgabs)
  obtain ⟨r, er, hre⟩ := A.add p g rp rg (by linarith)
  refine ⟨r, ?_, A.idem _ _ er, ?_, ?_, hPnn, hQnn⟩
  · unfold World.nllContributionR
    simp only [hd]
    generalize w.expectedEvtsR ρ sum dot c (vec ν) (nuiVec θ) = r' at eE eg ⊢
    obtain ⟨r1, w1⟩ := r'
    simp only at eE eg
    subst eE
    simp only [hdd, ep]
    generalize w1.gaussTermR ρ dot c (nuiVec θ) = r'' at eg ⊢
    obtain ⟨r2, w2⟩ := r''
    simp only at eg
    subst eg
    simp only
    rw [Fl.fin_add, rd_fin, er]
  · have e1 : chanNll cnt ε eff S d ν θ = Y + X := rfl
    rw [e1]
    have h1 : |r - (Y + X)| ≤ |r - (p + g)| + |p - Y| + |g - X| := by
      have e2 : r - (Y + X) = (r - (p + g)) + (p - Y) + (g - X) := by ring
      rw [e2]
      exact (abs_add_le _ _).trans (add_le_add (abs_add_le _ _) le_rfl)
    have h2 := mul_le_mul_of_nonneg_left hpg hu0
    linarith
  · exact (abs_add_le _ _).trans (add_le_add hYP hg2)

/-- **C127.** The contribution of a channel with `K` templates of `n` bins to the likelihood, computed in floating point with rounding
error `u` and a `log1p` of relative error `κ u`, differs from the exact value by at most `(6 n + 2 K + 3 κ + 34) u` times the size of the
Poisson terms plus `(3 K n + 4) u` times the size of the terms of the penalty, whatever the order of summation and with or without fused
multiply-add. -/
theorem C127_likelihood (A : Accurate ρ u lo hi) {κ : ℝ} (hκ : 0 ≤ κ) {lg : Fl → Fl} (hlg : LogAccurate ρ u κ lg) {sum : Vec → Fl}
    (hsum : Summation ρ sum) {dot : List (Fl × Fl) → Fl} (hdot : DotProduct ρ dot) {K n : ℕ} (w : World) (c : ℕ)
    (cnt ε : Fin K → Fin n → ℝ) (eff : Fin K → ℝ) (S : Fin K → Matrix (Fin n) (Fin n) ℝ) (h : ChanStored w c cnt ε eff S)
    (hw : Coherent w) (hK : 0 < K) (hn : 0 < n) (hid : ℕ) (hd : (w.chans c).hdata = some hid) (d : Fin n → ℝ)
    (hdd : (w.hists hid).counts.data = vec d) (ν : Fin K → ℝ) (θ : Fin K → Fin n → ℝ) (hr : NllInRange ρ lo hi cnt ε eff S d ν θ)
    (hu : (6 * (n:ℝ) + 2 * K + 3 * κ + 34) * u ≤ 1) (hu' : (6 * ((K * n : ℕ) : ℝ) + 4) * u ≤ 1) :
    ∃ vr v : ℝ, (w.nllContributionR ρ lg sum dot c (vec ν) (nuiVec θ)).1 = .ok (.fin vr) ∧
      (w.nllContribution c (vec ν) (nuiVec θ)).1 = .ok (.fin v) ∧
      |vr - v| ≤ (6 * (n:ℝ) + 2 * K + 3 * κ + 34) * u * ∑ i, poissonSize (d i) (expected cnt ε eff ν θ i) +
        (3 * ((K * n : ℕ) : ℝ) + 4) * u * penaltySize lo S θ := by
  obtain ⟨vr, h1, -, h2, -⟩ := contribR_err A hκ hlg hsum hdot w c cnt ε eff S h hw hK hn hid hd d hdd ν θ hr hu hu'
  exact ⟨vr, _, h1, chanNll_exact h hK hw hd hdd ν θ (fun k => (hr.tmpls k).pos.ne')
    fun i => (hr.data i).imp id fun h => ⟨h.1, h.2.2.1⟩, h2⟩

end

end TF.Props
