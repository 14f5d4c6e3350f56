import Verif.Lemmas.RoundErr
import Verif.Lemmas.MatLemmas
import Verif.Props.RoundIds
import Verif.Props.RoundProps5
import Verif.Model.RoundStats

set_option linter.unusedSimpArgs false

/-!
# Goodness-of-fit statistics in floating point (C133, C134)
-/

namespace TF.Spec

open TF

/-- a library function for `log` whose relative error is at most `κ u` on positive floating-point numbers -/
def LnAccurate (ρ : ℝ → Fl) (u κ : ℝ) (lg : Fl → Fl) : Prop :=
  ∀ z, 0 < z → Representable ρ z → ∃ r, lg (.fin z) = .fin r ∧ |r - Real.log z| ≤ κ * u * |Real.log z|

end TF.Spec

namespace TF.Props

open Classical Spec

noncomputable section

variable {ρ : ℝ → Fl} {u lo hi : ℝ}

/-- **C133/C134, consistency.** Without rounding, the statistics with rounding are those of the exact model. -/
theorem C133_exact (pval : Fl → Fl → Fl) (d e s : Vec) (dof : Fl) :
    pearsonChi2TestR Fl.fin npSum pval d e dof = pearsonChi2Test pval d e dof ∧
    defaultChi2TestR Fl.fin npSum pval d e s dof = defaultChi2Test pval d e s dof ∧
    cowanGofR Fl.fin Fl.log npSum pval d e dof = cowanGof pval d e dof := by
  refine ⟨?_, ?_, ?_⟩
  · unfold pearsonChi2TestR pearsonChi2Test chi2ResultR chi2Result; simp only [rd_id]
  · unfold defaultChi2TestR defaultChi2Test chi2ResultR chi2Result; simp only [rd_id]
  · unfold cowanGofR cowanGof chi2ResultR chi2Result; simp only [rd_id]

/-- the square of a rounded difference -/
theorem diff_sq_near (A : Accurate ρ u lo hi) {a b : ℝ} (ra : Representable ρ a) (rb : Representable ρ b)
    (hr : a = b ∨ 2 * lo ≤ (a - b) ^ 2) (hh : |a - b| ≤ hi) (hh2 : 2 * (a - b) ^ 2 ≤ hi) :
    ∃ d s, ρ (a - b) = .fin d ∧ ρ (d ^ 2) = .fin s ∧ 0 ≤ s ∧ Near u 3 s ((a - b) ^ 2) := by
  have hu0 := A.u0
  have hu1 := A.u1
  obtain ⟨d, ed, hd⟩ := A.add a (-b) ra (A.neg _ rb) (by rwa [← sub_eq_add_neg])
  rw [← sub_eq_add_neg] at ed hd
  have hn1 : Near u 1 |d| |a - b| := by
    apply near_round hu0 hu1 (abs_nonneg _)
    exact (abs_abs_sub_abs_le d (a - b)).trans hd
  have hn2 : Near u 2 (d ^ 2) ((a - b) ^ 2) := by
    have := hn1.mul hu1 hn1 (abs_nonneg _) (abs_nonneg _)
    rwa [← sq, ← sq, sq_abs, sq_abs] at this
  have hh' := hn2.half hu1 (sq_nonneg _) (by norm_num; linarith)
  have hd2 : d ^ 2 = 0 ∨ lo ≤ d ^ 2 := by
    rcases hr with rfl | hr
    · left
      rw [sub_self, zero_pow two_ne_zero] at hn2
      exact near_zero hu1 hn2
    · right; linarith [hh'.1]
  obtain ⟨s, es, rs, s0, hs⟩ := rd_near A (sq_nonneg d) hd2 (by linarith [hh'.2])
  exact ⟨d, s, ed, es, s0, by simpa using hs.trans hu1 hn2⟩

/-- the sum of nonnegative terms that are each known up to `k` roundings -/
theorem stat_sum (A : Accurate ρ u lo hi) {sum : Vec → Fl} (hsum : Summation ρ sum) {n k : ℕ} {r T : Fin n → ℝ}
    (h : ∀ i, Near u k (r i) (T i)) (hT : ∀ i, 0 ≤ T i) (hr : ∀ i, Representable ρ (r i))
    (hk : 2 * ((n + k : ℕ) : ℝ) * u ≤ 1) (hh : 4 * ∑ i, T i ≤ hi) :
    ∃ s, sum (vec r) = .fin s ∧ Representable ρ s ∧ 0 ≤ s ∧ ∀ m, n + k = m + 1 → Near u m s (∑ i, T i) := by
  have hu0 := A.u0
  have hu1 := A.u1
  have hs0 : 0 ≤ ∑ i, T i := Finset.sum_nonneg fun i _ => hT i
  have hn := near_sum h
  have hn0 : (0:ℝ) ≤ n * u := by positivity
  have hk0 : (0:ℝ) ≤ k * u := by positivity
  push_cast at hk
  have hb := (hn.half hu1 hs0 (by nlinarith)).2
  have e : ((vec r).map Fl.toReal).sum = ∑ i, r i := by
    rw [show (vec r).map Fl.toReal = List.ofFn r by simp [vec, List.map_ofFn, Function.comp_def, Fl.toReal], List.sum_ofFn]
  obtain ⟨s, es, rs, s0, hs⟩ := sum_near A (hsum (vec r)) (by
    intro x hx
    unfold vec at hx
    obtain ⟨i, rfl⟩ := (List.mem_ofFn' _ _).mp hx
    exact ⟨r i, rfl, (h i).nonneg hu1 (hT i), hr i⟩) (by simp [vec]; nlinarith) (by rw [e]; linarith)
  rw [e] at hs
  refine ⟨s, es, rs, s0, ?_⟩
  have : (vec r).length = n := by simp [vec]
  rw [this] at hs
  intro m hm
  rcases Nat.eq_zero_or_pos n with h0 | h0
  · subst h0
    simp only [Finset.univ_eq_empty, Finset.sum_empty] at hs ⊢
    rw [near_zero hu1 hs]
    constructor <;> simp
  · have := hs.trans hu1 hn
    rwa [show n - 1 + k = m by omega] at this

/-- the reduced statistic -/
theorem stat_red (A : Accurate ρ u lo hi) {k : ℕ} {s X dof : ℝ} (h : Near u k s X) (hX : 0 ≤ X) (hdof : 0 < dof)
    (hk : 2 * ((k + 1 : ℕ) : ℝ) * u ≤ 1) (hr : X = 0 ∨ 2 * lo ≤ X / dof) (hh : 2 * (X / dof) ≤ hi) :
    ∃ q, (Fl.fin s / Fl.fin dof).rd ρ = .fin q ∧ Near u (k + 1) q (X / dof) := by
  have hu0 := A.u0
  have hu1 := A.u1
  have hq : Near u k (s / dof) (X / dof) := by
    have := h.div hu1 (near_refl (u := u) dof) hX hdof
    simpa using this
  have hX' := div_nonneg hX hdof.le
  push_cast at hk
  have hb := hq.half hu1 hX' (by nlinarith)
  rw [Fl.fin_div _ _ hdof.ne', rd_fin]
  obtain ⟨q, e, -, -, hn⟩ := rd_near A (hq.nonneg hu1 hX') (by
    rcases hr with rfl | hr
    · left; rw [zero_div] at hq; exact near_zero hu1 hq
    · right; linarith [hb.1]) (by linarith [hb.2])
  exact ⟨q, e, by rw [add_comm]; exact hn.trans hu1 hq⟩

theorem near_zero_iff {k : ℕ} {a b : ℝ} (hu : u ≤ 1 / 8) (h : Near u k a b) : a = 0 ↔ b = 0 := by
  constructor
  · rintro rfl; exact near_zero hu h.symm
  · rintro rfl; exact near_zero hu h

/-- **C133, Pearson's statistic.** For floating-point data and positive expectations within the range of the format, the statistic and
the reduced statistic are finite, not negative, zero exactly if the data equal the expectation and have the stated relative errors,
whatever the order of the summation. -/
theorem C133_pearson (A : Accurate ρ u lo hi) {sum : Vec → Fl} (hsum : Summation ρ sum) (pval : Fl → Fl → Fl) {n : ℕ}
    (data nu : Fin n → ℝ) (dof : ℝ) (hd : ∀ i, Representable ρ (data i)) (hν : ∀ i, Representable ρ (nu i)) (hnu : ∀ i, 0 < nu i)
    (hn : 2 * ((n + 4 : ℕ) : ℝ) * u ≤ 1)
    (hlo : ∀ i, data i = nu i ∨ (2 * lo ≤ (data i - nu i) ^ 2 ∧ 2 * lo ≤ (data i - nu i) ^ 2 / nu i))
    (hhi : ∀ i, |data i - nu i| ≤ hi ∧ 2 * (data i - nu i) ^ 2 ≤ hi) (hhi2 : 4 * ∑ i, (data i - nu i) ^ 2 / nu i ≤ hi)
    (hdof : 0 < dof) (hdlo : data = nu ∨ 2 * lo ≤ (∑ i, (data i - nu i) ^ 2 / nu i) / dof)
    (hdhi : 2 * ((∑ i, (data i - nu i) ^ 2 / nu i) / dof) ≤ hi) :
    ∃ chi red : ℝ, pearsonChi2TestR ρ sum pval (vec data) (vec nu) (.fin dof) =
        .ok (.fin chi, .fin red, pval (.fin chi) (.fin dof)) ∧ 0 ≤ chi ∧ (chi = 0 ↔ data = nu) ∧
      |chi - ∑ i, (data i - nu i) ^ 2 / nu i| ≤ 2 * (n + 3) * u * ∑ i, (data i - nu i) ^ 2 / nu i ∧
      |red - (∑ i, (data i - nu i) ^ 2 / nu i) / dof| ≤ 2 * (n + 4) * u * ((∑ i, (data i - nu i) ^ 2 / nu i) / dof) := by
  have hu0 := A.u0
  have hu1 := A.u1
  have hun : (0:ℝ) ≤ n * u := by positivity
  set X := ∑ i, (data i - nu i) ^ 2 / nu i with hX
  have hT0 : ∀ i, 0 ≤ (data i - nu i) ^ 2 / nu i := fun i => div_nonneg (sq_nonneg _) (hnu i).le
  have hX0 : 0 ≤ X := Finset.sum_nonneg fun i _ => hT0 i
  have hXi : ∀ i, (data i - nu i) ^ 2 / nu i ≤ X := fun i =>
    Finset.single_le_sum (f := fun i => (data i - nu i) ^ 2 / nu i) (fun i _ => hT0 i) (Finset.mem_univ i)
  have hXz : X = 0 ↔ data = nu := by
    rw [hX, Finset.sum_eq_zero_iff_of_nonneg fun i _ => hT0 i]
    constructor
    · intro h
      funext i
      have := h i (Finset.mem_univ i)
      rw [div_eq_zero_iff] at this
      rcases this with h | h
      · have := pow_eq_zero_iff (two_ne_zero) |>.mp h; linarith
      · exact absurd h (hnu i).ne'
    · rintro rfl i _; simp
  have hterm : ∀ i, ∃ d s r, ρ (data i - nu i) = .fin d ∧ ρ (d ^ 2) = .fin s ∧ ρ (s / nu i) = .fin r ∧ Representable ρ r ∧
      Near u 4 r ((data i - nu i) ^ 2 / nu i) := by
    intro i
    obtain ⟨d, s, ed, es, s0, hs⟩ := diff_sq_near A (hd i) (hν i) ((hlo i).imp id fun h => h.1) (hhi i).1 (hhi i).2
    have hq : Near u 3 (s / nu i) ((data i - nu i) ^ 2 / nu i) := by
      have := hs.div hu1 (near_refl (u := u) (nu i)) (sq_nonneg _) (hnu i)
      simpa using this
    have hb := hq.half hu1 (hT0 i) (by push_cast at hn ⊢; nlinarith)
    obtain ⟨r, er, rr, -, hr⟩ := rd_near A (div_nonneg s0 (hnu i).le) (by
      rcases hlo i with h | h
      · left
        rw [h, sub_self, zero_pow two_ne_zero, zero_div] at hq
        exact near_zero hu1 hq
      · right; linarith [hb.1, h.2]) (by linarith [hb.2, hXi i])
    exact ⟨d, s, r, ed, es, er, rr, by simpa using hr.trans hu1 hq⟩
  choose d s r ed es er rr hr using hterm
  obtain ⟨chi, ec, rc, c0, hc⟩ := stat_sum A hsum hr hT0 rr hn (by linarith)
  have hc := hc (n + 3) rfl
  obtain ⟨red, er', hr'⟩ := stat_red A hc hX0 hdof (by push_cast at hn ⊢; linarith) (hdlo.imp hXz.mpr id) hdhi
  refine ⟨chi, red, ?_, c0, (near_zero_iff hu1 hc).trans hXz, ?_, ?_⟩
  · unfold pearsonChi2TestR
    rw [TF.bop_vec data nu _ d (fun i => by rw [Fl.fin_sub, rd_fin, ed])]
    show (do
      let t ← bop _ (List.map _ (vec d)) (vec nu)
      return chi2ResultR ρ pval (sum t) (.fin dof)) = _
    rw [TF.map_vec _ _ s (fun i => by rw [Fl.sq_fin, rd_fin, es]),
      TF.bop_vec _ nu _ r (fun i => by rw [Fl.fin_div _ _ (hnu i).ne', rd_fin, er])]
    show Except.ok (chi2ResultR ρ pval (sum _) (.fin dof)) = _
    rw [ec, chi2ResultR, er']
  · have := hc.rel_error hu0 hu1 hX0 (by push_cast at hn ⊢; linarith)
    push_cast at this; exact this
  · have := hr'.rel_error hu0 hu1 (div_nonneg hX0 hdof.le) (by push_cast at hn ⊢; linarith)
    push_cast at this
    rwa [show (n:ℝ) + 3 + 1 = n + 4 by ring] at this

/-- **C133, the statistic with explicit uncertainties.** Likewise for non-zero uncertainties. -/
theorem C133_default (A : Accurate ρ u lo hi) {sum : Vec → Fl} (hsum : Summation ρ sum) (pval : Fl → Fl → Fl) {n : ℕ}
    (data nu sigma : Fin n → ℝ) (dof : ℝ) (hd : ∀ i, Representable ρ (data i)) (hν : ∀ i, Representable ρ (nu i))
    (hn : 2 * ((n + 5 : ℕ) : ℝ) * u ≤ 1) (hσ : ∀ i, sigma i ≠ 0 ∧ lo ≤ sigma i ^ 2 ∧ sigma i ^ 2 ≤ hi)
    (hlo : ∀ i, data i = nu i ∨ (2 * lo ≤ (data i - nu i) ^ 2 ∧ 2 * lo ≤ ((data i - nu i) / sigma i) ^ 2))
    (hhi : ∀ i, |data i - nu i| ≤ hi ∧ 2 * (data i - nu i) ^ 2 ≤ hi) (hhi2 : 4 * ∑ i, ((data i - nu i) / sigma i) ^ 2 ≤ hi)
    (hdof : 0 < dof) (hdlo : data = nu ∨ 2 * lo ≤ (∑ i, ((data i - nu i) / sigma i) ^ 2) / dof)
    (hdhi : 2 * ((∑ i, ((data i - nu i) / sigma i) ^ 2) / dof) ≤ hi) :
    ∃ chi red : ℝ, defaultChi2TestR ρ sum pval (vec data) (vec nu) (vec sigma) (.fin dof) =
        .ok (.fin chi, .fin red, pval (.fin chi) (.fin dof)) ∧ 0 ≤ chi ∧ (chi = 0 ↔ data = nu) ∧
      |chi - ∑ i, ((data i - nu i) / sigma i) ^ 2| ≤ 2 * (n + 4) * u * ∑ i, ((data i - nu i) / sigma i) ^ 2 ∧
      |red - (∑ i, ((data i - nu i) / sigma i) ^ 2) / dof| ≤ 2 * (n + 5) * u * ((∑ i, ((data i - nu i) / sigma i) ^ 2) / dof) := by
  have hu0 := A.u0
  have hu1 := A.u1
  have hun : (0:ℝ) ≤ n * u := by positivity
  set X := ∑ i, ((data i - nu i) / sigma i) ^ 2 with hX
  have hT0 : ∀ i, 0 ≤ ((data i - nu i) / sigma i) ^ 2 := fun i => sq_nonneg _
  have hX0 : 0 ≤ X := Finset.sum_nonneg fun i _ => hT0 i
  have hXi : ∀ i, ((data i - nu i) / sigma i) ^ 2 ≤ X := fun i =>
    Finset.single_le_sum (f := fun i => ((data i - nu i) / sigma i) ^ 2) (fun i _ => hT0 i) (Finset.mem_univ i)
  have hXz : X = 0 ↔ data = nu := by
    rw [hX, Finset.sum_eq_zero_iff_of_nonneg fun i _ => hT0 i]
    constructor
    · intro h
      funext i
      have := h i (Finset.mem_univ i)
      rw [pow_eq_zero_iff two_ne_zero, div_eq_zero_iff] at this
      rcases this with h | h
      · linarith
      · exact absurd h (hσ i).1
    · rintro rfl i _; simp
  have hterm : ∀ i, ∃ d s v r, ρ (data i - nu i) = .fin d ∧ ρ (d ^ 2) = .fin s ∧ ρ (sigma i ^ 2) = .fin v ∧ v ≠ 0 ∧
      ρ (s / v) = .fin r ∧ Representable ρ r ∧ Near u 5 r (((data i - nu i) / sigma i) ^ 2) := by
    intro i
    obtain ⟨d, s, ed, es, s0, hs⟩ := diff_sq_near A (hd i) (hν i) ((hlo i).imp id fun h => h.1) (hhi i).1 (hhi i).2
    obtain ⟨v, ev, -, -, hv⟩ := rd_near A (sq_nonneg (sigma i)) (.inr (hσ i).2.1) (hσ i).2.2
    have hσ2 : 0 < sigma i ^ 2 := lt_of_le_of_ne (sq_nonneg _) (pow_ne_zero 2 (hσ i).1).symm
    have hv0 := hv.pos hu1 hσ2
    have hq : Near u 4 (s / v) (((data i - nu i) / sigma i) ^ 2) := by
      rw [div_pow]
      exact hs.div hu1 hv (sq_nonneg _) hσ2
    have hb := hq.half hu1 (hT0 i) (by push_cast at hn ⊢; nlinarith)
    obtain ⟨r, er, rr, -, hr⟩ := rd_near A (div_nonneg s0 hv0.le) (by
      rcases hlo i with h | h
      · left
        rw [h, sub_self, zero_div, zero_pow two_ne_zero] at hq
        exact near_zero hu1 hq
      · right; linarith [hb.1, h.2]) (by linarith [hb.2, hXi i])
    exact ⟨d, s, v, r, ed, es, ev, hv0.ne', er, rr, by simpa using hr.trans hu1 hq⟩
  choose d s v r ed es ev hv er rr hr using hterm
  obtain ⟨chi, ec, rc, c0, hc⟩ := stat_sum A hsum hr hT0 rr hn (by linarith)
  have hc := hc (n + 4) rfl
  obtain ⟨red, er', hr'⟩ := stat_red A hc hX0 hdof (by push_cast at hn ⊢; linarith) (hdlo.imp hXz.mpr id) hdhi
  refine ⟨chi, red, ?_, c0, (near_zero_iff hu1 hc).trans hXz, ?_, ?_⟩
  · unfold defaultChi2TestR
    rw [TF.bop_vec data nu _ d (fun i => by rw [Fl.fin_sub, rd_fin, ed])]
    show (do
      let t ← bop _ (List.map _ (vec d)) (List.map _ (vec sigma))
      return chi2ResultR ρ pval (sum t) (.fin dof)) = _
    rw [TF.map_vec d _ s (fun i => by rw [Fl.sq_fin, rd_fin, es]),
      TF.map_vec sigma _ v (fun i => by rw [Fl.sq_fin, rd_fin, ev]),
      TF.bop_vec _ v _ r (fun i => by rw [Fl.fin_div _ _ (hv i), rd_fin, er])]
    show Except.ok (chi2ResultR ρ pval (sum _) (.fin dof)) = _
    rw [ec, chi2ResultR, er']
  · have := hc.rel_error hu0 hu1 hX0 (by push_cast at hn ⊢; linarith)
    push_cast at this; exact this
  · have := hr'.rel_error hu0 hu1 (div_nonneg hX0 hdof.le) (by push_cast at hn ⊢; linarith)
    push_cast at this
    rwa [show (n:ℝ) + 4 + 1 = n + 5 by ring] at this

/-- the computed logarithm of a computed quotient -/
theorem ln_ratio_err (hu0 : 0 ≤ u) (hu1 : u ≤ 1 / 8) {z q : ℝ} (hz : 0 < z) (h : |q - z| ≤ u * z) :
    0 < q ∧ |Real.log q - Real.log z| ≤ 2 * u := by
  obtain ⟨h1, h2⟩ := abs_le.mp h
  have hq : 0 < q := by nlinarith
  refine ⟨hq, ?_⟩
  rw [abs_le]
  constructor
  · have := Real.log_le_sub_one_of_pos (div_pos hz hq)
    rw [Real.log_div hz.ne' hq.ne'] at this
    have h3 : z / q ≤ 1 + 2 * u := by
      rw [div_le_iff₀ hq]
      nlinarith [mul_nonneg hu0 hz.le, mul_nonneg (mul_nonneg hu0 hu0) hz.le]
    linarith
  · have := Real.log_le_sub_one_of_pos (div_pos hq hz)
    rw [Real.log_div hq.ne' hz.ne'] at this
    have h3 : q / z ≤ 1 + u := by
      rw [div_le_iff₀ hz]; linarith
    linarith

/-- the size of a bin's contribution to the likelihood-ratio statistic before cancellation -/
def cowanSize (x y : ℝ) : ℝ := x * |Real.log (x / y)| + x + y

set_option maxHeartbeats 800000 in
/-- one bin of the likelihood-ratio statistic -/
theorem cowan_term_err (A : Accurate ρ u lo hi) {κ : ℝ} (hκ : 0 ≤ κ) (hκu : (κ + 11) * u ≤ 1) {lg : Fl → Fl} (hlg : LnAccurate ρ u κ lg)
    {x y : ℝ} (rx : Representable ρ x) (ry : Representable ρ y) (hx : 0 < x) (hy : 0 < y) (hxlo : lo ≤ x)
    (hqlo : lo ≤ x / y) (hqhi : x / y ≤ hi) (hh : 4 * cowanSize x y ≤ hi) :
    ∃ q l p s t, ρ (x / y) = .fin q ∧ lg (.fin q) = .fin l ∧ ρ (x * l) = .fin p ∧ ρ (p + y) = .fin s ∧ ρ (s - x) = .fin t ∧
      Representable ρ t ∧ |t - (x * Real.log (x / y) + y - x)| ≤ (κ + 11) * u * cowanSize x y := by
  have hu0 := A.u0
  have hu1 := A.u1
  have hz : 0 < x / y := div_pos hx hy
  unfold cowanSize at hh ⊢
  obtain ⟨q, eq, hq⟩ := A.rel (x / y) (by rwa [abs_of_pos hz])
  rw [abs_of_pos hz, max_eq_left hqlo] at hq
  obtain ⟨q0, hL⟩ := ln_ratio_err hu0 hu1 hz hq
  obtain ⟨l, el, hl⟩ := hlg q q0 (A.idem _ _ eq)
  set L := Real.log (x / y) with hLdef
  have hxL : 0 ≤ x * |L| := mul_nonneg hx.le (abs_nonneg _)
  set B := x * |L| + x + y with hB
  have hκu0 : 0 ≤ κ * u := mul_nonneg hκ hu0
  have hκu1 : κ * u + 11 * u ≤ 1 := by linarith
  have hlq : |Real.log q| ≤ |L| + 2 * u := by
    have := abs_add_le (Real.log q - L) L
    rw [sub_add_cancel] at this
    linarith
  have hlL : |l - L| ≤ κ * u * |L| + 4 * u := by
    have h1 : |l - L| ≤ |l - Real.log q| + |Real.log q - L| := abs_sub_le _ _ _
    have h2 := mul_le_mul_of_nonneg_left hlq hκu0
    nlinarith
  have hxl : |x * l - x * L| ≤ κ * u * (x * |L|) + 4 * u * x := by
    rw [← mul_sub, abs_mul, abs_of_pos hx]
    have := mul_le_mul_of_nonneg_left hlL hx.le
    linarith
  have hxl2 : |x * l| ≤ (x * |L|) + (κ * u * (x * |L|) + 4 * u * x) := by
    have h1 := abs_add_le (x * l - x * L) (x * L)
    rw [sub_add_cancel] at h1
    have h2 : |x * L| = x * |L| := by rw [abs_mul, abs_of_pos hx]
    linarith
  have hxl3 : |x * l| ≤ 2 * B := by nlinarith
  obtain ⟨p, ep, hp⟩ := A.rel (x * l) (by linarith)
  have hp2 : |p - x * L| ≤ (κ + 7) * u * B := by
    have h1 : |p - x * L| ≤ |p - x * l| + |x * l - x * L| := abs_sub_le _ _ _
    have h2 : max |x * l| lo ≤ 2 * (x * |L|) + 2 * x := max_le (by nlinarith) (by nlinarith)
    have h3 := mul_le_mul_of_nonneg_left h2 hu0
    have h4 : κ * u * (x * |L|) ≤ κ * u * B := mul_le_mul_of_nonneg_left (by linarith) hκu0
    have h5 : u * (2 * (x * |L|) + 2 * x) + 4 * u * x ≤ 7 * u * B := by
      rw [hB]; nlinarith [mul_nonneg hu0 hxL, mul_nonneg hu0 hx.le, mul_nonneg hu0 hy.le]
    linarith
  have hB0 : 0 ≤ B := by positivity
  have huB : 0 ≤ u * B := mul_nonneg hu0 hB0
  have hB1 : (κ + 11) * u * B ≤ B := by nlinarith
  have hxL2 : |x * L| = x * |L| := by rw [abs_mul, abs_of_pos hx]
  have hp3 : |p| ≤ x * |L| + B := by
    have h1 := abs_add_le (p - x * L) (x * L)
    rw [sub_add_cancel] at h1
    linarith
  have hpy : |p + y| ≤ 2 * B := by
    have h1 := abs_add_le p y
    rw [abs_of_pos hy] at h1
    linarith
  obtain ⟨s, es, hs⟩ := A.add p y (A.idem _ _ ep) ry (by linarith)
  have hs2 : |s - (x * L + y)| ≤ (κ + 9) * u * B := by
    have h1 : |s - (x * L + y)| ≤ |s - (p + y)| + |(p + y) - (x * L + y)| := abs_sub_le _ _ _
    rw [add_sub_add_right_eq_sub] at h1
    have h2 := mul_le_mul_of_nonneg_left hpy hu0
    linarith
  have hsx : |s - x| ≤ 2 * B := by
    have h1 := abs_add_le (s - (x * L + y)) (x * L + y - x)
    rw [show s - (x * L + y) + (x * L + y - x) = s - x by ring] at h1
    have h2 : |x * L + y - x| ≤ B := by
      have h3 := abs_sub (x * L + y) x
      have h4 := abs_add_le (x * L) y
      rw [abs_of_pos hy] at h4
      rw [abs_of_pos hx] at h3
      linarith
    linarith
  obtain ⟨t, et, ht⟩ := A.add s (-x) (A.idem _ _ es) (A.neg _ rx) (by rw [← sub_eq_add_neg]; linarith)
  rw [← sub_eq_add_neg] at et ht
  refine ⟨q, l, p, s, t, eq, el, ep, es, et, A.idem _ _ et, ?_⟩
  have h1 : |t - (x * L + y - x)| ≤ |t - (s - x)| + |(s - x) - (x * L + y - x)| := abs_sub_le _ _ _
  rw [sub_sub_sub_cancel_right] at h1
  have h2 := mul_le_mul_of_nonneg_left hsx hu0
  linarith

theorem cowanSize_ge {x y : ℝ} (hx : 0 < x) (hy : 0 < y) :
    x ≤ cowanSize x y ∧ |x * Real.log (x / y) + y - x| ≤ cowanSize x y := by
  unfold cowanSize
  have h0 : 0 ≤ x * |Real.log (x / y)| := mul_nonneg hx.le (abs_nonneg _)
  refine ⟨by linarith, ?_⟩
  have h3 := abs_sub (x * Real.log (x / y) + y) x
  have h4 := abs_add_le (x * Real.log (x / y)) y
  rw [abs_of_pos hy, abs_mul, abs_of_pos hx] at h4
  rw [abs_of_pos hx] at h3
  linarith

/-- **C134 (partial).** For positive data and expectations the likelihood-ratio statistic computed with rounding differs from the exact
one by at most a multiple of `u` of the sum of the sizes of its terms; in particular it is not below minus this bound. (Missing: that
it is never negative, which is false, see `C134_refuted`.) -/
theorem C134_cowan_partial (A : Accurate ρ u lo hi) {κ : ℝ} (hκ : 0 ≤ κ) {lg : Fl → Fl} (hlg : LnAccurate ρ u κ lg)
    {sum : Vec → Fl} (hsum : Summation ρ sum) (pval : Fl → Fl → Fl) {n : ℕ} (hn0 : 0 < n)
    (data nu : Fin n → ℝ) (dof : Fl) (hd : ∀ i, Representable ρ (data i)) (hν : ∀ i, Representable ρ (nu i))
    (hpos : ∀ i, 0 < data i ∧ 0 < nu i) (hn : 2 * (n + κ + 11) * u ≤ 1)
    (hlo : ∀ i, lo ≤ data i ∧ lo ≤ data i / nu i) (hhi : ∀ i, data i / nu i ≤ hi)
    (hhi2 : 8 * ∑ i, (data i * |Real.log (data i / nu i)| + data i + nu i) ≤ hi) :
    ∃ chi : ℝ, cowanGofR ρ lg sum pval (vec data) (vec nu) dof =
        .ok (.fin chi, (.fin chi / dof : Fl).rd ρ, pval (.fin chi) dof) ∧
      |chi - 2 * ∑ i, (data i * Real.log (data i / nu i) + nu i - data i)| ≤
        (8 * n + 2 * κ + 32) * u * ∑ i, (data i * |Real.log (data i / nu i)| + data i + nu i) := by
  have hu0 := A.u0
  have hu1 := A.u1
  have hlo0 := A.lo0
  have hnu : 0 ≤ n * u := by positivity
  have hκu : 0 ≤ κ * u := mul_nonneg hκ hu0
  have hsz : ∀ i, data i * |Real.log (data i / nu i)| + data i + nu i = cowanSize (data i) (nu i) := fun _ => rfl
  simp only [hsz] at hhi2 ⊢
  set B := ∑ i, cowanSize (data i) (nu i) with hB
  have hge := fun i => cowanSize_ge (hpos i).1 (hpos i).2
  have hB0 : ∀ i, 0 ≤ cowanSize (data i) (nu i) := fun i => (hpos i).1.le.trans (hge i).1
  have hBi : ∀ i, cowanSize (data i) (nu i) ≤ B := fun i =>
    Finset.single_le_sum (f := fun i => cowanSize (data i) (nu i)) (fun i _ => hB0 i) (Finset.mem_univ i)
  have hBn : 0 ≤ B := Finset.sum_nonneg fun i _ => hB0 i
  have hloB : lo ≤ B := (hlo ⟨0, hn0⟩).1.trans ((hge _).1.trans (hBi _))
  have hterm := fun i => cowan_term_err A hκ (by nlinarith) hlg (hd i) (hν i) (hpos i).1 (hpos i).2 (hlo i).1 (hlo i).2 (hhi i)
    (by linarith [hBi i, hBn])
  choose q l p s t eq el ep es et rt ht using hterm
  set T := fun i => data i * Real.log (data i / nu i) + nu i - data i with hT
  have ht2 : ∀ i, |t i| ≤ 2 * cowanSize (data i) (nu i) := by
    intro i
    have h1 := abs_add_le (t i - T i) (T i)
    rw [sub_add_cancel] at h1
    have h2 := (hge i).2
    have h3 := ht i
    have h4 : (κ + 11) * u * cowanSize (data i) (nu i) ≤ 1 * cowanSize (data i) (nu i) :=
      mul_le_mul_of_nonneg_right (by nlinarith) (hB0 i)
    simp only [hT] at h1
    linarith
  have e1 : ((vec t).map Fl.toReal).sum = ∑ i, t i := by
    rw [show (vec t).map Fl.toReal = List.ofFn t by simp [vec, List.map_ofFn, Function.comp_def, Fl.toReal], List.sum_ofFn]
  have e2 : ((vec t).map fun x => |x.toReal|).sum = ∑ i, |t i| := by
    rw [show ((vec t).map fun x => |x.toReal|) = List.ofFn fun i => |t i| by
      simp [vec, List.map_ofFn, Function.comp_def, Fl.toReal], List.sum_ofFn]
  have hts : ∑ i, |t i| ≤ 2 * B := by
    rw [hB, Finset.mul_sum]; exact Finset.sum_le_sum fun i _ => ht2 i
  have hlen : (vec t).length = n := by simp [vec]
  obtain ⟨S, eS, rS, hS⟩ := sum_err A (hsum (vec t)) (by
    intro x hx
    unfold vec at hx
    obtain ⟨i, rfl⟩ := (List.mem_ofFn' _ _).mp hx
    exact ⟨t i, rfl, rt i⟩) (by rw [hlen]; nlinarith) (by rw [e2]; linarith)
  rw [e1, e2, hlen] at hS
  have hts0 : 0 ≤ ∑ i, |t i| := Finset.sum_nonneg fun i _ => abs_nonneg _
  have hS2 : |S - ∑ i, t i| ≤ 2 * n * u * (2 * B) := by
    have g : (1 + u) ^ (n - 1) - 1 ≤ 2 * n * u := by
      have h1 : (1 + u) ^ (n - 1) ≤ (1 + u) ^ n := pow_le_pow_right₀ (by linarith) (by omega)
      have := growth (k := n) hu0 hu1 (by nlinarith)
      linarith
    exact hS.trans (mul_le_mul g hts hts0 (by positivity))
  have hTt : |∑ i, t i - ∑ i, T i| ≤ (κ + 11) * u * B := by
    rw [← Finset.sum_sub_distrib, hB, Finset.mul_sum]
    exact (Finset.abs_sum_le_sum_abs _ _).trans (Finset.sum_le_sum fun i _ => ht i)
  have hST : |S - ∑ i, T i| ≤ (4 * n + κ + 11) * u * B := by
    have := abs_sub_le S (∑ i, t i) (∑ i, T i)
    linarith
  have hS4 : |S| ≤ 4 * B := by
    have h1 := abs_add_le (S - ∑ i, t i) (∑ i, t i)
    rw [sub_add_cancel] at h1
    have h2 := (Finset.abs_sum_le_sum_abs t Finset.univ).trans hts
    have h3 : 2 * n * u * (2 * B) ≤ 1 * (2 * B) := mul_le_mul_of_nonneg_right (by nlinarith) (by linarith)
    linarith
  obtain ⟨chi, ec, hc⟩ := A.rel (2 * S) (by rw [abs_mul, abs_two]; linarith)
  refine ⟨chi, ?_, ?_⟩
  · unfold cowanGofR
    rw [TF.bop_vec data nu _ q (fun i => by rw [Fl.fin_div _ _ (hpos i).2.ne', rd_fin, eq])]
    show (do
      let l ← bop _ (vec data) (List.map lg (vec q))
      let s ← bop _ l (vec nu)
      let t ← bop _ s (vec data)
      return chi2ResultR ρ pval ((Fl.fin 2 * sum t).rd ρ) dof) = _
    rw [TF.map_vec q _ l el, TF.bop_vec data l _ p (fun i => by rw [Fl.fin_mul, rd_fin, ep])]
    show (do
      let s ← bop _ (vec p) (vec nu)
      let t ← bop _ s (vec data)
      return chi2ResultR ρ pval ((Fl.fin 2 * sum t).rd ρ) dof) = _
    rw [TF.bop_vec p nu _ s (fun i => by rw [Fl.fin_add, rd_fin, es])]
    show (do
      let t ← bop _ (vec s) (vec data)
      return chi2ResultR ρ pval ((Fl.fin 2 * sum t).rd ρ) dof) = _
    rw [TF.bop_vec s data _ t (fun i => by rw [Fl.fin_sub, rd_fin, et])]
    show Except.ok (chi2ResultR ρ pval ((Fl.fin 2 * sum (vec t)).rd ρ) dof) = _
    rw [eS, Fl.fin_mul, rd_fin, ec, chi2ResultR]
  · have h1 : |chi - 2 * ∑ i, T i| ≤ |chi - 2 * S| + |2 * S - 2 * ∑ i, T i| := abs_sub_le _ _ _
    rw [← mul_sub, abs_mul, abs_two] at h1
    have h2 : max |2 * S| lo ≤ 8 * B := max_le (by rw [abs_mul, abs_two]; linarith) (by linarith)
    have h3 := mul_le_mul_of_nonneg_left h2 hu0
    have h4 : 0 ≤ u * B := mul_nonneg hu0 hBn
    have : (8 * n + 2 * κ + 32) * u * B = u * (8 * B) + 2 * ((4 * n + κ + 11) * u * B) + 2 * (u * B) := by ring
    rw [this]
    linarith

end

end TF.Props
