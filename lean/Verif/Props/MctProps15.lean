import Verif.Props.MctProps12

set_option linter.unusedSimpArgs false

/-!
# Which yields minimise the likelihood: the set of best fits, uniqueness (C102), and luminosity scaling (C101)
-/

namespace TF.Spec

open Classical

noncomputable section

/-- yields that minimise the likelihood at the given nuisance parameters among all allowed yields -/
def BestYields (s : Sys) (S : ℕ → ChanSpec) (d : ∀ k, Fin (S k).n → ℝ) (θ : ∀ k, Fin (S k).K → Fin (S k).n → ℝ)
    (ν : String → ℝ) : Prop :=
  Allowed s S d θ ν ∧ ∀ ν', Allowed s S d θ ν' → NllLe s (paramVec s S ν θ) (paramVec s S ν' θ)

/-- total expectation -/
def totalIn (s : Sys) (S : ℕ → ChanSpec) (θ : ∀ k, Fin (S k).K → Fin (S k).n → ℝ) (ν : String → ℝ) : ℝ :=
  ∑ k ∈ Finset.range s.m.channels.length, ∑ i, expectedIn s S ν θ k i

end

end TF.Spec

namespace TF.Props

open Classical Spec

noncomputable section

theorem poissonBin_mid {n e e' : ℝ} (hn : 0 ≤ n) (he : 0 < e ∨ (n = 0 ∧ e = 0)) (he' : 0 < e' ∨ (n = 0 ∧ e' = 0)) :
    poissonBin n (1 / 2 * e + 1 / 2 * e') ≤ 1 / 2 * poissonBin n e + 1 / 2 * poissonBin n e' ∧
    (n ≠ 0 → e ≠ e' → poissonBin n (1 / 2 * e + 1 / 2 * e') < 1 / 2 * poissonBin n e + 1 / 2 * poissonBin n e') := by
  by_cases h : n = 0
  · subst h; simp [poissonBin]
  have he : 0 < e := by rcases he with he | ⟨h', -⟩ <;> [exact he; exact absurd h' h]
  have he' : 0 < e' := by rcases he' with he | ⟨h', -⟩ <;> [exact he; exact absurd h' h]
  have hn : 0 < n := lt_of_le_of_ne hn (Ne.symm h)
  have hm : 0 < 1 / 2 * e + 1 / 2 * e' := by positivity
  simp only [poissonBin, h, if_false]
  rw [Real.log_div he.ne' h, Real.log_div he'.ne' h, Real.log_div hm.ne' h]
  have hs : ∀ x, 0 < x → Real.log x ≤ Real.log (1 / 2 * e + 1 / 2 * e') + (x / (1 / 2 * e + 1 / 2 * e') - 1) := by
    intro x hx
    have := Real.log_le_sub_one_of_pos (div_pos hx hm)
    rw [Real.log_div hx.ne' hm.ne'] at this
    linarith
  have e1 : 1 / 2 * (e / (1 / 2 * e + 1 / 2 * e') - 1) + 1 / 2 * (e' / (1 / 2 * e + 1 / 2 * e') - 1) = 0 := by
    field_simp; ring
  refine ⟨?_, fun _ hne => ?_⟩
  · have := hs e he; have := hs e' he'
    nlinarith
  · have h1 : Real.log e < Real.log (1 / 2 * e + 1 / 2 * e') + (e / (1 / 2 * e + 1 / 2 * e') - 1) := by
      have hd : e / (1 / 2 * e + 1 / 2 * e') ≠ 1 := by
        rw [Ne, div_eq_one_iff_eq hm.ne']; intro hh; apply hne; linarith
      have := Real.log_lt_sub_one_of_pos (div_pos he hm) hd
      rw [Real.log_div he.ne' hm.ne'] at this
      linarith
    have := hs e' he'
    nlinarith

theorem list_sum_mid {α : Type} (l : List α) (f g h : α → ℝ) (hle : ∀ a ∈ l, f a ≤ 1 / 2 * g a + 1 / 2 * h a) :
    (l.map f).sum ≤ 1 / 2 * (l.map g).sum + 1 / 2 * (l.map h).sum ∧
    ((∃ a ∈ l, f a < 1 / 2 * g a + 1 / 2 * h a) → (l.map f).sum < 1 / 2 * (l.map g).sum + 1 / 2 * (l.map h).sum) := by
  induction l with
  | nil => simp
  | cons a l ih =>
    have h1 := hle a (by simp)
    have h2 := ih fun a ha => hle a (by simp [ha])
    simp only [List.map_cons, List.sum_cons]
    refine ⟨by linarith [h2.1], ?_⟩
    rintro ⟨b, hb, hlt⟩
    rcases List.mem_cons.mp hb with rfl | hb
    · linarith [h2.1]
    · have := h2.2 ⟨b, hb, hlt⟩
      linarith

/-- midpoint convexity, strict as soon as two expectations in a bin with data, or two constrained yields, differ -/
theorem nllAt_mid {s : Sys} {S : ℕ → ChanSpec} {d : ∀ k, Fin (S k).n → ℝ} (hd : ∀ k < s.m.chanIds.length, ∀ i, 0 ≤ d k i)
    {V E : String → ℝ} (hc : ConstraintsAre s V E) {θ : ∀ k, Fin (S k).K → Fin (S k).n → ℝ}
    {ν ν' : String → ℝ} (h : Allowed s S d θ ν) (h' : Allowed s S d θ ν')
    (hle : 1 / 2 * nllAt s S d V E θ ν + 1 / 2 * nllAt s S d V E θ ν' ≤
      nllAt s S d V E θ (fun p => 1 / 2 * ν p + 1 / 2 * ν' p)) :
    (∀ k < s.m.chanIds.length, ∀ i, d k i ≠ 0 → expectedIn s S ν θ k i = expectedIn s S ν' θ k i) ∧
    ∀ p ∈ s.m.constrained, ν p = ν' p := by
  have hbin : ∀ k < s.m.chanIds.length, ∀ i, _ := fun k hk i => poissonBin_mid (hd k hk i) (h k hk i) (h' k hk i)
  set P : (String → ℝ) → ℕ → ℝ := fun ν k => (∑ i, poissonBin (d k i) (expectedIn s S ν θ k i)) + penalty (S k).R (θ k) with hP
  set Q : (String → ℝ) → String → ℝ := fun ν p => (ν p - V p) ^ 2 / (2 * E p ^ 2) with hQ
  have hn : ∀ ν, nllAt s S d V E θ ν = ∑ k ∈ Finset.range s.m.chanIds.length, P ν k + (s.m.constrained.map (Q ν)).sum :=
    fun ν => rfl
  set μ : String → ℝ := fun p => 1 / 2 * ν p + 1 / 2 * ν' p with hμ
  have hsum : ∀ k < s.m.chanIds.length, (∑ i, poissonBin (d k i) (expectedIn s S μ θ k i)) ≤
      1 / 2 * (∑ i, poissonBin (d k i) (expectedIn s S ν θ k i)) + 1 / 2 * ∑ i, poissonBin (d k i) (expectedIn s S ν' θ k i) := by
    intro k hk
    rw [Finset.mul_sum, Finset.mul_sum, ← Finset.sum_add_distrib]
    apply Finset.sum_le_sum
    intro i _
    rw [hμ, expectedIn_comb]
    exact (hbin k hk i).1
  have hchan : ∀ k ∈ Finset.range s.m.chanIds.length, P μ k ≤ 1 / 2 * P ν k + 1 / 2 * P ν' k := by
    intro k hk
    have := hsum k (Finset.mem_range.mp hk)
    simp only [hP]; linarith
  have hchans : ∑ k ∈ Finset.range s.m.chanIds.length, P μ k ≤
      1 / 2 * (∑ k ∈ Finset.range s.m.chanIds.length, P ν k) + 1 / 2 * ∑ k ∈ Finset.range s.m.chanIds.length, P ν' k := by
    rw [Finset.mul_sum, Finset.mul_sum, ← Finset.sum_add_distrib]
    exact Finset.sum_le_sum hchan
  have hq : ∀ p ∈ s.m.constrained, Q μ p ≤ 1 / 2 * Q ν p + 1 / 2 * Q ν' p := by
    intro p _
    have : 1 / 2 * Q ν p + 1 / 2 * Q ν' p - Q μ p = (ν p - ν' p) ^ 2 / (8 * E p ^ 2) := by
      simp only [hQ, hμ]
      by_cases he : E p = 0
      · simp [he]
      · field_simp; ring
    have h2 : 0 ≤ (ν p - ν' p) ^ 2 / (8 * E p ^ 2) := by positivity
    linarith
  have hqs := list_sum_mid s.m.constrained (Q μ) (Q ν) (Q ν') hq
  rw [hn, hn, hn] at hle
  constructor
  · intro k hk i hne
    by_contra hcon
    have : ∑ k ∈ Finset.range s.m.chanIds.length, P μ k <
        1 / 2 * (∑ k ∈ Finset.range s.m.chanIds.length, P ν k) + 1 / 2 * ∑ k ∈ Finset.range s.m.chanIds.length, P ν' k := by
      rw [Finset.mul_sum, Finset.mul_sum, ← Finset.sum_add_distrib]
      refine Finset.sum_lt_sum hchan ⟨k, Finset.mem_range.mpr hk, ?_⟩
      have : (∑ i, poissonBin (d k i) (expectedIn s S μ θ k i)) <
          1 / 2 * (∑ i, poissonBin (d k i) (expectedIn s S ν θ k i)) +
          1 / 2 * ∑ i, poissonBin (d k i) (expectedIn s S ν' θ k i) := by
        rw [Finset.mul_sum, Finset.mul_sum, ← Finset.sum_add_distrib]
        refine Finset.sum_lt_sum ?_ ⟨i, Finset.mem_univ _, ?_⟩
        · intro i _
          rw [hμ, expectedIn_comb]
          exact (hbin k hk i).1
        · rw [hμ, expectedIn_comb]
          exact (hbin k hk i).2 hne hcon
      simp only [hP]; linarith
    linarith [hqs.1]
  · intro p hp
    by_contra hcon
    have hlt : Q μ p < 1 / 2 * Q ν p + 1 / 2 * Q ν' p := by
      have : 1 / 2 * Q ν p + 1 / 2 * Q ν' p - Q μ p = (ν p - ν' p) ^ 2 / (8 * E p ^ 2) := by
        simp only [hQ, hμ]
        have he := (hc p hp).2.2.2
        field_simp; ring
      have h2 : 0 < (ν p - ν' p) ^ 2 / (8 * E p ^ 2) := by
        have he := (hc p hp).2.2.2
        have : ν p - ν' p ≠ 0 := sub_ne_zero.mpr hcon
        positivity
      linarith
    have := hqs.2 ⟨p, hp, hlt⟩
    linarith

/-- zero-data bins contribute their expectation -/
theorem poissonBin_split (n e : ℝ) : poissonBin n e = e + (if n = 0 then 0 else - n - n * Real.log (e / n)) := by
  unfold poissonBin; split <;> ring

theorem nllAt_split (s : Sys) (S : ℕ → ChanSpec) (d : ∀ k, Fin (S k).n → ℝ) (V E : String → ℝ)
    (θ : ∀ k, Fin (S k).K → Fin (S k).n → ℝ) (ν : String → ℝ) :
    nllAt s S d V E θ ν = totalIn s S θ ν +
      (∑ k ∈ Finset.range s.m.chanIds.length, ((∑ i, if d k i = 0 then 0 else
        - d k i - d k i * Real.log (expectedIn s S ν θ k i / d k i)) + penalty (S k).R (θ k)) +
      (s.m.constrained.map fun p => (ν p - V p) ^ 2 / (2 * E p ^ 2)).sum) := by
  have hlen : s.m.channels.length = s.m.chanIds.length := by simp [Mct.chanIds]
  unfold nllAt totalIn
  rw [hlen, ← add_assoc, ← Finset.sum_add_distrib]
  congr 1
  apply Finset.sum_congr rfl
  intro k _
  rw [← add_assoc, ← Finset.sum_add_distrib]
  congr 1
  exact Finset.sum_congr rfl fun i _ => poissonBin_split _ _

/-- **C102, the set of best fits.** Let `ν` minimise the likelihood over all allowed yields at fixed nuisance parameters.
Then other allowed yields `ν'` minimise it too exactly if they give the same expectation in every bin with data, the same
constrained yields, and the same total expectation. -/
theorem C102_set (s : Sys) (h : s.Built) (hne : s.m.channels ≠ []) (S : ℕ → ChanSpec) (hS : ModelIs s S)
    (d : ∀ k, Fin (S k).n → ℝ) (hd : DataIs s S d)
    (hpos : ∀ k < s.m.chanIds.length, ∀ i, d k i = 0 ∨ (1e-100 : ℝ) ≤ d k i)
    (V E : String → ℝ) (hc : ConstraintsAre s V E)
    (θ : ∀ k, Fin (S k).K → Fin (S k).n → ℝ) (hT : NonZeroSums s S θ)
    (ν : String → ℝ) (hν : BestYields s S d θ ν) (ν' : String → ℝ) (hν' : Allowed s S d θ ν') :
    BestYields s S d θ ν' ↔
      (∀ k < s.m.chanIds.length, ∀ i, d k i ≠ 0 → expectedIn s S ν' θ k i = expectedIn s S ν θ k i) ∧
      (∀ p ∈ s.m.constrained, ν' p = ν p) ∧ totalIn s S θ ν' = totalIn s S θ ν := by
  have hd0 : ∀ k < s.m.chanIds.length, ∀ i, 0 ≤ d k i := fun k hk i => by
    rcases hpos k hk i with e | e <;> [rw [e]; exact le_trans (by norm_num) e]
  have hval : (∀ k < s.m.chanIds.length, ∀ i, d k i ≠ 0 → expectedIn s S ν' θ k i = expectedIn s S ν θ k i) →
      (∀ p ∈ s.m.constrained, ν' p = ν p) →
      nllAt s S d V E θ ν' - totalIn s S θ ν' = nllAt s S d V E θ ν - totalIn s S θ ν := by
    intro h1 h2
    rw [nllAt_split, nllAt_split, add_sub_cancel_left, add_sub_cancel_left]
    congr 1
    · apply Finset.sum_congr rfl
      intro k hk
      congr 1
      apply Finset.sum_congr rfl
      intro i _
      by_cases e : d k i = 0
      · simp [e]
      · simp only [e, if_false]; rw [h1 k (Finset.mem_range.mp hk) i e]
    · congr 1
      exact List.map_congr_left fun p hp => by rw [h2 p hp]
  constructor
  · intro hb
    have a := (nllLe_iff h hne hS hd hpos hc hT hν.1 hν').mp (hν.2 _ hν')
    have b := (nllLe_iff h hne hS hd hpos hc hT hν' hν.1).mp (hb.2 _ hν.1)
    have hm : Allowed s S d θ (fun p => 1 / 2 * ν p + 1 / 2 * ν' p) := by
      have := allowed_comb hν.1 hν' (t := 1 / 2) (by norm_num) (by norm_num)
      have e : (1 - 1 / 2 : ℝ) = 1 / 2 := by norm_num
      rwa [e] at this
    have c := (nllLe_iff h hne hS hd hpos hc hT hν.1 hm).mp (hν.2 _ hm)
    obtain ⟨h1, h2⟩ := nllAt_mid hd0 hc hν.1 hν' (by linarith)
    have h1' : ∀ k < s.m.chanIds.length, ∀ i, d k i ≠ 0 → expectedIn s S ν' θ k i = expectedIn s S ν θ k i :=
      fun k hk i e => (h1 k hk i e).symm
    have h2' : ∀ p ∈ s.m.constrained, ν' p = ν p := fun p hp => (h2 p hp).symm
    refine ⟨h1', h2', ?_⟩
    have := hval h1' h2'
    linarith
  · rintro ⟨h1, h2, h3⟩
    refine ⟨hν', fun ν'' hν'' => ?_⟩
    rw [nllLe_iff h hne hS hd hpos hc hT hν' hν'']
    have := (nllLe_iff h hne hS hd hpos hc hT hν.1 hν'').mp (hν.2 _ hν'')
    have e := hval h1 h2
    linarith

/-- **C102, uniqueness.** If no non-trivial change of the yields leaves the expectation of all bins with data, the
constrained yields and the total expectation unchanged, two best fits have the same yields. -/
theorem C102_unique (s : Sys) (h : s.Built) (hne : s.m.channels ≠ []) (S : ℕ → ChanSpec) (hS : ModelIs s S)
    (d : ∀ k, Fin (S k).n → ℝ) (hd : DataIs s S d)
    (hpos : ∀ k < s.m.chanIds.length, ∀ i, d k i = 0 ∨ (1e-100 : ℝ) ≤ d k i)
    (V E : String → ℝ) (hc : ConstraintsAre s V E)
    (θ : ∀ k, Fin (S k).K → Fin (S k).n → ℝ) (hT : NonZeroSums s S θ)
    (hid : ∀ δ : String → ℝ, (∀ k < s.m.chanIds.length, ∀ i, d k i ≠ 0 → expectedIn s S δ θ k i = 0) →
      (∀ p ∈ s.m.constrained, δ p = 0) → totalIn s S θ δ = 0 → ∀ p ∈ s.m.processes, δ p = 0)
    (ν ν' : String → ℝ) (hν : BestYields s S d θ ν) (hν' : BestYields s S d θ ν') :
    ∀ p ∈ s.m.processes, ν p = ν' p := by
  obtain ⟨h1, h2, h3⟩ := (C102_set s h hne S hS d hd hpos V E hc θ hT ν hν ν' hν'.1).mp hν'
  have e : ∀ k i, expectedIn s S (fun p => ν' p - ν p) θ k i = expectedIn s S ν' θ k i - expectedIn s S ν θ k i := by
    intro k i
    have := expectedIn_comb s S ν' ν θ 1 (-1) k i
    have e : (fun p => ν' p - ν p) = fun p => 1 * ν' p + -1 * ν p := by funext p; ring
    rw [e, this]; ring
  intro p hp
  have := hid (fun p => ν' p - ν p) (fun k hk i hn => by rw [e, h1 k hk i hn, sub_self])
    (fun p hp => by rw [h2 p hp, sub_self]) (by
      have : totalIn s S θ (fun p => ν' p - ν p) = totalIn s S θ ν' - totalIn s S θ ν := by
        unfold totalIn
        simp only [e, Finset.sum_sub_distrib]
      rw [this, h3, sub_self]) p hp
  linarith

/-- **C102, no uniqueness otherwise.** If a non-trivial change of the yields leaves all of these unchanged, every best fit
with positive expectations in all bins lies on a line segment of best fits. -/
theorem C102_flat (s : Sys) (h : s.Built) (hne : s.m.channels ≠ []) (S : ℕ → ChanSpec) (hS : ModelIs s S)
    (d : ∀ k, Fin (S k).n → ℝ) (hd : DataIs s S d)
    (hpos : ∀ k < s.m.chanIds.length, ∀ i, d k i = 0 ∨ (1e-100 : ℝ) ≤ d k i)
    (V E : String → ℝ) (hc : ConstraintsAre s V E)
    (θ : ∀ k, Fin (S k).K → Fin (S k).n → ℝ) (hT : NonZeroSums s S θ)
    (δ : String → ℝ) (h1 : ∀ k < s.m.chanIds.length, ∀ i, d k i ≠ 0 → expectedIn s S δ θ k i = 0)
    (h2 : ∀ p ∈ s.m.constrained, δ p = 0) (h3 : totalIn s S θ δ = 0)
    (ν : String → ℝ) (hν : BestYields s S d θ ν) (hE : ∀ k < s.m.chanIds.length, ∀ i, 0 < expectedIn s S ν θ k i) :
    ∃ r : ℝ, 0 < r ∧ ∀ t : ℝ, |t| < r → BestYields s S d θ (fun p => ν p + t * δ p) := by
  have hcomb : ∀ (t : ℝ) k i, expectedIn s S (fun p => ν p + t * δ p) θ k i =
      expectedIn s S ν θ k i + t * expectedIn s S δ θ k i := by
    intro t k i
    have := expectedIn_comb s S ν δ θ 1 t k i
    simpa using this
  have hall : ∀ᶠ t in nhds (0 : ℝ), ∀ k ∈ Finset.range s.m.chanIds.length, ∀ i,
      0 < expectedIn s S (fun p => ν p + t * δ p) θ k i := by
    rw [Filter.eventually_all_finset]
    intro k hk
    rw [Filter.eventually_all]
    intro i
    simp only [hcomb]
    have : Continuous (fun t : ℝ => expectedIn s S ν θ k i + t * expectedIn s S δ θ k i) := by fun_prop
    apply this.continuousAt.eventually_const_lt
    simpa using hE k (Finset.mem_range.mp hk) i
  obtain ⟨r, hr, hb⟩ := Metric.eventually_nhds_iff.mp hall
  refine ⟨r, hr, fun t ht => ?_⟩
  have hA : Allowed s S d θ (fun p => ν p + t * δ p) := fun k hk i =>
    Or.inl (hb (by rwa [Real.dist_eq, sub_zero]) k (Finset.mem_range.mpr hk) i)
  refine (C102_set s h hne S hS d hd hpos V E hc θ hT ν hν _ hA).mpr ⟨?_, ?_, ?_⟩
  · intro k hk i hn
    rw [hcomb, h1 k hk i hn, mul_zero, add_zero]
  · intro p hp
    rw [h2 p hp, mul_zero, add_zero]
  · have : totalIn s S θ (fun p => ν p + t * δ p) = totalIn s S θ ν + t * totalIn s S θ δ := by
      unfold totalIn
      simp only [hcomb, Finset.sum_add_distrib, ← Finset.mul_sum]
    rw [this, h3, mul_zero, add_zero]

/-! ### luminosity -/

theorem poissonBin_scale {c : ℝ} (hc : c ≠ 0) (n e : ℝ) : poissonBin (c * n) (c * e) = c * poissonBin n e := by
  unfold poissonBin
  by_cases h : n = 0
  · simp [h]
  · rw [if_neg (mul_ne_zero hc h), if_neg h, mul_div_mul_left _ _ hc]; ring

/-- **C101.** Two models without constraints that are described by the same templates, one with data `d` and one with data
`c·d` (`c > 0`): for fixed nuisance parameters, the likelihoods differ at corresponding yields `ν` and `c·ν` by the factor
`c` in the Poisson part, -/
theorem C101_value (s s' : Sys) (h : s.Built) (h' : s'.Built) (hne : s.m.channels ≠ []) (S : ℕ → ChanSpec)
    (hS : ModelIs s S) (hS' : ModelIs s' S) (hlen : s'.m.channels.length = s.m.channels.length)
    (hname : ∀ k < s.m.channels.length, ∀ j : Fin (S k).K, procName s' k j = procName s k j)
    (d : ∀ k, Fin (S k).n → ℝ) (c : ℝ) (hc : 0 < c) (hd : DataIs s S d) (hd' : DataIs s' S fun k i => c * d k i)
    (hpos : ∀ k < s.m.channels.length, ∀ i, d k i = 0 ∨ ((1e-100 : ℝ) ≤ d k i ∧ (1e-100 : ℝ) ≤ c * d k i))
    (hnc : s.m.constrained = []) (hnc' : s'.m.constrained = [])
    (θ : ∀ k, Fin (S k).K → Fin (S k).n → ℝ) (hT : NonZeroSums s S θ)
    (ν : String → ℝ) (hν : Allowed s S d θ ν) :
    ∃ a : ℝ, objective s.w s.m (paramVec s S ν θ) = .ok (.fin a) ∧
      objective s'.w s'.m (paramVec s' S (fun p => c * ν p) θ) =
        .ok (.fin (c * a + (1 - c) * ∑ k ∈ Finset.range s.m.channels.length, penalty (S k).R (θ k))) := by
  have l1 : s.m.chanIds.length = s.m.channels.length := by simp [Mct.chanIds]
  have l2 : s'.m.chanIds.length = s.m.channels.length := by rw [← hlen]; simp [Mct.chanIds]
  have hexp : ∀ k < s.m.channels.length, ∀ i, expectedIn s' S (fun p => c * ν p) θ k i = c * expectedIn s S ν θ k i := by
    intro k hk i
    rw [expectedIn_eq, expectedIn_eq, Finset.mul_sum]
    exact Finset.sum_congr rfl fun j _ => by rw [hname k hk j]; ring
  have c1 : ConstraintsAre s (fun _ => 0) (fun _ => 0) := by intro p hp; rw [hnc] at hp; simp at hp
  have c2 : ConstraintsAre s' (fun _ => 0) (fun _ => 0) := by intro p hp; rw [hnc'] at hp; simp at hp
  refine ⟨_, objective_nllAt h hne hS hd (fun k hk i => (hpos k (l1 ▸ hk) i).imp_right (·.1)) c1 hT hν, ?_⟩
  have hne' : s'.m.channels ≠ [] := by
    intro e; apply hne; rw [e] at hlen; exact List.length_eq_zero_iff.mp hlen.symm
  rw [objective_nllAt h' hne' hS' hd' (fun k hk i => by
    rcases hpos k (l2 ▸ hk) i with e | e
    · left; rw [e, mul_zero]
    · right; exact e.2) c2 (fun k hk => hT k (by rw [l1]; rwa [l2] at hk)) (fun k hk i => by
      rw [l2] at hk
      rw [hexp k hk i]
      rcases hν k (l1 ▸ hk) i with e | ⟨e, e'⟩
      · left; positivity
      · right; rw [e, e', mul_zero]; exact ⟨rfl, rfl⟩)]
  congr 2
  unfold nllAt
  rw [hnc, hnc', l1, l2]
  simp only [List.map_nil, List.sum_nil, add_zero]
  rw [Finset.mul_sum, Finset.mul_sum, ← Finset.sum_add_distrib]
  apply Finset.sum_congr rfl
  intro k hk
  have : ∑ i, poissonBin (c * d k i) (expectedIn s' S (fun p => c * ν p) θ k i) =
      c * ∑ i, poissonBin (d k i) (expectedIn s S ν θ k i) := by
    rw [Finset.mul_sum]
    exact Finset.sum_congr rfl fun i _ => by rw [hexp k (Finset.mem_range.mp hk) i, poissonBin_scale hc.ne']
  rw [this]; ring

/-- … so the best-fit yields at fixed nuisance parameters scale with the data. -/
theorem C101_best (s s' : Sys) (h : s.Built) (h' : s'.Built) (hne : s.m.channels ≠ []) (S : ℕ → ChanSpec)
    (hS : ModelIs s S) (hS' : ModelIs s' S) (hlen : s'.m.channels.length = s.m.channels.length)
    (hname : ∀ k < s.m.channels.length, ∀ j : Fin (S k).K, procName s' k j = procName s k j)
    (d : ∀ k, Fin (S k).n → ℝ) (c : ℝ) (hc : 0 < c) (hd : DataIs s S d) (hd' : DataIs s' S fun k i => c * d k i)
    (hpos : ∀ k < s.m.channels.length, ∀ i, d k i = 0 ∨ ((1e-100 : ℝ) ≤ d k i ∧ (1e-100 : ℝ) ≤ c * d k i))
    (hnc : s.m.constrained = []) (hnc' : s'.m.constrained = [])
    (θ : ∀ k, Fin (S k).K → Fin (S k).n → ℝ) (hT : NonZeroSums s S θ) (ν : String → ℝ) :
    BestYields s' S (fun k i => c * d k i) θ (fun p => c * ν p) ↔ BestYields s S d θ ν := by
  have l1 : s.m.chanIds.length = s.m.channels.length := by simp [Mct.chanIds]
  have l2 : s'.m.chanIds.length = s.m.channels.length := by rw [← hlen]; simp [Mct.chanIds]
  have hexp : ∀ ν : String → ℝ, ∀ k < s.m.channels.length, ∀ i,
      expectedIn s' S (fun p => c * ν p) θ k i = c * expectedIn s S ν θ k i := by
    intro ν k hk i
    rw [expectedIn_eq, expectedIn_eq, Finset.mul_sum]
    exact Finset.sum_congr rfl fun j _ => by rw [hname k hk j]; ring
  have hall : ∀ ν : String → ℝ, Allowed s' S (fun k i => c * d k i) θ (fun p => c * ν p) ↔ Allowed s S d θ ν := by
    intro ν
    have key : ∀ k < s.m.channels.length, ∀ i, (0 < expectedIn s' S (fun p => c * ν p) θ k i ∨
        (c * d k i = 0 ∧ expectedIn s' S (fun p => c * ν p) θ k i = 0)) ↔
        (0 < expectedIn s S ν θ k i ∨ (d k i = 0 ∧ expectedIn s S ν θ k i = 0)) := by
      intro k hk i
      rw [hexp ν k hk i]
      simp [hc, hc.ne', mul_pos_iff_of_pos_left]
    constructor
    · intro H k hk i
      exact (key k (l1 ▸ hk) i).mp (H k (by rw [l2]; rwa [l1] at hk) i)
    · intro H k hk i
      exact (key k (l2 ▸ hk) i).mpr (H k (by rw [l1]; rwa [l2] at hk) i)
  have hle : ∀ ν ν' : String → ℝ, Allowed s S d θ ν → Allowed s S d θ ν' →
      (NllLe s' (paramVec s' S (fun p => c * ν p) θ) (paramVec s' S (fun p => c * ν' p) θ) ↔
        NllLe s (paramVec s S ν θ) (paramVec s S ν' θ)) := by
    intro ν ν' hν hν'
    obtain ⟨a, ea, ea'⟩ := C101_value s s' h h' hne S hS hS' hlen hname d c hc hd hd' hpos hnc hnc' θ hT ν hν
    obtain ⟨b, eb, eb'⟩ := C101_value s s' h h' hne S hS hS' hlen hname d c hc hd hd' hpos hnc hnc' θ hT ν' hν'
    constructor
    · rintro ⟨x, y, hx, hy, hxy⟩
      rw [ea'] at hx; rw [eb'] at hy
      have hx := Fl.fin.inj (Except.ok.inj hx)
      have hy := Fl.fin.inj (Except.ok.inj hy)
      refine ⟨a, b, ea, eb, ?_⟩
      have : c * a ≤ c * b := by linarith
      exact le_of_mul_le_mul_left this hc
    · rintro ⟨x, y, hx, hy, hxy⟩
      rw [ea] at hx; rw [eb] at hy
      have hx := Fl.fin.inj (Except.ok.inj hx)
      have hy := Fl.fin.inj (Except.ok.inj hy)
      subst hx hy
      refine ⟨_, _, ea', eb', ?_⟩
      have := mul_le_mul_of_nonneg_left hxy hc.le
      linarith
  constructor
  · rintro ⟨h1, h2⟩
    refine ⟨(hall ν).mp h1, fun ν' hν' => ?_⟩
    exact (hle ν ν' ((hall ν).mp h1) hν').mp (h2 _ ((hall ν').mpr hν'))
  · rintro ⟨h1, h2⟩
    refine ⟨(hall ν).mpr h1, fun ν' hν' => ?_⟩
    have e : ν' = fun p => c * (c⁻¹ * ν' p) := by funext p; field_simp
    rw [e] at hν' ⊢
    have hν'' := (hall fun p => c⁻¹ * ν' p).mp hν'
    exact (hle ν _ h1 hν'').mpr (h2 _ hν'')

end

end TF.Props

/-! ### the example of C88: data 3, 5 and twice as much -/

namespace TF.Props

open Classical Spec

noncomputable section

namespace Ex

def ops610 : List Op :=
  [.binned1 ⟨[2], vec ![1, 1]⟩ ⟨true, [0, 1, 2]⟩ (some ⟨[2], vec ![1, 1]⟩),
   .binned1 ⟨[2], vec ![6, 10]⟩ ⟨true, [0, 1, 2]⟩ (some ⟨[2], vec ![1, 1]⟩), .newTmpl1 "t" 0,
   .defineChannel "a" (.int 2) (.d1 .tuple 0 2), .defineProcess "p", .addTemplate "a" "p" 0 (.fin 1),
   .addData [("a", 1)]]

def w610 : World :=
  { World.init with
    hists := Function.update (Function.update (fun _ => dummyHist) 0 (bh ![1, 1] ![1, 1])) 1 (bh ![6, 10] ![1, 1])
    nHists := 2
    tmpls := Function.update (fun _ => dummyTmpl) 0 (bt "t" 0 ![1, 1] ![1, 1])
    nTmpls := 1
    chans := Function.update (fun _ => dummyChan) 0 chZ
    nChans := 1 }

def sys610 : Sys := ⟨w610, mZ⟩

theorem run610 : Sys.init.run ops610 = sys610 := by
  simp only [ops610, Sys.run, List.foldl_cons, List.foldl_nil, Sys.step, bh_eq, Sys.allocHist, World.newHist,
    Sys.init, World.init, Sys.allocTmpl, World.newTmpl]
  simp [bt_eq, Sys.allocTmpl, World.newTmpl, Function.update_apply]
  simp [Mct.defineChannel, Mct.defineProcess,
    Mct.addTemplate, World.addTemplate, Mct.empty, World.newChan, dictSet, dictGet, Mct.addData, World.addData,
    World.setChan, Channel.new, Channel.addTemplate, Channel.checkTemplate, Channel.procs, bt, bh,
    Hist.setBinned, Hist.blank, ChanBins.toTuple, Channel.addData, Channel.checkHist, sys610, w610, mZ, chZ,
    World.init, Function.update_apply]

theorem sys610_built : sys610.Built := by
  refine ⟨_, setupFirst_of_noEval ?_, run610⟩
  intro o ho
  simp only [ops610, List.mem_cons, List.not_mem_nil, or_false] at ho
  rcases ho with rfl | rfl | rfl | rfl | rfl | rfl | rfl <;> exact id

theorem model610 : ModelIs sys610 SZ := by
  intro k hk
  have : k = 0 := by simpa [sys610, mZ, Mct.chanIds] using hk
  subst this
  refine ⟨Nat.one_pos, Nat.two_pos, fun _ => Matrix.PosDef.one, ?_⟩
  exact chanIs_single w610 0 (by simp [w610]) "p" 0 1 "t" 0 ![1, 1] ![1, 1] (by intro i; fin_cases i <;> simp)
      (by intro i; fin_cases i <;> simp) (by simp [w610, chZ]) (by simp [w610, chZ]) (by simp [w610, chZ]) (by simp [w610])

theorem data610 : DataIs sys610 SZ fun k i => 2 * d35 k i := by
  intro k hk
  have : k = 0 := by simpa [sys610, mZ, Mct.chanIds] using hk
  subst this
  refine ⟨1, by simp [sys610, mZ, Mct.chanIds, w610, chZ], ?_⟩
  show (w610.hists 1).counts.data = vec (fun i : Fin 2 => 2 * (![3, 5] : Fin 2 → ℝ) i)
  simp [w610, bh, Hist.setBinned, vec, List.ofFn_succ]
  norm_num

theorem best35 : BestYields sys35 SZ d35 (fun _ _ _ => 0) (fun _ => 8) :=
  ⟨allowed35 8 (by norm_num), fun ν' hν' =>
    C88_score_sufficient Ex.sys35 Ex.sys35_built (by simp [Ex.sys35, Ex.mZ]) Ex.SZ Ex.model35 Ex.d35 Ex.data35
      (fun k _ i => Ex.d35_pos k i) (fun _ => 0) (fun _ => 1) (by intro p hp; simp [Ex.sys35, Ex.mZ] at hp) _ Ex.sums35
      _ (Ex.allowed35 8 (by norm_num)) Ex.score35 _ hν'⟩

theorem exp35' (ν : String → ℝ) (i : Fin 2) : expectedIn sys35 SZ ν (fun _ _ _ => 0) 0 i = ν "p" / 2 := by
  have hpn : procName sys35 0 0 = "p" := by simp [procName, sys35, mZ, Mct.chanIds, w35, chZ]
  show ∑ j : Fin 1, ν (procName sys35 0 j) * 1 * fracIn SZ (fun _ _ _ => 0) 0 j i = _
  rw [Fin.sum_univ_one, frac35]
  simp only [Fin.val_zero, hpn]
  ring

end Ex

/-- non-vacuity of C102: in the example, every best fit has yield 8 -/
example (ν : String → ℝ) (hν : BestYields Ex.sys35 Ex.SZ Ex.d35 (fun _ _ _ => 0) ν) : ν "p" = 8 := by
  refine (C102_unique Ex.sys35 Ex.sys35_built (by simp [Ex.sys35, Ex.mZ]) Ex.SZ Ex.model35 Ex.d35 Ex.data35
    (fun k _ i => Ex.d35_pos k i) (fun _ => 0) (fun _ => 1) (by intro p hp; simp [Ex.sys35, Ex.mZ] at hp) _ Ex.sums35
    ?_ (fun _ => 8) ν Ex.best35 hν "p" (by simp [Ex.sys35, Ex.mZ])).symm
  intro δ h1 _ _ p hp
  have : p = "p" := by simpa [Ex.sys35, Ex.mZ] using hp
  subst this
  have := h1 0 (by simp [Ex.sys35, Ex.mZ, Mct.chanIds]) (0 : Fin 2) (by
    show (![3, 5] : Fin 2 → ℝ) 0 ≠ 0
    simp)
  have := (Ex.exp35' δ (0 : Fin 2)).symm.trans this
  linarith

/-- non-vacuity of C101: with twice the data the best fit is 16 -/
example : BestYields Ex.sys610 Ex.SZ (fun k i => 2 * Ex.d35 k i) (fun _ _ _ => 0) (fun _ => 2 * 8) := by
  refine (C101_best Ex.sys35 Ex.sys610 Ex.sys35_built Ex.sys610_built (by simp [Ex.sys35, Ex.mZ]) Ex.SZ Ex.model35
    Ex.model610 rfl ?_ Ex.d35 2 (by norm_num) Ex.data35 Ex.data610 ?_ rfl rfl _ Ex.sums35 _).mpr Ex.best35
  · intro k hk j
    have : k = 0 := by simpa [Ex.sys35, Ex.mZ] using hk
    subst this
    simp [procName, Ex.sys35, Ex.sys610, Ex.mZ, Mct.chanIds, Ex.w35, Ex.w610, Ex.chZ]
  · intro k hk i
    right
    have : ∀ i : Fin 2, (1e-100 : ℝ) ≤ (![3, 5] : Fin 2 → ℝ) i ∧ (1e-100 : ℝ) ≤ 2 * (![3, 5] : Fin 2 → ℝ) i := by
      intro i; fin_cases i <;> norm_num
    exact this i

end

end TF.Props
