import Verif.Props.FitterProps9

set_option linter.unusedSimpArgs false

/-!
# Channels without common processes are fitted independently (C111)
-/

namespace TF.Spec

open Classical

noncomputable section

/-- no process has templates both in a channel of the group `A` and in a channel outside of it -/
def NoCommonProcess (s : Sys) (S : ℕ → ChanSpec) (A : ℕ → Prop) : Prop :=
  ∀ k < s.m.chanIds.length, ∀ k' < s.m.chanIds.length, A k → ¬ A k' →
    ∀ (j : Fin (S k).K) (j' : Fin (S k').K), procName s k j ≠ procName s k' j'

/-- `p` has a template in a channel of the group `A` -/
def ProcessOf (s : Sys) (S : ℕ → ChanSpec) (A : ℕ → Prop) (p : String) : Prop :=
  ∃ k < s.m.chanIds.length, A k ∧ ∃ j : Fin (S k).K, procName s k j = p

/-- the yields of the processes of group `A` from `ν`, the other ones from `ν'` -/
def mixYields (s : Sys) (S : ℕ → ChanSpec) (A : ℕ → Prop) (ν ν' : String → ℝ) : String → ℝ :=
  fun p => if ProcessOf s S A p then ν p else ν' p

/-- the nuisance parameters of the channels of group `A` from `θ`, the other ones from `θ'` -/
def mixNui (S : ℕ → ChanSpec) (A : ℕ → Prop) (θ θ' : ∀ k, Fin (S k).K → Fin (S k).n → ℝ) :
    ∀ k, Fin (S k).K → Fin (S k).n → ℝ :=
  fun k => if A k then θ k else θ' k

/-- `(ν, θ)` is a best fit: the likelihood is a number there, and at most its value at any other point where it is one -/
def BestFit (s : Sys) (S : ℕ → ChanSpec) (ν : String → ℝ) (θ : ∀ k, Fin (S k).K → Fin (S k).n → ℝ) : Prop :=
  ∃ a : ℝ, objective s.w s.m (paramVec s S ν θ) = .ok (.fin a) ∧
    ∀ x (b : ℝ), x.length = s.m.numProcesses + s.m.numNui s.w → objective s.w s.m x = .ok (.fin b) → a ≤ b

end

end TF.Spec

namespace TF.Props

open Classical Spec
open scoped Matrix

noncomputable section

/-- contribution of a group of channels and of the constraints on its processes -/
def nllPart (s : Sys) (S : ℕ → ChanSpec) (d : ∀ k, Fin (S k).n → ℝ) (V E : String → ℝ) (A : ℕ → Prop) (P : String → Prop)
    (θ : ∀ k, Fin (S k).K → Fin (S k).n → ℝ) (ν : String → ℝ) : ℝ :=
  (∑ k ∈ Finset.range s.m.chanIds.length,
    if A k then (∑ i, poissonBin (d k i) (expectedIn s S ν θ k i)) + penalty (S k).R (θ k) else 0) +
  (s.m.constrained.map fun p => if P p then (ν p - V p) ^ 2 / (2 * E p ^ 2) else 0).sum

theorem nllAt_groups (s : Sys) (S : ℕ → ChanSpec) (d : ∀ k, Fin (S k).n → ℝ) (V E : String → ℝ) (A : ℕ → Prop)
    (P : String → Prop) (θ : ∀ k, Fin (S k).K → Fin (S k).n → ℝ) (ν : String → ℝ) :
    nllAt s S d V E θ ν = nllPart s S d V E A P θ ν + nllPart s S d V E (fun k => ¬ A k) (fun p => ¬ P p) θ ν := by
  unfold nllAt nllPart
  have h1 : ∑ k ∈ Finset.range s.m.chanIds.length,
      ((∑ i, poissonBin (d k i) (expectedIn s S ν θ k i)) + penalty (S k).R (θ k)) =
      (∑ k ∈ Finset.range s.m.chanIds.length,
        if A k then (∑ i, poissonBin (d k i) (expectedIn s S ν θ k i)) + penalty (S k).R (θ k) else 0) +
      ∑ k ∈ Finset.range s.m.chanIds.length,
        if ¬ A k then (∑ i, poissonBin (d k i) (expectedIn s S ν θ k i)) + penalty (S k).R (θ k) else 0 := by
    rw [← Finset.sum_add_distrib]
    refine Finset.sum_congr rfl fun k _ => ?_
    by_cases h : A k <;> simp [h]
  have h2 : (s.m.constrained.map fun p => (ν p - V p) ^ 2 / (2 * E p ^ 2)).sum =
      (s.m.constrained.map fun p => if P p then (ν p - V p) ^ 2 / (2 * E p ^ 2) else 0).sum +
      (s.m.constrained.map fun p => if ¬ P p then (ν p - V p) ^ 2 / (2 * E p ^ 2) else 0).sum := by
    rw [← list_sum_add]
    congr 1
    refine List.map_congr_left fun p _ => ?_
    by_cases h : P p <;> simp [h]
  rw [h1, h2, add_add_add_comm]
  congr!

section
variable {s : Sys} {S : ℕ → ChanSpec} {d : ∀ k, Fin (S k).n → ℝ} {V E : String → ℝ} {A : ℕ → Prop}

theorem expectedIn_congr {ν ν' : String → ℝ} {θ θ' : ∀ k, Fin (S k).K → Fin (S k).n → ℝ} {k : ℕ}
    (h : ∀ j : Fin (S k).K, ν (procName s k j) = ν' (procName s k j)) (h' : θ k = θ' k) (i : Fin (S k).n) :
    expectedIn s S ν θ k i = expectedIn s S ν' θ' k i := by
  unfold expectedIn
  rw [h', show (fun j : Fin (S k).K => ν (procName s k j)) = fun j : Fin (S k).K => ν' (procName s k j) from funext h]

theorem nllPart_congr {P : String → Prop} {ν ν' : String → ℝ} {θ θ' : ∀ k, Fin (S k).K → Fin (S k).n → ℝ}
    (h1 : ∀ k < s.m.chanIds.length, A k → θ k = θ' k)
    (h2 : ∀ k < s.m.chanIds.length, A k → ∀ j : Fin (S k).K, ν (procName s k j) = ν' (procName s k j))
    (h3 : ∀ p, P p → ν p = ν' p) : nllPart s S d V E A P θ ν = nllPart s S d V E A P θ' ν' := by
  unfold nllPart
  congr 1
  · refine Finset.sum_congr rfl fun k hk => ?_
    have hk := Finset.mem_range.mp hk
    by_cases hA : A k
    · rw [if_pos hA, if_pos hA, h1 k hk hA]
      congr 1
      exact Finset.sum_congr rfl fun i _ => by rw [expectedIn_congr (h2 k hk hA) (h1 k hk hA)]
    · rw [if_neg hA, if_neg hA]
  · congr 1
    refine List.map_congr_left fun p _ => ?_
    by_cases hp : P p
    · rw [if_pos hp, if_pos hp, h3 p hp]
    · rw [if_neg hp, if_neg hp]

theorem mix_in (ν ν' : String → ℝ) {k : ℕ} (hk : k < s.m.chanIds.length) (hA : A k) (j : Fin (S k).K) :
    mixYields s S A ν ν' (procName s k j) = ν (procName s k j) :=
  if_pos ⟨k, hk, hA, j, rfl⟩

theorem mix_out (hN : NoCommonProcess s S A) (ν ν' : String → ℝ) {k : ℕ} (hk : k < s.m.chanIds.length) (hA : ¬ A k)
    (j : Fin (S k).K) : mixYields s S A ν ν' (procName s k j) = ν' (procName s k j) := by
  refine if_neg ?_
  rintro ⟨k', hk', hA', j', e⟩
  exact hN k' hk' k hk hA' hA j' j e

theorem mixNui_in (θ θ' : ∀ k, Fin (S k).K → Fin (S k).n → ℝ) {k : ℕ} (hA : A k) : mixNui S A θ θ' k = θ k := if_pos hA

theorem mixNui_out (θ θ' : ∀ k, Fin (S k).K → Fin (S k).n → ℝ) {k : ℕ} (hA : ¬ A k) : mixNui S A θ θ' k = θ' k := if_neg hA

theorem mix_sums {θ θ' : ∀ k, Fin (S k).K → Fin (S k).n → ℝ} (h : NonZeroSums s S θ) (h' : NonZeroSums s S θ') :
    NonZeroSums s S (mixNui S A θ θ') := by
  intro k hk
  by_cases hA : A k
  · rw [mixNui_in θ θ' hA]; exact h k hk
  · rw [mixNui_out θ θ' hA]; exact h' k hk

theorem mix_covered (hN : NoCommonProcess s S A) {θ θ' : ∀ k, Fin (S k).K → Fin (S k).n → ℝ} {ν ν' : String → ℝ}
    {d' : ∀ k, Fin (S k).n → ℝ} (hd : ∀ k < s.m.chanIds.length, A k → d k = d' k)
    (h : DataCovered s S d θ ν) (h' : DataCovered s S d' θ' ν') :
    DataCovered s S d' (mixNui S A θ θ') (mixYields s S A ν ν') := by
  intro k hk i hdi
  by_cases hA : A k
  · rw [expectedIn_congr (mix_in ν ν' hk hA) (mixNui_in θ θ' hA)]
    exact h k hk i (by rw [hd k hk hA]; exact hdi)
  · rw [expectedIn_congr (mix_out hN ν ν' hk hA) (mixNui_out θ θ' hA)]
    exact h' k hk i hdi

theorem nllAt_mix (hN : NoCommonProcess s S A) (θ θ' : ∀ k, Fin (S k).K → Fin (S k).n → ℝ) (ν ν' : String → ℝ) :
    nllAt s S d V E (mixNui S A θ θ') (mixYields s S A ν ν') =
      nllPart s S d V E A (ProcessOf s S A) θ ν +
        nllPart s S d V E (fun k => ¬ A k) (fun p => ¬ ProcessOf s S A p) θ' ν' := by
  rw [nllAt_groups s S d V E A (ProcessOf s S A)]
  congr 1
  · exact nllPart_congr (fun k _ hA => mixNui_in θ θ' hA) (fun k hk hA j => mix_in ν ν' hk hA j) (fun p hp => if_pos hp)
  · exact nllPart_congr (fun k _ hA => mixNui_out θ θ' hA) (fun k hk hA j => mix_out hN ν ν' hk hA j) (fun p hp => if_neg hp)

end

/-- **C111, the likelihood separates.** Split the channels of a model into a group `A` and the rest, such that no process has
templates in both. Take two points at which the likelihood is a number. Exchange between them the parameters of the group:
the yields of its processes and the nuisance parameters of its channels. The likelihood is a number at both new points, and the
sum of the two values does not change. -/
theorem C111_exchange (s : Sys) (h : s.Built) (hne : s.m.channels ≠ []) (S : ℕ → ChanSpec) (hS : ModelIs s S)
    (d : ∀ k, Fin (S k).n → ℝ) (hd : DataIs s S d)
    (hpos : ∀ k < s.m.chanIds.length, ∀ i, d k i = 0 ∨ (1e-100 : ℝ) ≤ d k i)
    (V E : String → ℝ) (hc : ConstraintsAre s V E) (A : ℕ → Prop) (hN : NoCommonProcess s S A)
    (ν ν' : String → ℝ) (θ θ' : ∀ k, Fin (S k).K → Fin (S k).n → ℝ)
    (hT : NonZeroSums s S θ) (hT' : NonZeroSums s S θ') (hE : DataCovered s S d θ ν) (hE' : DataCovered s S d θ' ν') :
    ∃ a b a' b' : ℝ, objective s.w s.m (paramVec s S ν θ) = .ok (.fin a) ∧
      objective s.w s.m (paramVec s S ν' θ') = .ok (.fin b) ∧
      objective s.w s.m (paramVec s S (mixYields s S A ν ν') (mixNui S A θ θ')) = .ok (.fin a') ∧
      objective s.w s.m (paramVec s S (mixYields s S A ν' ν) (mixNui S A θ' θ)) = .ok (.fin b') ∧
      a' + b' = a + b := by
  refine ⟨_, _, _, _, objective_nllAt' h hne hS hd hpos hc hT hE, objective_nllAt' h hne hS hd hpos hc hT' hE',
    objective_nllAt' h hne hS hd hpos hc (mix_sums hT hT') (mix_covered hN (fun _ _ _ => rfl) hE hE'),
    objective_nllAt' h hne hS hd hpos hc (mix_sums hT' hT) (mix_covered hN (fun _ _ _ => rfl) hE' hE), ?_⟩
  rw [nllAt_mix hN, nllAt_mix hN, nllAt_groups s S d V E A (ProcessOf s S A) θ ν,
    nllAt_groups s S d V E A (ProcessOf s S A) θ' ν']
  ring

theorem nuiVec_inj {K n : ℕ} {θ θ' : Fin K → Fin n → ℝ} (h : nuiVec θ = nuiVec θ') : θ = θ' := by
  unfold nuiVec at h
  have e : ∀ θ : Fin K → Fin n → ℝ, (List.ofFn fun j => vec (θ j)).map List.length = List.replicate K n := by
    intro θ
    rw [List.map_ofFn, ← List.ofFn_const]
    congr 1
    funext j
    exact vec_length _
  have h1 := blocks_of_flatten (List.ofFn fun j => vec (θ j))
  have h2 := blocks_of_flatten (List.ofFn fun j => vec (θ' j))
  rw [e] at h1 h2
  rw [h, h2] at h1
  have h3 := List.ofFn_injective h1
  funext j i
  have h4 := congrFun h3 j
  unfold vec at h4
  have h5 := congrFun (List.ofFn_injective h4) i
  exact (Fl.fin.inj h5).symm

/-- at a best fit the likelihood is in its domain -/
theorem bestFit_domain {s : Sys} (h : s.Built) (hne : s.m.channels ≠ []) {S : ℕ → ChanSpec} (hS : ModelIs s S)
    {d : ∀ k, Fin (S k).n → ℝ} (hd : DataIs s S d)
    (hpos : ∀ k < s.m.chanIds.length, ∀ i, d k i = 0 ∨ (1e-100 : ℝ) ≤ d k i)
    {V E : String → ℝ} (hc : ConstraintsAre s V E) (hused : AllUsed s S) {ν : String → ℝ}
    {θ : ∀ k, Fin (S k).K → Fin (S k).n → ℝ} {a : ℝ} (ha : objective s.w s.m (paramVec s S ν θ) = .ok (.fin a)) :
    NonZeroSums s S θ ∧ DataCovered s S d θ ν := by
  have hw := reachable_wf h.reachable
  obtain ⟨ν', θ', e, h1, h2⟩ := (C104_domain s h hne S hS d hd hpos V E hc hused _ (paramVec_length hw hS ν θ)).mp ⟨a, ha⟩
  have hν : ∀ p ∈ s.m.processes, ν' p = ν p := by
    intro p hp
    have e1 := paramVec_yield (s := s) (S := S) ν θ p hp
    have e2 := paramVec_yield (s := s) (S := S) ν' θ' p hp
    rw [e, e2] at e1
    exact Fl.fin.inj (Option.some.inj e1)
  have hθ : ∀ k < s.m.chanIds.length, θ' k = θ k := by
    intro k hk
    have e1 := paramVec_block hw hS ν θ k hk
    have e2 := paramVec_block hw hS ν' θ' k hk
    rw [e, e2] at e1
    exact nuiVec_inj e1
  refine ⟨?_, ?_⟩
  · intro k hk; rw [← hθ k hk]; exact h1 k hk
  · intro k hk i hdi
    have := h2 k hk i hdi
    rwa [expectedIn_congr (θ' := θ) (ν' := ν) (fun j => hν _ (procName_mem hw hS k hk j)) (hθ k hk)] at this

/-- **C111, independent fits.** Two models that differ only in the data of the channels outside a group `A`, where no process
has templates both in the group and outside of it: take a best fit of each. The point with the group's parameters from the
best fit of the second model and all other parameters from the best fit of the first model is again a best fit of the first
model. So the result for the group does not depend on the data of the other channels. -/
theorem C111_independent (s s' : Sys) (h : s.Built) (h' : s'.Built) (hm : s'.m = s.m)
    (hpn : ∀ k j, procName s' k j = procName s k j) (hne : s.m.channels ≠ [])
    (S : ℕ → ChanSpec) (hS : ModelIs s S) (hS' : ModelIs s' S)
    (d d' : ∀ k, Fin (S k).n → ℝ) (hd : DataIs s S d) (hd' : DataIs s' S d')
    (hpos : ∀ k < s.m.chanIds.length, ∀ i, d k i = 0 ∨ (1e-100 : ℝ) ≤ d k i)
    (hpos' : ∀ k < s.m.chanIds.length, ∀ i, d' k i = 0 ∨ (1e-100 : ℝ) ≤ d' k i)
    (V E : String → ℝ) (hc : ConstraintsAre s V E) (hused : AllUsed s S)
    (A : ℕ → Prop) (hN : NoCommonProcess s S A) (hdd : ∀ k < s.m.chanIds.length, A k → d k = d' k)
    (ν ν' : String → ℝ) (θ θ' : ∀ k, Fin (S k).K → Fin (S k).n → ℝ)
    (hb : BestFit s S ν θ) (hb' : BestFit s' S ν' θ') :
    BestFit s S (mixYields s S A ν' ν) (mixNui S A θ' θ) := by
  have hw := reachable_wf h.reachable
  obtain ⟨a, ha, hmin⟩ := hb
  obtain ⟨a', ha', hmin'⟩ := hb'
  have hne' : s'.m.channels ≠ [] := by rw [hm]; exact hne
  have hpos2 : ∀ k < s'.m.chanIds.length, ∀ i, d' k i = 0 ∨ (1e-100 : ℝ) ≤ d' k i := by rw [hm]; exact hpos'
  have hc' : ConstraintsAre s' V E := by unfold ConstraintsAre; rw [hm]; exact hc
  have hused' : AllUsed s' S := by unfold AllUsed; rw [hm]; simp only [hpn]; exact hused
  have hei : ∀ ν θ k i, expectedIn s' S ν θ k i = expectedIn s S ν θ k i := by
    intro ν θ k i; unfold expectedIn; simp only [hpn]
  obtain ⟨hT, hE⟩ := bestFit_domain h hne hS hd hpos hc hused ha
  obtain ⟨hT', hE'⟩ := bestFit_domain h' hne' hS' hd' hpos2 hc' hused' ha'
  have hT' : NonZeroSums s S θ' := by unfold NonZeroSums at hT' ⊢; rw [hm] at hT'; exact hT'
  have hE' : DataCovered s S d' θ' ν' := by
    intro k hk i hdi; rw [← hei]; exact hE' k (by rw [hm]; exact hk) i hdi
  have hnll : ∀ θ ν, nllAt s' S d' V E θ ν = nllAt s S d' V E θ ν := by
    intro θ ν; unfold nllAt; rw [hm]; simp only [hei]
  have hpv : ∀ ν θ, paramVec s' S ν θ = paramVec s S ν θ := by intro ν θ; unfold paramVec; rw [hm]
  -- the value of the second model at its best fit with the group's parameters replaced
  have hcov1 := mix_covered hN hdd hE hE'
  have hcov1' : DataCovered s' S d' (mixNui S A θ θ') (mixYields s S A ν ν') := by
    intro k hk i hdi; rw [hei]; exact hcov1 k (by rw [hm] at hk; exact hk) i hdi
  have hs1 : NonZeroSums s' S (mixNui S A θ θ') := by
    unfold NonZeroSums; rw [hm]; exact mix_sums hT hT'
  have o1 := objective_nllAt' h' hne' hS' hd' hpos2 hc' hs1 hcov1'
  have c1 := hmin' _ _ (by rw [paramVec_length (reachable_wf h'.reachable) hS']) o1
  have hE2 : DataCovered s' S d' θ' ν' := by
    intro k hk i hdi; rw [hei]; exact hE' k (by rw [hm] at hk; exact hk) i hdi
  have hT2 : NonZeroSums s' S θ' := by unfold NonZeroSums; rw [hm]; exact hT'
  have v' := objective_nllAt' h' hne' hS' hd' hpos2 hc' hT2 hE2
  rw [ha'] at v'
  have v' := Fl.fin.inj (Except.ok.inj v')
  rw [v', hnll, hnll, nllAt_mix hN, nllAt_groups s S d' V E A (ProcessOf s S A) θ' ν'] at c1
  -- in the group both models have the same data
  have hpd : ∀ θ ν, nllPart s S d' V E A (ProcessOf s S A) θ ν = nllPart s S d V E A (ProcessOf s S A) θ ν := by
    intro θ ν
    unfold nllPart
    congr 1
    refine Finset.sum_congr rfl fun k hk => ?_
    by_cases hA : A k
    · rw [if_pos hA, if_pos hA, hdd k (Finset.mem_range.mp hk) hA]
    · rw [if_neg hA, if_neg hA]
  rw [hpd, hpd] at c1
  have v := objective_nllAt' h hne hS hd hpos hc hT hE
  rw [ha] at v
  have v := Fl.fin.inj (Except.ok.inj v)
  rw [nllAt_groups s S d V E A (ProcessOf s S A) θ ν] at v
  refine ⟨_, objective_nllAt' h hne hS hd hpos hc (mix_sums hT' hT)
    (mix_covered hN (fun k hk hA => (hdd k hk hA).symm) hE' hE), fun x b hx hxb => ?_⟩
  refine le_trans ?_ (hmin x b hx hxb)
  rw [nllAt_mix hN, v]
  linarith

/-! ### non-vacuity: two channels with one process each -/

namespace Ex

/-- channel `a` with process `p` (contents 1, 1) and channel `b` with process `q` (contents 2, 4); data `da` in both bins of
channel `a`, `db` and `2 db` in those of channel `b` -/
def opsI (da db : ℝ) : List Op :=
  [.binned1 ⟨[2], vec ![1, 1]⟩ ⟨true, [0, 1, 2]⟩ (some ⟨[2], vec ![1, 1]⟩),
   .binned1 ⟨[2], vec ![2, 4]⟩ ⟨true, [0, 1, 2]⟩ (some ⟨[2], vec ![1, 1]⟩), .newTmpl1 "t" 0, .newTmpl1 "u" 1,
   .binned1 ⟨[2], vec ![da, da]⟩ ⟨true, [0, 1, 2]⟩ (some ⟨[2], vec ![1, 1]⟩),
   .binned1 ⟨[2], vec ![db, 2 * db]⟩ ⟨true, [0, 1, 2]⟩ (some ⟨[2], vec ![1, 1]⟩),
   .defineChannel "a" (.int 2) (.d1 .tuple 0 2), .defineChannel "b" (.int 2) (.d1 .tuple 0 2), .defineProcess "p",
   .defineProcess "q", .addTemplate "a" "p" 0 (.fin 1), .addTemplate "b" "q" 1 (.fin 1),
   .addData [("a", 2), ("b", 3)]]

def chIa : Channel :=
  ⟨"a", [2], .d1 .tuple 0 2, ["p"], [("p", 0)], [("p", .fin 1)], some 2, some 1, some .t1, some .h1⟩

def chIb : Channel :=
  ⟨"b", [2], .d1 .tuple 0 2, ["q"], [("q", 1)], [("q", .fin 1)], some 3, some 1, some .t1, some .h1⟩

def wI (da db : ℝ) : World :=
  { World.init with
    hists := Function.update (Function.update (Function.update (Function.update (fun _ => dummyHist) 0 (bh ![1, 1] ![1, 1])) 1
      (bh ![2, 4] ![1, 1])) 2 (bh ![da, da] ![1, 1])) 3 (bh ![db, 2 * db] ![1, 1])
    nHists := 4
    tmpls := Function.update (Function.update (fun _ => dummyTmpl) 0 (bt "t" 0 ![1, 1] ![1, 1])) 1
      (bt "u" 1 ![2, 4] ![1, 1])
    nTmpls := 2
    chans := Function.update (Function.update (fun _ => dummyChan) 0 chIa) 1 chIb
    nChans := 2 }

def mI : Mct := ⟨[("a", 0), ("b", 1)], ["p", "q"], [], [], []⟩

def sysI (da db : ℝ) : Sys := ⟨wI da db, mI⟩

theorem runI (da db : ℝ) : Sys.init.run (opsI da db) = sysI da db := by
  simp only [opsI, Sys.run, List.foldl_cons, List.foldl_nil, Sys.step, bh_eq, Sys.allocHist, World.newHist,
    Sys.init, World.init, Sys.allocTmpl, World.newTmpl]
  simp [bt_eq, Sys.allocTmpl, World.newTmpl, Function.update_apply]
  simp [Mct.defineChannel, Mct.defineProcess,
    Mct.addTemplate, World.addTemplate, Mct.empty, World.newChan, dictSet, dictGet, Mct.addData, World.addData,
    World.setChan, Channel.new, Channel.addTemplate, Channel.checkTemplate, Channel.procs, bt, bh,
    Hist.setBinned, Hist.blank, ChanBins.toTuple, Channel.addData, Channel.checkHist, sysI, wI, mI, chIa, chIb,
    World.init, Function.update_apply]
  funext i
  by_cases h0 : i = 0
  · subst h0; simp
  · by_cases h1 : i = 1
    · subst h1; simp
    · simp [h0, h1]

theorem sysI_built (da db : ℝ) : (sysI da db).Built := by
  refine ⟨_, setupFirst_of_noEval ?_, runI da db⟩
  intro o ho
  simp only [opsI, List.mem_cons, List.not_mem_nil, or_false] at ho
  rcases ho with rfl | rfl | rfl | rfl | rfl | rfl | rfl | rfl | rfl | rfl | rfl | rfl | rfl <;> exact id

def SI : ℕ → ChanSpec
  | 0 => ⟨1, 2, fun _ => ![1, 1], fun _ i => (![1, 1] : Fin 2 → ℝ) i / (![1, 1] : Fin 2 → ℝ) i, fun _ => 1, fun _ => 1⟩
  | _ => ⟨1, 2, fun _ => ![2, 4], fun _ i => (![1, 1] : Fin 2 → ℝ) i / (![2, 4] : Fin 2 → ℝ) i, fun _ => 1, fun _ => 1⟩

theorem modelI (da db : ℝ) : ModelIs (sysI da db) SI := by
  intro k hk
  have : k = 0 ∨ k = 1 := by
    have : k < 2 := by simpa [sysI, mI, Mct.chanIds] using hk
    omega
  rcases this with rfl | rfl
  · refine ⟨Nat.one_pos, Nat.two_pos, fun _ => Matrix.PosDef.one, ?_⟩
    exact chanIs_single (wI da db) 0 (by simp [wI]) "p" 0 1 "t" 0 ![1, 1] ![1, 1] (by intro i; fin_cases i <;> simp)
      (by intro i; fin_cases i <;> simp) (by simp [wI, chIa]) (by simp [wI, chIa]) (by simp [wI, chIa]) (by simp [wI])
  · refine ⟨Nat.one_pos, Nat.two_pos, fun _ => Matrix.PosDef.one, ?_⟩
    exact chanIs_single (wI da db) 1 (by simp [wI]) "q" 1 1 "u" 1 ![2, 4] ![1, 1] (by intro i; fin_cases i <;> simp)
      (by intro i; fin_cases i <;> simp) (by simp [wI, chIb]) (by simp [wI, chIb]) (by simp [wI, chIb]) (by simp [wI])

def dI (da db : ℝ) : ∀ k, Fin (SI k).n → ℝ := fun k i => if k = 0 then da else if i.1 = 0 then db else 2 * db

theorem dataI (da db : ℝ) : DataIs (sysI da db) SI (dI da db) := by
  intro k hk
  have : k = 0 ∨ k = 1 := by
    have : k < 2 := by simpa [sysI, mI, Mct.chanIds] using hk
    omega
  rcases this with rfl | rfl
  · refine ⟨2, by simp [sysI, mI, Mct.chanIds, wI, chIa], ?_⟩
    show ((wI da db).hists 2).counts.data = vec (fun _ : Fin 2 => da)
    simp [wI, bh, Hist.setBinned, vec, List.ofFn_succ]
  · refine ⟨3, by simp [sysI, mI, Mct.chanIds, wI, chIb], ?_⟩
    show ((wI da db).hists 3).counts.data = vec (fun i : Fin 2 => if i.1 = 0 then db else 2 * db)
    simp [wI, bh, Hist.setBinned, vec, List.ofFn_succ]

theorem namesI (da db : ℝ) : procName (sysI da db) 0 0 = "p" ∧ procName (sysI da db) 1 0 = "q" := by
  constructor <;> simp [procName, sysI, mI, Mct.chanIds, wI, chIa, chIb]

theorem separateI (da db : ℝ) : NoCommonProcess (sysI da db) SI (fun k => k = 0) := by
  intro k hk k' hk' hA hA' j j'
  subst hA
  have : k' = 1 := by
    have : k' < 2 := by simpa [sysI, mI, Mct.chanIds] using hk'
    omega
  subst this
  have hj : (j : ℕ) = 0 := by have : (j : ℕ) < 1 := j.2; omega
  have hj' : (j' : ℕ) = 0 := by have : (j' : ℕ) < 1 := j'.2; omega
  rw [hj, hj', (namesI da db).1, (namesI da db).2]
  decide

theorem usedI (da db : ℝ) : AllUsed (sysI da db) SI := by
  intro p hp
  left
  have hp : p = "p" ∨ p = "q" := by simpa [sysI, mI] using hp
  rcases hp with rfl | rfl
  · exact ⟨0, by simp [sysI, mI, Mct.chanIds], (0 : Fin 1), (namesI da db).1⟩
  · exact ⟨1, by simp [sysI, mI, Mct.chanIds], (0 : Fin 1), (namesI da db).2⟩

end Ex

/-- the best fit of the example: yields `2 da` and `3 db`, nuisance parameters zero -/
theorem Ex.bestI {da db : ℝ} (h1 : (1e-100 : ℝ) ≤ da) (h2 : (1e-100 : ℝ) ≤ db) :
    BestFit (Ex.sysI da db) Ex.SI (fun p => if p = "p" then 2 * da else 3 * db) (fun _ _ _ => 0) := by
  have h01 : ∀ k < (Ex.sysI da db).m.chanIds.length, k = 0 ∨ k = 1 := by
    intro k hk
    have : k < 2 := by simpa [Ex.sysI, Ex.mI, Mct.chanIds] using hk
    omega
  have hexp0 : ∀ (ν : String → ℝ) (i : Fin 2), expectedIn (Ex.sysI da db) Ex.SI ν (fun _ _ _ => 0) 0 i = ν "p" / 2 := by
    intro ν i
    refine (expectedIn_eq (Ex.sysI da db) Ex.SI ν _ 0 i).trans ?_
    show ∑ j : Fin 1, ν (procName (Ex.sysI da db) 0 j) * 1 *
      ((![1, 1] : Fin 2 → ℝ) i * _ / ∑ i' : Fin 2, (![1, 1] : Fin 2 → ℝ) i' * _) = _
    rw [Fin.sum_univ_one, show ((0 : Fin 1) : ℕ) = 0 from rfl, (Ex.namesI da db).1]
    fin_cases i <;> simp [Fin.sum_univ_two] <;> ring
  have hexp1 : ∀ (ν : String → ℝ) (i : Fin 2), expectedIn (Ex.sysI da db) Ex.SI ν (fun _ _ _ => 0) 1 i =
      ν "q" / 3 * (if i.1 = 0 then 1 else 2) := by
    intro ν i
    refine (expectedIn_eq (Ex.sysI da db) Ex.SI ν _ 1 i).trans ?_
    show ∑ j : Fin 1, ν (procName (Ex.sysI da db) 1 j) * 1 *
      ((![2, 4] : Fin 2 → ℝ) i * _ / ∑ i' : Fin 2, (![2, 4] : Fin 2 → ℝ) i' * _) = _
    rw [Fin.sum_univ_one, show ((0 : Fin 1) : ℕ) = 0 from rfl, (Ex.namesI da db).2]
    fin_cases i <;> simp [Fin.sum_univ_two] <;> ring
  obtain ⟨m1, m2⟩ := C106_minimum (Ex.sysI da db) (Ex.sysI_built da db) (by simp [Ex.sysI, Ex.mI]) Ex.SI (Ex.modelI da db)
    (Ex.dI da db) (Ex.dataI da db) (by
      intro k hk i
      show (1e-100 : ℝ) ≤ if k = 0 then da else if i.1 = 0 then db else 2 * db
      split
      · exact h1
      · split
        · exact h2
        · have : (0 : ℝ) ≤ db := le_trans (by norm_num) h2
          linarith) (fun _ => 0) (fun _ => 1) (by intro p hp; simp [Ex.sysI, Ex.mI] at hp)
    (fun p => if p = "p" then 2 * da else 3 * db) (by
      intro k hk j
      rcases h01 k hk with rfl | rfl
      · show ∑ i : Fin 2, (![1, 1] : Fin 2 → ℝ) i * _ ≠ 0
        simp [Fin.sum_univ_two]
      · show ∑ i : Fin 2, (![2, 4] : Fin 2 → ℝ) i * _ ≠ 0
        simp [Fin.sum_univ_two]; norm_num) (by
      intro k hk i
      rcases h01 k hk with rfl | rfl
      · refine (hexp0 _ i).trans ?_
        simp [Ex.dI]
      · refine (hexp1 _ i).trans ?_
        have hq : ("q" : String) ≠ "p" := by decide
        simp only [Ex.dI, hq, if_false, one_ne_zero]
        split <;> ring) (by intro p hp; simp [Ex.sysI, Ex.mI] at hp) (by
      intro δ hδ _ p hp
      have hp : p = "p" ∨ p = "q" := by simpa [Ex.sysI, Ex.mI] using hp
      rcases hp with rfl | rfl
      · have := hδ 0 (by simp [Ex.sysI, Ex.mI, Mct.chanIds]) (0 : Fin 2)
        have := (hexp0 δ 0).symm.trans this
        linarith
      · have := hδ 1 (by simp [Ex.sysI, Ex.mI, Mct.chanIds]) (0 : Fin 2)
        have := (hexp1 δ 0).symm.trans this
        simp at this
        exact this)
  refine ⟨0, m1, fun x b hx hb => ?_⟩
  have := (m2 x _ hx hb).1
  exact not_lt.mp this

/-- two models with data 4, 4 in channel `a` and 5, 10 or 9, 18 in channel `b`, best fits (8, 15) and (8, 27): by C111 the point with the
yield of `p` from the second and that of `q` from the first is a best fit of the first model -/
example : BestFit (Ex.sysI 4 5) Ex.SI (mixYields (Ex.sysI 4 5) Ex.SI (fun k => k = 0)
      (fun p => if p = "p" then 2 * 4 else 3 * 9) (fun p => if p = "p" then 2 * 4 else 3 * 5))
      (mixNui Ex.SI (fun k => k = 0) (fun _ _ _ => 0) fun _ _ _ => 0) ∧
    mixYields (Ex.sysI 4 5) Ex.SI (fun k => k = 0) (fun p => if p = "p" then 2 * 4 else 3 * 9)
      (fun p => if p = "p" then 2 * 4 else 3 * 5) "q" = 15 := by
  constructor
  · refine C111_independent (Ex.sysI 4 5) (Ex.sysI 4 9) (Ex.sysI_built 4 5) (Ex.sysI_built 4 9) rfl (fun _ _ => rfl)
      (by simp [Ex.sysI, Ex.mI]) Ex.SI (Ex.modelI 4 5) (Ex.modelI 4 9) (Ex.dI 4 5) (Ex.dI 4 9) (Ex.dataI 4 5) (Ex.dataI 4 9)
      ?_ ?_ (fun _ => 0) (fun _ => 1) (by intro p hp; simp [Ex.sysI, Ex.mI] at hp) (Ex.usedI 4 5) _ (Ex.separateI 4 5)
      (by rintro k - rfl; rfl) _ _ _ _ (Ex.bestI (by norm_num) (by norm_num)) (Ex.bestI (by norm_num) (by norm_num))
    · intro k hk i
      right
      show (1e-100 : ℝ) ≤ if k = 0 then 4 else if i.1 = 0 then 5 else 2 * 5
      split
      · norm_num
      · split <;> norm_num
    · intro k hk i
      right
      show (1e-100 : ℝ) ≤ if k = 0 then 4 else if i.1 = 0 then 9 else 2 * 9
      split
      · norm_num
      · split <;> norm_num
  · unfold mixYields
    rw [if_neg]
    · simp only; rw [if_neg (by decide)]; norm_num
    · rintro ⟨k, hk, rfl, j, e⟩
      have hj : (j : ℕ) = 0 := by have : (j : ℕ) < 1 := j.2; omega
      rw [hj, (Ex.namesI 4 5).1] at e
      exact absurd e (by decide)

end

end TF.Props
