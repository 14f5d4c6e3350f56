import Verif.Props.MctProps20
import Verif.Props.MctProps17

set_option linter.unusedSimpArgs false

/-!
# The complete fit problem (C113)

Existence of a joint minimum in yields and nuisance parameters within limits, and the lack of a lower bound without them.
-/

namespace TF.Spec

open Classical

noncomputable section

/-- nuisance parameters within limits -/
def InLimits (s : Sys) (S : ℕ → ChanSpec) (lo hi : ∀ k, Fin (S k).K → Fin (S k).n → ℝ)
    (θ : ∀ k, Fin (S k).K → Fin (S k).n → ℝ) : Prop :=
  ∀ k < s.m.chanIds.length, ∀ j i, lo k j i ≤ θ k j i ∧ θ k j i ≤ hi k j i

/-- `θ` with the nuisance parameter of bin `i₀` of template `j₀` in channel `k₀` replaced by `τ` -/
def withNui (S : ℕ → ChanSpec) (θ : ∀ k, Fin (S k).K → Fin (S k).n → ℝ) (k₀ : ℕ) (j₀ : Fin (S k₀).K) (i₀ : Fin (S k₀).n)
    (τ : ℝ) : ∀ k, Fin (S k).K → Fin (S k).n → ℝ :=
  Function.update θ k₀ (Function.update (θ k₀) j₀ (Function.update (θ k₀ j₀) i₀ τ))

end

end TF.Spec

namespace TF.Props

open Classical Spec
open scoped Matrix

noncomputable section

theorem fracIn_sum {s : Sys} {S : ℕ → ChanSpec} {θ : ∀ k, Fin (S k).K → Fin (S k).n → ℝ} (hT : NonZeroSums s S θ)
    {k : ℕ} (hk : k < s.m.chanIds.length) (j : Fin (S k).K) : ∑ i, fracIn S θ k j i = 1 := by
  unfold fracIn
  rw [← Finset.sum_div]
  exact div_self (hT k hk j)

/-- the parameters that matter: yields of processes, nuisance parameters of channels -/
def trimNu (s : Sys) (ν : String → ℝ) : String → ℝ := fun p => if p ∈ s.m.processes then ν p else 0

def trimTh (s : Sys) (S : ℕ → ChanSpec) (θ : ∀ k, Fin (S k).K → Fin (S k).n → ℝ) : ∀ k, Fin (S k).K → Fin (S k).n → ℝ :=
  fun k j i => if k < s.m.chanIds.length then θ k j i else 0

theorem trimTh_eq {s : Sys} {S : ℕ → ChanSpec} (θ : ∀ k, Fin (S k).K → Fin (S k).n → ℝ) {k : ℕ}
    (hk : k < s.m.chanIds.length) : trimTh s S θ k = θ k := by
  funext j i; unfold trimTh; rw [if_pos hk]

theorem expectedIn_trim {s : Sys} (hw : SysWF s) {S : ℕ → ChanSpec} (hS : ModelIs s S) (ν : String → ℝ)
    (θ : ∀ k, Fin (S k).K → Fin (S k).n → ℝ) {k : ℕ} (hk : k < s.m.chanIds.length) (i : Fin (S k).n) :
    expectedIn s S (trimNu s ν) (trimTh s S θ) k i = expectedIn s S ν θ k i := by
  rw [expectedIn_eq, expectedIn_eq]
  refine Finset.sum_congr rfl fun j _ => ?_
  unfold trimNu
  rw [if_pos (procName_mem hw hS k hk j)]
  unfold fracIn
  rw [trimTh_eq θ hk]

theorem nllAt_trim {s : Sys} (hw : SysWF s) {S : ℕ → ChanSpec} (hS : ModelIs s S) {V E : String → ℝ}
    (hc : ConstraintsAre s V E) (d : ∀ k, Fin (S k).n → ℝ) (ν : String → ℝ)
    (θ : ∀ k, Fin (S k).K → Fin (S k).n → ℝ) :
    nllAt s S d V E (trimTh s S θ) (trimNu s ν) = nllAt s S d V E θ ν := by
  unfold nllAt
  congr 1
  · refine Finset.sum_congr rfl fun k hk => ?_
    have hk := Finset.mem_range.mp hk
    rw [trimTh_eq θ hk]
    congr 1
    exact Finset.sum_congr rfl fun i _ => by rw [expectedIn_trim hw hS ν θ hk i]
  · congr 1
    exact List.map_congr_left fun p hp => by unfold trimNu; simp only [if_pos (hc p hp).1]

/-- **C113, within limits.** Let the nuisance parameters be restricted to limits within which no varied template content is
negative and no template vanishes, let all efficiencies be positive and every process have a template. If the likelihood is a
number for at least one choice of non-negative yields and nuisance parameters within the limits, then there is such a choice
at which it is smallest, jointly in all parameters. Missing: parameters without such limits, see `C113_unbounded`. -/
theorem C113_exists_partial (s : Sys) (h : s.Built) (hne : s.m.channels ≠ []) (S : ℕ → ChanSpec) (hS : ModelIs s S)
    (d : ∀ k, Fin (S k).n → ℝ) (hd : DataIs s S d)
    (hpos : ∀ k < s.m.chanIds.length, ∀ i, d k i = 0 ∨ (1e-100 : ℝ) ≤ d k i)
    (V E : String → ℝ) (hc : ConstraintsAre s V E)
    (lo hi : ∀ k, Fin (S k).K → Fin (S k).n → ℝ)
    (hphys : ∀ θ, InLimits s S lo hi θ → NonZeroSums s S θ ∧
      ∀ k < s.m.chanIds.length, ∀ j i, 0 ≤ (S k).cnt j i * (1 + θ k j i * (S k).ε j i))
    (heff : ∀ k < s.m.chanIds.length, ∀ j, 0 < (S k).eff j)
    (hused : ∀ p ∈ s.m.processes, ∃ k < s.m.chanIds.length, ∃ j : Fin (S k).K, procName s k j = p)
    (ν₀ : String → ℝ) (θ₀ : ∀ k, Fin (S k).K → Fin (S k).n → ℝ) (hn₀ : NonNeg s ν₀) (hl₀ : InLimits s S lo hi θ₀)
    (hν₀ : Allowed s S d θ₀ ν₀) :
    ∃ ν θ, NonNeg s ν ∧ InLimits s S lo hi θ ∧ Allowed s S d θ ν ∧
      ∀ ν' θ', NonNeg s ν' → InLimits s S lo hi θ' → Allowed s S d θ' ν' →
        NllLe s (paramVec s S ν θ) (paramVec s S ν' θ') := by
  have hw := reachable_wf h.reachable
  have hd0 : ∀ k < s.m.chanIds.length, ∀ i, 0 ≤ d k i := fun k hk i => by
    rcases hpos k hk i with e | e <;> [rw [e]; exact le_trans (by norm_num) e]
  have hfrac : ∀ θ, InLimits s S lo hi θ → ∀ k < s.m.chanIds.length, ∀ j i, 0 ≤ fracIn S θ k j i := fun θ hθ k hk j i =>
    div_nonneg ((hphys θ hθ).2 k hk j i) (Finset.sum_nonneg fun i _ => (hphys θ hθ).2 k hk j i)
  have hterm : ∀ ν θ, NonNeg s ν → InLimits s S lo hi θ → ∀ k < s.m.chanIds.length, ∀ (j : Fin (S k).K) i,
      0 ≤ ν (procName s k j) * (S k).eff j * fracIn S θ k j i := fun ν θ hν hθ k hk j i =>
    mul_nonneg (mul_nonneg (hν _ (procName_mem hw hS k hk j)) (heff k hk j).le) (hfrac θ hθ k hk j i)
  have hexp0 : ∀ ν θ, NonNeg s ν → InLimits s S lo hi θ → ∀ k < s.m.chanIds.length, ∀ i,
      0 ≤ expectedIn s S ν θ k i := fun ν θ hν hθ k hk i => by
    rw [expectedIn_eq]; exact Finset.sum_nonneg fun j _ => hterm ν θ hν hθ k hk j i
  set v := nllAt s S d V E θ₀ ν₀ with hv
  -- every bin term is at most the likelihood
  have hbin : ∀ ν θ, Allowed s S d θ ν → nllAt s S d V E θ ν ≤ v → ∀ k < s.m.chanIds.length, ∀ i,
      poissonBin (d k i) (expectedIn s S ν θ k i) ≤ v := by
    intro ν θ hν hle k hk i
    have hb : ∀ k < s.m.chanIds.length, ∀ i, 0 ≤ poissonBin (d k i) (expectedIn s S ν θ k i) := fun k hk i =>
      (poissonBin_nonneg' (hpos k hk i) (hν k hk i)).1
    have hp : ∀ k < s.m.chanIds.length, 0 ≤ penalty (S k).R (θ k) := fun k hk => (penalty_nonneg (hS k hk).2.2.1 (θ k)).1
    have h1 := Finset.single_le_sum (f := fun i => poissonBin (d k i) (expectedIn s S ν θ k i)) (s := Finset.univ)
      (fun i _ => hb k hk i) (Finset.mem_univ i)
    have h2 := Finset.single_le_sum (f := fun k => (∑ i, poissonBin (d k i) (expectedIn s S ν θ k i)) + penalty (S k).R (θ k))
      (s := Finset.range s.m.chanIds.length) (fun k hk => add_nonneg (Finset.sum_nonneg fun i _ =>
        hb k (Finset.mem_range.mp hk) i) (hp k (Finset.mem_range.mp hk))) (Finset.mem_range.mpr hk)
    have h3 : 0 ≤ (s.m.constrained.map fun p => (ν p - V p) ^ 2 / (2 * E p ^ 2)).sum := by
      apply List.sum_nonneg
      intro a ha
      obtain ⟨p, hp, rfl⟩ := List.mem_map.mp ha
      positivity
    have h4 := hp k hk
    unfold nllAt at hle
    linarith
  -- a bound for every yield
  have hB : ∀ p ∈ s.m.processes, ∃ B : ℝ, ∀ ν θ, NonNeg s ν → InLimits s S lo hi θ → Allowed s S d θ ν →
      nllAt s S d V E θ ν ≤ v → ν p ≤ B := by
    intro p hp
    obtain ⟨k, hk, j, hj⟩ := hused p hp
    refine ⟨(∑ i, 2 * (v + d k i)) / (S k).eff j, fun ν θ hν hθ hA hle => ?_⟩
    rw [le_div_iff₀ (heff k hk j)]
    have h1 : ∀ i, ν p * (S k).eff j * fracIn S θ k j i ≤ 2 * (v + d k i) := by
      intro i
      refine le_trans ?_ (poissonBin_upper (hd0 k hk i) (hexp0 ν θ hν hθ k hk i) (hbin ν θ hA hle k hk i))
      rw [expectedIn_eq, ← hj]
      exact Finset.single_le_sum (f := fun j : Fin (S k).K => ν (procName s k j) * (S k).eff j * fracIn S θ k j i)
        (s := Finset.univ) (fun j _ => hterm ν θ hν hθ k hk j i) (Finset.mem_univ j)
    have h2 := Finset.sum_le_sum fun i (_ : i ∈ Finset.univ) => h1 i
    rw [← Finset.mul_sum, fracIn_sum (hphys θ hθ).1 hk j, mul_one] at h2
    exact h2
  choose! B hB using hB
  -- the compact sets
  set K : Set ((String → ℝ) × (∀ k, Fin (S k).K → Fin (S k).n → ℝ)) :=
    (Set.univ.pi fun p => if p ∈ s.m.processes then Set.Icc 0 (B p) else {0}) ×ˢ
    (Set.univ.pi fun k => Set.univ.pi fun j => Set.univ.pi fun i =>
      if k < s.m.chanIds.length then Set.Icc (lo k j i) (hi k j i) else {0}) with hK
  have hKc : IsCompact K := by
    apply IsCompact.prod
    · apply isCompact_univ_pi
      intro p
      split
      · exact isCompact_Icc
      · exact isCompact_singleton
    · apply isCompact_univ_pi; intro k
      apply isCompact_univ_pi; intro j
      apply isCompact_univ_pi; intro i
      split
      · exact isCompact_Icc
      · exact isCompact_singleton
  have hKn : ∀ x ∈ K, NonNeg s x.1 := by
    intro x hx p hp
    have := Set.mem_univ_pi.mp hx.1 p
    rw [if_pos hp] at this
    exact this.1
  have hKl : ∀ x ∈ K, InLimits s S lo hi x.2 := by
    intro x hx k hk j i
    have := Set.mem_univ_pi.mp (Set.mem_univ_pi.mp (Set.mem_univ_pi.mp hx.2 k) j) i
    rw [if_pos hk] at this
    exact this
  have hθc : ∀ k (j : Fin (S k).K) (i : Fin (S k).n),
      Continuous fun x : (String → ℝ) × (∀ k, Fin (S k).K → Fin (S k).n → ℝ) => x.2 k j i := fun k j i =>
    (continuous_apply i).comp ((continuous_apply j).comp ((continuous_apply k).comp continuous_snd))
  have hcont : ∀ k < s.m.chanIds.length, ∀ i, ContinuousOn
      (fun x : (String → ℝ) × (∀ k, Fin (S k).K → Fin (S k).n → ℝ) => expectedIn s S x.1 x.2 k i) K := by
    intro k hk i
    simp only [expectedIn_eq]
    apply continuousOn_finsetSum
    intro j _
    apply ContinuousOn.mul
    · exact (((continuous_apply _).comp continuous_fst).mul continuous_const).continuousOn
    · unfold fracIn
      have hc1 : ∀ i, Continuous fun x : (String → ℝ) × (∀ k, Fin (S k).K → Fin (S k).n → ℝ) =>
          (S k).cnt j i * (1 + x.2 k j i * (S k).ε j i) := fun i =>
        continuous_const.mul (continuous_const.add ((hθc k j i).mul continuous_const))
      refine ContinuousOn.div (hc1 i).continuousOn (continuous_finsetSum _ fun i _ => hc1 i).continuousOn ?_
      intro x hx
      exact (hphys x.2 (hKl x hx)).1 k hk j
  set C : Set ((String → ℝ) × (∀ k, Fin (S k).K → Fin (S k).n → ℝ)) :=
    K ∩ ⋂ k ∈ Finset.range s.m.chanIds.length, ⋂ i, K ∩ {x | d k i ≠ 0 →
      d k i * Real.exp (-(v + d k i) / d k i) ≤ expectedIn s S x.1 x.2 k i} with hC
  have hCc : IsCompact C := by
    refine hKc.of_isClosed_subset ?_ Set.inter_subset_left
    refine hKc.isClosed.inter (isClosed_biInter fun k hk => isClosed_iInter fun i => ?_)
    have hk := Finset.mem_range.mp hk
    by_cases hdi : d k i = 0
    · have : {x : (String → ℝ) × (∀ k, Fin (S k).K → Fin (S k).n → ℝ) | d k i ≠ 0 →
          d k i * Real.exp (-(v + d k i) / d k i) ≤ expectedIn s S x.1 x.2 k i} = Set.univ := by
        ext x; simp [hdi]
      rw [this, Set.inter_univ]; exact hKc.isClosed
    · have : {x : (String → ℝ) × (∀ k, Fin (S k).K → Fin (S k).n → ℝ) | d k i ≠ 0 →
          d k i * Real.exp (-(v + d k i) / d k i) ≤ expectedIn s S x.1 x.2 k i} =
          (fun x : (String → ℝ) × (∀ k, Fin (S k).K → Fin (S k).n → ℝ) => expectedIn s S x.1 x.2 k i) ⁻¹'
            Set.Ici (d k i * Real.exp (-(v + d k i) / d k i)) := by
        ext x; simp [hdi]
      rw [this]
      exact (hcont k hk i).preimage_isClosed_of_isClosed hKc.isClosed isClosed_Ici
  have hmem : ∀ ν θ, NonNeg s ν → InLimits s S lo hi θ → Allowed s S d θ ν → nllAt s S d V E θ ν ≤ v →
      (trimNu s ν, trimTh s S θ) ∈ C := by
    intro ν θ hν hθ hA hle
    have hk1 : (trimNu s ν, trimTh s S θ) ∈ K := by
      refine ⟨Set.mem_univ_pi.mpr fun p => ?_, Set.mem_univ_pi.mpr fun k => Set.mem_univ_pi.mpr fun j =>
        Set.mem_univ_pi.mpr fun i => ?_⟩
      · by_cases hp : p ∈ s.m.processes
        · simp only [trimNu, if_pos hp]
          exact ⟨hν p hp, hB p hp ν θ hν hθ hA hle⟩
        · simp only [trimNu, if_neg hp, Set.mem_singleton_iff]
      · by_cases hk : k < s.m.chanIds.length
        · simp only [trimTh, if_pos hk]
          exact hθ k hk j i
        · simp only [trimTh, if_neg hk, Set.mem_singleton_iff]
    refine ⟨hk1, Set.mem_iInter₂.mpr fun k hk => Set.mem_iInter.mpr fun i => ⟨hk1, fun hdi => ?_⟩⟩
    have hk := Finset.mem_range.mp hk
    simp only
    rw [expectedIn_trim hw hS ν θ hk i]
    have hdi' : 0 < d k i := lt_of_le_of_ne (hd0 k hk i) (Ne.symm hdi)
    refine poissonBin_lower hdi' ?_ (hbin ν θ hA hle k hk i)
    rcases hA k hk i with e | ⟨e, -⟩
    · exact e
    · exact absurd e hdi
  have hCpos : ∀ x ∈ C, ∀ k < s.m.chanIds.length, ∀ i, d k i ≠ 0 → 0 < expectedIn s S x.1 x.2 k i := by
    intro x hx k hk i hdi
    have hdi' : 0 < d k i := lt_of_le_of_ne (hd0 k hk i) (Ne.symm hdi)
    exact lt_of_lt_of_le (by positivity)
      ((Set.mem_iInter.mp (Set.mem_iInter₂.mp hx.2 k (Finset.mem_range.mpr hk)) i).2 hdi)
  have hCa : ∀ x ∈ C, Allowed s S d x.2 x.1 := by
    intro x hx k hk i
    by_cases hdi : d k i = 0
    · rcases eq_or_lt_of_le (hexp0 x.1 x.2 (hKn x hx.1) (hKl x hx.1) k hk i) with e | e
      · right; exact ⟨hdi, e.symm⟩
      · left; exact e
    · left; exact hCpos x hx k hk i hdi
  have hco : ContinuousOn (fun x : (String → ℝ) × (∀ k, Fin (S k).K → Fin (S k).n → ℝ) => nllAt s S d V E x.2 x.1) C := by
    unfold nllAt
    apply ContinuousOn.add
    · apply continuousOn_finsetSum
      intro k hk
      have hk := Finset.mem_range.mp hk
      have hck := fun i => (hcont k hk i).mono (Set.inter_subset_left : C ⊆ K)
      apply ContinuousOn.add
      · apply continuousOn_finsetSum
        intro i _
        unfold poissonBin
        by_cases hdi : d k i = 0
        · simp only [hdi, if_true]
          exact hck i
        · simp only [hdi, if_false]
          apply ContinuousOn.sub
          · exact (hck i).sub continuousOn_const
          · apply continuousOn_const.mul
            apply ContinuousOn.log
            · exact (hck i).div_const _
            · intro x hx
              exact div_ne_zero (hCpos x hx k hk i hdi).ne' hdi
      · apply Continuous.continuousOn
        unfold penalty
        apply continuous_const.mul
        apply continuous_finsetSum
        intro j _
        simp only [dotProduct, Matrix.mulVec]
        apply continuous_finsetSum
        intro i _
        apply (hθc k j i).mul
        apply continuous_finsetSum
        intro i' _
        exact continuous_const.mul (hθc k j i')
    · apply Continuous.continuousOn
      apply continuous_list_sum
      intro p _
      exact ((((continuous_apply p).comp continuous_fst).sub continuous_const).pow 2).div_const _
  obtain ⟨x, hxC, hmin⟩ := hCc.exists_isMinOn ⟨_, hmem ν₀ θ₀ hn₀ hl₀ hν₀ le_rfl⟩ hco
  refine ⟨x.1, x.2, hKn x hxC.1, hKl x hxC.1, hCa x hxC, fun ν' θ' hn' hl' hA' => ?_⟩
  refine ⟨_, _, objective_nllAt h hne hS hd hpos hc (hphys x.2 (hKl x hxC.1)).1 (hCa x hxC),
    objective_nllAt h hne hS hd hpos hc (hphys θ' hl').1 hA', ?_⟩
  by_cases hle : nllAt s S d V E θ' ν' ≤ v
  · have := hmin (hmem ν' θ' hn' hl' hA' hle)
    simp only [Set.mem_ofPred_eq] at this
    rw [nllAt_trim hw hS hc] at this
    exact this
  · have := hmin (hmem ν₀ θ₀ hn₀ hl₀ hν₀ le_rfl)
    simp only [Set.mem_ofPred_eq] at this
    rw [nllAt_trim hw hS hc] at this
    push Not at hle
    linarith

/-- varied content of bin `i` of template `j` in channel `k` -/
def content (S : ℕ → ChanSpec) (θ : ∀ k, Fin (S k).K → Fin (S k).n → ℝ) (k : ℕ) (j : Fin (S k).K) (i : Fin (S k).n) : ℝ :=
  (S k).cnt j i * (1 + θ k j i * (S k).ε j i)

theorem withNui_same (S : ℕ → ChanSpec) (θ : ∀ k, Fin (S k).K → Fin (S k).n → ℝ) (k₀ : ℕ) (j₀ : Fin (S k₀).K)
    (i₀ : Fin (S k₀).n) (τ : ℝ) (i : Fin (S k₀).n) :
    withNui S θ k₀ j₀ i₀ τ k₀ j₀ i = if i = i₀ then τ else θ k₀ j₀ i := by
  unfold withNui
  rw [Function.update_self, Function.update_self, Function.update_apply]

theorem withNui_tmpl (S : ℕ → ChanSpec) (θ : ∀ k, Fin (S k).K → Fin (S k).n → ℝ) (k₀ : ℕ) {j₀ : Fin (S k₀).K}
    (i₀ : Fin (S k₀).n) (τ : ℝ) {j : Fin (S k₀).K} (hj : j ≠ j₀) : withNui S θ k₀ j₀ i₀ τ k₀ j = θ k₀ j := by
  unfold withNui
  rw [Function.update_self, Function.update_of_ne hj]

theorem withNui_chan (S : ℕ → ChanSpec) (θ : ∀ k, Fin (S k).K → Fin (S k).n → ℝ) {k₀ : ℕ} (j₀ : Fin (S k₀).K)
    (i₀ : Fin (S k₀).n) (τ : ℝ) {k : ℕ} (hk : k ≠ k₀) : withNui S θ k₀ j₀ i₀ τ k = θ k := by
  unfold withNui
  rw [Function.update_of_ne hk]

/-- **C113, no lower bound.** Let some bin `i₀` of a channel contain no data. Take any parameters at which the likelihood is a
number, at which a process with a template in this channel has a positive yield, a positive sum of the template's varied
contents, non-negative varied contents in the bins with data, and a positive one in at least one of these; and let the
content of bin `i₀` depend on its nuisance parameter. Then, changing only this one nuisance parameter, the likelihood (which
remains a number) falls below every bound: all yields may stay where they are, positive. -/
theorem C113_unbounded (s : Sys) (h : s.Built) (hne : s.m.channels ≠ []) (S : ℕ → ChanSpec) (hS : ModelIs s S)
    (d : ∀ k, Fin (S k).n → ℝ) (hd : DataIs s S d)
    (hpos : ∀ k < s.m.chanIds.length, ∀ i, d k i = 0 ∨ (1e-100 : ℝ) ≤ d k i)
    (V E : String → ℝ) (hc : ConstraintsAre s V E)
    (ν : String → ℝ) (θ : ∀ k, Fin (S k).K → Fin (S k).n → ℝ) (hT : NonZeroSums s S θ) (hcov : DataCovered s S d θ ν)
    (k₀ : ℕ) (hk₀ : k₀ < s.m.chanIds.length) (j₀ : Fin (S k₀).K) (i₀ i₁ : Fin (S k₀).n)
    (hempty : d k₀ i₀ = 0) (hdata : d k₀ i₁ ≠ 0)
    (hyield : 0 < ν (procName s k₀ j₀) * (S k₀).eff j₀)
    (hsum : 0 < ∑ i, (S k₀).cnt j₀ i * (1 + θ k₀ j₀ i * (S k₀).ε j₀ i))
    (hnn : ∀ i, d k₀ i ≠ 0 → 0 ≤ (S k₀).cnt j₀ i * (1 + θ k₀ j₀ i * (S k₀).ε j₀ i))
    (hp1 : 0 < (S k₀).cnt j₀ i₁ * (1 + θ k₀ j₀ i₁ * (S k₀).ε j₀ i₁))
    (hslope : (S k₀).cnt j₀ i₀ * (S k₀).ε j₀ i₀ ≠ 0) (B : ℝ) :
    ∃ τ a : ℝ, objective s.w s.m (paramVec s S ν (withNui S θ k₀ j₀ i₀ τ)) = .ok (.fin a) ∧ a < B := by
  have hi : i₁ ≠ i₀ := by rintro rfl; exact hdata hempty
  set T := ∑ i, (S k₀).cnt j₀ i * (1 + θ k₀ j₀ i * (S k₀).ε j₀ i) with hTd
  set num : Fin (S k₀).n → ℝ := fun i => (S k₀).cnt j₀ i * (1 + θ k₀ j₀ i * (S k₀).ε j₀ i) with hnum
  set A := ν (procName s k₀ j₀) * (S k₀).eff j₀ with hA
  set sl := (S k₀).cnt j₀ i₀ * (S k₀).ε j₀ i₀ with hsl
  -- the nuisance parameter that makes the sum of the contents equal to e
  set tau : ℝ → ℝ := fun e => θ k₀ j₀ i₀ + (e - T) / sl with htau
  set θe : ℝ → ∀ k, Fin (S k).K → Fin (S k).n → ℝ := fun e => withNui S θ k₀ j₀ i₀ (tau e) with hθe
  have hnume : ∀ e i, (S k₀).cnt j₀ i * (1 + θe e k₀ j₀ i * (S k₀).ε j₀ i) = num i + if i = i₀ then e - T else 0 := by
    intro e i
    rw [hθe]
    simp only
    rw [withNui_same]
    by_cases hii : i = i₀
    · subst hii
      rw [if_pos rfl, if_pos rfl, htau, hnum]
      simp only
      have : (S k₀).cnt j₀ i * (1 + (θ k₀ j₀ i + (e - T) / sl) * (S k₀).ε j₀ i) =
          (S k₀).cnt j₀ i * (1 + θ k₀ j₀ i * (S k₀).ε j₀ i) + sl * ((e - T) / sl) := by rw [hsl]; ring
      rw [this, mul_div_cancel₀ _ hslope]
    · rw [if_neg hii, if_neg hii, add_zero]
  have hsume : ∀ e, ∑ i, (S k₀).cnt j₀ i * (1 + θe e k₀ j₀ i * (S k₀).ε j₀ i) = e := by
    intro e
    simp only [hnume]
    rw [Finset.sum_add_distrib, Finset.sum_ite_eq' Finset.univ i₀, if_pos (Finset.mem_univ _)]
    show T + (e - T) = e
    ring
  have hTe : ∀ e, 0 < e → NonZeroSums s S (θe e) := by
    intro e he k hk j
    by_cases hkk : k = k₀
    · subst hkk
      by_cases hjj : j = j₀
      · subst hjj; rw [hsume]; exact he.ne'
      · have : θe e k j = θ k j := withNui_tmpl S θ k i₀ _ hjj
        rw [this]; exact hT k hk j
    · have : θe e k = θ k := withNui_chan S θ j₀ i₀ _ hkk
      rw [this]; exact hT k hk j
  -- the expected events
  have hexp : ∀ e, ∀ i, expectedIn s S ν (θe e) k₀ i =
      expectedIn s S ν θ k₀ i + A * ((num i + if i = i₀ then e - T else 0) / e - num i / T) := by
    intro e i
    rw [expectedIn_eq, expectedIn_eq, ← Finset.add_sum_erase _ _ (Finset.mem_univ j₀),
      ← Finset.add_sum_erase (a := j₀) (s := Finset.univ)
        (f := fun j : Fin (S k₀).K => ν (procName s k₀ j) * (S k₀).eff j * fracIn S θ k₀ j i) (Finset.mem_univ j₀)]
    have h1 : ∑ j ∈ (Finset.univ : Finset (Fin (S k₀).K)).erase j₀, ν (procName s k₀ j) * (S k₀).eff j * fracIn S (θe e) k₀ j i =
        ∑ j ∈ (Finset.univ : Finset (Fin (S k₀).K)).erase j₀, ν (procName s k₀ j) * (S k₀).eff j * fracIn S θ k₀ j i := by
      refine Finset.sum_congr rfl fun j hj => ?_
      have : θe e k₀ j = θ k₀ j := withNui_tmpl S θ k₀ i₀ _ (Finset.ne_of_mem_erase hj)
      unfold fracIn
      rw [this]
    have h2 : fracIn S (θe e) k₀ j₀ i = (num i + if i = i₀ then e - T else 0) / e := by
      unfold fracIn
      rw [hsume, hnume]
    have h3 : fracIn S θ k₀ j₀ i = num i / T := rfl
    rw [h1, h2, h3]
    ring
  have hexpk : ∀ e, ∀ k, k ≠ k₀ → ∀ i, expectedIn s S ν (θe e) k i = expectedIn s S ν θ k i := by
    intro e k hk i
    have : θe e k = θ k := withNui_chan S θ j₀ i₀ _ hk
    unfold expectedIn
    rw [this]
  have hge : ∀ e, 0 < e → e ≤ T → ∀ i, d k₀ i ≠ 0 → expectedIn s S ν θ k₀ i ≤ expectedIn s S ν (θe e) k₀ i := by
    intro e he heT i hdi
    have hii : i ≠ i₀ := by rintro rfl; exact hdi hempty
    rw [hexp e i, if_neg hii, add_zero]
    have : num i / T ≤ num i / e := div_le_div_of_nonneg_left (hnn i hdi) he heT
    nlinarith
  have hcove : ∀ e, 0 < e → e ≤ T → DataCovered s S d (θe e) ν := by
    intro e he heT k hk i hdi
    by_cases hkk : k = k₀
    · subst hkk; exact lt_of_lt_of_le (hcov k hk i hdi) (hge e he heT i hdi)
    · rw [hexpk e k hkk i]; exact hcov k hk i hdi
  -- the penalty is bounded on the path
  obtain ⟨M, hM⟩ : ∃ M, ∀ e ∈ Set.Icc 0 T, penalty (S k₀).R (θe e k₀) ≤ M := by
    have hcθ : ∀ j i, Continuous fun e => θe e k₀ j i := by
      intro j i
      by_cases hjj : j = j₀
      · subst hjj
        simp only [hθe, withNui_same]
        by_cases hii : i = i₀
        · simp only [if_pos hii, htau]
          exact continuous_const.add ((continuous_id.sub continuous_const).div_const _)
        · simp only [if_neg hii]; exact continuous_const
      · have : ∀ e, θe e k₀ j = θ k₀ j := fun e => withNui_tmpl S θ k₀ i₀ _ hjj
        simp only [this]; exact continuous_const
    have hcp : Continuous fun e => penalty (S k₀).R (θe e k₀) := by
      unfold penalty
      apply continuous_const.mul
      apply continuous_finsetSum
      intro j _
      simp only [dotProduct, Matrix.mulVec]
      apply continuous_finsetSum
      intro i _
      apply (hcθ j i).mul
      apply continuous_finsetSum
      intro i' _
      exact continuous_const.mul (hcθ j i')
    obtain ⟨M, hM⟩ := (isCompact_Icc (a := (0:ℝ)) (b := T)).bddAbove_image hcp.continuousOn
    exact ⟨M, fun e he => hM ⟨e, he, rfl⟩⟩
  -- the Poisson part of the channel
  have htot : ∀ e, 0 < e → ∑ i, expectedIn s S ν (θe e) k₀ i = ∑ i, expectedIn s S ν θ k₀ i := by
    intro e he
    simp only [hexp]
    rw [Finset.sum_add_distrib, ← Finset.mul_sum, Finset.sum_sub_distrib, ← Finset.sum_div, ← Finset.sum_div,
      Finset.sum_add_distrib, Finset.sum_ite_eq' Finset.univ i₀, if_pos (Finset.mem_univ _)]
    have h1 : ∑ i, num i = T := rfl
    rw [h1, div_self hsum.ne', show T + (e - T) = e by ring, div_self he.ne']
    ring
  have hsplit : ∀ n x y : ℝ, (n ≠ 0 → 0 < x ∧ 0 < y) →
      poissonBin n y = poissonBin n x + (y - x) - n * (Real.log y - Real.log x) := by
    intro n x y hxy
    unfold poissonBin
    by_cases hn : n = 0
    · rw [if_pos hn, if_pos hn, hn]; ring
    · rw [if_neg hn, if_neg hn, Real.log_div (hxy hn).2.ne' hn, Real.log_div (hxy hn).1.ne' hn]; ring
  have hpoi : ∀ e, 0 < e → e ≤ T → ∑ i, poissonBin (d k₀ i) (expectedIn s S ν (θe e) k₀ i) ≤
      (∑ i, poissonBin (d k₀ i) (expectedIn s S ν θ k₀ i)) -
        d k₀ i₁ * (Real.log (expectedIn s S ν (θe e) k₀ i₁) - Real.log (expectedIn s S ν θ k₀ i₁)) := by
    intro e he heT
    have h1 : ∀ i, poissonBin (d k₀ i) (expectedIn s S ν (θe e) k₀ i) =
        poissonBin (d k₀ i) (expectedIn s S ν θ k₀ i) +
          (expectedIn s S ν (θe e) k₀ i - expectedIn s S ν θ k₀ i) -
          d k₀ i * (Real.log (expectedIn s S ν (θe e) k₀ i) - Real.log (expectedIn s S ν θ k₀ i)) := fun i =>
      hsplit _ _ _ fun hn => ⟨hcov k₀ hk₀ i hn, hcove e he heT k₀ hk₀ i hn⟩
    simp only [h1]
    rw [Finset.sum_sub_distrib, Finset.sum_add_distrib, Finset.sum_sub_distrib, htot e he]
    have h2 := Finset.single_le_sum (f := fun i => d k₀ i * (Real.log (expectedIn s S ν (θe e) k₀ i) -
        Real.log (expectedIn s S ν θ k₀ i))) (s := Finset.univ) (fun i _ => by
      rcases hpos k₀ hk₀ i with e0 | e0
      · simp only [e0]; simp
      · have hdi : d k₀ i ≠ 0 := (lt_of_lt_of_le (by norm_num) e0).ne'
        exact mul_nonneg (le_trans (by norm_num) e0) (sub_nonneg.mpr
          (Real.log_le_log (hcov k₀ hk₀ i hdi) (hge e he heT i hdi)))) (Finset.mem_univ i₁)
    linarith
  -- the value on the path
  have hval : ∀ e, 0 < e → e ≤ T → nllAt s S d V E (θe e) ν ≤ nllAt s S d V E θ ν - penalty (S k₀).R (θ k₀) + M -
      d k₀ i₁ * (Real.log (expectedIn s S ν (θe e) k₀ i₁) - Real.log (expectedIn s S ν θ k₀ i₁)) := by
    intro e he heT
    unfold nllAt
    have hmem : k₀ ∈ Finset.range s.m.chanIds.length := Finset.mem_range.mpr hk₀
    rw [← Finset.add_sum_erase _ _ hmem, ← Finset.add_sum_erase (a := k₀) (s := Finset.range s.m.chanIds.length)
      (f := fun k => (∑ i, poissonBin (d k i) (expectedIn s S ν θ k i)) + penalty (S k).R (θ k)) hmem]
    have h1 : ∑ k ∈ (Finset.range s.m.chanIds.length).erase k₀,
        ((∑ i, poissonBin (d k i) (expectedIn s S ν (θe e) k i)) + penalty (S k).R (θe e k)) =
        ∑ k ∈ (Finset.range s.m.chanIds.length).erase k₀,
        ((∑ i, poissonBin (d k i) (expectedIn s S ν θ k i)) + penalty (S k).R (θ k)) := by
      refine Finset.sum_congr rfl fun k hk => ?_
      have hkk := Finset.ne_of_mem_erase hk
      have : θe e k = θ k := withNui_chan S θ j₀ i₀ _ hkk
      rw [this]
      simp only [hexpk e k hkk]
    rw [h1]
    have h2 := hpoi e he heT
    have h3 := hM e ⟨he.le, heT⟩
    linarith
  -- choose e
  set E1 := expectedIn s S ν θ k₀ i₁ with hE1
  have hd1 : 0 < d k₀ i₁ := by
    rcases hpos k₀ hk₀ i₁ with e0 | e0
    · exact absurd e0 hdata
    · exact lt_of_lt_of_le (by norm_num) e0
  set R := (nllAt s S d V E θ ν - penalty (S k₀).R (θ k₀) + M - B) / d k₀ i₁ + Real.log E1 with hR
  have hlim : Filter.Tendsto (fun u : ℝ => Real.log (E1 + A * (num i₁ * u - num i₁ / T))) Filter.atTop Filter.atTop := by
    apply Real.tendsto_log_atTop.comp
    apply Filter.tendsto_atTop_add_const_left
    apply Filter.Tendsto.const_mul_atTop hyield
    have : (fun u : ℝ => num i₁ * u - num i₁ / T) = fun u => num i₁ * u + -(num i₁ / T) := by funext u; ring
    rw [this]
    apply Filter.tendsto_atTop_add_const_right
    exact Filter.Tendsto.const_mul_atTop hp1 Filter.tendsto_id
  obtain ⟨u, hu1, hu2⟩ := ((hlim.eventually_gt_atTop R).and (Filter.eventually_ge_atTop (1 / T))).exists
  have hu0 : 0 < u := lt_of_lt_of_le (by positivity) hu2
  have heT : 1 / u ≤ T := by
    rw [div_le_iff₀ hu0]
    rw [div_le_iff₀ hsum] at hu2
    linarith
  have he0 : 0 < 1 / u := by positivity
  refine ⟨tau (1 / u), _, objective_nllAt' h hne hS hd hpos hc (hTe _ he0) (hcove _ he0 heT), ?_⟩
  have h1 := hval (1 / u) he0 heT
  have h2 : expectedIn s S ν (θe (1 / u)) k₀ i₁ = E1 + A * (num i₁ * u - num i₁ / T) := by
    rw [hexp, if_neg hi, add_zero]
    simp
    rfl
  rw [h2] at h1
  have h3 : R - Real.log E1 < Real.log (E1 + A * (num i₁ * u - num i₁ / T)) - Real.log E1 := by linarith
  have h4 := mul_lt_mul_of_pos_left h3 hd1
  have h5 : d k₀ i₁ * (R - Real.log E1) = nllAt s S d V E θ ν - penalty (S k₀).R (θ k₀) + M - B := by
    rw [hR, add_sub_cancel_right, mul_div_cancel₀ _ hd1.ne']
  show nllAt s S d V E (θe (1 / u)) ν < B
  linarith

/-- **C113, consequence for the fit.** If the likelihood falls below every bound on the points that respect the fixed
parameters and bounds of a fitter, a fit with an optimiser that finds true constrained minima returns no finite minimum. -/
theorem C113_no_minimum (s : Sys) (h : s.Built) (id : String) (hid : id.toLower = "iminuit") (hist : List FitOp)
    (hk : KnownIds (s.m.paramNames s.w) hist) (x0 : Vec) (hx0 : s.m.x0 s.w = .ok x0)
    (hun : ∀ B : ℝ, ∃ x a, x.length = s.m.numProcesses + s.m.numNui s.w ∧ objective s.w s.m x = .ok (.fin a) ∧ a < B ∧
      ∀ k, (FitFixed (s.m.paramNames s.w) hist k → x[k]? = x0[k]?) ∧
        ∀ pid b v, FitOp.bound pid b ∈ hist → Denotes (s.m.paramNames s.w) pid k → x[k]? = some v → InBounds b v)
    (o : Optim) (ho : TrueMin o) (up g : Bool) (r : MinResult)
    (hr : ((fitRun id hist).doFit o s.w s.m up g false none).1 = .ok r) : r.fval = .ninf := by
  have hm1 : minKindOf (fitRun id hist).minimizerId = .ok .iminuit := by rw [fitRun_id]; exact minKind_iminuit hid
  have hal := C51_aligned s h.reachable
  have hzw := minRun_wf .iminuit (s.m.paramNames s.w)
    (setupOps (fitRun id hist) s.m.numProcesses (s.m.numNui s.w) false none)
  have hz := setup_eq (kd := .iminuit) (id := id) hal.1.symm hk false none
  obtain ⟨x0', q, hx0', hq, hqf, -⟩ := doFit_minuit_inv' hm1 hz hzw.hk hr
  rw [hx0] at hx0'
  obtain rfl := Except.ok.inj hx0'
  obtain ⟨t1, t2, t3, t4⟩ := ho _ _ hq
  have key : ∀ B : ℝ, ∃ a : ℝ, a < B ∧ ¬ (Fl.fin a).lt q.fval := by
    intro B
    obtain ⟨x, a, hl, ha, hB, hfe⟩ := hun B
    refine ⟨a, hB, t4 x _ ⟨?_, ?_⟩ ha⟩
    · show x.length = List.length (minRun .iminuit _ _).params.names
      rw [hzw.hn, hl, hal.1]
    · intro k hk'
      have hk' : k < (s.m.paramNames s.w).length := by
        have : k < List.length (minRun .iminuit (s.m.paramNames s.w)
          (setupOps (fitRun id hist) s.m.numProcesses (s.m.numNui s.w) false none)).params.names := hk'
        rwa [hzw.hn] at this
      constructor
      · intro hf
        rw [C58_iminuit, List.getElem?_map, List.getElem?_range hk', Option.map_some] at hf
        have hf := Option.some.inj hf
        rw [decide_eq_true_eq] at hf
        rcases (setup_fixed hal.1.symm false none k hk').mp hf with hf | ⟨hf, -⟩
        · exact (hfe k).1 hf
        · cases hf
      · intro _ b v hb hv
        rcases setup_bounds_mem' hk' hb with rfl | ⟨pid, hp, hden⟩ | ⟨hp, -⟩
        · exact ⟨fun _ h => (by cases h), fun _ h => (by cases h)⟩
        · exact (hfe k).2 pid b v hp hden hv
        · cases hp
  rw [hqf]
  cases hf : q.fval with
  | ninf => rfl
  | nan => exact absurd hf t3
  | pinf =>
    obtain ⟨a, -, ha⟩ := key 0
    rw [hf] at ha
    exact absurd trivial ha
  | fin b =>
    obtain ⟨a, h1, h2⟩ := key b
    rw [hf] at h2
    exact absurd h1 h2

namespace Ex

/-- a template with contents (1, 1); data with an empty bin: (0, 4) -/
def ops04 : List Op :=
  [.binned1 ⟨[2], vec ![1, 1]⟩ ⟨true, [0, 1, 2]⟩ (some ⟨[2], vec ![1, 1]⟩),
   .binned1 ⟨[2], vec ![0, 4]⟩ ⟨true, [0, 1, 2]⟩ (some ⟨[2], vec ![1, 1]⟩), .newTmpl1 "t" 0,
   .defineChannel "a" (.int 2) (.d1 .tuple 0 2), .defineProcess "p", .addTemplate "a" "p" 0 (.fin 1),
   .addData [("a", 1)]]

def w04 : World :=
  { World.init with
    hists := Function.update (Function.update (fun _ => dummyHist) 0 (bh ![1, 1] ![1, 1])) 1 (bh ![0, 4] ![1, 1])
    nHists := 2
    tmpls := Function.update (fun _ => dummyTmpl) 0 (bt "t" 0 ![1, 1] ![1, 1])
    nTmpls := 1
    chans := Function.update (fun _ => dummyChan) 0 chZ
    nChans := 1 }

def sys04 : Sys := ⟨w04, mZ⟩

theorem run04 : Sys.init.run ops04 = sys04 := by
  simp only [ops04, Sys.run, List.foldl_cons, List.foldl_nil, Sys.step, bh_eq, Sys.allocHist, World.newHist,
    Sys.init, World.init, Sys.allocTmpl, World.newTmpl]
  simp [bt_eq, Sys.allocTmpl, World.newTmpl, Function.update_apply]
  simp [Mct.defineChannel, Mct.defineProcess,
    Mct.addTemplate, World.addTemplate, Mct.empty, World.newChan, dictSet, dictGet, Mct.addData, World.addData,
    World.setChan, Channel.new, Channel.addTemplate, Channel.checkTemplate, Channel.procs, bt, bh,
    Hist.setBinned, Hist.blank, ChanBins.toTuple, Channel.addData, Channel.checkHist, sys04, w04, mZ, chZ,
    World.init, Function.update_apply]

theorem sys04_built : sys04.Built := by
  refine ⟨_, setupFirst_of_noEval ?_, run04⟩
  intro o ho
  simp only [ops04, List.mem_cons, List.not_mem_nil, or_false] at ho
  rcases ho with rfl | rfl | rfl | rfl | rfl | rfl | rfl <;> exact id

theorem model04 : ModelIs sys04 SZ := by
  intro k hk
  have : k = 0 := by simpa [sys04, mZ, Mct.chanIds] using hk
  subst this
  refine ⟨Nat.one_pos, Nat.two_pos, fun _ => Matrix.PosDef.one, ?_⟩
  exact chanIs_single w04 0 (by simp [w04]) "p" 0 1 "t" 0 ![1, 1] ![1, 1] (by intro i; fin_cases i <;> simp)
      (by intro i; fin_cases i <;> simp) (by simp [w04, chZ]) (by simp [w04, chZ]) (by simp [w04, chZ]) (by simp [w04])

def d04 : ∀ k, Fin (SZ k).n → ℝ := fun _ => (![0, 4] : Fin 2 → ℝ)

theorem data04 : DataIs sys04 SZ d04 := by
  intro k hk
  have : k = 0 := by simpa [sys04, mZ, Mct.chanIds] using hk
  subst this
  refine ⟨1, by simp [sys04, mZ, Mct.chanIds, w04, chZ], ?_⟩
  show (w04.hists 1).counts.data = vec (![0, 4] : Fin 2 → ℝ)
  simp [w04, bh, Hist.setBinned, vec, List.ofFn_succ]

theorem d04_pos (k : ℕ) (i : Fin (SZ k).n) : d04 k i = 0 ∨ (1e-100 : ℝ) ≤ d04 k i := by
  have : ∀ i : Fin 2, (![0, 4] : Fin 2 → ℝ) i = 0 ∨ (1e-100 : ℝ) ≤ (![0, 4] : Fin 2 → ℝ) i := by
    intro i; fin_cases i <;> norm_num
  exact this i

theorem exp04 (x : ℝ) (k : ℕ) (i : Fin (SZ k).n) :
    expectedIn sys04 SZ (fun _ => x) (fun _ _ _ => 0) k i = x / 2 := by
  show ∑ j : Fin 1, x * 1 * ((![1, 1] : Fin 2 → ℝ) i * _ / ∑ i' : Fin 2, (![1, 1] : Fin 2 → ℝ) i' * _) = _
  have : (![1, 1] : Fin 2 → ℝ) i = 1 := by revert i; show ∀ i : Fin 2, _; intro i; fin_cases i <;> rfl
  simp [this, Fin.sum_univ_two]
  norm_num
  ring

theorem sums04 : NonZeroSums sys04 SZ (fun _ _ _ => 0) := by
  intro k hk j
  show ∑ i : Fin 2, (![1, 1] : Fin 2 → ℝ) i * _ ≠ 0
  simp [Fin.sum_univ_two]

theorem names04 : sys04.m.paramNames sys04.w = ["p_yield", "a_p_bin_0", "a_p_bin_1"] := by
  simp [sys04, mZ, Mct.paramNames, World.channelNames, w04, chZ, bt, List.range_succ, nuiName]
  exact ⟨rfl, rfl⟩

theorem x004 : sys04.m.x0 sys04.w = .ok [.fin 2, .fin 0, .fin 0] := by
  simp [sys04, Mct.x0, Mct.nuiParams, Mct.allTmpls, World.chanTmpls, Template.nuiParams, mZ, Mct.processYields, Mct.chanIds,
    World.processYield, w04, chZ, dictGet, Template.yieldParam, bt, initParams, bh, Hist.setBinned,
    npSum, vec, List.ofFn_succ, Fl.zero_def, List.replicate]
  norm_num

theorem unbounded04 (B : ℝ) : ∃ τ a : ℝ, objective sys04.w sys04.m [.fin 2, .fin τ, .fin 0] = .ok (.fin a) ∧ a < B := by
  obtain ⟨τ, a, h1, h2⟩ := C113_unbounded sys04 sys04_built (by simp [sys04, mZ]) SZ model04 d04 data04
    (fun k _ i => d04_pos k i) (fun _ => 0) (fun _ => 1) (by intro p hp; simp [sys04, mZ] at hp) (fun _ => 2)
    (fun _ _ _ => 0) sums04 (by intro k _ i _; rw [exp04]; norm_num) 0 (by simp [sys04, mZ, Mct.chanIds])
    (0 : Fin 1) (0 : Fin 2) (1 : Fin 2) (by show (![0, 4] : Fin 2 → ℝ) 0 = 0; simp)
    (by show (![0, 4] : Fin 2 → ℝ) 1 ≠ 0; norm_num) (by show (0:ℝ) < 2 * 1; norm_num)
    (by show (0:ℝ) < ∑ i : Fin 2, (![1, 1] : Fin 2 → ℝ) i * _; simp [Fin.sum_univ_two])
    (by
      intro i _
      have : ∀ i : Fin 2, 0 ≤ (![1, 1] : Fin 2 → ℝ) i * (1 + 0 * ((![1, 1] : Fin 2 → ℝ) i / (![1, 1] : Fin 2 → ℝ) i)) := by
        intro i; fin_cases i <;> simp
      exact this i)
    (by show (0:ℝ) < (![1, 1] : Fin 2 → ℝ) 1 * (1 + 0 * _); simp)
    (by show (![1, 1] : Fin 2 → ℝ) 0 * ((![1, 1] : Fin 2 → ℝ) 0 / (![1, 1] : Fin 2 → ℝ) 0) ≠ 0; simp) B
  refine ⟨τ, a, ?_, h2⟩
  rw [← h1]
  congr 1

end Ex

/-- **C113 is false in general.** One channel, one template with contents 1 and 1, data 0 and 4. With the yield fixed at 2,
the likelihood falls below every bound as the nuisance parameter of the empty bin varies; no fit with an optimiser that finds
true constrained minima returns a finite minimum. -/
theorem C113_refuted : Sys.init.run Ex.ops04 = Ex.sys04 ∧
    (∀ B : ℝ, ∃ τ a : ℝ, objective Ex.sys04.w Ex.sys04.m [.fin 2, .fin τ, .fin 0] = .ok (.fin a) ∧ a < B) ∧
    ∀ o, TrueMin o → ∀ up g r, ((fitRun "iminuit" [.fix (.str "p_yield")]).doFit o Ex.sys04.w Ex.sys04.m up g false none).1 =
      .ok r → r.fval = .ninf := by
  refine ⟨Ex.run04, Ex.unbounded04, fun o ho up g r hr => ?_⟩
  have hnn : Ex.sys04.m.numProcesses + Ex.sys04.m.numNui Ex.sys04.w = 3 := by
    rw [← (C51_aligned _ Ex.sys04_built.reachable).1, Ex.names04]; rfl
  refine C113_no_minimum Ex.sys04 Ex.sys04_built "iminuit" lower_iminuit _ ?_ _ Ex.x004 ?_ o ho up g r hr
  · rw [Ex.names04]; constructor
    · intro pid hp; simp at hp; subst hp; exact ⟨0, by rw [denotes_iff]; simp [idToIndex]⟩
    · intro pid b hp; simp at hp
  · intro B
    obtain ⟨τ, a, h1, h2⟩ := Ex.unbounded04 B
    refine ⟨_, a, by rw [hnn]; rfl, h1, h2, fun k => ⟨?_, fun pid b v hb => by simp at hb⟩⟩
    rintro ⟨pid, hp, hden⟩
    simp at hp
    subst hp
    rw [Ex.names04, denotes_iff] at hden
    simp [idToIndex] at hden
    subst hden
    rfl

/-- non-vacuity of `C113_exists_partial`: data (3, 5), nuisance parameters limited to [-1/2, 1/2] -/
example : ∃ ν θ, NonNeg Ex.sys35 ν ∧ InLimits Ex.sys35 Ex.SZ (fun _ _ _ => -1 / 2) (fun _ _ _ => 1 / 2) θ ∧
    Allowed Ex.sys35 Ex.SZ Ex.d35 θ ν ∧
    ∀ ν' θ', NonNeg Ex.sys35 ν' → InLimits Ex.sys35 Ex.SZ (fun _ _ _ => -1 / 2) (fun _ _ _ => 1 / 2) θ' →
      Allowed Ex.sys35 Ex.SZ Ex.d35 θ' ν' → NllLe Ex.sys35 (paramVec Ex.sys35 Ex.SZ ν θ) (paramVec Ex.sys35 Ex.SZ ν' θ') := by
  have hpos : ∀ θ, InLimits Ex.sys35 Ex.SZ (fun _ _ _ => -1 / 2) (fun _ _ _ => 1 / 2) θ →
      ∀ k < Ex.sys35.m.chanIds.length, ∀ j i, 0 < (Ex.SZ k).cnt j i * (1 + θ k j i * (Ex.SZ k).ε j i) := by
    intro θ hθ k hk j i
    have h1 := hθ k hk j i
    have h2 : (Ex.SZ k).cnt j i = 1 := by
      have : ∀ i : Fin 2, (![1, 1] : Fin 2 → ℝ) i = 1 := by intro i; fin_cases i <;> rfl
      exact this i
    have h3 : (Ex.SZ k).ε j i = 1 := by
      have : ∀ i : Fin 2, (![1, 1] : Fin 2 → ℝ) i / (![1, 1] : Fin 2 → ℝ) i = 1 := by intro i; fin_cases i <;> simp
      exact this i
    rw [h2, h3]
    linarith [h1.1]
  refine C113_exists_partial Ex.sys35 Ex.sys35_built (by simp [Ex.sys35, Ex.mZ]) Ex.SZ Ex.model35 Ex.d35 Ex.data35
    (fun k _ i => Ex.d35_pos k i) (fun _ => 0) (fun _ => 1) (by intro p hp; simp [Ex.sys35, Ex.mZ] at hp) _ _
    (fun θ hθ => ⟨fun k hk j => ?_, fun k hk j i => (hpos θ hθ k hk j i).le⟩) ?_ ?_ (fun _ => 8) (fun _ _ _ => 0)
    (fun _ _ => by norm_num) (fun _ _ _ _ => by norm_num) (Ex.allowed35 8 (by norm_num))
  · have : ∑ i : Fin (Ex.SZ k).n, (Ex.SZ k).cnt j i * (1 + θ k j i * (Ex.SZ k).ε j i) > 0 :=
      Finset.sum_pos (fun i _ => hpos θ hθ k hk j i) ⟨(0 : Fin 2), Finset.mem_univ _⟩
    exact this.ne'
  · intro k _ j; exact one_pos
  · intro p hp
    have : p = "p" := by simpa [Ex.sys35, Ex.mZ] using hp
    subst this
    exact ⟨0, by simp [Ex.sys35, Ex.mZ, Mct.chanIds], (0 : Fin 1), by
      simp [procName, Ex.sys35, Ex.mZ, Mct.chanIds, Ex.w35, Ex.chZ]⟩

end

end TF.Props
