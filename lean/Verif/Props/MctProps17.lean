import Verif.Props.MctProps15
import Mathlib.Topology.Order.Compact

set_option linter.unusedSimpArgs false

/-!
# A best fit with non-negative yields exists (C103)
-/

namespace TF.Spec

open Classical

noncomputable section

/-- no yield is negative -/
def NonNeg (s : Sys) (ν : String → ℝ) : Prop := ∀ p ∈ s.m.processes, 0 ≤ ν p

end

end TF.Spec

namespace TF.Props

open Classical Spec

noncomputable section

theorem poissonBin_lower {n e v : ℝ} (hn : 0 < n) (he : 0 < e) (h : poissonBin n e ≤ v) : n * Real.exp (-(v + n) / n) ≤ e := by
  unfold poissonBin at h
  rw [if_neg hn.ne'] at h
  have h1 : -(v + n) / n ≤ Real.log (e / n) := by
    rw [div_le_iff₀ hn]
    nlinarith
  have h2 := Real.exp_le_exp.mpr h1
  rw [Real.exp_log (div_pos he hn), le_div_iff₀ hn] at h2
  linarith

theorem poissonBin_upper {n e v : ℝ} (hn : 0 ≤ n) (he : 0 ≤ e) (h : poissonBin n e ≤ v) : e ≤ 2 * (v + n) := by
  unfold poissonBin at h
  by_cases h0 : n = 0
  · rw [if_pos h0] at h; rw [h0]; linarith
  · rw [if_neg h0] at h
    have hn : 0 < n := lt_of_le_of_ne hn (Ne.symm h0)
    rcases eq_or_lt_of_le he with rfl | he
    · simp at h; linarith
    have h1 := Real.log_le_sub_one_of_pos (x := e / n / 2) (by positivity)
    rw [Real.log_div (by positivity) (by norm_num)] at h1
    have h2 : Real.log 2 ≤ 1 := by
      have := Real.log_le_sub_one_of_pos (x := 2) (by norm_num)
      linarith
    have h3 : Real.log (e / n) ≤ e / n / 2 := by linarith
    have h4 : n * Real.log (e / n) ≤ e / 2 := by
      have := mul_le_mul_of_nonneg_left h3 hn.le
      have e1 : n * (e / n / 2) = e / 2 := by field_simp
      linarith
    linarith

/-- **C103, existence.** At nuisance parameters that keep every varied template content non-negative (and no template empty):
if all efficiencies are positive, every process has a template in some channel, and the likelihood is a number for at least
one choice of non-negative yields, then there are non-negative yields at which the likelihood is smallest among all
non-negative yields at which it is a number. -/
theorem C103_exists (s : Sys) (h : s.Built) (hne : s.m.channels ≠ []) (S : ℕ → ChanSpec) (hS : ModelIs s S)
    (d : ∀ k, Fin (S k).n → ℝ) (hd : DataIs s S d)
    (hpos : ∀ k < s.m.chanIds.length, ∀ i, d k i = 0 ∨ (1e-100 : ℝ) ≤ d k i)
    (V E : String → ℝ) (hc : ConstraintsAre s V E)
    (θ : ∀ k, Fin (S k).K → Fin (S k).n → ℝ) (hT : NonZeroSums s S θ)
    (hphys : ∀ k < s.m.chanIds.length, ∀ j i, 0 ≤ (S k).cnt j i * (1 + θ k j i * (S k).ε j i))
    (heff : ∀ k < s.m.chanIds.length, ∀ j, 0 < (S k).eff j)
    (hused : ∀ p ∈ s.m.processes, ∃ k < s.m.chanIds.length, ∃ j : Fin (S k).K, procName s k j = p)
    (ν₀ : String → ℝ) (hn₀ : NonNeg s ν₀) (hν₀ : Allowed s S d θ ν₀) :
    ∃ ν, NonNeg s ν ∧ Allowed s S d θ ν ∧
      ∀ ν', NonNeg s ν' → Allowed s S d θ ν' → NllLe s (paramVec s S ν θ) (paramVec s S ν' θ) := by
  have hw := reachable_wf h.reachable
  have hd0 : ∀ k < s.m.chanIds.length, ∀ i, 0 ≤ d k i := fun k hk i => by
    rcases hpos k hk i with e | e <;> [rw [e]; exact le_trans (by norm_num) e]
  have hsum : ∀ k < s.m.chanIds.length, ∀ j, 0 < ∑ i, (S k).cnt j i * (1 + θ k j i * (S k).ε j i) := fun k hk j =>
    lt_of_le_of_ne (Finset.sum_nonneg fun i _ => hphys k hk j i) (Ne.symm (hT k hk j))
  have hfrac : ∀ k < s.m.chanIds.length, ∀ j i, 0 ≤ fracIn S θ k j i := fun k hk j i =>
    div_nonneg (hphys k hk j i) (hsum k hk j).le
  have hterm : ∀ ν, NonNeg s ν → ∀ k < s.m.chanIds.length, ∀ (j : Fin (S k).K) i,
      0 ≤ ν (procName s k j) * (S k).eff j * fracIn S θ k j i := fun ν hν k hk j i =>
    mul_nonneg (mul_nonneg (hν _ (procName_mem hw hS k hk j)) (heff k hk j).le) (hfrac k hk j i)
  set v := nllAt s S d V E θ ν₀ with hv
  -- every bin term is at most the likelihood
  have hbin : ∀ ν, Allowed s S d θ ν → nllAt s S d V E θ ν ≤ v → ∀ k < s.m.chanIds.length, ∀ i,
      poissonBin (d k i) (expectedIn s S ν θ k i) ≤ v := by
    intro ν hν hle k hk i
    have hb : ∀ k < s.m.chanIds.length, ∀ i, 0 ≤ poissonBin (d k i) (expectedIn s S ν θ k i) := fun k hk i =>
      (poissonBin_nonneg' (hpos k hk i) (hν k hk i)).1
    have hp : ∀ k < s.m.chanIds.length, 0 ≤ penalty (S k).R (θ k) := fun k hk => (penalty_nonneg (hS k hk).2.2.1 (θ k)).1
    have h1 := Finset.single_le_sum (f := fun i => poissonBin (d k i) (expectedIn s S ν θ k i)) (s := Finset.univ)
      (fun i _ => hb k hk i) (Finset.mem_univ i)
    have h2 := Finset.single_le_sum (f := fun k => (∑ i, poissonBin (d k i) (expectedIn s S ν θ k i)) + penalty (S k).R (θ k))
      (s := Finset.range s.m.chanIds.length) (fun k hk => add_nonneg (Finset.sum_nonneg fun i _ =>
        hb k (Finset.mem_range.mp hk) i) (hp k (Finset.mem_range.mp hk))) (Finset.mem_range.mpr hk)
    have h3 : 0 ≤ (s.m.constrained.map fun p => (ν p - V p) ^ 2 / (2 * E p ^ 2)).sum := by
      apply List.sum_nonneg
      intro a ha
      obtain ⟨p, hp, rfl⟩ := List.mem_map.mp ha
      positivity
    have h4 := hp k hk
    unfold nllAt at hle
    linarith
  -- a bound for every yield
  have hB : ∀ p ∈ s.m.processes, ∃ B : ℝ, ∀ ν, NonNeg s ν → Allowed s S d θ ν → nllAt s S d V E θ ν ≤ v → ν p ≤ B := by
    intro p hp
    obtain ⟨k, hk, j, hj⟩ := hused p hp
    obtain ⟨i, hi⟩ : ∃ i, 0 < fracIn S θ k j i := by
      by_contra hcon
      push Not at hcon
      have : ∑ i, (S k).cnt j i * (1 + θ k j i * (S k).ε j i) ≤ 0 := by
        apply Finset.sum_nonpos
        intro i _
        by_contra h1
        push Not at h1
        exact absurd (hcon i) (not_le.mpr (div_pos h1 (hsum k hk j)))
      exact absurd this (not_le.mpr (hsum k hk j))
    refine ⟨2 * (v + d k i) / ((S k).eff j * fracIn S θ k j i), fun ν hν hA hle => ?_⟩
    rw [le_div_iff₀ (mul_pos (heff k hk j) hi)]
    have h1 : ν p * ((S k).eff j * fracIn S θ k j i) ≤ expectedIn s S ν θ k i := by
      rw [expectedIn_eq, ← hj, ← mul_assoc]
      exact Finset.single_le_sum (f := fun j : Fin (S k).K => ν (procName s k j) * (S k).eff j * fracIn S θ k j i)
        (s := Finset.univ) (fun j _ => hterm ν hν k hk j i) (Finset.mem_univ j)
    have h2 : 0 ≤ expectedIn s S ν θ k i := by
      rw [expectedIn_eq]; exact Finset.sum_nonneg fun j _ => hterm ν hν k hk j i
    exact h1.trans (poissonBin_upper (hd0 k hk i) h2 (hbin ν hA hle k hk i))
  choose! B hB using hB
  -- the compact set
  set C : Set (String → ℝ) :=
    (Set.univ.pi fun p => if p ∈ s.m.processes then Set.Icc 0 (B p) else {0}) ∩
    {ν | ∀ k ∈ Finset.range s.m.chanIds.length, ∀ i, d k i ≠ 0 →
      d k i * Real.exp (-(v + d k i) / d k i) ≤ expectedIn s S ν θ k i} with hC
  have hcont : ∀ k i, Continuous fun ν : String → ℝ => expectedIn s S ν θ k i := by
    intro k i
    simp only [expectedIn_eq]
    exact continuous_finsetSum _ fun j _ => ((continuous_apply _).mul continuous_const).mul continuous_const
  have hCc : IsCompact C := by
    apply IsCompact.inter_right
    · apply isCompact_univ_pi
      intro p
      split
      · exact isCompact_Icc
      · exact isCompact_singleton
    · simp only [Set.ofPred_forall]
      exact isClosed_biInter fun k _ => isClosed_iInter fun i => isClosed_iInter fun _ =>
        isClosed_le continuous_const (hcont k i)
  -- restriction to the processes
  have hres : ∀ ν : String → ℝ, ∀ k < s.m.chanIds.length, ∀ i,
      expectedIn s S (fun p => if p ∈ s.m.processes then ν p else 0) θ k i = expectedIn s S ν θ k i := by
    intro ν k hk i
    rw [expectedIn_eq, expectedIn_eq]
    exact Finset.sum_congr rfl fun j _ => by rw [if_pos (procName_mem hw hS k hk j)]
  have hresn : ∀ ν : String → ℝ, nllAt s S d V E θ (fun p => if p ∈ s.m.processes then ν p else 0) = nllAt s S d V E θ ν := by
    intro ν
    unfold nllAt
    congr 1
    · exact Finset.sum_congr rfl fun k hk => by
        congr 1
        exact Finset.sum_congr rfl fun i _ => by rw [hres ν k (Finset.mem_range.mp hk) i]
    · congr 1
      exact List.map_congr_left fun p hp => by simp only [if_pos (hc p hp).1]
  have hmem : ∀ ν, NonNeg s ν → Allowed s S d θ ν → nllAt s S d V E θ ν ≤ v →
      (fun p => if p ∈ s.m.processes then ν p else 0) ∈ C := by
    intro ν hν hA hle
    refine ⟨?_, ?_⟩
    · rw [Set.mem_univ_pi]
      intro p
      by_cases hp : p ∈ s.m.processes
      · simp only [if_pos hp]
        exact ⟨hν p hp, hB p hp ν hν hA hle⟩
      · simp only [if_neg hp, Set.mem_singleton_iff]
    · intro k hk i hdi
      have hk := Finset.mem_range.mp hk
      rw [hres ν k hk i]
      have hdi' : 0 < d k i := lt_of_le_of_ne (hd0 k hk i) (Ne.symm hdi)
      refine poissonBin_lower hdi' ?_ (hbin ν hA hle k hk i)
      rcases hA k hk i with e | ⟨e, -⟩
      · exact e
      · exact absurd e hdi
  have hCpos : ∀ ν ∈ C, ∀ k < s.m.chanIds.length, ∀ i, d k i ≠ 0 → 0 < expectedIn s S ν θ k i := by
    intro ν hν k hk i hdi
    have hdi' : 0 < d k i := lt_of_le_of_ne (hd0 k hk i) (Ne.symm hdi)
    exact lt_of_lt_of_le (by positivity) (hν.2 k (Finset.mem_range.mpr hk) i hdi)
  have hCn : ∀ ν ∈ C, NonNeg s ν := by
    intro ν hν p hp
    have := Set.mem_univ_pi.mp hν.1 p
    rw [if_pos hp] at this
    exact this.1
  have hCa : ∀ ν ∈ C, Allowed s S d θ ν := by
    intro ν hν k hk i
    by_cases hdi : d k i = 0
    · have h2 : 0 ≤ expectedIn s S ν θ k i := by
        rw [expectedIn_eq]; exact Finset.sum_nonneg fun j _ => hterm ν (hCn ν hν) k hk j i
      rcases eq_or_lt_of_le h2 with e | e
      · right; exact ⟨hdi, e.symm⟩
      · left; exact e
    · left; exact hCpos ν hν k hk i hdi
  have hco : ContinuousOn (nllAt s S d V E θ) C := by
    unfold nllAt
    apply ContinuousOn.add
    · apply continuousOn_finsetSum
      intro k hk
      have hk := Finset.mem_range.mp hk
      apply ContinuousOn.add _ continuousOn_const
      apply continuousOn_finsetSum
      intro i _
      unfold poissonBin
      by_cases hdi : d k i = 0
      · simp only [hdi, if_true]
        exact (hcont k i).continuousOn
      · simp only [hdi, if_false]
        apply ContinuousOn.sub
        · exact (hcont k i).continuousOn.sub continuousOn_const
        · apply continuousOn_const.mul
          apply ContinuousOn.log
          · exact (hcont k i).continuousOn.div_const _
          · intro ν hν
            exact div_ne_zero (hCpos ν hν k hk i hdi).ne' hdi
    · apply Continuous.continuousOn
      apply continuous_list_sum
      intro p _
      exact (((continuous_apply p).sub continuous_const).pow 2).div_const _
  obtain ⟨ν, hνC, hmin⟩ := hCc.exists_isMinOn ⟨_, hmem ν₀ hn₀ hν₀ le_rfl⟩ hco
  refine ⟨ν, hCn ν hνC, hCa ν hνC, fun ν' hn' hA' => ?_⟩
  rw [nllLe_iff h hne hS hd hpos hc hT (hCa ν hνC) hA']
  by_cases hle : nllAt s S d V E θ ν' ≤ v
  · have := hmin (hmem ν' hn' hA' hle)
    simp only [Set.mem_ofPred_eq] at this
    rw [hresn] at this
    exact this
  · have := hmin (hmem ν₀ hn₀ hν₀ le_rfl)
    simp only [Set.mem_ofPred_eq] at this
    rw [hresn] at this
    push Not at hle
    linarith

/-- non-vacuity of C103: the example of C88 -/
example : ∃ ν, NonNeg Ex.sys35 ν ∧ Allowed Ex.sys35 Ex.SZ Ex.d35 (fun _ _ _ => 0) ν ∧
    ∀ ν', NonNeg Ex.sys35 ν' → Allowed Ex.sys35 Ex.SZ Ex.d35 (fun _ _ _ => 0) ν' →
      NllLe Ex.sys35 (paramVec Ex.sys35 Ex.SZ ν fun _ _ _ => 0) (paramVec Ex.sys35 Ex.SZ ν' fun _ _ _ => 0) := by
  refine C103_exists Ex.sys35 Ex.sys35_built (by simp [Ex.sys35, Ex.mZ]) Ex.SZ Ex.model35 Ex.d35 Ex.data35
    (fun k _ i => Ex.d35_pos k i) (fun _ => 0) (fun _ => 1) (by intro p hp; simp [Ex.sys35, Ex.mZ] at hp) _ Ex.sums35
    ?_ ?_ ?_ (fun _ => 8) (fun _ _ => by norm_num) (Ex.allowed35 8 (by norm_num))
  · intro k _ j i
    show (0:ℝ) ≤ (![1, 1] : Fin 2 → ℝ) i * (1 + 0 * _)
    have : (![1, 1] : Fin 2 → ℝ) i = 1 := by revert i; show ∀ i : Fin 2, _; intro i; fin_cases i <;> rfl
    rw [this]; norm_num
  · intro k _ j; exact one_pos
  · intro p hp
    have : p = "p" := by simpa [Ex.sys35, Ex.mZ] using hp
    subst this
    exact ⟨0, by simp [Ex.sys35, Ex.mZ, Mct.chanIds], (0 : Fin 1), by
      simp [procName, Ex.sys35, Ex.mZ, Mct.chanIds, Ex.w35, Ex.chZ]⟩

end

end TF.Props
