import Verif.Props.CombProps2
import Verif.Props.CovEvents

set_option linter.unusedSimpArgs false
set_option linter.unusedVariables false

/-!
# Merging bins (C148)
-/

namespace TF.Spec

open TF Classical

noncomputable section

/-- `s'` is the model `s` with coarser bins: the same processes, constrained processes and channels; bin `i` of channel `k` of `s` lies in bin `b k i` of `s'`, and template for template the content of a bin of `s'` is the sum of the contents of the bins of `s`
merged into it (the processes and efficiencies are the same) -/
structure Merged (s s' : Sys) (S S' : ℕ → ChanSpec) (b : ∀ k, Fin (S k).n → Fin (S' k).n) : Prop where
  left : ModelIs s S
  right : ModelIs s' S'
  processes : s'.m.processes = s.m.processes
  constrained : s'.m.constrained = s.m.constrained
  channels : s'.m.chanIds.length = s.m.chanIds.length
  templates : ∀ k < s.m.chanIds.length, (S k).K = (S' k).K
  onto : ∀ k < s.m.chanIds.length, Function.Surjective (b k)
  same : ∀ k < s.m.chanIds.length, ∀ (j : Fin (S k).K) (j' : Fin (S' k).K), (j' : ℕ) = j →
    procName s' k j' = procName s k j ∧ (S' k).eff j' = (S k).eff j ∧ ∀ i', (S' k).cnt j' i' = ∑ i with b k i = i', (S k).cnt j i

/-- the bins merged into one bin differ only by a factor common to all templates: they have the same composition -/
def SameComposition (s : Sys) (S S' : ℕ → ChanSpec) (b : ∀ k, Fin (S k).n → Fin (S' k).n) : Prop :=
  ∀ k < s.m.chanIds.length, ∃ u : Fin (S k).n → ℝ, ∀ (j : Fin (S k).K) (j' : Fin (S' k).K), (j' : ℕ) = j → ∀ i, (S k).cnt j i = u i * (S' k).cnt j' (b k i)

end

end TF.Spec

namespace TF.Props

open Classical Spec
open scoped Matrix

noncomputable section

/-- comparison of two variances through a map of the directions -/
theorem var_map {n n' : ℕ} {A : Matrix (Fin n) (Fin n) ℝ} {A' : Matrix (Fin n') (Fin n') ℝ} (hA : A.PosDef) (hA' : A'.PosDef) {P : Fin n → Prop} {P' : Fin n' → Prop}
    (T : (Fin n → ℝ) → Fin n' → ℝ) (hf : ∀ v, (∀ q, ¬ P q → v q = 0) → T v ⬝ᵥ A'.mulVec (T v) ≤ v ⬝ᵥ A.mulVec v)
    (hT : ∀ v, (∀ q, ¬ P q → v q = 0) → ∀ q, ¬ P' q → T v q = 0) (i : {q // P q}) (i' : {q // P' q}) (hi : ∀ v, T v i'.1 = v i.1) : freeVar A P i ≤ freeVar A' P' i' := by
  obtain ⟨w, w1, w2⟩ := (free_dual hA P i).2.1
  have h3 := (free_dual hA' P' i').1 (T w) (hT w w1)
  have h4 := hf w w1
  rw [hi] at h3
  linarith

/-- the yields of a direction, as a direction of another model -/
def yieldPart {n : ℕ} (np n' : ℕ) (v : Fin n → ℝ) : Fin n' → ℝ := fun q => if (q : ℕ) < np then vget v q else 0

theorem vget_ge {n np : ℕ} {v : Fin n → ℝ} (hv : ∀ q : Fin n, np ≤ q → v q = 0) {q : ℕ} (hq : np ≤ q) : vget v q = 0 := by
  unfold vget
  by_cases h : q < n
  · rw [dif_pos h]; exact hv ⟨q, h⟩ hq
  · rw [dif_neg h]

theorem vget_yieldPart {n n' np : ℕ} (hnp : np ≤ n') (v : Fin n → ℝ) {q : ℕ} (hq : q < np) : vget (yieldPart np n' v) q = vget v q := by
  rw [show vget (yieldPart np n' v) q = yieldPart np n' v ⟨q, hq.trans_le hnp⟩ from dif_pos _]
  simp [yieldPart, hq]

/-- at Asimov data the second derivative in a direction in which only yields change -/
theorem yield_form {s : Sys} (h : s.Built) (hne : s.m.channels ≠ []) {S : ℕ → ChanSpec} (hS : ModelIs s S) {d : ∀ k, Fin (S k).n → ℝ} (hd : DataIs s S d)
    (hpos : ∀ k < s.m.chanIds.length, ∀ i, (1e-100 : ℝ) ≤ d k i) {V E : String → ℝ} (hc : ConstraintsAre s V E) {ν : String → ℝ} (hT : NonZeroSums s S fun _ _ _ => 0)
    (hdata : ∀ k < s.m.chanIds.length, ∀ i, expectedIn s S ν (fun _ _ _ => 0) k i = d k i) {n : ℕ} {x : Fin n → ℝ} (hx : paramVec s S ν (fun _ _ _ => 0) = vec x)
    {A : Matrix (Fin n) (Fin n) ℝ} (hA : IsHesse (objective s.w s.m) x A) {v : Fin n → ℝ} (hv : ∀ q : Fin n, s.m.numProcesses ≤ q → v q = 0) :
    v ⬝ᵥ A.mulVec v = ∑ k ∈ Finset.range s.m.chanIds.length, ∑ i, expectedIn s S (yieldsOf s S v) (fun _ _ _ => 0) k i ^ 2 / d k i +
      (s.m.constrained.map fun p => (yieldsOf s S v p / E p) ^ 2).sum := by
  have hlen : s.m.channels.length = s.m.chanIds.length := by simp [Mct.chanIds]
  have hd0 : ∀ k < s.m.chanIds.length, ∀ i, 0 < d k i := fun k hk i => lt_of_lt_of_le (by norm_num) (hpos k hk i)
  have hN : nuisOf s S v = fun _ _ _ => 0 := by
    funext k j i
    exact vget_ge hv (slotIdx_nui s S _)
  rw [hesse_form s h hne S hS d hd (fun k hk i => .inr (hpos k hk i)) _ _ hc ν _ hT (fun k hk i => by rw [hdata k hk i]; exact hd0 k hk i) x hx A hA v, hN, hlen]
  have hF : ∀ k j i, fracSlope S (fun _ _ _ => 0) (fun _ _ _ => 0) k j i = 0 := by
    intro k j i
    simp [fracSlope, totalSlope]
  rw [Finset.sum_eq_zero (s := Finset.range s.m.chanIds.length) (f := fun k => ∑ i, (1 - d k i / expectedIn s S ν (fun _ _ _ => 0) k i) * bendIn s S ν (yieldsOf s S v) (fun _ _ _ => 0) (fun _ _ _ => 0) k i)
    fun k hk => Finset.sum_eq_zero fun i _ => by rw [hdata k (Finset.mem_range.mp hk) i, div_self (hd0 k (Finset.mem_range.mp hk) i).ne', sub_self, zero_mul], add_zero]
  unfold information
  rw [hlen]
  congr 1
  refine Finset.sum_congr rfl fun k hk => ?_
  have hk := Finset.mem_range.mp hk
  have h0 : ∑ j, (fun _ : Fin (S k).n => (0 : ℝ)) ⬝ᵥ (((S k).R j)⁻¹.mulVec fun _ => 0) = 0 := Finset.sum_eq_zero fun j _ => by simp [dotProduct]
  rw [h0, add_zero]
  refine Finset.sum_congr rfl fun i _ => ?_
  have hs : slopeIn s S ν (yieldsOf s S v) (fun _ _ _ => 0) (fun _ _ _ => 0) k i = expectedIn s S (yieldsOf s S v) (fun _ _ _ => 0) k i := by
    rw [expectedIn_eq]
    unfold slopeIn
    exact Finset.sum_congr rfl fun j _ => by rw [hF]; ring
  rw [hs, hdata k hk i, div_pow]
  have := (hd0 k hk i).ne'
  field_simp

/-- expectations of the merged bins -/
theorem merged_expected {s s' : Sys} {S S' : ℕ → ChanSpec} {b : ∀ k, Fin (S k).n → Fin (S' k).n} (hm : Merged s s' S S' b) {k : ℕ} (hk : k < s.m.chanIds.length) (δ : String → ℝ) (i' : Fin (S' k).n) :
    expectedIn s' S' δ (fun _ _ _ => 0) k i' = ∑ i with b k i = i', expectedIn s S δ (fun _ _ _ => 0) k i := by
  simp only [expectedIn_eq]
  rw [Finset.sum_comm]
  refine (Fintype.sum_equiv (finCongr (hm.templates k hk)) _ _ fun j => ?_).symm
  obtain ⟨h1, h2, h3⟩ := hm.same k hk j (finCongr (hm.templates k hk) j) (by simp)
  rw [h1, h2]
  unfold fracIn
  simp only [zero_mul, add_zero, mul_one, h3]
  rw [← Finset.mul_sum, ← Finset.sum_div, Finset.sum_fiberwise]

theorem merged_sums {s s' : Sys} {S S' : ℕ → ChanSpec} {b : ∀ k, Fin (S k).n → Fin (S' k).n} (hm : Merged s s' S S' b) (hT : NonZeroSums s S fun _ _ _ => 0) : NonZeroSums s' S' fun _ _ _ => 0 := by
  intro k hk j'
  rw [hm.channels] at hk
  have h3 := (hm.same k hk ((finCongr (hm.templates k hk)).symm j') j' (by simp)).2.2
  have := hT k hk ((finCongr (hm.templates k hk)).symm j')
  simp only [zero_mul, add_zero, mul_one, h3] at this ⊢
  rwa [Finset.sum_fiberwise]

/-- merging bins of the same composition loses nothing -/
theorem merged_same {s s' : Sys} {S S' : ℕ → ChanSpec} {b : ∀ k, Fin (S k).n → Fin (S' k).n} (hm : Merged s s' S S' b) {k : ℕ} (hk : k < s.m.chanIds.length)
    {u : Fin (S k).n → ℝ} (hu : ∀ (j : Fin (S k).K) (j' : Fin (S' k).K), (j' : ℕ) = j → ∀ i, (S k).cnt j i = u i * (S' k).cnt j' (b k i)) (δ : String → ℝ) (i : Fin (S k).n) :
    expectedIn s S δ (fun _ _ _ => 0) k i = u i * expectedIn s' S' δ (fun _ _ _ => 0) k (b k i) := by
  rw [expectedIn_eq, expectedIn_eq, Finset.mul_sum]
  refine Fintype.sum_equiv (finCongr (hm.templates k hk)) _ _ fun j => ?_
  obtain ⟨h1, h2, h3⟩ := hm.same k hk j (finCongr (hm.templates k hk) j) (by simp)
  rw [h1, h2]
  unfold fracIn
  simp only [zero_mul, add_zero, mul_one]
  rw [hu j (finCongr (hm.templates k hk) j) (by simp) i]
  have : ∑ i', (S' k).cnt (finCongr (hm.templates k hk) j) i' = ∑ i', (S k).cnt j i' := by
    simp only [h3]
    rw [Finset.sum_fiberwise]
  rw [this]
  ring

/-- yields of a transported direction -/
theorem yieldsOf_part {s s' : Sys} (hw : SysWF s) (hw' : SysWF s') (S S' : ℕ → ChanSpec) (hp : s'.m.processes = s.m.processes) {n n' : ℕ} (hn' : s.m.numProcesses ≤ n') (v : Fin n → ℝ) {p : String}
    (h : p ∈ s.m.processes) : yieldsOf s' S' (yieldPart s.m.numProcesses n' v) p = yieldsOf s S v p := by
  unfold yieldsOf
  rw [slotIdx_yield hw S h, slotIdx_yield hw' S' (hp ▸ h), hp]
  exact vget_yieldPart hn' v (List.idxOf_lt_length_of_mem h)

theorem expectedIn_agree {s : Sys} (hw : SysWF s) {S : ℕ → ChanSpec} (hS : ModelIs s S) {δ δ' : String → ℝ} (hδ : ∀ p ∈ s.m.processes, δ p = δ' p) {k : ℕ} (hk : k < s.m.chanIds.length) (i : Fin (S k).n) :
    expectedIn s S δ (fun _ _ _ => 0) k i = expectedIn s S δ' (fun _ _ _ => 0) k i := by
  rw [expectedIn_eq, expectedIn_eq]
  exact Finset.sum_congr rfl fun j _ => by rw [hδ _ (procName_mem hw hS k hk j)]

/-- **C148.** `s'` is the model `s` with coarser bins: bin `i` of channel `k` of `s` is merged into bin `b k i` of `s'`. The data of `s` are those expected for the yields `ν` (nuisance parameters zero, all expectations positive; any constraints, satisfied by `ν`), the data of `s'`
are the same with the bins merged, and the yields are identifiable in the coarse model. Two iminuit fits with exact minimization and errors, all nuisance parameters held fixed at zero, further parameters as demanded by `ops` and `ops'`: both return the true yields. If the coarse fit
leaves free every yield that the fine fit leaves free, no free yield has a smaller error in the coarse fit; and if the fine fit leaves free every yield that the coarse fit leaves free and only bins of the same composition were merged, none has a larger error either. -/
theorem C148_merging (s s' : Sys) (h : s.Built) (h' : s'.Built) (hne : s.m.channels ≠ []) (S S' : ℕ → ChanSpec) (b : ∀ k, Fin (S k).n → Fin (S' k).n) (hm : Merged s s' S S' b)
    (d : ∀ k, Fin (S k).n → ℝ) (d' : ∀ k, Fin (S' k).n → ℝ) (hd : DataIs s S d) (hd' : DataIs s' S' d') (hpos : ∀ k < s.m.chanIds.length, ∀ i, (1e-100 : ℝ) ≤ d k i)
    (hdd : ∀ k < s.m.chanIds.length, ∀ i', d' k i' = ∑ i with b k i = i', d k i) (V E : String → ℝ) (hc : ConstraintsAre s V E) (hc' : ConstraintsAre s' V E) (ν : String → ℝ)
    (hV : ∀ p ∈ s.m.constrained, V p = ν p) (xs xs' : Vec) (hx0 : s.m.x0 s.w = .ok xs) (hx0' : s'.m.x0 s'.w = .ok xs') (hT0 : NonZeroSums s S fun _ _ _ => 0)
    (hdata : ∀ k < s.m.chanIds.length, ∀ i, expectedIn s S ν (fun _ _ _ => 0) k i = d k i) (hid : Identifiable s' S')
    (o o' : Optim) (ho : TrueMin o) (ho' : TrueMin o') (he : ExactErrors o) (he' : ExactErrors o') (id : String) (hmin : id.toLower = "iminuit") (ops ops' : List FitOp)
    (hk : KnownIds (s.m.paramNames s.w) ops) (hk' : KnownIds (s'.m.paramNames s'.w) ops') (up g up' g' : Bool)
    (hb : ∀ pid b, FitOp.bound pid b ∉ ops ∧ FitOp.bound pid b ∉ ops')
    (hfix : ∀ q < (s.m.paramNames s.w).length, WantedFixed (s.m.paramNames s.w) ops s.m.numProcesses true q → xs[q]? = (paramVec s S ν fun _ _ _ => 0)[q]?)
    (hfix' : ∀ q < (s'.m.paramNames s'.w).length, WantedFixed (s'.m.paramNames s'.w) ops' s'.m.numProcesses true q → xs'[q]? = (paramVec s' S' ν fun _ _ _ => 0)[q]?) (r r' : MinResult)
    (hr : ((fitRun id ops).doFit o s.w s.m up g true none).1 = .ok r) (hr' : ((fitRun id ops').doFit o' s'.w s'.m up' g' true none).1 = .ok r') :
    r.params.values = paramVec s S ν (fun _ _ _ => 0) ∧ r'.params.values = paramVec s' S' ν (fun _ _ _ => 0) ∧
      ∀ q < s.m.numProcesses, FreeParam s ops true q → FreeParam s' ops' true q → ∃ e e', ErrorIs r q e ∧ ErrorIs r' q e' ∧ 0 < e ∧ 0 < e' ∧
        ((∀ p < s.m.numProcesses, FreeParam s ops true p → FreeParam s' ops' true p) → e ≤ e') ∧
        ((∀ p < s.m.numProcesses, FreeParam s' ops' true p → FreeParam s ops true p) → SameComposition s S S' b → e' ≤ e) := by
  have hw := reachable_wf h.reachable
  have hw' := reachable_wf h'.reachable
  have hne' : s'.m.channels ≠ [] := fun h0 => hne (List.length_eq_zero_iff.mp (by
    have h1 : s'.m.channels.length = 0 := by rw [h0]; rfl
    have := hm.channels
    simp only [Mct.chanIds, List.length_map] at this
    omega))
  have hT' := merged_sums hm hT0
  have hle : ∀ k < s.m.chanIds.length, ∀ i, d k i ≤ d' k (b k i) := fun k hk i => by
    rw [hdd k hk]
    exact Finset.single_le_sum (f := fun i => d k i) (fun j _ => (by norm_num : (0 : ℝ) ≤ 1e-100).trans (hpos k hk j)) (by simp)
  have hpos' : ∀ k < s'.m.chanIds.length, ∀ i, (1e-100 : ℝ) ≤ d' k i := fun k hk i' => by
    rw [hm.channels] at hk
    obtain ⟨i, rfl⟩ := hm.onto k hk i'
    exact (hpos k hk i).trans (hle k hk i)
  have hd0 : ∀ k < s.m.chanIds.length, ∀ i, 0 < d k i := fun k hk i => lt_of_lt_of_le (by norm_num) (hpos k hk i)
  have hd0' : ∀ k < s.m.chanIds.length, ∀ i, 0 < d' k i := fun k hk i => lt_of_lt_of_le (by norm_num) (hpos' k (hm.channels ▸ hk) i)
  have hdata' : ∀ k < s'.m.chanIds.length, ∀ i, expectedIn s' S' ν (fun _ _ _ => 0) k i = d' k i := fun k hk i' => by
    rw [hm.channels] at hk
    rw [merged_expected hm hk, hdd k hk]
    exact Finset.sum_congr rfl fun i _ => hdata k hk i
  have hid0 : Identifiable s S := fun δ h1 h2 p hp => by
    refine hid δ (fun k hk i' => ?_) (by rw [hm.constrained]; exact h2) p (hm.processes ▸ hp)
    rw [hm.channels] at hk
    rw [merged_expected hm hk]
    exact Finset.sum_eq_zero fun i _ => h1 k hk i
  have v1 := (closure_from s h hne S hm.left d hd hpos _ _ hc ν xs hx0 hT0 hdata hV hid0 o ho id hmin ops hk up g true none
    (fun pid b hm => absurd hm (hb pid b).1) (by simp) hfix r hr).2
  have v2 := (closure_from s' h' hne' S' hm.right d' hd' hpos' _ _ hc' ν xs' hx0' hT' hdata' (by rw [hm.constrained]; exact hV) hid o' ho' id hmin ops' hk' up' g' true none
    (fun pid b hm => absurd hm (hb pid b).2) (by simp) hfix' r' hr').2
  obtain ⟨x, A, hx, hA, hpd⟩ := asimov_hesse s h hne S hm.left d hd hpos _ _ hc ν hT0 hdata hid0
  obtain ⟨x', A', hx', hA', hpd'⟩ := asimov_hesse s' h' hne' S' hm.right d' hd' hpos' _ _ hc' ν hT' hdata' hid
  have np : s'.m.numProcesses = s.m.numProcesses := by unfold Mct.numProcesses; rw [hm.processes]
  have hl : ∀ (t : Sys) (T : ℕ → ChanSpec) {n : ℕ} {u : Fin n → ℝ}, paramVec t T ν (fun _ _ _ => 0) = vec u → t.m.numProcesses ≤ n := by
    intro t T n u hu
    have := congrArg List.length hu
    rw [paramVec_slots] at this
    simp only [List.length_map, vec, List.length_ofFn] at this
    rw [← this]
    unfold pslots Mct.numProcesses
    simp
  have l := hl _ _ hx
  have l' := hl _ _ hx'
  rw [np] at l'
  refine ⟨v1, v2, fun q hq hF hF' => ?_⟩
  have e1 := fit_errors h.reachable hmin hk he hr (v1.trans hx) hA ⟨q, hq.trans_le l⟩ hF
  have e2 := fit_errors h'.reachable hmin hk' he' hr' (v2.trans hx') hA' ⟨q, hq.trans_le l'⟩ hF'
  have hge : ∀ (v : Fin (s.m.paramNames s.w).length → ℝ), (∀ q : Fin _, ¬ FreeParam s ops true q → v q = 0) → ∀ q : Fin _, s.m.numProcesses ≤ q → v q = 0 := fun v hv q hq => hv q fun hF => hF.2 (.inr ⟨rfl, hq⟩)
  have hge' : ∀ (v : Fin (s'.m.paramNames s'.w).length → ℝ), (∀ q : Fin _, ¬ FreeParam s' ops' true q → v q = 0) → ∀ q : Fin _, s.m.numProcesses ≤ q → v q = 0 :=
    fun v hv q hq => hv q fun hF => hF.2 (.inr ⟨rfl, by rw [np]; exact hq⟩)
  have part : ∀ {n n' : ℕ} (v : Fin n → ℝ) (q : Fin n'), s.m.numProcesses ≤ q → yieldPart s.m.numProcesses n' v q = 0 := fun v q hq => by simp [yieldPart, hq]
  have form : ∀ v : Fin (s.m.paramNames s.w).length → ℝ, (∀ q : Fin _, s.m.numProcesses ≤ q → v q = 0) → ∀ v' : Fin (s'.m.paramNames s'.w).length → ℝ, (∀ q : Fin _, s.m.numProcesses ≤ q → v' q = 0) →
      (∀ p ∈ s.m.processes, yieldsOf s' S' v' p = yieldsOf s S v p) → v' ⬝ᵥ A'.mulVec v' ≤ v ⬝ᵥ A.mulVec v ∧ (SameComposition s S S' b → v ⬝ᵥ A.mulVec v ≤ v' ⬝ᵥ A'.mulVec v') := by
    intro v hv v' hv' hy
    rw [yield_form h hne hm.left hd hpos hc hT0 hdata hx hA hv, yield_form h' hne' hm.right hd' hpos' hc' hT' hdata' hx' hA' (by rw [np]; exact hv'), hm.constrained, hm.channels]
    have hcon : (s.m.constrained.map fun p => (yieldsOf s' S' v' p / E p) ^ 2) = s.m.constrained.map fun p => (yieldsOf s S v p / E p) ^ 2 :=
      List.map_congr_left fun p hp => by rw [hy p (hc p hp).1]
    rw [hcon]
    have hex : ∀ k < s.m.chanIds.length, ∀ i', expectedIn s' S' (yieldsOf s' S' v') (fun _ _ _ => 0) k i' = ∑ i with b k i = i', expectedIn s S (yieldsOf s S v) (fun _ _ _ => 0) k i := fun k hk i' => by
      rw [expectedIn_agree hw' hm.right (by rw [hm.processes]; exact hy) (by rw [hm.channels]; exact hk), merged_expected hm hk]
    refine ⟨add_le_add_left (Finset.sum_le_sum fun k hk => ?_) _, fun hS => add_le_add_left (Finset.sum_le_sum fun k hk => ?_) _⟩
    · have hk := Finset.mem_range.mp hk
      rw [← Finset.sum_fiberwise (s := Finset.univ) (g := b k) (f := fun i => expectedIn s S (yieldsOf s S v) (fun _ _ _ => 0) k i ^ 2 / d k i)]
      refine Finset.sum_le_sum fun i' _ => ?_
      rw [hex k hk, hdd k hk]
      exact Finset.sq_sum_div_le_sum_sq_div _ _ fun i _ => hd0 k hk i
    · have hk := Finset.mem_range.mp hk
      obtain ⟨u, hu⟩ := hS k hk
      have hdu : ∀ i, d k i = u i * d' k (b k i) := fun i => by
        rw [← hdata k hk, ← hdata' k (by rw [hm.channels]; exact hk), merged_same hm hk hu]
      rw [← Finset.sum_fiberwise (s := Finset.univ) (g := b k) (f := fun i => expectedIn s S (yieldsOf s S v) (fun _ _ _ => 0) k i ^ 2 / d k i)]
      refine Finset.sum_le_sum fun i' _ => le_of_eq ?_
      have h1 : ∑ i with b k i = i', u i = 1 := by
        have := hdd k hk i'
        rw [Finset.sum_congr rfl (g := fun i => u i * d' k i') fun i hi => by rw [hdu i, (Finset.mem_filter.mp hi).2], ← Finset.sum_mul] at this
        have h0 := (hd0' k hk i').ne'
        field_simp at this
        linarith
      rw [expectedIn_agree hw' hm.right (δ' := yieldsOf s S v) (by rw [hm.processes]; exact hy) (by rw [hm.channels]; exact hk)]
      calc _ = ∑ i with b k i = i', u i * (expectedIn s' S' (yieldsOf s S v) (fun _ _ _ => 0) k i' ^ 2 / d' k i') := Finset.sum_congr rfl fun i hi => by
            have hb := (Finset.mem_filter.mp hi).2
            have h2 := hd0 k hk i
            have h3 := hd0' k hk i'
            rw [merged_same hm hk hu, hdu i, hb]
            have hu0 : u i ≠ 0 := fun h0 => by rw [hdu i, h0, zero_mul] at h2; exact lt_irrefl _ h2
            field_simp
        _ = _ := by rw [← Finset.sum_mul, h1, one_mul]
  refine ⟨_, _, e1, e2, Real.sqrt_pos.mpr (free_dual hpd _ _).2.2, Real.sqrt_pos.mpr (free_dual hpd' _ _).2.2, fun hsub => Real.sqrt_le_sqrt ?_, fun hsub hS => Real.sqrt_le_sqrt ?_⟩
  · refine var_map hpd hpd' (yieldPart s.m.numProcesses _) (fun v hv => (form v (hge v hv) _ (part v) fun p hp => yieldsOf_part hw hw' S S' hm.processes l' v hp).1) (fun v hv p hp => ?_) _ _ (fun v => ?_)
    · by_cases hpn : (p : ℕ) < s.m.numProcesses
      · have := hv ⟨p, hpn.trans_le l⟩ fun hF => hp (hsub p hpn hF)
        simp only [yieldPart, hpn, if_true]
        rw [show vget v p = v ⟨p, hpn.trans_le l⟩ from dif_pos _, this]
      · exact part v p (not_lt.mp hpn)
    · simp only [yieldPart, hq, if_true]
      exact dif_pos _
  · refine var_map hpd' hpd (yieldPart s.m.numProcesses _) (fun v hv => (form _ (part v) v (hge' v hv) fun p hp => ?_).2 hS) (fun v hv p hp => ?_) _ _ (fun v => ?_)
    · have := yieldsOf_part hw' hw S' S hm.processes.symm (n' := (s.m.paramNames s.w).length) (by rw [np]; exact l) v (by rw [hm.processes]; exact hp)
      rw [np] at this
      exact this.symm
    · by_cases hpn : (p : ℕ) < s.m.numProcesses
      · have := hv ⟨p, hpn.trans_le l'⟩ fun hF => hp (hsub p hpn hF)
        simp only [yieldPart, hpn, if_true]
        rw [show vget v p = v ⟨p, hpn.trans_le l'⟩ from dif_pos _, this]
      · exact part v p (not_lt.mp hpn)
    · simp only [yieldPart, hq, if_true]
      exact dif_pos _

end

end TF.Props
