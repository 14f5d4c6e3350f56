import Verif.Props.ErrProps

set_option linter.unusedSimpArgs false
set_option linter.unusedVariables false

/-!
# The errors with more data (C146)
-/

namespace TF.Spec

open TF Classical

noncomputable section

/-- `s` and `s'` are the same model without constraints, up to the present parameters and the data -/
structure SameModelBut (s s' : Sys) (S : ℕ → ChanSpec) : Prop where
  left : ModelIs s S
  right : ModelIs s' S
  processes : s'.m.processes = s.m.processes
  names : s'.m.paramNames s'.w = s.m.paramNames s.w
  channels : s'.m.channels.length = s.m.channels.length
  procName : ∀ k < s.m.chanIds.length, ∀ j : Fin (S k).K, procName s' k j = procName s k j
  free : s.m.constrained = [] ∧ s'.m.constrained = []

/-- the data of `s'` are `L` times the data `d` -/
def ScaledData (L : ℝ) {S : ℕ → ChanSpec} (d : ∀ k, Fin (S k).n → ℝ) : ∀ k, Fin (S k).n → ℝ := fun k i => L * d k i

end

end TF.Spec

namespace TF.Props

open Classical Spec
open scoped Matrix

noncomputable section

theorem idxOf_ge {α : Type} [BEq α] [LawfulBEq α] (l1 l2 : List α) (a : α) (h : a ∉ l1) : l1.length ≤ (l1 ++ l2).idxOf a := by
  rw [List.idxOf_append_of_notMem h]; omega

theorem slotIdx_nui (s : Sys) (S : ℕ → ChanSpec) (σ : Σ k, Fin (S k).K × Fin (S k).n) : s.m.numProcesses ≤ slotIdx s S (.inr σ) := by
  unfold slotIdx pslots
  have := @idxOf_ge _ (@instBEqOfDecidableEq _ (Classical.decEq _)) (@instLawfulBEq _ (Classical.decEq _))
    (s.m.processes.map (Sum.inl (β := Σ k, Fin (S k).K × Fin (S k).n))) ((List.range s.m.chanIds.length).flatMap fun k =>
    (List.finRange (S k).K).flatMap fun j => (List.finRange (S k).n).map fun i => Sum.inr ⟨k, j, i⟩) (.inr σ) (by simp)
  rwa [List.length_map] at this

/-- multiply the yields by `L` and keep the nuisance parameters -/
def scaleY (L : ℝ) (np : ℕ) {n : ℕ} (v : Fin n → ℝ) : Fin n → ℝ := fun q => if (q : ℕ) < np then L * v q else v q

theorem yieldsOf_scale {s : Sys} (hw : SysWF s) (S : ℕ → ChanSpec) (L : ℝ) {n : ℕ} (v : Fin n → ℝ) {p : String} (hp : p ∈ s.m.processes) :
    yieldsOf s S (scaleY L s.m.numProcesses v) p = L * yieldsOf s S v p := by
  unfold yieldsOf vget
  rw [slotIdx_yield hw S hp]
  have : s.m.processes.idxOf p < s.m.numProcesses := List.idxOf_lt_length_of_mem hp
  by_cases h : s.m.processes.idxOf p < n
  · rw [dif_pos h, dif_pos h]; simp [scaleY, this]
  · rw [dif_neg h, dif_neg h, mul_zero]

theorem nuisOf_scale (s : Sys) (S : ℕ → ChanSpec) (L : ℝ) {n : ℕ} (v : Fin n → ℝ) : nuisOf s S (scaleY L s.m.numProcesses v) = nuisOf s S v := by
  funext k j i
  unfold nuisOf vget
  have := slotIdx_nui s S ⟨k, j, i⟩
  by_cases h : slotIdx s S (.inr ⟨k, j, i⟩) < n
  · rw [dif_pos h, dif_pos h]; simp [scaleY, this]
  · rw [dif_neg h, dif_neg h]

/-- the contribution of the priors to the second derivatives -/
def priorForm (s : Sys) (S : ℕ → ChanSpec) (η : ∀ k, Fin (S k).K → Fin (S k).n → ℝ) : ℝ :=
  ∑ k ∈ Finset.range s.m.channels.length, ∑ j, (η k j) ⬝ᵥ (((S k).R j)⁻¹.mulVec (η k j))

theorem prior_nonneg {s : Sys} {S : ℕ → ChanSpec} (hS : ModelIs s S) (η : ∀ k, Fin (S k).K → Fin (S k).n → ℝ) : 0 ≤ priorForm s S η := by
  refine Finset.sum_nonneg fun k hk => Finset.sum_nonneg fun j _ => ?_
  have := ((hS k (by simpa [Mct.chanIds] using hk)).2.2.1 j).inv.posSemidef.dotProduct_mulVec_nonneg (η k j)
  simpa using this

/-- the second derivatives with `L` times the data -/
theorem lumi_form {s s' : Sys} (h : s.Built) (h' : s'.Built) (hne : s.m.channels ≠ []) {S : ℕ → ChanSpec} (hm : SameModelBut s s' S)
    {d : ∀ k, Fin (S k).n → ℝ} (hd : DataIs s S d) (hpos : ∀ k < s.m.chanIds.length, ∀ i, d k i = 0 ∨ (1e-100 : ℝ) ≤ d k i) {L : ℝ} (hL : 1 ≤ L)
    (hd' : DataIs s' S (ScaledData L d)) {ν : String → ℝ} {θ : ∀ k, Fin (S k).K → Fin (S k).n → ℝ} (hT : NonZeroSums s S θ)
    (hE : ∀ k < s.m.chanIds.length, ∀ i, 0 < expectedIn s S ν θ k i) {n : ℕ}
    {x x' : Fin n → ℝ} (hx : paramVec s S ν θ = vec x) (hx' : paramVec s S (fun p => L * ν p) θ = vec x') {A A' : Matrix (Fin n) (Fin n) ℝ}
    (hA : IsHesse (objective s.w s.m) x A) (hA' : IsHesse (objective s'.w s'.m) x' A') (v : Fin n → ℝ) :
    (scaleY L s.m.numProcesses v) ⬝ᵥ A'.mulVec (scaleY L s.m.numProcesses v) =
      L * (v ⬝ᵥ A.mulVec v - priorForm s S (nuisOf s S v)) + priorForm s S (nuisOf s S v) := by
  have hw := reachable_wf h.reachable
  have hL0 : L ≠ 0 := by linarith
  have hcl : s'.m.chanIds.length = s.m.chanIds.length := by simpa [Mct.chanIds] using hm.channels
  have hlen : s.m.chanIds.length = s.m.channels.length := by simp [Mct.chanIds]
  have hc : ConstraintsAre s (fun _ => 0) (fun _ => 1) := by intro p hp; rw [hm.free.1] at hp; cases hp
  have hc' : ConstraintsAre s' (fun _ => 0) (fun _ => 1) := by intro p hp; rw [hm.free.2] at hp; cases hp
  have hT' : NonZeroSums s' S θ := fun k hk => hT k (hcl ▸ hk)
  have hExp : ∀ k < s.m.chanIds.length, ∀ i, expectedIn s' S (fun p => L * ν p) θ k i = L * expectedIn s S ν θ k i := by
    intro k hk i
    rw [expectedIn_eq, expectedIn_eq, Finset.mul_sum]
    refine Finset.sum_congr rfl fun j _ => ?_
    rw [hm.procName k hk j]; ring
  have hpv : ∀ ν θ, paramVec s' S ν θ = paramVec s S ν θ := fun ν θ => by unfold paramVec; rw [hm.processes, hcl]
  have hps : pslots s' S = pslots s S := by unfold pslots; rw [hm.processes, hcl]
  have hy : ∀ u : Fin n → ℝ, yieldsOf s' S u = yieldsOf s S u := fun u => by funext p; unfold yieldsOf slotIdx; rw [hps]
  have hn : ∀ u : Fin n → ℝ, nuisOf s' S u = nuisOf s S u := fun u => by funext k j i; unfold nuisOf slotIdx; rw [hps]
  rw [hesse_form s' h' (fun h0 => hne (List.length_eq_zero_iff.mp (by rw [← hm.channels, h0]; rfl))) S hm.right _ hd' (by
      intro k hk i
      rcases hpos k (hcl ▸ hk) i with h0 | h0
      · exact .inl (by simp [ScaledData, h0])
      · exact .inr (by unfold ScaledData; nlinarith)) _ _ hc' _ θ hT' (by
      intro k hk i
      rw [hExp k (hcl ▸ hk) i]
      exact mul_pos (by linarith) (hE k (hcl ▸ hk) i)) x' (by rw [hpv]; exact hx') A' hA',
    hesse_form s h hne S hm.left d hd hpos _ _ hc ν θ hT hE x hx A hA v, hy, hn, nuisOf_scale]
  unfold information
  rw [hm.free.1, hm.free.2, hm.channels]
  simp only [List.map_nil, List.sum_nil, add_zero]
  unfold priorForm
  rw [Finset.sum_add_distrib, Finset.sum_add_distrib]
  have hslope : ∀ k < s.m.chanIds.length, ∀ i, slopeIn s' S (fun p => L * ν p) (yieldsOf s S (scaleY L s.m.numProcesses v)) θ (nuisOf s S v) k i =
      L * slopeIn s S ν (yieldsOf s S v) θ (nuisOf s S v) k i := by
    intro k hk i
    unfold slopeIn
    rw [Finset.mul_sum]
    refine Finset.sum_congr rfl fun j _ => ?_
    rw [hm.procName k hk j, yieldsOf_scale hw S L v (procName_mem hw hm.left k hk j)]; ring
  have hbend : ∀ k < s.m.chanIds.length, ∀ i, bendIn s' S (fun p => L * ν p) (yieldsOf s S (scaleY L s.m.numProcesses v)) θ (nuisOf s S v) k i =
      L * bendIn s S ν (yieldsOf s S v) θ (nuisOf s S v) k i := by
    intro k hk i
    unfold bendIn
    rw [Finset.mul_sum]
    refine Finset.sum_congr rfl fun j _ => ?_
    rw [hm.procName k hk j, yieldsOf_scale hw S L v (procName_mem hw hm.left k hk j)]; ring
  have t1 : (∑ k ∈ Finset.range s.m.channels.length, ∑ i, ScaledData L d k i *
      (slopeIn s' S (fun p => L * ν p) (yieldsOf s S (scaleY L s.m.numProcesses v)) θ (nuisOf s S v) k i / expectedIn s' S (fun p => L * ν p) θ k i) ^ 2) =
      L * ∑ k ∈ Finset.range s.m.channels.length, ∑ i, d k i * (slopeIn s S ν (yieldsOf s S v) θ (nuisOf s S v) k i / expectedIn s S ν θ k i) ^ 2 := by
    rw [Finset.mul_sum]
    refine Finset.sum_congr rfl fun k hk => ?_
    have hk : k < s.m.chanIds.length := hlen ▸ Finset.mem_range.mp hk
    rw [Finset.mul_sum]
    refine Finset.sum_congr rfl fun i _ => ?_
    rw [hslope k hk i, hExp k hk i, mul_div_mul_left _ _ hL0]
    unfold ScaledData; ring
  have t2 : (∑ k ∈ Finset.range s.m.channels.length, ∑ i, (1 - ScaledData L d k i / expectedIn s' S (fun p => L * ν p) θ k i) *
      bendIn s' S (fun p => L * ν p) (yieldsOf s S (scaleY L s.m.numProcesses v)) θ (nuisOf s S v) k i) =
      L * ∑ k ∈ Finset.range s.m.channels.length, ∑ i, (1 - d k i / expectedIn s S ν θ k i) * bendIn s S ν (yieldsOf s S v) θ (nuisOf s S v) k i := by
    rw [Finset.mul_sum]
    refine Finset.sum_congr rfl fun k hk => ?_
    have hk : k < s.m.chanIds.length := hlen ▸ Finset.mem_range.mp hk
    rw [Finset.mul_sum]
    refine Finset.sum_congr rfl fun i _ => ?_
    rw [hbend k hk i, hExp k hk i]
    unfold ScaledData
    rw [mul_div_mul_left _ _ hL0]; ring
  rw [t1, t2]
  ring

theorem scaleY_inv {L : ℝ} (hL : L ≠ 0) (np : ℕ) {n : ℕ} (v : Fin n → ℝ) : scaleY L np (scaleY L⁻¹ np v) = v := by
  funext q
  unfold scaleY
  by_cases h : (q : ℕ) < np
  · simp [h, hL]
  · simp [h]

theorem scaleY_zero {L : ℝ} {np : ℕ} {n : ℕ} {v : Fin n → ℝ} {q : Fin n} (h : v q = 0) : scaleY L np v q = 0 := by
  unfold scaleY; rw [h]; simp

/-- the errors of a fit, for a vector of known length -/
theorem fit_errors' {s : Sys} (hs : s.Reachable) {id : String} (hid : id.toLower = "iminuit") {ops : List FitOp} (hk : KnownIds (s.m.paramNames s.w) ops)
    {o : Optim} (he : ExactErrors o) {up g fixNui : Bool} {lim : Option Bounds}
    {r : MinResult} (hr : ((fitRun id ops).doFit o s.w s.m up g fixNui lim).1 = .ok r)
    {n : ℕ} (hn : (s.m.paramNames s.w).length = n) {x : Fin n → ℝ} (hx : r.params.values = vec x) {A : Matrix (Fin n) (Fin n) ℝ} (hA : IsHesse (objective s.w s.m) x A)
    {P : Fin n → Prop} (hP : ∀ q : Fin n, FreeParam s ops fixNui q ↔ P q) (q : Fin n) (hq : P q) : ErrorIs r q (√(freeVar A P ⟨q, hq⟩)) := by
  subst hn
  obtain rfl : (fun q : Fin _ => FreeParam s ops fixNui q) = P := funext fun q => propext (hP q)
  exact fit_errors hs hid hk he hr hx hA q hq

/-- the variances with `L` times the data -/
theorem lumi_var {n np : ℕ} {A A' : Matrix (Fin n) (Fin n) ℝ} (hA : A.PosDef) (hA' : A'.PosDef) {L : ℝ} (hL : 1 ≤ L) {R : (Fin n → ℝ) → ℝ}
    (hR : ∀ v, 0 ≤ R v) (hR0 : ∀ v, (∀ q : Fin n, np ≤ q → v q = 0) → R v = 0)
    (hf : ∀ v, (scaleY L np v) ⬝ᵥ A'.mulVec (scaleY L np v) = L * (v ⬝ᵥ A.mulVec v - R v) + R v) (P : Fin n → Prop) (i : Fin n) (hi : P i) :
    ((i : ℕ) < np → L * freeVar A P ⟨i, hi⟩ ≤ freeVar A' P ⟨i, hi⟩) ∧
    ((∀ q : Fin n, P q → (q : ℕ) < np) → freeVar A' P ⟨i, hi⟩ = L * freeVar A P ⟨i, hi⟩) ∧
    ((∀ v, R v ≤ v ⬝ᵥ A.mulVec v) → ((i : ℕ) < np → freeVar A' P ⟨i, hi⟩ ≤ L ^ 2 * freeVar A P ⟨i, hi⟩) ∧ (np ≤ i → freeVar A' P ⟨i, hi⟩ ≤ freeVar A P ⟨i, hi⟩)) := by
  have hL0 : L ≠ 0 := by linarith
  have hlow : (i : ℕ) < np → L * freeVar A P ⟨i, hi⟩ ≤ freeVar A' P ⟨i, hi⟩ := by
    intro hnp
    obtain ⟨v, h1, h2⟩ := (free_dual hA P ⟨i, hi⟩).2.1
    have h3 := (free_dual hA' P ⟨i, hi⟩).1 (scaleY L np v) fun q hq => scaleY_zero (h1 q hq)
    have h4 : scaleY L np v i = L * v i := by simp [scaleY, hnp]
    simp only at h3 h2
    rw [hf, h4] at h3
    rw [← h2]
    nlinarith [hR v]
  obtain ⟨w, w1, w2⟩ := (free_dual hA' P ⟨i, hi⟩).2.1
  obtain ⟨u, hu⟩ : ∃ u, w = scaleY L np u := ⟨_, (scaleY_inv hL0 np w).symm⟩
  have hu0 : ∀ q, ¬ P q → u q = 0 := by
    intro q hq
    have := w1 q hq
    rw [hu] at this
    unfold scaleY at this
    split at this
    · exact (mul_eq_zero.mp this).resolve_left hL0
    · exact this
  have hw := hf u
  rw [← hu] at hw
  simp only at w2
  rw [hw] at w2
  refine ⟨hlow, fun hP => ?_, fun hle => ⟨fun hnp => ?_, fun hnp => ?_⟩⟩
  · refine le_antisymm ?_ (hlow (hP i hi))
    have h3 := (free_dual hA P ⟨i, hi⟩).1 u hu0
    have h4 : w i = L * u i := by rw [hu]; simp [scaleY, hP i hi]
    have h5 : R u = 0 := hR0 u fun q hq => hu0 q fun h => by have := hP q h; omega
    simp only at h3
    rw [h4, h5] at w2
    nlinarith
  · have h3 := (free_dual hA P ⟨i, hi⟩).1 (fun q => L⁻¹ * u q) fun q hq => by rw [hu0 q hq, mul_zero]
    have h4 : w i = L * u i := by rw [hu]; simp [scaleY, hnp]
    have h5 : (fun q => L⁻¹ * u q) ⬝ᵥ A.mulVec (fun q => L⁻¹ * u q) = (L⁻¹) ^ 2 * (u ⬝ᵥ A.mulVec u) := by
      have : (fun q => L⁻¹ * u q) = L⁻¹ • u := rfl
      rw [this, Matrix.mulVec_smul, smul_dotProduct, dotProduct_smul]
      simp only [smul_eq_mul]; ring
    simp only at h3
    rw [h5] at h3
    have h6 := mul_le_mul_of_nonneg_left h3 (sq_nonneg L)
    have h7 : L ^ 2 * (2 * (L⁻¹ * u i) - (L⁻¹) ^ 2 * (u ⬝ᵥ A.mulVec u)) = 2 * L * u i - u ⬝ᵥ A.mulVec u := by field_simp
    rw [h7] at h6
    rw [← w2, h4]
    nlinarith [hle u]
  · have h3 := (free_dual hA P ⟨i, hi⟩).1 u hu0
    have h4 : w i = u i := by rw [hu]; simp [scaleY, hnp]
    simp only at h3
    rw [h4] at w2
    nlinarith [hle u]

theorem prior_zero (s : Sys) (S : ℕ → ChanSpec) {n : ℕ} (v : Fin n → ℝ) (hv0 : ∀ q : Fin n, s.m.numProcesses ≤ q → v q = 0) : priorForm s S (nuisOf s S v) = 0 := by
  have : nuisOf s S v = fun _ _ _ => 0 := by
    funext k j i
    unfold nuisOf vget
    split
    · exact hv0 _ (slotIdx_nui s S ⟨k, j, i⟩)
    · rfl
  rw [this]
  unfold priorForm
  exact Finset.sum_eq_zero fun k _ => Finset.sum_eq_zero fun j _ => zero_dotProduct _

/-- **C146.** `s` and `s'` are the same model without constraints; the data of `s'` are `L ≥ 1` times those of `s`. Two iminuit fits with exact errors and the same fixed parameters, of `s` ending at yields `ν` and nuisance
parameters `θ`, and of `s'` ending at `L ν` and `θ` (the matrices of second derivatives there are positive definite). The error of every free yield grows at least by `√L`, and exactly by `√L` if no nuisance parameter is free. -/
theorem C146_scaling (s s' : Sys) (h : s.Built) (h' : s'.Built) (hne : s.m.channels ≠ []) (S : ℕ → ChanSpec) (hm : SameModelBut s s' S)
    (d : ∀ k, Fin (S k).n → ℝ) (hd : DataIs s S d) (hpos : ∀ k < s.m.chanIds.length, ∀ i, d k i = 0 ∨ (1e-100 : ℝ) ≤ d k i) (L : ℝ) (hL : 1 ≤ L)
    (hd' : DataIs s' S (ScaledData L d)) (ν : String → ℝ) (θ : ∀ k, Fin (S k).K → Fin (S k).n → ℝ) (hT : NonZeroSums s S θ)
    (hE : ∀ k < s.m.chanIds.length, ∀ i, 0 < expectedIn s S ν θ k i)
    (id : String) (hid : id.toLower = "iminuit") (ops : List FitOp) (hk : KnownIds (s.m.paramNames s.w) ops) (o o' : Optim) (he : ExactErrors o) (he' : ExactErrors o')
    (up g fixNui up' g' : Bool) (lim lim' : Option Bounds) (r r' : MinResult) (hr : ((fitRun id ops).doFit o s.w s.m up g fixNui lim).1 = .ok r)
    (hr' : ((fitRun id ops).doFit o' s'.w s'.m up' g' fixNui lim').1 = .ok r')
    (hv : r.params.values = paramVec s S ν θ) (hv' : r'.params.values = paramVec s S (fun p => L * ν p) θ)
    (x x' : Fin (s.m.paramNames s.w).length → ℝ) (hx : r.params.values = vec x) (hx' : r'.params.values = vec x')
    (A A' : Matrix (Fin (s.m.paramNames s.w).length) (Fin (s.m.paramNames s.w).length) ℝ) (hA : IsHesse (objective s.w s.m) x A)
    (hA' : IsHesse (objective s'.w s'.m) x' A') (hpd : A.PosDef) (hpd' : A'.PosDef) (q : ℕ) (hq : FreeParam s ops fixNui q) :
    ∃ e e', ErrorIs r q e ∧ ErrorIs r' q e' ∧ 0 < e ∧ (q < s.m.numProcesses → √L * e ≤ e') ∧
      ((∀ q, FreeParam s ops fixNui q → q < s.m.numProcesses) → e' = √L * e) := by
  have hnp : s'.m.numProcesses = s.m.numProcesses := by unfold Mct.numProcesses; rw [hm.processes]
  have hF : ∀ q, FreeParam s' ops fixNui q = FreeParam s ops fixNui q := fun q => by unfold FreeParam; rw [hm.names, hnp]
  have e1 := fit_errors h.reachable hid hk he hr hx hA ⟨q, hq.1⟩ hq
  have e2 := fit_errors' h'.reachable hid (hm.names ▸ hk) he' hr' (by rw [hm.names]) hx' hA' (P := fun q => FreeParam s ops fixNui q) (fun q => by rw [hF]) ⟨q, hq.1⟩ hq
  have hform := lumi_form h h' hne hm hd hpos hL hd' hT hE (hv.symm.trans hx) (hv'.symm.trans hx') hA hA'
  obtain ⟨h1, h2, -⟩ := lumi_var hpd hpd' hL (R := fun v => priorForm s S (nuisOf s S v)) (fun v => prior_nonneg hm.left _) (prior_zero s S) hform (fun q => FreeParam s ops fixNui q) ⟨q, hq.1⟩ hq
  have hL0 : 0 ≤ L := by linarith
  refine ⟨_, _, e1, e2, Real.sqrt_pos.mpr (free_dual hpd _ _).2.2, fun hqn => ?_, fun hP => ?_⟩
  · rw [← Real.sqrt_mul hL0]; exact Real.sqrt_le_sqrt (h1 hqn)
  · rw [← Real.sqrt_mul hL0, h2 fun q hq => hP q hq]

theorem asimov_hesse' (s : Sys) (h : s.Built) (hne : s.m.channels ≠ []) (S : ℕ → ChanSpec) (hS : ModelIs s S)
    (d : ∀ k, Fin (S k).n → ℝ) (hd : DataIs s S d) (hpos : ∀ k < s.m.chanIds.length, ∀ i, (1e-100 : ℝ) ≤ d k i)
    (V E : String → ℝ) (hc : ConstraintsAre s V E)
    (ν : String → ℝ) (hT0 : NonZeroSums s S fun _ _ _ => 0)
    (hdata : ∀ k < s.m.chanIds.length, ∀ i, expectedIn s S ν (fun _ _ _ => 0) k i = d k i) (hid : Identifiable s S) {n : ℕ} (hn : (s.m.paramNames s.w).length = n) :
    ∃ (x : Fin n → ℝ) (A : Matrix (Fin n) (Fin n) ℝ), paramVec s S ν (fun _ _ _ => 0) = vec x ∧ IsHesse (objective s.w s.m) x A ∧ A.PosDef := by
  subst hn
  exact asimov_hesse s h hne S hS d hd hpos V E hc ν hT0 hdata hid

/-- at the Asimov point the prior is part of the second derivatives -/
theorem prior_le {s : Sys} (h : s.Built) (hne : s.m.channels ≠ []) {S : ℕ → ChanSpec} (hS : ModelIs s S) {d : ∀ k, Fin (S k).n → ℝ} (hd : DataIs s S d)
    (hpos : ∀ k < s.m.chanIds.length, ∀ i, (1e-100 : ℝ) ≤ d k i) (hfree : s.m.constrained = []) {ν : String → ℝ} (hT0 : NonZeroSums s S fun _ _ _ => 0)
    (hdata : ∀ k < s.m.chanIds.length, ∀ i, expectedIn s S ν (fun _ _ _ => 0) k i = d k i) {n : ℕ} {x : Fin n → ℝ} (hx : paramVec s S ν (fun _ _ _ => 0) = vec x)
    {A : Matrix (Fin n) (Fin n) ℝ} (hA : IsHesse (objective s.w s.m) x A) (v : Fin n → ℝ) : priorForm s S (nuisOf s S v) ≤ v ⬝ᵥ A.mulVec v := by
  have hlen : s.m.chanIds.length = s.m.channels.length := by simp [Mct.chanIds]
  have h0 : ∀ k < s.m.chanIds.length, ∀ i, 0 < d k i := fun k hk i => lt_of_lt_of_le (by norm_num) (hpos k hk i)
  have hc : ConstraintsAre s (fun _ => 0) (fun _ => 1) := by intro p hp; rw [hfree] at hp; cases hp
  rw [hesse_form s h hne S hS d hd (fun k hk i => .inr (hpos k hk i)) _ _ hc ν _ hT0 (fun k hk i => by rw [hdata k hk i]; exact h0 k hk i) x hx A hA v]
  have hz : (∑ k ∈ Finset.range s.m.channels.length, ∑ i, (1 - d k i / expectedIn s S ν (fun _ _ _ => 0) k i) *
      bendIn s S ν (yieldsOf s S v) (fun _ _ _ => 0) (nuisOf s S v) k i) = 0 := by
    refine Finset.sum_eq_zero fun k hk => Finset.sum_eq_zero fun i _ => ?_
    have hk : k < s.m.chanIds.length := hlen ▸ Finset.mem_range.mp hk
    rw [hdata k hk i, div_self (h0 k hk i).ne', sub_self, zero_mul]
  rw [hz, add_zero]
  unfold information
  rw [hfree, Finset.sum_add_distrib]
  unfold priorForm
  have : 0 ≤ ∑ k ∈ Finset.range s.m.channels.length, ∑ i, d k i * (slopeIn s S ν (yieldsOf s S v) (fun _ _ _ => 0) (nuisOf s S v) k i / expectedIn s S ν (fun _ _ _ => 0) k i) ^ 2 :=
    Finset.sum_nonneg fun k hk => Finset.sum_nonneg fun i _ => mul_nonneg (h0 k (hlen ▸ Finset.mem_range.mp hk) i).le (sq_nonneg _)
  simp only [List.map_nil, List.sum_nil, add_zero]
  linarith

/-- **C146, Asimov fits.** `s` and `s'` are the same model without constraints, `s` with present yields `ν` and data equal to its expectation, `s'` with present yields `L ν` and `L` times these data (`L ≥ 1`, all
nuisance parameters zero, all expectations positive, identifiable yields). Two iminuit fits with exact minimization and errors and the same fixed parameters: the one of `s'` returns the same nuisance parameters and `L` times the
yields of the one of `s`; the error of every free yield grows by a factor between `√L` and `L`, exactly `√L` if no nuisance parameter is free; the errors of the free nuisance parameters do not grow. -/
theorem C146_asimov (s s' : Sys) (h : s.Built) (h' : s'.Built) (hne : s.m.channels ≠ []) (S : ℕ → ChanSpec) (hm : SameModelBut s s' S)
    (d : ∀ k, Fin (S k).n → ℝ) (hd : DataIs s S d) (hpos : ∀ k < s.m.chanIds.length, ∀ i, (1e-100 : ℝ) ≤ d k i) (L : ℝ) (hL : 1 ≤ L)
    (hd' : DataIs s' S (ScaledData L d)) (ν : String → ℝ) (hx0 : s.m.x0 s.w = .ok (paramVec s S ν fun _ _ _ => 0))
    (hx0' : s'.m.x0 s'.w = .ok (paramVec s' S (fun p => L * ν p) fun _ _ _ => 0)) (hT0 : NonZeroSums s S fun _ _ _ => 0)
    (hdata : ∀ k < s.m.chanIds.length, ∀ i, expectedIn s S ν (fun _ _ _ => 0) k i = d k i) (hid : Identifiable s S)
    (o o' : Optim) (ho : TrueMin o) (ho' : TrueMin o') (he : ExactErrors o) (he' : ExactErrors o') (id : String) (hmin : id.toLower = "iminuit") (ops : List FitOp)
    (hk : KnownIds (s.m.paramNames s.w) ops) (up g fixNui up' g' : Bool) (lim lim' : Option Bounds)
    (hb : ∀ pid b, FitOp.bound pid b ∈ ops → ∀ k v, Denotes (s.m.paramNames s.w) pid k →
      (paramVec s S ν fun _ _ _ => 0)[k]? = some v ∨ (paramVec s S (fun p => L * ν p) fun _ _ _ => 0)[k]? = some v → InBounds b v)
    (hlim : ∀ b, lim = some b ∨ lim' = some b → InBounds b 0) (r r' : MinResult) (hr : ((fitRun id ops).doFit o s.w s.m up g fixNui lim).1 = .ok r)
    (hr' : ((fitRun id ops).doFit o' s'.w s'.m up' g' fixNui lim').1 = .ok r') :
    r.params.values = paramVec s S ν (fun _ _ _ => 0) ∧ r'.params.values = paramVec s S (fun p => L * ν p) (fun _ _ _ => 0) ∧
      ∀ q, FreeParam s ops fixNui q → ∃ e e', ErrorIs r q e ∧ ErrorIs r' q e' ∧ 0 < e ∧ 0 < e' ∧
        (q < s.m.numProcesses → √L * e ≤ e' ∧ e' ≤ L * e) ∧ (s.m.numProcesses ≤ q → e' ≤ e) ∧
        ((∀ q, FreeParam s ops fixNui q → q < s.m.numProcesses) → e' = √L * e) := by
  have hL0 : 0 ≤ L := by linarith
  have hnp : s'.m.numProcesses = s.m.numProcesses := by unfold Mct.numProcesses; rw [hm.processes]
  have hF : ∀ q, FreeParam s' ops fixNui q = FreeParam s ops fixNui q := fun q => by unfold FreeParam; rw [hm.names, hnp]
  have hcl : s'.m.chanIds.length = s.m.chanIds.length := by simpa [Mct.chanIds] using hm.channels
  have hpv : ∀ ν θ, paramVec s' S ν θ = paramVec s S ν θ := fun ν θ => by unfold paramVec; rw [hm.processes, hcl]
  have hExp : ∀ k < s.m.chanIds.length, ∀ (δ : String → ℝ) i, expectedIn s' S δ (fun _ _ _ => 0) k i = expectedIn s S δ (fun _ _ _ => 0) k i := by
    intro k hk δ i
    rw [expectedIn_eq, expectedIn_eq]
    refine Finset.sum_congr rfl fun j _ => ?_
    rw [hm.procName k hk j]
  have hne' : s'.m.channels ≠ [] := fun h0 => hne (List.length_eq_zero_iff.mp (by rw [← hm.channels, h0]; rfl))
  have hc : ConstraintsAre s (fun _ => 0) (fun _ => 1) := by intro p hp; rw [hm.free.1] at hp; cases hp
  have hc' : ConstraintsAre s' (fun _ => 0) (fun _ => 1) := by intro p hp; rw [hm.free.2] at hp; cases hp
  have hT0' : NonZeroSums s' S fun _ _ _ => 0 := fun k hk => hT0 k (hcl ▸ hk)
  have hpos' : ∀ k < s'.m.chanIds.length, ∀ i, (1e-100 : ℝ) ≤ ScaledData L d k i := fun k hk i => by
    have := hpos k (hcl ▸ hk) i
    unfold ScaledData; nlinarith
  have hdata' : ∀ k < s'.m.chanIds.length, ∀ i, expectedIn s' S (fun p => L * ν p) (fun _ _ _ => 0) k i = ScaledData L d k i := by
    intro k hk i
    rw [hExp k (hcl ▸ hk)]
    unfold ScaledData
    rw [← hdata k (hcl ▸ hk) i, expectedIn_eq, expectedIn_eq, Finset.mul_sum]
    exact Finset.sum_congr rfl fun j _ => by ring
  have hid' : Identifiable s' S := fun δ h1 h2 p hp => by
    rw [hm.processes] at hp
    refine hid δ (fun k hk i => ?_) (fun p hp => ?_) p hp
    · rw [← hExp k hk]; exact h1 k (hcl.symm ▸ hk) i
    · rw [hm.free.1] at hp; cases hp
  have v1 := (C106_exact s h hne S hm.left d hd hpos _ _ hc ν hx0 hT0 hdata (by intro p hp; rw [hm.free.1] at hp; cases hp) hid o ho id hmin ops hk up g fixNui lim
    (fun pid b hm k v hd h0 => hb pid b hm k v hd (.inl h0)) (fun b hb => hlim b (.inl hb)) r hr).2
  have v2 := (C106_exact s' h' hne' S hm.right _ hd' hpos' _ _ hc' _ hx0' hT0' hdata' (by intro p hp; rw [hm.free.2] at hp; cases hp) hid' o' ho' id hmin ops (hm.names ▸ hk) up' g' fixNui lim'
    (fun pid b hmm k v hd h0 => hb pid b hmm k v (hm.names ▸ hd) (.inr (by rw [← hpv]; exact h0))) (fun b hb => hlim b (.inr hb)) r' hr').2
  rw [hx0] at v1
  rw [hx0', hpv] at v2
  have v1 := (Except.ok.inj v1).symm
  have v2 := (Except.ok.inj v2).symm
  obtain ⟨x, A, hx, hA, hpd⟩ := asimov_hesse s h hne S hm.left d hd hpos _ _ hc ν hT0 hdata hid
  obtain ⟨x', A', hx', hA', hpd'⟩ := asimov_hesse' s' h' hne' S hm.right _ hd' hpos' _ _ hc' _ hT0' hdata' hid' (n := (s.m.paramNames s.w).length) (by rw [hm.names])
  rw [hpv] at hx'
  refine ⟨v1, v2, fun q hq => ?_⟩
  have e1 := fit_errors h.reachable hmin hk he hr (v1.trans hx) hA ⟨q, hq.1⟩ hq
  have e2 := fit_errors' h'.reachable hmin (hm.names ▸ hk) he' hr' (by rw [hm.names]) (v2.trans hx') hA' (P := fun q => FreeParam s ops fixNui q) (fun q => by rw [hF]) ⟨q, hq.1⟩ hq
  have hE : ∀ k < s.m.chanIds.length, ∀ i, 0 < expectedIn s S ν (fun _ _ _ => 0) k i := fun k hk i => by
    rw [hdata k hk i]; exact lt_of_lt_of_le (by norm_num) (hpos k hk i)
  obtain ⟨h1, h2, h3⟩ := lumi_var hpd hpd' hL (R := fun v => priorForm s S (nuisOf s S v)) (fun v => prior_nonneg hm.left _) (prior_zero s S)
    (lumi_form h h' hne hm hd (fun k hk i => .inr (hpos k hk i)) hL hd' hT0 hE hx hx' hA hA') (fun q => FreeParam s ops fixNui q) ⟨q, hq.1⟩ hq
  obtain ⟨h3, h4⟩ := h3 (prior_le h hne hm.left hd hpos hm.free.1 hT0 hdata hx hA)
  refine ⟨_, _, e1, e2, Real.sqrt_pos.mpr (free_dual hpd _ _).2.2, Real.sqrt_pos.mpr (free_dual hpd' _ _).2.2, fun hqn => ⟨?_, ?_⟩, fun hqn => ?_, fun hP => ?_⟩
  · rw [← Real.sqrt_mul hL0]; exact Real.sqrt_le_sqrt (h1 hqn)
  · exact (Real.sqrt_le_sqrt (h3 hqn)).trans (le_of_eq (by rw [Real.sqrt_mul (sq_nonneg _), Real.sqrt_sq hL0]))
  · exact Real.sqrt_le_sqrt (h4 hqn)
  · rw [← Real.sqrt_mul hL0, h2 fun q hq => hP q hq]

end

end TF.Props
