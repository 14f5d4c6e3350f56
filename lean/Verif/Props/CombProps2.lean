import Verif.Props.CombProps

set_option linter.unusedSimpArgs false
set_option linter.unusedVariables false

/-!
# A combined fit is at least as precise as the weighted average of the separate fits (C147)
-/

namespace TF.Spec

open TF Classical

noncomputable section

/-- the channels from number `m` on -/
abbrev laterChannels (S : ℕ → ChanSpec) (m : ℕ) : ℕ → ChanSpec := fun k => S (m + k)

/-- `s` is the combination of `s₁` and `s₂`: all three have the same processes and no constraints, the channels of `s` are those of `s₁` followed by those of `s₂` -/
structure Combines (s₁ s₂ s : Sys) (S : ℕ → ChanSpec) : Prop where
  first : MoreChannels s₁ s S
  second : ModelIs s₂ (laterChannels S s₁.m.chanIds.length)
  processes : s₂.m.processes = s.m.processes
  channels : s.m.chanIds.length = s₁.m.chanIds.length + s₂.m.chanIds.length
  procName : ∀ k < s₂.m.chanIds.length, ∀ j : Fin (S (s₁.m.chanIds.length + k)).K, procName s (s₁.m.chanIds.length + k) j = procName s₂ k j
  free : s.m.constrained = [] ∧ s₂.m.constrained = []

end

end TF.Spec

namespace TF.Props

open Classical Spec
open scoped Matrix

noncomputable section

/-- the name in the combined model of a parameter of the second one -/
def emb (S : ℕ → ChanSpec) (m : ℕ) : String ⊕ (Σ k, Fin (laterChannels S m k).K × Fin (laterChannels S m k).n) → String ⊕ (Σ k, Fin (S k).K × Fin (S k).n)
  | .inl p => .inl p
  | .inr ⟨k, j, i⟩ => .inr ⟨m + k, j, i⟩

/-- the parameters of the second model -/
def restr2 (s s₂ : Sys) (S : ℕ → ChanSpec) (m : ℕ) {n n₂ : ℕ} (hn : (pslots s₂ (laterChannels S m)).length = n₂) (v : Fin n → ℝ) : Fin n₂ → ℝ :=
  fun q => vget v (slotIdx s S (emb S m ((pslots s₂ (laterChannels S m))[(q : ℕ)]'(by rw [hn]; exact q.2))))

theorem idxOf_at {α : Type} [BEq α] [LawfulBEq α] (l : List α) (a : α) (h : a ∈ l) : ∃ hl : l.idxOf a < l.length, l[l.idxOf a] = a :=
  ⟨List.idxOf_lt_length_of_mem h, List.getElem_idxOf _⟩

theorem vget_restr2 {s s₂ : Sys} {S : ℕ → ChanSpec} {m n n₂ : ℕ} (hn : (pslots s₂ (laterChannels S m)).length = n₂) (v : Fin n → ℝ)
    {σ : String ⊕ (Σ k, Fin (laterChannels S m k).K × Fin (laterChannels S m k).n)} (hσ : σ ∈ pslots s₂ (laterChannels S m)) :
    vget (restr2 s s₂ S m hn v) (slotIdx s₂ (laterChannels S m) σ) = vget v (slotIdx s S (emb S m σ)) := by
  obtain ⟨h1, h2⟩ := @idxOf_at _ (@instBEqOfDecidableEq _ (Classical.decEq _)) (@instLawfulBEq _ (Classical.decEq _)) _ _ hσ
  change slotIdx s₂ (laterChannels S m) σ < _ at h1
  have h2 : (pslots s₂ (laterChannels S m))[slotIdx s₂ (laterChannels S m) σ] = σ := h2
  rw [show vget (restr2 s s₂ S m hn v) (slotIdx s₂ (laterChannels S m) σ) = restr2 s s₂ S m hn v ⟨_, hn ▸ h1⟩ from dif_pos (hn ▸ h1)]
  unfold restr2
  simp only [h2]

theorem yieldsOf_restr2 {s₁ s₂ s : Sys} {S : ℕ → ChanSpec} (hm : Combines s₁ s₂ s S) {n n₂ : ℕ} (hn : (pslots s₂ (laterChannels S s₁.m.chanIds.length)).length = n₂) (v : Fin n → ℝ) {p : String}
    (hp : p ∈ s₂.m.processes) : yieldsOf s₂ (laterChannels S s₁.m.chanIds.length) (restr2 s s₂ S _ hn v) p = yieldsOf s S v p :=
  vget_restr2 hn v (σ := .inl p) (by unfold pslots; simp [hp])

theorem nuisOf_restr2 {s₁ s₂ s : Sys} {S : ℕ → ChanSpec} {n n₂ : ℕ} (hn : (pslots s₂ (laterChannels S s₁.m.chanIds.length)).length = n₂) (v : Fin n → ℝ) {k : ℕ}
    (hk : k < s₂.m.chanIds.length) : nuisOf s₂ (laterChannels S s₁.m.chanIds.length) (restr2 s s₂ S _ hn v) k = nuisOf s S v (s₁.m.chanIds.length + k) := by
  funext j i
  exact vget_restr2 hn v (σ := .inr ⟨k, j, i⟩) (by unfold pslots; simp [hk])

/-- at Asimov data the second derivatives of the combined model are those of the two models together -/
theorem split_form {s₁ s₂ s : Sys} (h₁ : s₁.Built) (h₂ : s₂.Built) (h : s.Built) (hne₁ : s₁.m.channels ≠ []) (hne₂ : s₂.m.channels ≠ []) {S : ℕ → ChanSpec} (hm : Combines s₁ s₂ s S)
    {d : ∀ k, Fin (S k).n → ℝ} (hd₁ : DataIs s₁ S d) (hd₂ : DataIs s₂ (laterChannels S s₁.m.chanIds.length) fun k => d (s₁.m.chanIds.length + k)) (hd : DataIs s S d)
    (hpos : ∀ k < s.m.chanIds.length, ∀ i, (1e-100 : ℝ) ≤ d k i) {ν : String → ℝ} (hT : NonZeroSums s S fun _ _ _ => 0)
    (hdata : ∀ k < s.m.chanIds.length, ∀ i, expectedIn s S ν (fun _ _ _ => 0) k i = d k i) {n₁ n₂ n : ℕ} (hn₁ : (pslots s₁ S).length = n₁)
    (hn₂ : (pslots s₂ (laterChannels S s₁.m.chanIds.length)).length = n₂) (hnn : n₁ ≤ n)
    {x₁ : Fin n₁ → ℝ} {x₂ : Fin n₂ → ℝ} {x : Fin n → ℝ} (hx₁ : paramVec s₁ S ν (fun _ _ _ => 0) = vec x₁)
    (hx₂ : paramVec s₂ (laterChannels S s₁.m.chanIds.length) ν (fun _ _ _ => 0) = vec x₂) (hx : paramVec s S ν (fun _ _ _ => 0) = vec x)
    {A₁ : Matrix (Fin n₁) (Fin n₁) ℝ} {A₂ : Matrix (Fin n₂) (Fin n₂) ℝ} {A : Matrix (Fin n) (Fin n) ℝ}
    (hA₁ : IsHesse (objective s₁.w s₁.m) x₁ A₁) (hA₂ : IsHesse (objective s₂.w s₂.m) x₂ A₂) (hA : IsHesse (objective s.w s.m) x A) (v : Fin n → ℝ) :
    v ⬝ᵥ A.mulVec v = restr hnn v ⬝ᵥ A₁.mulVec (restr hnn v) + restr2 s s₂ S _ hn₂ v ⬝ᵥ A₂.mulVec (restr2 s s₂ S _ hn₂ v) := by
  have hw₁ := reachable_wf h₁.reachable
  have hw₂ := reachable_wf h₂.reachable
  set m := s₁.m.chanIds.length with hmdef
  have hlen₁ : s₁.m.channels.length = m := by simp [hmdef, Mct.chanIds]
  have hlen₂ : s₂.m.channels.length = s₂.m.chanIds.length := by simp [Mct.chanIds]
  have hlen : s.m.channels.length = s.m.chanIds.length := by simp [Mct.chanIds]
  have hne : s.m.channels ≠ [] := fun h0 => hne₁ (List.length_eq_zero_iff.mp (by
    have h1 : s.m.channels.length = 0 := by rw [h0]; rfl
    have := hm.channels
    omega))
  have hc : ∀ t : Sys, t.m.constrained = [] → ConstraintsAre t (fun _ => 0) (fun _ => 1) := fun t ht p hp => by rw [ht] at hp; cases hp
  have hf1 : s₁.m.constrained = [] := by rw [← hm.first.constrained]; exact hm.free.1
  have hlt1 : ∀ k < m, k < s.m.chanIds.length := fun k hk => by have := hm.channels; omega
  have hlt2 : ∀ k < s₂.m.chanIds.length, m + k < s.m.chanIds.length := fun k hk => by have := hm.channels; omega
  have hE₁ : ∀ k < m, ∀ i, expectedIn s₁ S ν (fun _ _ _ => 0) k i = d k i := by
    intro k hk i
    rw [← hdata k (hlt1 k hk) i, expectedIn_eq, expectedIn_eq]
    exact Finset.sum_congr rfl fun j _ => by rw [hm.first.procName k hk j]
  have hE₂ : ∀ k < s₂.m.chanIds.length, ∀ i, expectedIn s₂ (laterChannels S m) ν (fun _ _ _ => 0) k i = d (m + k) i := by
    intro k hk i
    have h1 := hdata (m + k) (hlt2 k hk) i
    rw [expectedIn_eq] at h1
    rw [expectedIn_eq]
    refine Eq.trans (Finset.sum_congr rfl fun j _ => ?_) h1
    rw [hm.procName k hk j]; rfl
  have hd0 : ∀ k < s.m.chanIds.length, ∀ i, 0 < d k i := fun k hk i => lt_of_lt_of_le (by norm_num) (hpos k hk i)
  rw [hesse_form s₁ h₁ hne₁ S hm.first.left d hd₁ (fun k hk i => .inr (hpos k (hlt1 k hk) i)) _ _ (hc s₁ hf1) ν _ (fun k hk => hT k (hlt1 k hk)) (fun k hk i => by
      rw [hE₁ k hk i]; exact hd0 k (hlt1 k hk) i) x₁ hx₁ A₁ hA₁,
    hesse_form s₂ h₂ hne₂ _ hm.second _ hd₂ (fun k hk i => .inr (hpos (m + k) (hlt2 k hk) i)) _ _ (hc s₂ hm.free.2) ν _ (fun k hk => hT (m + k) (hlt2 k hk)) (fun k hk i => by
      rw [hE₂ k hk i]; exact hd0 (m + k) (hlt2 k hk) i) x₂ hx₂ A₂ hA₂,
    hesse_form s h hne S hm.first.right d hd (fun k hk i => .inr (hpos k hk i)) _ _ (hc s hm.free.1) ν _ hT (fun k hk i => by rw [hdata k hk i]; exact hd0 k hk i) x hx A hA]
  have b0 : ∀ (t : Sys) (T : ℕ → ChanSpec) (e : ∀ k, Fin (T k).n → ℝ) δ η, t.m.channels.length = t.m.chanIds.length →
      (∀ k < t.m.chanIds.length, ∀ i, expectedIn t T ν (fun _ _ _ => 0) k i = e k i ∧ 0 < e k i) →
      (∑ k ∈ Finset.range t.m.channels.length, ∑ i, (1 - e k i / expectedIn t T ν (fun _ _ _ => 0) k i) * bendIn t T ν δ (fun _ _ _ => 0) η k i) = 0 := by
    intro t T e δ η hl he
    refine Finset.sum_eq_zero fun k hk => Finset.sum_eq_zero fun i _ => ?_
    obtain ⟨h1, h2⟩ := he k (hl ▸ Finset.mem_range.mp hk) i
    rw [h1, div_self h2.ne', sub_self, zero_mul]
  rw [b0 s₁ S d _ _ (hlen₁.trans hmdef) fun k hk i => ⟨hE₁ k hk i, hd0 k (hlt1 k hk) i⟩, b0 s₂ _ _ _ _ hlen₂ fun k hk i => ⟨hE₂ k hk i, hd0 (m + k) (hlt2 k hk) i⟩,
    b0 s S d _ _ hlen fun k hk i => ⟨hdata k hk i, hd0 k hk i⟩]
  unfold information
  rw [hf1, hm.free.1, hm.free.2]
  simp only [List.map_nil, List.sum_nil, add_zero]
  rw [hlen, hlen₁, hlen₂, hm.channels, Finset.sum_range_add]
  congr 1
  · refine Finset.sum_congr rfl fun k hk => ?_
    have hk : k < m := Finset.mem_range.mp hk
    have hN := nuisOf_restr hm.first hn₁ hnn v hk
    rw [hN]
    congr 1
    refine Finset.sum_congr rfl fun i _ => ?_
    rw [hE₁ k hk i, hdata k (hlt1 k hk) i]
    congr 3
    unfold slopeIn
    refine Finset.sum_congr rfl fun j _ => ?_
    have hF : fracSlope S (fun _ _ _ => 0) (nuisOf s S v) k j i = fracSlope S (fun _ _ _ => 0) (nuisOf s₁ S (restr hnn v)) k j i := by
      unfold fracSlope totalSlope
      simp only [hN]
    rw [hm.first.procName k hk j, yieldsOf_restr hm.first hn₁ hnn v (procName_mem hw₁ hm.first.left k hk j), hF]
  · refine Finset.sum_congr rfl fun k hk => ?_
    have hk : k < s₂.m.chanIds.length := Finset.mem_range.mp hk
    have hN := nuisOf_restr2 (s := s) hn₂ v hk
    rw [hN]
    congr 1
    refine Finset.sum_congr rfl fun i _ => ?_
    rw [hE₂ k hk i, hdata (m + k) (hlt2 k hk) i]
    congr 3
    unfold slopeIn
    refine Finset.sum_congr rfl fun j _ => ?_
    have hF : fracSlope S (fun _ _ _ => 0) (nuisOf s S v) (m + k) j i =
        fracSlope (laterChannels S m) (fun _ _ _ => 0) (nuisOf s₂ (laterChannels S m) (restr2 s s₂ S _ hn₂ v)) k j i := by
      unfold fracSlope totalSlope
      have hN' : ∀ j i, nuisOf s₂ (laterChannels S m) (restr2 s s₂ S _ hn₂ v) k j i = nuisOf s S v (m + k) j i := fun j i => congrFun (congrFun hN j) i
      refine Eq.symm ?_
      simp only [hN']
      rfl
    rw [hm.procName k hk j, yieldsOf_restr2 hm hn₂ v (procName_mem hw₂ hm.second k hk j), hF]
    rfl

/-- in any direction the second derivative is at least the square of the component over the variance -/
theorem form_ge {n : ℕ} {A : Matrix (Fin n) (Fin n) ℝ} (hA : A.PosDef) (P : Fin n → Prop) (i : {q : Fin n // P q}) (v : Fin n → ℝ) (hv : ∀ q, ¬ P q → v q = 0) :
    (v i.1) ^ 2 / freeVar A P i ≤ v ⬝ᵥ A.mulVec v := by
  obtain ⟨h1, -, h3⟩ := free_dual hA P i
  have hq : ∀ t : ℝ, 2 * (t * v i.1) - t ^ 2 * (v ⬝ᵥ A.mulVec v) ≤ freeVar A P i := by
    intro t
    have := h1 (t • v) fun q hq => by simp [hv q hq]
    rw [Matrix.mulVec_smul, smul_dotProduct, dotProduct_smul] at this
    simp only [smul_eq_mul, Pi.smul_apply] at this
    linarith [this, show t * (t * (v ⬝ᵥ A.mulVec v)) = t ^ 2 * (v ⬝ᵥ A.mulVec v) by ring]
  rw [div_le_iff₀ h3]
  by_cases h0 : v i.1 = 0
  · rw [h0]
    have := hA.posSemidef.dotProduct_mulVec_nonneg v
    simp only [star_trivial] at this
    have := mul_nonneg this h3.le
    nlinarith
  · have h5 : (v i.1) ^ 2 > 0 := by positivity
    have := hq (freeVar A P i / v i.1)
    have h4 : 2 * (freeVar A P i / v i.1 * v i.1) = 2 * freeVar A P i := by field_simp
    rw [h4, div_pow] at this
    have h6 : freeVar A P i ≤ freeVar A P i ^ 2 / v i.1 ^ 2 * (v ⬝ᵥ A.mulVec v) := by linarith
    rw [div_mul_eq_mul_div, le_div_iff₀ h5] at h6
    nlinarith

/-- the inverse variances of a common parameter add up at least -/
theorem weighted_var {n₁ n₂ n : ℕ} {A₁ : Matrix (Fin n₁) (Fin n₁) ℝ} {A₂ : Matrix (Fin n₂) (Fin n₂) ℝ} {A : Matrix (Fin n) (Fin n) ℝ} (hA₁ : A₁.PosDef) (hA₂ : A₂.PosDef) (hA : A.PosDef)
    {f₁ : (Fin n → ℝ) → Fin n₁ → ℝ} {f₂ : (Fin n → ℝ) → Fin n₂ → ℝ} (hf : ∀ v, v ⬝ᵥ A.mulVec v = f₁ v ⬝ᵥ A₁.mulVec (f₁ v) + f₂ v ⬝ᵥ A₂.mulVec (f₂ v))
    {P₁ : Fin n₁ → Prop} {P₂ : Fin n₂ → Prop} {P : Fin n → Prop} (h₁ : ∀ v, (∀ q, ¬ P q → v q = 0) → ∀ q, ¬ P₁ q → f₁ v q = 0) (h₂ : ∀ v, (∀ q, ¬ P q → v q = 0) → ∀ q, ¬ P₂ q → f₂ v q = 0)
    (i₁ : {q // P₁ q}) (i₂ : {q // P₂ q}) (i : {q // P q}) (e₁ : ∀ v, f₁ v i₁.1 = v i.1) (e₂ : ∀ v, f₂ v i₂.1 = v i.1) :
    (freeVar A₁ P₁ i₁)⁻¹ + (freeVar A₂ P₂ i₂)⁻¹ ≤ (freeVar A P i)⁻¹ := by
  obtain ⟨w, w1, w2⟩ := (free_dual hA P i).2.1
  have p := (free_dual hA P i).2.2
  have p1 := (free_dual hA₁ P₁ i₁).2.2
  have p2 := (free_dual hA₂ P₂ i₂).2.2
  have g1 := form_ge hA₁ P₁ i₁ (f₁ w) (h₁ w w1)
  have g2 := form_ge hA₂ P₂ i₂ (f₂ w) (h₂ w w1)
  rw [e₁] at g1
  rw [e₂] at g2
  rw [hf] at w2
  set a := (freeVar A₁ P₁ i₁)⁻¹ + (freeVar A₂ P₂ i₂)⁻¹ with ha
  have ha0 : 0 < a := by have := inv_pos.mpr p1; have := inv_pos.mpr p2; linarith
  have h3 : freeVar A P i ≤ 2 * w i.1 - a * (w i.1) ^ 2 := by
    rw [div_eq_mul_inv] at g1 g2
    rw [← w2, ha]
    nlinarith
  rw [le_inv_comm₀ ha0 p]
  rw [← one_div, le_div_iff₀ ha0]
  nlinarith [sq_nonneg (a * w i.1 - 1)]

/-- **C147, weighted average.** `s` is the combination of the models `s₁` and `s₂` (no constraints), the data of all three are those expected for the yields `ν` (nuisance parameters zero, all expectations positive, yields identifiable in `s₁` and
in `s₂`). Iminuit fits of the three with exact minimization and errors, all parameters free or all nuisance parameters held fixed at zero: for every yield the inverse squared error of the combined fit is at least the sum of those of the separate
fits, that is the combined fit is at least as precise as the weighted average of the separate results. -/
theorem C147_weighted (s₁ s₂ s : Sys) (h₁ : s₁.Built) (h₂ : s₂.Built) (h : s.Built) (hne₁ : s₁.m.channels ≠ []) (hne₂ : s₂.m.channels ≠ []) (S : ℕ → ChanSpec) (hm : Combines s₁ s₂ s S)
    (d : ∀ k, Fin (S k).n → ℝ) (hd₁ : DataIs s₁ S d) (hd₂ : DataIs s₂ (laterChannels S s₁.m.chanIds.length) fun k => d (s₁.m.chanIds.length + k)) (hd : DataIs s S d)
    (hpos : ∀ k < s.m.chanIds.length, ∀ i, (1e-100 : ℝ) ≤ d k i) (ν : String → ℝ) (hT : NonZeroSums s S fun _ _ _ => 0)
    (hdata : ∀ k < s.m.chanIds.length, ∀ i, expectedIn s S ν (fun _ _ _ => 0) k i = d k i) (hid₁ : Identifiable s₁ S) (hid₂ : Identifiable s₂ (laterChannels S s₁.m.chanIds.length))
    (x₁ x₂ x : Vec) (hx₁ : s₁.m.x0 s₁.w = .ok x₁) (hx₂ : s₂.m.x0 s₂.w = .ok x₂) (hx : s.m.x0 s.w = .ok x) (fixNui : Bool)
    (hfix₁ : fixNui = true → ∀ q, s₁.m.numProcesses ≤ q → x₁[q]? = (paramVec s₁ S ν fun _ _ _ => 0)[q]?)
    (hfix₂ : fixNui = true → ∀ q, s₂.m.numProcesses ≤ q → x₂[q]? = (paramVec s₂ (laterChannels S s₁.m.chanIds.length) ν fun _ _ _ => 0)[q]?)
    (hfix : fixNui = true → ∀ q, s.m.numProcesses ≤ q → x[q]? = (paramVec s S ν fun _ _ _ => 0)[q]?)
    (o₁ o₂ o : Optim) (ho₁ : TrueMin o₁) (ho₂ : TrueMin o₂) (ho : TrueMin o) (he₁ : ExactErrors o₁) (he₂ : ExactErrors o₂) (he : ExactErrors o) (id : String) (hmin : id.toLower = "iminuit")
    (up₁ g₁ up₂ g₂ up g : Bool) (r₁ r₂ r : MinResult) (hr₁ : ((fitRun id []).doFit o₁ s₁.w s₁.m up₁ g₁ fixNui none).1 = .ok r₁)
    (hr₂ : ((fitRun id []).doFit o₂ s₂.w s₂.m up₂ g₂ fixNui none).1 = .ok r₂) (hr : ((fitRun id []).doFit o s.w s.m up g fixNui none).1 = .ok r) :
    ∀ q < s.m.numProcesses, ∃ e₁ e₂ e, ErrorIs r₁ q e₁ ∧ ErrorIs r₂ q e₂ ∧ ErrorIs r q e ∧ 0 < e₁ ∧ 0 < e₂ ∧ 0 < e ∧ (e₁ ^ 2)⁻¹ + (e₂ ^ 2)⁻¹ ≤ (e ^ 2)⁻¹ := by
  have hw₁ := reachable_wf h₁.reachable
  have hw₂ := reachable_wf h₂.reachable
  have hlt1 : ∀ k < s₁.m.chanIds.length, k < s.m.chanIds.length := fun k hk => by have := hm.channels; omega
  have hlt2 : ∀ k < s₂.m.chanIds.length, s₁.m.chanIds.length + k < s.m.chanIds.length := fun k hk => by have := hm.channels; omega
  have hne : s.m.channels ≠ [] := fun h0 => hne₁ (List.length_eq_zero_iff.mp (by
    have h1 : s.m.channels.length = 0 := by rw [h0]; rfl
    have := hm.channels
    simp only [Mct.chanIds, List.length_map] at this
    omega))
  have hf1 : s₁.m.constrained = [] := by rw [← hm.first.constrained]; exact hm.free.1
  have hc : ∀ t : Sys, t.m.constrained = [] → ConstraintsAre t (fun _ => 0) (fun _ => 1) := fun t ht p hp => by rw [ht] at hp; cases hp
  have hE₁ : ∀ k < s₁.m.chanIds.length, ∀ (δ : String → ℝ) i, expectedIn s S δ (fun _ _ _ => 0) k i = expectedIn s₁ S δ (fun _ _ _ => 0) k i := by
    intro k hk δ i
    rw [expectedIn_eq, expectedIn_eq]
    exact Finset.sum_congr rfl fun j _ => by rw [hm.first.procName k hk j]
  have hE₂ : ∀ k < s₂.m.chanIds.length, ∀ (δ : String → ℝ) i, expectedIn s S δ (fun _ _ _ => 0) (s₁.m.chanIds.length + k) i =
      expectedIn s₂ (laterChannels S s₁.m.chanIds.length) δ (fun _ _ _ => 0) k i := by
    intro k hk δ i
    rw [expectedIn_eq, expectedIn_eq]
    exact Finset.sum_congr rfl fun j _ => by rw [hm.procName k hk j]; rfl
  have hid : Identifiable s S := fun δ h1 h2 p hp => hid₁ δ (fun k hk i => by rw [← hE₁ k hk]; exact h1 k (hlt1 k hk) i) (by intro p hp; rw [hf1] at hp; cases hp) p
    (hm.first.processes ▸ hp)
  have np₁ : s₁.m.numProcesses = s.m.numProcesses := by unfold Mct.numProcesses; rw [hm.first.processes]
  have np₂ : s₂.m.numProcesses = s.m.numProcesses := by unfold Mct.numProcesses; rw [hm.processes]
  have hnoV : ∀ t : Sys, t.m.constrained = [] → ∀ p ∈ t.m.constrained, (fun _ : String => (0 : ℝ)) p = ν p := fun t ht p hp => by rw [ht] at hp; cases hp
  have hWF : ∀ (t : Sys) q, WantedFixed (t.m.paramNames t.w) [] t.m.numProcesses fixNui q ↔ (fixNui = true ∧ t.m.numProcesses ≤ q) := by intro t q; simp [WantedFixed, FitFixed]
  have hkn : ∀ t : Sys, KnownIds (t.m.paramNames t.w) [] := fun t => ⟨by simp, by simp⟩
  have v1 := (closure_from s₁ h₁ hne₁ S hm.first.left d hd₁ (fun k hk i => hpos k (hlt1 k hk) i) _ _ (hc s₁ hf1) ν x₁ hx₁ (fun k hk => hT k (hlt1 k hk)) (fun k hk i => by
    rw [← hE₁ k hk]; exact hdata k (hlt1 k hk) i) (hnoV s₁ hf1) hid₁ o₁ ho₁ id hmin [] (hkn _) up₁ g₁ fixNui none (by simp) (by simp)
    (fun q _ hq => hfix₁ ((hWF s₁ q).mp hq).1 q ((hWF s₁ q).mp hq).2) r₁ hr₁).2
  have v2 := (closure_from s₂ h₂ hne₂ _ hm.second _ hd₂ (fun k hk i => hpos _ (hlt2 k hk) i) _ _ (hc s₂ hm.free.2) ν x₂ hx₂ (fun k hk => hT _ (hlt2 k hk)) (fun k hk i => by
    rw [← hE₂ k hk]; exact hdata _ (hlt2 k hk) i) (hnoV s₂ hm.free.2) hid₂ o₂ ho₂ id hmin [] (hkn _) up₂ g₂ fixNui none (by simp) (by simp)
    (fun q _ hq => hfix₂ ((hWF s₂ q).mp hq).1 q ((hWF s₂ q).mp hq).2) r₂ hr₂).2
  have v := (closure_from s h hne S hm.first.right d hd hpos _ _ (hc s hm.free.1) ν x hx hT hdata (hnoV s hm.free.1) hid o ho id hmin [] (hkn _) up g fixNui none (by simp) (by simp)
    (fun q _ hq => hfix ((hWF s q).mp hq).1 q ((hWF s q).mp hq).2) r hr).2
  obtain ⟨y₁, A₁, hy₁, hA₁, hpd₁⟩ := asimov_hesse s₁ h₁ hne₁ S hm.first.left d hd₁ (fun k hk i => hpos k (hlt1 k hk) i) _ _ (hc s₁ hf1) ν (fun k hk => hT k (hlt1 k hk)) (fun k hk i => by
    rw [← hE₁ k hk]; exact hdata k (hlt1 k hk) i) hid₁
  obtain ⟨y₂, A₂, hy₂, hA₂, hpd₂⟩ := asimov_hesse s₂ h₂ hne₂ _ hm.second _ hd₂ (fun k hk i => hpos _ (hlt2 k hk) i) _ _ (hc s₂ hm.free.2) ν (fun k hk => hT _ (hlt2 k hk)) (fun k hk i => by
    rw [← hE₂ k hk]; exact hdata _ (hlt2 k hk) i) hid₂
  obtain ⟨y, A, hy, hA, hpd⟩ := asimov_hesse s h hne S hm.first.right d hd hpos _ _ (hc s hm.free.1) ν hT hdata hid
  have hl : ∀ (t : Sys) (T : ℕ → ChanSpec) {n : ℕ} {u : Fin n → ℝ}, paramVec t T ν (fun _ _ _ => 0) = vec u → (pslots t T).length = n := by
    intro t T n u hu
    have := congrArg List.length hu
    rw [paramVec_slots] at this
    simpa [vec] using this
  have l₁ := hl _ _ hy₁
  have l₂ := hl _ _ hy₂
  have l := hl _ _ hy
  have hnn : (s₁.m.paramNames s₁.w).length ≤ (s.m.paramNames s.w).length := by
    obtain ⟨T, hT⟩ := pslots_more hm.first
    rw [← l₁, ← l, hT, List.length_append]; omega
  intro q hq
  have hple : ∀ (t : Sys) (T : ℕ → ChanSpec), t.m.numProcesses ≤ (pslots t T).length := fun t T => by unfold pslots Mct.numProcesses; simp
  have q₁ : q < (s₁.m.paramNames s₁.w).length := by have := hple s₁ S; omega
  have q₂ : q < (s₂.m.paramNames s₂.w).length := by have := hple s₂ (laterChannels S s₁.m.chanIds.length); omega
  have q₀ : q < (s.m.paramNames s.w).length := by have := hple s S; omega
  have F₁ : FreeParam s₁ [] fixNui q := ⟨q₁, fun hh => by have := ((hWF s₁ q).mp hh).2; omega⟩
  have F₂ : FreeParam s₂ [] fixNui q := ⟨q₂, fun hh => by have := ((hWF s₂ q).mp hh).2; omega⟩
  have F₀ : FreeParam s [] fixNui q := ⟨q₀, fun hh => by have := ((hWF s q).mp hh).2; omega⟩
  refine ⟨_, _, _, fit_errors h₁.reachable hmin (hkn _) he₁ hr₁ (v1.trans hy₁) hA₁ ⟨q, q₁⟩ F₁, fit_errors h₂.reachable hmin (hkn _) he₂ hr₂ (v2.trans hy₂) hA₂ ⟨q, q₂⟩ F₂,
    fit_errors h.reachable hmin (hkn _) he hr (v.trans hy) hA ⟨q, q₀⟩ F₀, Real.sqrt_pos.mpr (free_dual hpd₁ _ _).2.2, Real.sqrt_pos.mpr (free_dual hpd₂ _ _).2.2, Real.sqrt_pos.mpr (free_dual hpd _ _).2.2, ?_⟩
  rw [Real.sq_sqrt (free_dual hpd₁ _ _).2.2.le, Real.sq_sqrt (free_dual hpd₂ _ _).2.2.le, Real.sq_sqrt (free_dual hpd _ _).2.2.le]
  have hq1 : q < s₂.m.processes.length := by rw [hm.processes]; exact hq
  have hslot : (pslots s₂ (laterChannels S s₁.m.chanIds.length))[q]'(by rw [l₂]; exact q₂) = .inl s₂.m.processes[q] := by
    unfold pslots
    rw [List.getElem_append_left (by simpa using hq1), List.getElem_map]
  refine weighted_var hpd₁ hpd₂ hpd (split_form h₁ h₂ h hne₁ hne₂ hm hd₁ hd₂ hd hpos hT hdata l₁ l₂ hnn hy₁ hy₂ hy hA₁ hA₂ hA)
    (P₁ := fun q => FreeParam s₁ [] fixNui q) (P₂ := fun q => FreeParam s₂ [] fixNui q) (P := fun q => FreeParam s [] fixNui q) (fun u hu p hp => ?_) (fun u hu p hp => ?_) ⟨⟨q, q₁⟩, F₁⟩ ⟨⟨q, q₂⟩, F₂⟩ ⟨⟨q, q₀⟩, F₀⟩
    (fun u => rfl) (fun u => ?_)
  · refine hu _ fun hh => hp ⟨p.2, fun hh' => hh.2 ?_⟩
    have := (hWF s₁ p).mp hh'
    exact (hWF s p).mpr ⟨this.1, by rw [← np₁]; exact this.2⟩
  · have hfx : fixNui = true ∧ s₂.m.numProcesses ≤ p := by
      by_contra hcon
      exact hp ⟨p.2, fun hh => hcon ((hWF s₂ p).mp hh)⟩
    unfold restr2
    have hpl : (p : ℕ) < (pslots s₂ (laterChannels S s₁.m.chanIds.length)).length := by rw [l₂]; exact p.2
    have hg := slotIdx_get hw₂ (laterChannels S s₁.m.chanIds.length) (p : ℕ) hpl
    have hmem : (pslots s₂ (laterChannels S s₁.m.chanIds.length))[(p : ℕ)] ∈ pslots s₂ (laterChannels S s₁.m.chanIds.length) := List.getElem_mem hpl
    generalize (pslots s₂ (laterChannels S s₁.m.chanIds.length))[(p : ℕ)] = σ at hg hmem
    cases σ with
    | inl p' =>
      exfalso
      have hp' : p' ∈ s₂.m.processes := by
        unfold pslots at hmem
        simpa using hmem
      rw [slotIdx_yield hw₂ _ hp'] at hg
      have := List.idxOf_lt_length_of_mem hp'
      unfold Mct.numProcesses at hfx
      omega
    | inr τ =>
      obtain ⟨k, j, i⟩ := τ
      have hge := slotIdx_nui s S ⟨s₁.m.chanIds.length + k, j, i⟩
      unfold vget
      split
      · exact hu _ fun hh => hh.2 ((hWF s _).mpr ⟨hfx.1, hge⟩)
      · rfl
  · unfold restr2
    simp only [hslot]
    have hp' : s₂.m.processes[q] ∈ s.m.processes := by rw [← hm.processes]; exact List.getElem_mem hq1
    show vget u (slotIdx s S (.inl s₂.m.processes[q])) = u ⟨q, q₀⟩
    have hi : slotIdx s S (.inl s₂.m.processes[q]) = q := by
      rw [slotIdx_yield (reachable_wf h.reachable) S hp']
      have h3 : s₂.m.processes[q] = s.m.processes[q]'hq := by simp only [hm.processes]; rfl
      rw [h3]
      exact List.Nodup.idxOf_getElem (reachable_wf h.reachable).procs q hq
    rw [hi]
    exact dif_pos q₀

end

end TF.Props
