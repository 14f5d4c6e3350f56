import Verif.Props.LumiProps

set_option linter.unusedSimpArgs false
set_option linter.unusedVariables false

/-!
# Combining channels (C147)
-/

namespace TF.Spec

open TF Classical

noncomputable section

/-- `s'` is the model `s` with further channels after those of `s`: the same processes and constrained processes, and the channels of `s` are the first channels of `s'` (the channels are described by `S`) -/
structure MoreChannels (s s' : Sys) (S : ℕ → ChanSpec) : Prop where
  left : ModelIs s S
  right : ModelIs s' S
  processes : s'.m.processes = s.m.processes
  channels : s.m.chanIds.length ≤ s'.m.chanIds.length
  procName : ∀ k < s.m.chanIds.length, ∀ j : Fin (S k).K, procName s' k j = procName s k j
  constrained : s'.m.constrained = s.m.constrained

end

end TF.Spec

namespace TF.Props

open Classical Spec
open scoped Matrix

noncomputable section

/-- the parameters of the smaller model come first -/
theorem pslots_more {s s' : Sys} {S : ℕ → ChanSpec} (hm : MoreChannels s s' S) : ∃ T, pslots s' S = pslots s S ++ T := by
  obtain ⟨m, hm'⟩ := Nat.exists_eq_add_of_le hm.channels
  unfold pslots
  rw [hm.processes, hm', List.range_add, List.flatMap_append, ← List.append_assoc]
  exact ⟨_, rfl⟩

theorem idxOf_pre {α : Type} [BEq α] [LawfulBEq α] (l1 l2 : List α) (a : α) (h : a ∈ l1) : (l1 ++ l2).idxOf a = l1.idxOf a ∧ l1.idxOf a < l1.length :=
  ⟨List.idxOf_append_of_mem h, List.idxOf_lt_length_of_mem h⟩

theorem slotIdx_more {s s' : Sys} {S : ℕ → ChanSpec} (hm : MoreChannels s s' S) {σ : String ⊕ (Σ k, Fin (S k).K × Fin (S k).n)} (hσ : σ ∈ pslots s S) :
    slotIdx s' S σ = slotIdx s S σ ∧ slotIdx s S σ < (pslots s S).length := by
  obtain ⟨T, hT⟩ := pslots_more hm
  unfold slotIdx
  rw [hT]
  exact @idxOf_pre _ (@instBEqOfDecidableEq _ (Classical.decEq _)) (@instLawfulBEq _ (Classical.decEq _)) _ _ _ hσ

/-- forget the parameters of the further channels -/
def restr {n n' : ℕ} (h : n ≤ n') (v : Fin n' → ℝ) : Fin n → ℝ := fun q => v ⟨q, q.2.trans_le h⟩

theorem vget_restr {n n' : ℕ} (h : n ≤ n') (v : Fin n' → ℝ) {q : ℕ} (hq : q < n) : vget (restr h v) q = vget v q := by
  unfold vget restr
  rw [dif_pos hq, dif_pos (hq.trans_le h)]

theorem yieldsOf_restr {s s' : Sys} {S : ℕ → ChanSpec} (hm : MoreChannels s s' S) {n n' : ℕ} (hn : (pslots s S).length = n) (h : n ≤ n') (v : Fin n' → ℝ) {p : String}
    (hp : p ∈ s.m.processes) : yieldsOf s' S v p = yieldsOf s S (restr h v) p := by
  obtain ⟨h1, h2⟩ := slotIdx_more hm (σ := .inl p) (by unfold pslots; simp [hp])
  unfold yieldsOf
  rw [h1, vget_restr h v (hn ▸ h2)]

theorem nuisOf_restr {s s' : Sys} {S : ℕ → ChanSpec} (hm : MoreChannels s s' S) {n n' : ℕ} (hn : (pslots s S).length = n) (h : n ≤ n') (v : Fin n' → ℝ) {k : ℕ}
    (hk : k < s.m.chanIds.length) : nuisOf s' S v k = nuisOf s S (restr h v) k := by
  funext j i
  obtain ⟨h1, h2⟩ := slotIdx_more hm (σ := .inr ⟨k, j, i⟩) (by unfold pslots; simp [hk])
  unfold nuisOf
  rw [h1, vget_restr h v (hn ▸ h2)]

/-- at Asimov data the second derivatives of the larger model are at least those of the smaller one -/
theorem comb_form {s s' : Sys} (h : s.Built) (h' : s'.Built) (hne : s.m.channels ≠ []) {S : ℕ → ChanSpec} (hm : MoreChannels s s' S)
    {d : ∀ k, Fin (S k).n → ℝ} (hd : DataIs s S d) (hd' : DataIs s' S d) (hpos : ∀ k < s'.m.chanIds.length, ∀ i, (1e-100 : ℝ) ≤ d k i)
    {V E : String → ℝ} (hc : ConstraintsAre s V E) (hc' : ConstraintsAre s' V E) {ν : String → ℝ} (hT : NonZeroSums s' S fun _ _ _ => 0)
    (hdata : ∀ k < s'.m.chanIds.length, ∀ i, expectedIn s' S ν (fun _ _ _ => 0) k i = d k i) {n n' : ℕ} (hn : (pslots s S).length = n) (hnn : n ≤ n')
    {x : Fin n → ℝ} {x' : Fin n' → ℝ} (hx : paramVec s S ν (fun _ _ _ => 0) = vec x) (hx' : paramVec s' S ν (fun _ _ _ => 0) = vec x') {A : Matrix (Fin n) (Fin n) ℝ} {A' : Matrix (Fin n') (Fin n') ℝ}
    (hA : IsHesse (objective s.w s.m) x A) (hA' : IsHesse (objective s'.w s'.m) x' A') (v : Fin n' → ℝ) :
    restr hnn v ⬝ᵥ A.mulVec (restr hnn v) ≤ v ⬝ᵥ A'.mulVec v := by
  have hw := reachable_wf h.reachable
  have hlen : s.m.channels.length = s.m.chanIds.length := by simp [Mct.chanIds]
  have hlen' : s'.m.channels.length = s'.m.chanIds.length := by simp [Mct.chanIds]
  have hne' : s'.m.channels ≠ [] := fun h0 => hne (List.length_eq_zero_iff.mp (by
    have := hm.channels
    have h1 : s'.m.channels.length = 0 := by rw [h0]; rfl
    omega))
  have hExp : ∀ k < s.m.chanIds.length, ∀ i, expectedIn s S ν (fun _ _ _ => 0) k i = d k i := by
    intro k hk i
    rw [← hdata k (hk.trans_le hm.channels) i, expectedIn_eq, expectedIn_eq]
    exact Finset.sum_congr rfl fun j _ => by rw [hm.procName k hk j]
  have hd0 : ∀ k < s'.m.chanIds.length, ∀ i, 0 < d k i := fun k hk i => lt_of_lt_of_le (by norm_num) (hpos k hk i)
  rw [hesse_form s h hne S hm.left d hd (fun k hk i => .inr (hpos k (hk.trans_le hm.channels) i)) _ _ hc ν _ (fun k hk => hT k (hk.trans_le hm.channels)) (fun k hk i => by
      rw [hExp k hk i]; exact hd0 k (hk.trans_le hm.channels) i) x hx A hA,
    hesse_form s' h' hne' S hm.right d hd' (fun k hk i => .inr (hpos k hk i)) _ _ hc' ν _ hT (fun k hk i => by rw [hdata k hk i]; exact hd0 k hk i) x' hx' A' hA']
  have b1 : (∑ k ∈ Finset.range s.m.channels.length, ∑ i, (1 - d k i / expectedIn s S ν (fun _ _ _ => 0) k i) *
      bendIn s S ν (yieldsOf s S (restr hnn v)) (fun _ _ _ => 0) (nuisOf s S (restr hnn v)) k i) = 0 := by
    refine Finset.sum_eq_zero fun k hk => Finset.sum_eq_zero fun i _ => ?_
    have hk : k < s.m.chanIds.length := hlen ▸ Finset.mem_range.mp hk
    rw [hExp k hk i, div_self (hd0 k (hk.trans_le hm.channels) i).ne', sub_self, zero_mul]
  have b2 : (∑ k ∈ Finset.range s'.m.channels.length, ∑ i, (1 - d k i / expectedIn s' S ν (fun _ _ _ => 0) k i) *
      bendIn s' S ν (yieldsOf s' S v) (fun _ _ _ => 0) (nuisOf s' S v) k i) = 0 := by
    refine Finset.sum_eq_zero fun k hk => Finset.sum_eq_zero fun i _ => ?_
    have hk : k < s'.m.chanIds.length := hlen' ▸ Finset.mem_range.mp hk
    rw [hdata k hk i, div_self (hd0 k hk i).ne', sub_self, zero_mul]
  rw [b1, b2, add_zero, add_zero]
  unfold information
  rw [hm.constrained]
  have t1 : (s.m.constrained.map fun p => (yieldsOf s' S v p / E p) ^ 2) = s.m.constrained.map fun p => (yieldsOf s S (restr hnn v) p / E p) ^ 2 :=
    List.map_congr_left fun p hp => by rw [yieldsOf_restr hm hn hnn v (hc p hp).1]
  rw [t1]
  refine add_le_add ?_ le_rfl
  rw [hlen, hlen', show Finset.range s'.m.chanIds.length = Finset.range s.m.chanIds.length ∪ (Finset.range s'.m.chanIds.length \ Finset.range s.m.chanIds.length) by
    rw [Finset.union_sdiff_of_subset (Finset.range_subset_range.mpr hm.channels)], Finset.sum_union Finset.disjoint_sdiff]
  have t2 : (∑ k ∈ Finset.range s.m.chanIds.length, ((∑ i, d k i * (slopeIn s' S ν (yieldsOf s' S v) (fun _ _ _ => 0) (nuisOf s' S v) k i / expectedIn s' S ν (fun _ _ _ => 0) k i) ^ 2) +
      ∑ j, (nuisOf s' S v k j) ⬝ᵥ (((S k).R j)⁻¹.mulVec (nuisOf s' S v k j)))) =
      ∑ k ∈ Finset.range s.m.chanIds.length, ((∑ i, d k i * (slopeIn s S ν (yieldsOf s S (restr hnn v)) (fun _ _ _ => 0) (nuisOf s S (restr hnn v)) k i / expectedIn s S ν (fun _ _ _ => 0) k i) ^ 2) +
      ∑ j, (nuisOf s S (restr hnn v) k j) ⬝ᵥ (((S k).R j)⁻¹.mulVec (nuisOf s S (restr hnn v) k j))) := by
    refine Finset.sum_congr rfl fun k hk => ?_
    have hk : k < s.m.chanIds.length := Finset.mem_range.mp hk
    have hN := nuisOf_restr hm hn hnn v hk
    rw [hN]
    congr 1
    refine Finset.sum_congr rfl fun i _ => ?_
    rw [hExp k hk i, hdata k (hk.trans_le hm.channels) i]
    congr 3
    unfold slopeIn
    refine Finset.sum_congr rfl fun j _ => ?_
    have hF : fracSlope S (fun _ _ _ => 0) (nuisOf s' S v) k j i = fracSlope S (fun _ _ _ => 0) (nuisOf s S (restr hnn v)) k j i := by
      unfold fracSlope totalSlope
      simp only [hN]
    rw [hm.procName k hk j, yieldsOf_restr hm hn hnn v (procName_mem hw hm.left k hk j), hF]
  rw [t2]
  refine le_add_of_nonneg_right (Finset.sum_nonneg fun k hk => add_nonneg (Finset.sum_nonneg fun i _ => ?_) (Finset.sum_nonneg fun j _ => ?_))
  · exact mul_nonneg (hd0 k (Finset.mem_range.mp (Finset.mem_sdiff.mp hk).1) i).le (sq_nonneg _)
  · have := ((hm.right k (Finset.mem_range.mp (Finset.mem_sdiff.mp hk).1)).2.2.1 j).inv.posSemidef.dotProduct_mulVec_nonneg (nuisOf s' S v k j)
    simpa using this

/-- a parameter free in both fits has no larger variance in the larger model -/
theorem comb_var {n n' : ℕ} {A : Matrix (Fin n) (Fin n) ℝ} {A' : Matrix (Fin n') (Fin n') ℝ} (hA : A.PosDef) (hA' : A'.PosDef) (hnn : n ≤ n')
    (hf : ∀ v, restr hnn v ⬝ᵥ A.mulVec (restr hnn v) ≤ v ⬝ᵥ A'.mulVec v) (P : Fin n → Prop) (P' : Fin n' → Prop) (hP : ∀ q : Fin n, P' ⟨q, q.2.trans_le hnn⟩ → P q)
    (i : Fin n) (hi : P' ⟨i, i.2.trans_le hnn⟩) : freeVar A' P' ⟨⟨i, i.2.trans_le hnn⟩, hi⟩ ≤ freeVar A P ⟨i, hP i hi⟩ := by
  obtain ⟨w, w1, w2⟩ := (free_dual hA' P' ⟨⟨i, i.2.trans_le hnn⟩, hi⟩).2.1
  have h3 := (free_dual hA P ⟨i, hP i hi⟩).1 (restr hnn w) fun q hq => w1 _ fun h => hq (hP q h)
  have h4 := hf w
  simp only at w2 h3
  have h5 : restr hnn w i = w ⟨i, i.2.trans_le hnn⟩ := rfl
  rw [h5] at h3
  linarith

/-- as `C106_exact`, from any start point that agrees with the description in the parameters held fixed -/
theorem closure_from (s : Sys) (h : s.Built) (hne : s.m.channels ≠ []) (S : ℕ → ChanSpec) (hS : ModelIs s S)
    (d : ∀ k, Fin (S k).n → ℝ) (hd : DataIs s S d) (hpos : ∀ k < s.m.chanIds.length, ∀ i, (1e-100 : ℝ) ≤ d k i)
    (V E : String → ℝ) (hc : ConstraintsAre s V E)
    (ν : String → ℝ) (xs : Vec) (hx0 : s.m.x0 s.w = .ok xs)
    (hT0 : NonZeroSums s S fun _ _ _ => 0)
    (hdata : ∀ k < s.m.chanIds.length, ∀ i, expectedIn s S ν (fun _ _ _ => 0) k i = d k i)
    (hV : ∀ p ∈ s.m.constrained, V p = ν p) (hid : Identifiable s S)
    (o : Optim) (ho : TrueMin o) (id : String) (hmin : id.toLower = "iminuit") (hist : List FitOp)
    (hk : KnownIds (s.m.paramNames s.w) hist) (up g fixNui : Bool) (lim : Option Bounds)
    (hb : ∀ pid b, FitOp.bound pid b ∈ hist → ∀ k v, Denotes (s.m.paramNames s.w) pid k →
      (paramVec s S ν fun _ _ _ => 0)[k]? = some v → InBounds b v)
    (hlim : ∀ b, lim = some b → InBounds b 0)
    (hfix : ∀ q < (s.m.paramNames s.w).length, WantedFixed (s.m.paramNames s.w) hist s.m.numProcesses fixNui q → xs[q]? = (paramVec s S ν fun _ _ _ => 0)[q]?)
    (r : MinResult) (hr : ((fitRun id hist).doFit o s.w s.m up g fixNui lim).1 = .ok r) :
    r.fval = .fin 0 ∧ r.params.values = paramVec s S ν fun _ _ _ => 0 := by
  have hw := reachable_wf h.reachable
  have hal := C51_aligned s h.reachable
  have hz := setup_eq (kd := .iminuit) (id := id) hal.1.symm hk fixNui lim
  have hzw := minRun_wf .iminuit (s.m.paramNames s.w)
    (setupOps (fitRun id hist) s.m.numProcesses (s.m.numNui s.w) fixNui lim)
  have hm1 : minKindOf (fitRun id hist).minimizerId = .ok .iminuit := by rw [fitRun_id]; exact minKind_iminuit hmin
  obtain ⟨x1, q, hx1, hq, hf, hval⟩ := doFit_minuit_inv' hm1 hz hzw.hk hr
  rw [hx0] at hx1
  obtain rfl := Except.ok.inj hx1
  obtain ⟨t1, t2, t3, t4⟩ := ho _ _ hq
  set z := minRun .iminuit (s.m.paramNames s.w)
    (setupOps (fitRun id hist) s.m.numProcesses (s.m.numNui s.w) fixNui lim) with hzz
  have hnames : (z.minuitCall (objective s.w s.m) xs).names = s.m.paramNames s.w := hzw.hn
  have hplen := paramVec_length hw hS ν (fun _ _ _ => 0)
  have hql : q.values.length = s.m.numProcesses + s.m.numNui s.w := by
    rw [t1.1, hnames, hal.1]
  -- the present parameters are admissible
  have hfeas : MFeasible (z.minuitCall (objective s.w s.m) xs)
      (paramVec s S ν fun _ _ _ => 0) := by
    refine ⟨by rw [hnames, hal.1, hplen], fun k hkn => ⟨fun hfx => ?_, fun _ b v hbb hv => ?_⟩⟩
    · rw [hnames] at hkn
      rw [hzz, C58_iminuit, List.getElem?_map, List.getElem?_range hkn] at hfx
      have h1 := (setup_fixed hal.1.symm fixNui lim k hkn).mp (of_decide_eq_true (Option.some.inj hfx))
      exact (hfix k hkn h1).symm
    rw [hnames] at hkn
    rcases setup_bounds_mem' hkn hbb with rfl | ⟨pid, hp1, hp2⟩ | ⟨hl, hle⟩
    · exact ⟨fun _ h => (by cases h), fun _ h => (by cases h)⟩
    · exact hb pid b hp1 k v hp2 hv
    · have : v = 0 := by
        unfold paramVec at hv
        rw [List.getElem?_append_right (by simpa [Mct.numProcesses] using hle)] at hv
        have hm := List.mem_of_getElem? hv
        obtain ⟨l, hl1, hl2⟩ := List.mem_flatten.mp hm
        obtain ⟨k', -, rfl⟩ := List.mem_map.mp hl1
        unfold nuiVec at hl2
        obtain ⟨l, hl3, hl4⟩ := List.mem_flatten.mp hl2
        obtain ⟨j, rfl⟩ := List.mem_ofFn.mp hl3
        unfold vec at hl4
        obtain ⟨i, rfl⟩ := List.mem_ofFn.mp hl4
        rfl
      rw [this]; exact hlim b hl
  obtain ⟨m1, m2⟩ := C106_minimum s h hne S hS d hd hpos V E hc ν hT0 hdata hV hid
  have hcmp := t4 _ _ hfeas m1
  obtain ⟨m3, m4⟩ := m2 q.values q.fval hql t2
  have hz : q.fval = .fin 0 := by
    cases hfv : q.fval with
    | nan => exact absurd hfv t3
    | ninf => rw [hfv] at m3; exact absurd trivial m3
    | pinf => rw [hfv] at hcmp; exact absurd trivial hcmp
    | fin b =>
      rw [hfv] at hcmp m3
      have h1 : b ≤ 0 := not_lt.mp hcmp
      have h2 : 0 ≤ b := not_lt.mp m3
      rw [le_antisymm h1 h2]
  exact ⟨by rw [hf, hz], by rw [hval, m4 hz]⟩

/-- **C147.** `s'` is the model `s` with further channels for the same processes; the data of both are those expected for the yields `ν` (nuisance parameters zero, all expectations positive, yields identifiable already in
`s`; any constraints, satisfied by `ν`). Two iminuit fits with exact minimization and errors, from any start points at which the parameters held fixed are right, the one of `s'` holding fixed at least those parameters of `s` that are fixed in the other: both return the true yields and nuisance
parameters, and no parameter of `s` free in the combined fit has a larger error there than in the fit of `s` alone. -/
theorem C147_combination (s s' : Sys) (h : s.Built) (h' : s'.Built) (hne : s.m.channels ≠ []) (S : ℕ → ChanSpec) (hm : MoreChannels s s' S)
    (d : ∀ k, Fin (S k).n → ℝ) (hd : DataIs s S d) (hd' : DataIs s' S d) (hpos : ∀ k < s'.m.chanIds.length, ∀ i, (1e-100 : ℝ) ≤ d k i)
    (V E : String → ℝ) (hc : ConstraintsAre s V E) (hc' : ConstraintsAre s' V E) (ν : String → ℝ) (hV : ∀ p ∈ s.m.constrained, V p = ν p)
    (xs xs' : Vec) (hx0 : s.m.x0 s.w = .ok xs) (hx0' : s'.m.x0 s'.w = .ok xs') (hT0 : NonZeroSums s' S fun _ _ _ => 0)
    (hdata : ∀ k < s'.m.chanIds.length, ∀ i, expectedIn s' S ν (fun _ _ _ => 0) k i = d k i) (hid : Identifiable s S)
    (o o' : Optim) (ho : TrueMin o) (ho' : TrueMin o') (he : ExactErrors o) (he' : ExactErrors o') (id : String) (hmin : id.toLower = "iminuit") (ops ops' : List FitOp)
    (hk : KnownIds (s.m.paramNames s.w) ops) (hk' : KnownIds (s'.m.paramNames s'.w) ops') (up g fixNui up' g' fixNui' : Bool)
    (hb : ∀ pid b, FitOp.bound pid b ∉ ops ∧ FitOp.bound pid b ∉ ops')
    (hfix : ∀ q < (s.m.paramNames s.w).length, WantedFixed (s.m.paramNames s.w) ops s.m.numProcesses fixNui q → xs[q]? = (paramVec s S ν fun _ _ _ => 0)[q]?)
    (hfix' : ∀ q < (s'.m.paramNames s'.w).length, WantedFixed (s'.m.paramNames s'.w) ops' s'.m.numProcesses fixNui' q → xs'[q]? = (paramVec s' S ν fun _ _ _ => 0)[q]?)
    (hsub : ∀ q < (s.m.paramNames s.w).length, FreeParam s' ops' fixNui' q → FreeParam s ops fixNui q) (r r' : MinResult)
    (hr : ((fitRun id ops).doFit o s.w s.m up g fixNui none).1 = .ok r) (hr' : ((fitRun id ops').doFit o' s'.w s'.m up' g' fixNui' none).1 = .ok r') :
    r.params.values = paramVec s S ν (fun _ _ _ => 0) ∧ r'.params.values = paramVec s' S ν (fun _ _ _ => 0) ∧ (s.m.paramNames s.w).length ≤ (s'.m.paramNames s'.w).length ∧
      ∀ q < (s.m.paramNames s.w).length, FreeParam s' ops' fixNui' q → ∃ e e', ErrorIs r q e ∧ ErrorIs r' q e' ∧ 0 < e' ∧ e' ≤ e := by
  have hExp : ∀ k < s.m.chanIds.length, ∀ (δ : String → ℝ) i, expectedIn s' S δ (fun _ _ _ => 0) k i = expectedIn s S δ (fun _ _ _ => 0) k i := by
    intro k hk δ i
    rw [expectedIn_eq, expectedIn_eq]
    exact Finset.sum_congr rfl fun j _ => by rw [hm.procName k hk j]
  have hne' : s'.m.channels ≠ [] := fun h0 => hne (List.length_eq_zero_iff.mp (by
    have := hm.channels
    have h1 : s'.m.channels.length = 0 := by rw [h0]; rfl
    simp only [Mct.chanIds, List.length_map] at this
    omega))
  have hposs : ∀ k < s.m.chanIds.length, ∀ i, (1e-100 : ℝ) ≤ d k i := fun k hk i => hpos k (hk.trans_le hm.channels) i
  have hTs : NonZeroSums s S fun _ _ _ => 0 := fun k hk => hT0 k (hk.trans_le hm.channels)
  have hdatas : ∀ k < s.m.chanIds.length, ∀ i, expectedIn s S ν (fun _ _ _ => 0) k i = d k i := fun k hk i => by
    rw [← hExp k hk]; exact hdata k (hk.trans_le hm.channels) i
  have hid' : Identifiable s' S := fun δ h1 h2 p hp => by
    rw [hm.processes] at hp
    rw [hm.constrained] at h2
    refine hid δ (fun k hk i => ?_) h2 p hp
    rw [← hExp k hk]; exact h1 k (hk.trans_le hm.channels) i
  have v1 := (closure_from s h hne S hm.left d hd hposs _ _ hc ν xs hx0 hTs hdatas hV hid o ho id hmin ops hk up g fixNui none
    (fun pid b hm => absurd hm (hb pid b).1) (by simp) hfix r hr).2
  have v2 := (closure_from s' h' hne' S hm.right d hd' hpos _ _ hc' ν xs' hx0' hT0 hdata (by rw [hm.constrained]; exact hV) hid' o' ho' id hmin ops' hk' up' g' fixNui' none
    (fun pid b hm => absurd hm (hb pid b).2) (by simp) hfix' r' hr').2
  obtain ⟨x, A, hx, hA, hpd⟩ := asimov_hesse s h hne S hm.left d hd hposs _ _ hc ν hTs hdatas hid
  obtain ⟨x', A', hx', hA', hpd'⟩ := asimov_hesse s' h' hne' S hm.right d hd' hpos _ _ hc' ν hT0 hdata hid'
  have hl : (pslots s S).length = (s.m.paramNames s.w).length := by
    have := congrArg List.length hx
    rw [paramVec_slots] at this
    simpa [vec] using this
  have hl' : (pslots s' S).length = (s'.m.paramNames s'.w).length := by
    have := congrArg List.length hx'
    rw [paramVec_slots] at this
    simpa [vec] using this
  have hnn : (s.m.paramNames s.w).length ≤ (s'.m.paramNames s'.w).length := by
    obtain ⟨T, hT⟩ := pslots_more hm
    rw [← hl, ← hl', hT, List.length_append]; omega
  refine ⟨v1, v2, hnn, fun q hq hF => ?_⟩
  have e1 := fit_errors h.reachable hmin hk he hr (v1.trans hx) hA ⟨q, hq⟩ (hsub q hq hF)
  have e2 := fit_errors h'.reachable hmin hk' he' hr' (v2.trans hx') hA' ⟨q, hq.trans_le hnn⟩ hF
  refine ⟨_, _, e1, e2, Real.sqrt_pos.mpr (free_dual hpd' _ _).2.2, Real.sqrt_le_sqrt ?_⟩
  exact comb_var hpd hpd' hnn (comb_form h h' hne hm hd hd' hpos hc hc' hT0 hdata hl hnn hx hx' hA hA') (fun q => FreeParam s ops fixNui q) (fun q => FreeParam s' ops' fixNui' q)
    (fun q hq => hsub q q.2 hq) ⟨q, hq⟩ hF

end

end TF.Props
