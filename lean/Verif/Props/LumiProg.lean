import Verif.Props.LumiProps
import Verif.Props.FitterProps11
import Verif.Props.ToyStat

set_option linter.unusedSimpArgs false
set_option linter.unusedVariables false

/-!
# The model after `update_parameters`, and C146 for Asimov data generated by programs
-/

namespace TF.Props

open Classical Spec
open scoped Matrix

noncomputable section

theorem updateParameters_nChans (s : Sys) (x : Vec) : (s.m.updateParameters s.w x).2.nChans = s.w.nChans := by
  unfold Mct.updateParameters
  have h1 := perChannel_frame s.w s.m x
  generalize s.m.perChannel s.w x = r at h1 ⊢
  obtain ⟨r1, w1⟩ := r
  cases r1 with
  | error e => exact h1.nChans
  | ok p =>
    obtain ⟨f, hf⟩ := updateChannels_paramOnly s.m.chanIds w1 p.1 p.2
    show (w1.updateChannels s.m.chanIds p.1 p.2).2.nChans = _
    rw [hf]; exact h1.nChans

/-- a model keeps its description when its parameters are replaced, and its present parameters are the new ones -/
theorem update_model (s : Sys) (h : s.Built) (hne : s.m.channels ≠ []) (S : ℕ → ChanSpec) (hS : ModelIs s S) (hu : Unshared s)
    (ν : String → ℝ) (θ : ∀ k, Fin (S k).K → Fin (S k).n → ℝ) (heff : ∀ p ∈ s.m.processes, effSum s p = 1) (s' : Sys)
    (hs' : s' = s.step (.update (paramVec s S ν θ))) :
    s'.Built ∧ s'.m = s.m ∧ ModelIs s' S ∧ ParamsAre s' S (fun k j => ν (procName s k j) * (S k).eff j) θ ∧ s'.w.chans = s.w.chans ∧
      (∀ k j, procName s' k j = procName s k j) ∧ s'.m.paramNames s'.w = s.m.paramNames s.w ∧
      s'.m.x0 s'.w = .ok (paramVec s S ν θ) ∧ ∀ p ∈ s.m.processes, s'.m.getYield s'.w p = .ok (.fin (ν p)) := by
  have hw := reachable_wf h.reachable
  have hB : s'.Built := by rw [hs']; exact Sys.Built.step h (by simp [Op.structural])
  have hal := C51_aligned s h.reachable
  have hxl : (paramVec s S ν θ).length = s.m.numProcesses + s.m.numNui s.w := paramVec_length hw hS ν θ
  have hN : ∀ c ∈ s.m.chanIds, ∃ k, ∃ hk : k < s.m.chanIds.length, s.m.chanIds[k] = c := fun c hc => List.getElem_of_mem hc
  have hc : Complete s := by
    intro c hc
    obtain ⟨k, hk, rfl⟩ := hN c hc
    obtain ⟨a, -, -, b⟩ := hS k hk
    have := (chanIs_numBins hw (List.getElem_mem hk) a b).2.2
    intro h0
    rw [h0] at this
    simp at this; omega
  have hfe : FiniteEffs s := by
    intro c hc e he
    obtain ⟨k, hk, rfl⟩ := hN c hc
    obtain ⟨-, -, -, b⟩ := hS k hk
    have : e.2 ∈ vec (S k).eff := by rw [← b.effs]; exact List.mem_map_of_mem he
    obtain ⟨i, hi⟩ := List.mem_ofFn.mp this
    exact ⟨_, hi.symm⟩
  obtain ⟨u1, u2, u3, u4, u5, u6, u7⟩ := C48_update s h hne hc hu (paramVec s S ν θ) hxl
  have hyl : ∀ p ∈ s.m.processes, (paramVec s S ν θ).getD (s.m.processes.idxOf p) 0 = .fin (ν p) := by
    intro p hp
    have h1 := List.idxOf_lt_length_of_mem hp
    unfold paramVec
    rw [List.getD_eq_getElem?_getD, List.getElem?_append_left (by simpa using h1), List.getElem?_map, List.getElem?_eq_getElem h1, List.getElem_idxOf h1]
    rfl
  have h49 := C49_formula_partial s h hne hc hu hfe _ hxl ν hyl
  have hnc := updateParameters_nChans s (paramVec s S ν θ)
  have hnm := (names_update s (paramVec s S ν θ)).1
  have es : s' = ⟨(s.m.updateParameters s.w (paramVec s S ν θ)).2, s.m⟩ := hs'
  generalize (s.m.updateParameters s.w (paramVec s S ν θ)).2 = w' at *
  subst es
  have hx0 : s.m.x0 w' = .ok (paramVec s S ν θ) := by
    rw [h49]
    congr 1
    unfold paramVec
    rw [List.drop_append_of_le_length (by simp [Mct.numProcesses]), List.drop_eq_nil_of_le (by simp [Mct.numProcesses]), List.nil_append]
    congr 1
    exact List.map_congr_left fun p hp => by rw [heff p hp, mul_one]
  have htm : ∀ c, w'.chanTmpls c = (s.w.chans c).templates.map fun q => w'.tmpls q.2 := fun c => by unfold World.chanTmpls; rw [u4]
  refine ⟨hB, rfl, ?_, ?_, u4, fun k j => by unfold procName; simp only; rw [u4], hnm, hx0, ?_⟩
  · intro k hk
    obtain ⟨a1, a2, a3, b1, b2, b3, T, b4, b5⟩ := hS k hk
    choose v hv using u6
    refine ⟨a1, a2, a3, by rw [hnc]; exact b1, by simp only; rw [u4]; exact b2, by simp only; rw [u4]; exact b3, ?_⟩
    have hlen : (s.w.chans s.m.chanIds[k]).templates.length = (S k).K := by
      have := congrArg List.length b4
      simpa [World.chanTmpls] using this
    refine ⟨fun j => { T j with params := v ((s.w.chans s.m.chanIds[k]).templates[(j : ℕ)]'(by rw [hlen]; exact j.2)).2 }, ?_, fun j => ?_⟩
    · simp only
      rw [htm]
      apply List.ext_getElem
      · simp [hlen]
      · intro i h1 h2
        have h3 : i < (S k).K := by simpa using h2
        have hT : s.w.tmpls ((s.w.chans s.m.chanIds[k]).templates[i]'(by omega)).2 = T ⟨i, h3⟩ := by
          have h4 : (s.w.chanTmpls s.m.chanIds[k])[i]? = some (T ⟨i, h3⟩) := by rw [b4]; simp [h3]
          unfold World.chanTmpls at h4
          rw [List.getElem?_map, List.getElem?_eq_getElem (by omega)] at h4
          exact Option.some.inj h4
        rw [List.getElem_map, List.getElem_ofFn, hv, hT]
    · obtain ⟨⟨c1, c2, c3, c4⟩, c5, c6⟩ := b5 j
      exact ⟨⟨c1, c2, c3, c4⟩, c5, c6⟩
  · intro k hk j t ht
    have hk : k < s.m.chanIds.length := hk
    obtain ⟨a1, a2, a3, b⟩ := hS k hk
    obtain ⟨n1, n2, n3⟩ := chanIs_numBins hw (List.getElem_mem hk) a1 b
    have hj : (j : ℕ) < (s.w.chans s.m.chanIds[k]).templates.length := by rw [n3]; exact j.2
    obtain ⟨eff, e1, e2⟩ := u2 k hk j hj
    simp only at ht
    rw [htm, List.getElem?_map, List.getElem?_eq_getElem hj] at ht
    obtain rfl := Option.some.inj ht
    have hpn : (s.w.chans s.m.chanIds[k]).templates[(j : ℕ)].1 = procName s k j := by
      unfold procName
      rw [List.getD_eq_getElem?_getD, List.getD_eq_getElem?_getD, List.getElem?_eq_getElem hk, Option.getD_some, List.getElem?_map, List.getElem?_eq_getElem hj]
      rfl
    have heff' : eff = .fin ((S k).eff j) := by
      have h1 : ((s.w.chans s.m.chanIds[k]).effs.map (·.2))[(j : ℕ)]? = some (.fin ((S k).eff j)) := by rw [b.effs]; simp [vec]
      rw [List.getElem?_map, e1] at h1
      exact Option.some.inj h1
    unfold HasParams
    rw [e2, hpn, hyl _ (procName_mem hw hS k hk j), heff', n1]
    refine congrArg₂ List.cons rfl ?_
    apply List.ext_getElem?
    intro i
    by_cases hi : i < (S k).n
    · have := paramVec_nui hw hS ν θ k hk j ⟨i, hi⟩
      rw [List.getElem?_take_of_lt hi, List.getElem?_drop, this]
      simp [vec, hi]
    · rw [List.getElem?_eq_none (by simp; omega), List.getElem?_eq_none (by simp [vec]; omega)]
  · intro p hp
    obtain ⟨x, y1, y2, y3, -⟩ := (C51_aligned _ hB.reachable).2.2.2 (by
      obtain ⟨c, hcs⟩ := List.exists_mem_of_ne_nil s.m.chanIds (by simpa [Mct.chanIds] using hne)
      exact ⟨c, hcs, by simp only; rw [u4]; exact hc c hcs⟩)
    have hi := List.idxOf_lt_length_of_mem hp
    obtain ⟨y, z1, z2⟩ := y3 (s.m.processes.idxOf p) hi
    simp only at y1 z2
    rw [hx0] at y1
    obtain rfl := Except.ok.inj y1
    have h1 := hyl p hp
    rw [List.getD_eq_getElem?_getD, z1, Option.getD_some] at h1
    rw [List.getElem_idxOf hi, h1] at z2
    exact z2

/-- the present yields set to `ν`, the nuisance parameters to zero, and the Asimov data set of this state: the facts needed for a closure fit -/
theorem asimov_at (s : Sys) (h : s.Built) (hne : s.m.channels ≠ []) (S : ℕ → ChanSpec) (hS : ModelIs s S) (hu : Unshared s)
    (htup : ∀ c ∈ s.m.chanIds, AllTuple (s.w.chans c).range) (heff : ∀ p ∈ s.m.processes, effSum s p = 1) (hfree : s.m.constrained = [])
    (hT : NonZeroSums s S fun _ _ _ => 0) (hid : Identifiable s S) (ν : String → ℝ)
    (hpos : ∀ k < s.m.chanIds.length, ∀ i, (1e-100 : ℝ) ≤ expectedIn s S ν (fun _ _ _ => 0) k i) (s' : Sys)
    (hs' : s' = (s.step (.update (paramVec s S ν fun _ _ _ => 0))).step (.addAsimov false)) :
    s'.Built ∧ s'.m = s.m ∧ ModelIs s' S ∧ (∀ k j, procName s' k j = procName s k j) ∧ s'.m.paramNames s'.w = s.m.paramNames s.w ∧
      s'.m.x0 s'.w = .ok (paramVec s S ν fun _ _ _ => 0) ∧ DataIs s' S (fun k i => expectedIn s S ν (fun _ _ _ => 0) k i) := by
  obtain ⟨g1, g2, g3, g4, g5, g6, g7, g8, g9⟩ := update_model s h hne S hS hu ν (fun _ _ _ => 0) heff _ rfl
  generalize s.step (.update (paramVec s S ν fun _ _ _ => 0)) = s1 at *
  have hfr : ∀ k j i, fracIn S (fun _ _ _ => 0) k j i = (S k).cnt j i / ∑ i', (S k).cnt j i' := by
    intro k j i
    unfold fracIn
    simp
  have hE1 : ∀ ν' k i, expectedIn s1 S ν' (fun _ _ _ => 0) k i = expectedIn s S ν' (fun _ _ _ => 0) k i := by
    intro ν' k i
    rw [expectedIn_eq, expectedIn_eq]
    exact Finset.sum_congr rfl fun j _ => by rw [g6]
  have hsum : ∀ k < s.m.chanIds.length, ∀ j, ∑ i, (S k).cnt j i ≠ 0 := fun k hk j => by simpa using hT k hk j
  have htup1 : ∀ c ∈ s1.m.chanIds, AllTuple (s1.w.chans c).range := by rw [g2, g5]; exact htup
  obtain ⟨q1, q2, q3, q4, q5, q6, q7, q8, q9, q10, q11, d, q12, q13, q14⟩ := asimov_exact s1 g1 (by rw [g2]; exact hne) S g3 htup1 _ g4 (by rw [g2]; exact hsum) ν
    (by rw [g2] at *; exact g9) (fun k hk j => by rw [g6]) (fun _ => 0) (fun _ => 1) (by intro p hp; rw [g2, hfree] at hp; cases hp)
    (by intro p hp; rw [g2, hfree] at hp; cases hp) (fun k hk i => by
      rw [g2] at hk
      refine (hpos k hk i).trans (le_of_eq ?_)
      rw [expectedIn_eq]
      exact Finset.sum_congr rfl fun j _ => by rw [hfr])
    (fun δ h1 h2 p hp => by
      rw [g2] at hp
      exact hid δ (fun k hk i => by rw [← hE1]; exact h1 k (by rw [g2]; exact hk) i) (by intro p hp; rw [hfree] at hp; cases hp) p hp) s' hs'
  obtain ⟨-, -, -, -, -, a1, a2⟩ := asimov_model s1 g1 S g3 htup1 _ _ g4 (by intro k hk j; simpa using hsum k (by rw [g2] at hk; exact hk) j)
  rw [← hs'] at a1 a2
  refine ⟨q1, q2.trans g2, q7, fun k j => (a1 k j).trans (g6 k j), q3.trans g7, q4.trans g8, ?_⟩
  have : ∀ k < s'.m.chanIds.length, d k = fun i => expectedIn s S ν (fun _ _ _ => 0) k i := fun k hk => by
    funext i
    rw [← q14 k hk i, a2, hE1]
  intro k hk
  obtain ⟨hid', c1, c2⟩ := q12 k hk
  exact ⟨hid', c1, by rw [c2, this k hk]⟩

/-- **C146, programs.** A model without constraints whose templates are not shared, with efficiencies that add up to one for every process, identifiable yields and positive expectations. Its parameters are set to the yields `ν` and
zero nuisance parameters and an Asimov data set is generated; in a second session, from the same model, the same is done with `L ν` instead (`L ≥ 1`). Two iminuit fits with exact minimization and errors and the same fixed
parameters (and no bounds) of the two: they return the true yields; the error of every free yield grows by a factor between `√L` and `L`, exactly `√L` if no nuisance parameter is free, and the errors of the free
nuisance parameters do not grow. -/
theorem C146_program (s : Sys) (h : s.Built) (hne : s.m.channels ≠ []) (S : ℕ → ChanSpec) (hS : ModelIs s S) (hu : Unshared s)
    (htup : ∀ c ∈ s.m.chanIds, AllTuple (s.w.chans c).range) (heff : ∀ p ∈ s.m.processes, effSum s p = 1) (hfree : s.m.constrained = [])
    (hT : NonZeroSums s S fun _ _ _ => 0) (hid : Identifiable s S) (ν : String → ℝ)
    (hpos : ∀ k < s.m.chanIds.length, ∀ i, (1e-100 : ℝ) ≤ expectedIn s S ν (fun _ _ _ => 0) k i) (L : ℝ) (hL : 1 ≤ L)
    (s₁ s₂ : Sys) (hs₁ : s₁ = (s.step (.update (paramVec s S ν fun _ _ _ => 0))).step (.addAsimov false))
    (hs₂ : s₂ = (s.step (.update (paramVec s S (fun p => L * ν p) fun _ _ _ => 0))).step (.addAsimov false))
    (o o' : Optim) (ho : TrueMin o) (ho' : TrueMin o') (he : ExactErrors o) (he' : ExactErrors o') (id : String) (hmin : id.toLower = "iminuit") (ops : List FitOp)
    (hk : KnownIds (s.m.paramNames s.w) ops) (hb : ∀ pid b, FitOp.bound pid b ∉ ops) (up g fixNui up' g' : Bool) (r₁ r₂ : MinResult)
    (hr₁ : ((fitRun id ops).doFit o s₁.w s₁.m up g fixNui none).1 = .ok r₁)
    (hr₂ : ((fitRun id ops).doFit o' s₂.w s₂.m up' g' fixNui none).1 = .ok r₂) :
    r₁.params.values = paramVec s S ν (fun _ _ _ => 0) ∧ r₂.params.values = paramVec s S (fun p => L * ν p) (fun _ _ _ => 0) ∧
      ∀ q, FreeParam s ops fixNui q → ∃ e₁ e₂, ErrorIs r₁ q e₁ ∧ ErrorIs r₂ q e₂ ∧ 0 < e₁ ∧ 0 < e₂ ∧
        (q < s.m.numProcesses → √L * e₁ ≤ e₂ ∧ e₂ ≤ L * e₁) ∧ (s.m.numProcesses ≤ q → e₂ ≤ e₁) ∧
        ((∀ q, FreeParam s ops fixNui q → q < s.m.numProcesses) → e₂ = √L * e₁) := by
  have hEL : ∀ k i, expectedIn s S (fun p => L * ν p) (fun _ _ _ => 0) k i = L * expectedIn s S ν (fun _ _ _ => 0) k i := by
    intro k i
    rw [expectedIn_eq, expectedIn_eq, Finset.mul_sum]
    exact Finset.sum_congr rfl fun j _ => by ring
  obtain ⟨a1, a2, a3, a4, a5, a6, a7⟩ := asimov_at s h hne S hS hu htup heff hfree hT hid ν hpos s₁ hs₁
  obtain ⟨b1, b2, b3, b4, b5, b6, b7⟩ := asimov_at s h hne S hS hu htup heff hfree hT hid (fun p => L * ν p) (fun k hk i => by
    rw [hEL]
    have := hpos k hk i
    nlinarith) s₂ hs₂
  have hm : SameModelBut s₁ s₂ S := ⟨a3, b3, by rw [a2, b2], b5.trans a5.symm, by rw [a2, b2], fun k _ j => (b4 k j).trans (a4 k j).symm, by rw [a2, b2]; exact ⟨hfree, hfree⟩⟩
  have hpv1 : ∀ ν θ, paramVec s₁ S ν θ = paramVec s S ν θ := fun ν θ => by unfold paramVec; rw [a2]
  have hpv2 : ∀ ν θ, paramVec s₂ S ν θ = paramVec s S ν θ := fun ν θ => by unfold paramVec; rw [b2]
  have hE1 : ∀ δ k i, expectedIn s₁ S δ (fun _ _ _ => 0) k i = expectedIn s S δ (fun _ _ _ => 0) k i := by
    intro δ k i
    rw [expectedIn_eq, expectedIn_eq]
    exact Finset.sum_congr rfl fun j _ => by rw [a4]
  have hdata2 : DataIs s₂ S (ScaledData L fun k i => expectedIn s S ν (fun _ _ _ => 0) k i) := by
    have : (ScaledData L fun k i => expectedIn s S ν (fun _ _ _ => 0) k i) = fun k i => expectedIn s S (fun p => L * ν p) (fun _ _ _ => 0) k i := by
      funext k i; rw [hEL]; rfl
    rw [this]; exact b7
  have hF : ∀ q, FreeParam s₁ ops fixNui q = FreeParam s ops fixNui q := fun q => by unfold FreeParam; rw [a5, a2]
  have := C146_asimov s₁ s₂ a1 b1 (by rw [a2]; exact hne) S hm _ a7 (by rw [a2]; exact hpos) L hL hdata2 ν (by rw [hpv1]; exact a6) (by rw [hpv2]; exact b6)
    (by unfold NonZeroSums; rw [a2]; exact hT) (fun k _ i => hE1 ν k i) (fun δ h1 h2 p hp => by
      rw [a2] at hp
      exact hid δ (fun k hk i => by rw [← hE1]; exact h1 k (by rw [a2]; exact hk) i) (by intro p hp; rw [hfree] at hp; cases hp) p hp)
    o o' ho ho' he he' id hmin ops (a5 ▸ hk) up g fixNui up' g' none none (fun pid b hm => absurd hm (hb pid b)) (by simp) r₁ r₂ hr₁ hr₂
  simp only [hF, hpv1, a2] at this
  exact this

end

end TF.Props
