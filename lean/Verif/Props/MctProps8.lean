import Verif.Props.MctProps7

set_option linter.unusedSimpArgs false

/-!
# The fit closes on its own Asimov data (C55)
-/

namespace TF.Spec

open Classical

noncomputable section

/-- template `j` of channel `k` currently has yield `y k j` and nuisance parameters `θ k j` -/
def ParamsAre (s : Sys) (S : ℕ → ChanSpec) (y : ∀ k, Fin (S k).K → ℝ)
    (θ : ∀ k, Fin (S k).K → Fin (S k).n → ℝ) : Prop :=
  ∀ k, (hk : k < s.m.chanIds.length) → ∀ j : Fin (S k).K, ∀ t,
    (s.w.chanTmpls s.m.chanIds[k])[(j : ℕ)]? = some t → HasParams t (y k j) (θ k j)

end

end TF.Spec

namespace TF.Props

open Classical Spec

noncomputable section

theorem setupFirst_snoc {ops : List Op} (h : SetupFirst ops) {o : Op} (ho : ¬ o.structural) :
    SetupFirst (ops ++ [o]) := by
  intro a e b o' post c he h1 h2
  rcases List.eq_nil_or_concat post with rfl | ⟨post', q, rfl⟩
  · have he' : ops ++ [o] = (a ++ e :: b) ++ [o'] := by rw [he]; simp
    obtain ⟨-, h4⟩ := List.append_inj' he' rfl
    have : o = o' := by simpa using h4
    exact ho (this ▸ extends_structural h2)
  · have he' : ops ++ [o] = (a ++ e :: (b ++ o' :: post')) ++ [q] := by rw [he]; simp
    obtain ⟨h3, -⟩ := List.append_inj' he' rfl
    exact h a e b o' post' c h3 h1 h2

theorem Sys.Built.step {s : Sys} (h : s.Built) {o : Op} (ho : ¬ o.structural) : (s.step o).Built := by
  obtain ⟨ops, h1, rfl⟩ := h
  exact ⟨ops ++ [o], setupFirst_snoc h1 ho, by rw [run_append]; rfl⟩

/-- storing one generated data set per channel -/
theorem addDatasets_ok (m : Mct) (hinj : ∀ a b c, dictGet m.channels a = some c → dictGet m.channels b = some c → a = b) :
    ∀ (l : List (String × Hist)) (w : World), (l.map (·.1)).Nodup →
      (∀ q ∈ l, ∃ c, dictGet m.channels q.1 = some c ∧ (w.chans c).checkHist q.2) →
      (m.addDatasets w l).1 = .ok () ∧
      (∀ q ∈ l, ∃ c hid, dictGet m.channels q.1 = some c ∧
        (m.addDatasets w l).2.chans c = { w.chans c with hdata := some hid } ∧
        hid < (m.addDatasets w l).2.nHists ∧ (m.addDatasets w l).2.hists hid = q.2) ∧
      (∀ c, (∀ q ∈ l, dictGet m.channels q.1 ≠ some c) → (m.addDatasets w l).2.chans c = w.chans c) ∧
      (∀ i < w.nHists, (m.addDatasets w l).2.hists i = w.hists i) ∧ w.nHists ≤ (m.addDatasets w l).2.nHists ∧
      (m.addDatasets w l).2.tmpls = w.tmpls ∧ (m.addDatasets w l).2.nChans = w.nChans ∧
      (m.addDatasets w l).2.nTmpls = w.nTmpls := by
  intro l
  induction l with
  | nil =>
    intro w _ _
    exact ⟨rfl, by simp, fun _ _ => rfl, fun _ _ => rfl, le_refl _, rfl, rfl, rfl⟩
  | cons q l ih =>
    intro w hn h
    obtain ⟨ch, hh⟩ := q
    obtain ⟨c, hc, hk⟩ := h (ch, hh) (by simp)
    simp only at hc hk
    rw [List.map_cons, List.nodup_cons] at hn
    obtain ⟨hn1, hn2⟩ := hn
    let w1 : World := { (w.newHist hh).2 with chans := Function.update w.chans c { w.chans c with hdata := some w.nHists } }
    have hw1 : w1.chans c = { w.chans c with hdata := some w.nHists } := Function.update_self _ _ _
    have hw1n : ∀ c', c' ≠ c → w1.chans c' = w.chans c' := fun c' e => Function.update_of_ne e _ _
    have hw1h : w1.hists w.nHists = hh := Function.update_self _ _ _
    have hw1hn : ∀ i, i ≠ w.nHists → w1.hists i = w.hists i := fun i e => Function.update_of_ne e _ _
    have hadd : (w.newHist hh).2.addData c (w.newHist hh).1 = (.ok (), w1) := by
      unfold World.addData Channel.addData
      have : ((w.newHist hh).2.chans c).checkHist ((w.newHist hh).2.hists (w.newHist hh).1) := by
        simp only [World.newHist, Function.update_self]; exact hk
      rw [if_pos this]
      rfl
    have hstep : m.addDatasets w ((ch, hh) :: l) = m.addDatasets w1 l := by
      conv_lhs => unfold Mct.addDatasets
      simp only [hc, hadd]
    rw [hstep]
    have hcne : ∀ q ∈ l, dictGet m.channels q.1 ≠ some c := by
      intro q hq e
      have := hinj _ _ _ e hc
      have hm : q.1 ∈ l.map (·.1) := List.mem_map_of_mem hq
      rw [this] at hm
      exact hn1 hm
    obtain ⟨i1, i2, i3, i4, i5, i6, i7, i8⟩ := ih w1 hn2 (by
      intro q hq
      obtain ⟨c', e1, e2⟩ := h q (by simp [hq])
      refine ⟨c', e1, ?_⟩
      have : c' ≠ c := fun e => hcne q hq (by rw [← e]; exact e1)
      rw [hw1n c' this]; exact e2)
    have hnh : w1.nHists = w.nHists + 1 := rfl
    refine ⟨i1, ?_, ?_, ?_, ?_, i6, i7, i8⟩
    · intro q hq
      rcases List.mem_cons.mp hq with rfl | hq
      · refine ⟨c, w.nHists, hc, ?_, by omega, ?_⟩
        · rw [i3 c hcne, hw1]
        · rw [i4 _ (by omega), hw1h]
      · obtain ⟨c', hid, e1, e2, e3, e4⟩ := i2 q hq
        refine ⟨c', hid, e1, ?_, e3, e4⟩
        rw [e2]
        have : c' ≠ c := fun e => hcne q hq (by rw [← e]; exact e1)
        rw [hw1n c' this]
    · intro c' hc'
      rw [i3 c' (fun q hq => hc' q (by simp [hq]))]
      have : c' ≠ c := fun e => hc' (ch, hh) (by simp) (by rw [e]; exact hc)
      rw [hw1n c' this]
    · intro i hi
      rw [i4 i (by omega), hw1hn i (by omega)]
    · omega

/-- generating one data set per channel -/
theorem generate_ok (m : Mct) (gen : ℕ → Except Err Hist) (H : ℕ → Hist)
    (h : ∀ c ∈ m.chanIds, gen c = .ok (H c)) : m.generate gen = .ok (m.channels.map fun q => (q.1, H q.2)) := by
  unfold Mct.generate
  have hq : ∀ q ∈ m.channels, gen q.2 = .ok (H q.2) := fun q hq => h _ (List.mem_map_of_mem hq)
  generalize m.channels = l at hq
  induction l with
  | nil => rfl
  | cons q l ih =>
    simp only [List.foldr_cons, hq q (by simp), ih (fun q h => hq q (by simp [h])), List.map_cons]

/-- after `add_data(**generate_asimov_dataset(integer_values=False))` every channel holds its expectation -/
theorem asimov_step (s : Sys) (h : s.Reachable) (S : ℕ → ChanSpec) (hS : ModelIs s S)
    (htup : ∀ c ∈ s.m.chanIds, AllTuple (s.w.chans c).range)
    (y : ∀ k, Fin (S k).K → ℝ) (θ : ∀ k, Fin (S k).K → Fin (S k).n → ℝ) (hp : ParamsAre s S y θ)
    (hT : NonZeroSums s S θ) :
    (s.step (.addAsimov false)).w.tmpls = s.w.tmpls ∧ (s.step (.addAsimov false)).m = s.m ∧
    (s.step (.addAsimov false)).w.nChans = s.w.nChans ∧
    (∀ c, ∃ d, (s.step (.addAsimov false)).w.chans c = { s.w.chans c with hdata := d }) ∧
    ∀ k, (hk : k < s.m.chanIds.length) → ∃ hid,
      ((s.step (.addAsimov false)).w.chans s.m.chanIds[k]).hdata = some hid ∧
      ((s.step (.addAsimov false)).w.hists hid).counts.data = vec (fun i : Fin (S k).n =>
        ∑ j, y k j * ((S k).cnt j i * (1 + θ k j i * (S k).ε j i) /
          ∑ i', (S k).cnt j i' * (1 + θ k j i' * (S k).ε j i'))) := by
  have hw := reachable_wf h
  have hgen : ∀ k, (hk : k < s.m.chanIds.length) → ∃ hh, s.w.asimov s.m.chanIds[k] false = .ok hh ∧
      hh.counts.data = vec (fun i : Fin (S k).n =>
        ∑ j, y k j * ((S k).cnt j i * (1 + θ k j i * (S k).ε j i) /
          ∑ i', (S k).cnt j i' * (1 + θ k j i' * (S k).ε j i'))) ∧
      (s.w.chans s.m.chanIds[k]).checkHist hh := by
    intro k hk
    obtain ⟨a1, a2, a3, a4⟩ := hS k hk
    obtain ⟨T, hT1, hT2⟩ := a4.tmpls
    have hcm : s.m.chanIds[k] ∈ s.m.chanIds := List.getElem_mem hk
    obtain ⟨q, hq, eq⟩ := List.mem_map.mp hcm
    have hb : ∀ n ∈ (s.w.chans s.m.chanIds[k]).bins, 1 ≤ n := by
      have hprod := (chanIs_numBins hw hcm a1 a4).1
      intro n hn
      by_contra h0
      have : n = 0 := by omega
      rw [this] at hn
      rw [List.prod_eq_zero hn] at hprod
      omega
    have hq' : (q.1, s.m.chanIds[k]) ∈ s.m.channels := by rw [← eq]; exact hq
    obtain ⟨hh, a, e1, e2, e3, e4, e5⟩ := C39_asimov s h q.1 _ hq' hb a1 T hT1 (S k).cnt (S k).ε (y k) (θ k)
      (fun j => (hT2 j).1) (fun j => hp k hk j (T j) (by rw [hT1]; simp)) (hT k hk) false
    have hne : (s.w.chans s.m.chanIds[k]).templates ≠ [] := by
      intro e
      have := (chanIs_numBins hw hcm a1 a4).2.2
      rw [e] at this; simp at this; omega
    have hacc := (C38_accepted_partial s h q.1 _ hq' hne hb hh (Or.inl ⟨false, e1⟩) 0).1.mpr (htup _ hcm)
    refine ⟨hh, e1, ?_, ?_⟩
    · rw [e3]; simp only [Bool.false_eq_true, if_false]; congr 1; funext i; exact e2 i
    · by_contra hck
      unfold Channel.addData at hacc
      rw [if_neg hck] at hacc
      simp at hacc
  have hex : ∃ H : ℕ → Hist, ∀ c ∈ s.m.chanIds, s.w.asimov c false = .ok (H c) := by
    refine ⟨fun c => match s.w.asimov c false with | .ok hh => hh | .error _ => dummyHist, ?_⟩
    intro c hc
    obtain ⟨k, hk, rfl⟩ := List.mem_iff_getElem.mp hc
    obtain ⟨hh, e, -⟩ := hgen k hk
    simp only [e]
  obtain ⟨H, hH⟩ := hex
  have hg := generate_ok s.m (fun c => s.w.asimov c false) H hH
  have hstep : s.step (.addAsimov false) =
      { s with w := (s.m.addDatasets s.w (s.m.channels.map fun q => (q.1, H q.2))).2 } := by
    simp only [Sys.step, Mct.asimov, hg]
  rw [hstep]
  have hdict : ∀ q ∈ s.m.channels, dictGet s.m.channels q.1 = some q.2 := fun q hq => dictGet_of_mem hw.chNames hq
  obtain ⟨b1, b2, b3, b4, b5, b6, b7, b8⟩ := addDatasets_ok s.m (fun a b c => dict_inj hw a b c)
    (s.m.channels.map fun q => (q.1, H q.2)) s.w (by rw [List.map_map]; exact hw.chNames) (by
      intro q hq
      obtain ⟨r, hr, rfl⟩ := List.mem_map.mp hq
      refine ⟨r.2, hdict r hr, ?_⟩
      have hcm : r.2 ∈ s.m.chanIds := List.mem_map_of_mem hr
      obtain ⟨k, hk, e⟩ := List.mem_iff_getElem.mp hcm
      obtain ⟨hh, e1, -, e3⟩ := hgen k hk
      rw [e, hH _ hcm] at e1
      rw [e] at e3
      rw [Except.ok.inj e1]; exact e3)
  have hch : ∀ q ∈ s.m.channels, ∃ hid,
      (s.m.addDatasets s.w (s.m.channels.map fun q => (q.1, H q.2))).2.chans q.2 =
        { s.w.chans q.2 with hdata := some hid } ∧
      (s.m.addDatasets s.w (s.m.channels.map fun q => (q.1, H q.2))).2.hists hid = H q.2 := by
    intro q hq
    obtain ⟨c, hid, e1, e2, -, e4⟩ := b2 (q.1, H q.2) (List.mem_map_of_mem (f := fun q => (q.1, H q.2)) hq)
    simp only at e1
    rw [hdict q hq] at e1
    rw [← Option.some.inj e1] at e2
    exact ⟨hid, e2, e4⟩
  refine ⟨b6, rfl, b7, ?_, ?_⟩
  · intro c
    by_cases hc : ∃ q ∈ s.m.channels, q.2 = c
    · obtain ⟨q, hq, rfl⟩ := hc
      obtain ⟨hid, e, -⟩ := hch q hq
      exact ⟨_, e⟩
    · refine ⟨(s.w.chans c).hdata, ?_⟩
      simp only
      rw [b3 c]
      intro q hq e
      obtain ⟨r, hr, rfl⟩ := List.mem_map.mp hq
      simp only at e
      rw [hdict r hr] at e
      exact hc ⟨r, hr, Option.some.inj e⟩
  · intro k hk
    have hcm : s.m.chanIds[k] ∈ s.m.chanIds := List.getElem_mem hk
    obtain ⟨q, hq, eq⟩ := List.mem_map.mp hcm
    obtain ⟨hid, e1, e2⟩ := hch q hq
    obtain ⟨hh, f1, f2, -⟩ := hgen k hk
    refine ⟨hid, ?_, ?_⟩
    · rw [← eq]; simp only; rw [e1]
    · simp only
      rw [e2, ← f2]
      rw [hH _ hcm] at f1
      rw [← Except.ok.inj f1, ← eq]

theorem modelIs_asimov {s : Sys} {S : ℕ → ChanSpec} (hS : ModelIs s S) {s' : Sys} (hm : s'.m = s.m)
    (ht : s'.w.tmpls = s.w.tmpls) (hn : s'.w.nChans = s.w.nChans)
    (hc : ∀ c, ∃ d, s'.w.chans c = { s.w.chans c with hdata := d }) : ModelIs s' S := by
  intro k hk
  have hk' : k < s.m.chanIds.length := by rw [hm] at hk; exact hk
  obtain ⟨a1, a2, a3, a4⟩ := hS k hk'
  have e : s'.m.chanIds[k] = s.m.chanIds[k] := by simp only [hm]
  refine ⟨a1, a2, a3, ?_⟩
  rw [e]
  obtain ⟨d, hd⟩ := hc s.m.chanIds[k]
  obtain ⟨b1, b2, b3, b4⟩ := a4
  refine ⟨by rw [hn]; exact b1, by rw [hd]; exact b2, by rw [hd]; exact b3, ?_⟩
  unfold World.chanTmpls at b4 ⊢
  rw [hd, ht]; exact b4

/-- the start point of the fit -/
theorem x0_eq (s : Sys) (h : s.Reachable) (hne : s.m.channels ≠ []) (S : ℕ → ChanSpec) (hS : ModelIs s S)
    (y : ∀ k, Fin (S k).K → ℝ) (θ : ∀ k, Fin (S k).K → Fin (S k).n → ℝ) (hp : ParamsAre s S y θ)
    (ν : String → ℝ) (hν : ∀ p ∈ s.m.processes, s.m.getYield s.w p = .ok (.fin (ν p))) :
    s.m.x0 s.w = .ok (paramVec s S ν θ) := by
  have hw := reachable_wf h
  have hy : s.m.processYields s.w = s.m.processes.map fun p => Fl.fin (ν p) := by
    unfold Mct.processYields
    apply List.map_congr_left
    intro p hpm
    have := hν p hpm
    unfold Mct.getYield at this
    rw [if_neg (not_not.mpr hpm)] at this
    have := Except.ok.inj this
    have hlt := List.idxOf_lt_length_iff.mpr hpm
    unfold Mct.processYields at this
    rw [List.getD_eq_getElem?_getD, List.getElem?_map, List.getElem?_eq_getElem hlt] at this
    simpa using this
  have hrow : ∀ k, (hk : k < s.m.chanIds.length) →
      ((s.w.chanTmpls s.m.chanIds[k]).map (·.nuiParams)).flatten = nuiVec (θ k) := by
    intro k hk
    obtain ⟨a1, a2, a3, a4⟩ := hS k hk
    obtain ⟨T, hT1, hT2⟩ := a4.tmpls
    unfold nuiVec
    rw [hT1, List.map_ofFn]
    congr 2
    funext j
    have := hp k hk j (T j) (by rw [hT1]; simp)
    simp only [Function.comp, Template.nuiParams]
    rw [this]; rfl
  have hall : s.m.allTmpls s.w ≠ [] := by
    have hk : 0 < s.m.chanIds.length := by
      rw [Mct.chanIds, List.length_map]; exact List.length_pos_of_ne_nil hne
    obtain ⟨a1, a2, a3, a4⟩ := hS 0 hk
    obtain ⟨T, hT1, hT2⟩ := a4.tmpls
    have : T ⟨0, a1⟩ ∈ s.m.allTmpls s.w := by
      unfold Mct.allTmpls
      rw [List.mem_flatten]
      exact ⟨_, List.mem_map_of_mem (List.getElem_mem hk), by rw [hT1]; exact List.mem_ofFn.mpr ⟨_, rfl⟩⟩
    intro e; rw [e] at this; simp at this
  unfold Mct.x0 Mct.nuiParams
  rw [if_neg hall, hy]
  simp only
  congr 1
  unfold paramVec
  congr 1
  unfold Mct.allTmpls
  rw [List.map_flatten, List.flatten_flatten]
  congr 1
  apply List.ext_getElem
  · simp
  · intro k h1 h2
    have hk : k < s.m.chanIds.length := by simpa using h1
    simp only [List.getElem_map, List.map_map, Function.comp]
    rw [hrow k hk]
    exact congrArg (fun k => nuiVec (θ k)) (List.getElem_range _).symm

/-- **C55.** Take any model built channel by channel before evaluation (`Built`) (tuple ranges, non-empty templates, positive
definite correlations) whose nuisance parameters are zero, whose efficiencies are the channel shares of the
process yields (`yield of template = process yield * efficiency`) and whose constraints, if any, agree with the
yields. Generate its Asimov data set and use it as data. Then the likelihood at `x0` is exactly zero, and at
every parameter point with positive expectations (zero allowed where the Asimov data are empty) it is
non-negative and vanishes only where all expectations agree with the data, all nuisance parameters are zero
and the constraints are met. -/
theorem C55_closure (s : Sys) (h : s.Built) (hne : s.m.channels ≠ []) (S : ℕ → ChanSpec) (hS : ModelIs s S)
    (htup : ∀ c ∈ s.m.chanIds, AllTuple (s.w.chans c).range)
    (y : ∀ k, Fin (S k).K → ℝ) (hp : ParamsAre s S y (fun _ _ _ => 0))
    (hT : ∀ k < s.m.chanIds.length, ∀ j, ∑ i, (S k).cnt j i ≠ 0)
    (ν : String → ℝ) (hν : ∀ p ∈ s.m.processes, s.m.getYield s.w p = .ok (.fin (ν p)))
    (hshare : ∀ k < s.m.chanIds.length, ∀ j, y k j = ν (procName s k j) * (S k).eff j)
    (V E : String → ℝ) (hc : ConstraintsAre s V E) (hV : ∀ p ∈ s.m.constrained, V p = ν p)
    (a : ∀ k, Fin (S k).n → ℝ)
    (ha : ∀ k i, a k i = ∑ j, y k j * ((S k).cnt j i / ∑ i', (S k).cnt j i'))
    (hpos : ∀ k < s.m.chanIds.length, ∀ i, a k i = 0 ∨ (1e-100 : ℝ) ≤ a k i)
    (s' : Sys) (hs' : s' = s.step (.addAsimov false)) :
    ∃ x0, s'.m.x0 s'.w = .ok x0 ∧ (s'.m.nll s'.w x0).1 = .ok (.fin 0) ∧
      ∀ (ν' : String → ℝ) (θ' : ∀ k, Fin (S k).K → Fin (S k).n → ℝ), NonZeroSums s S θ' →
        (∀ k < s.m.chanIds.length, ∀ i, 0 < expectedIn s S ν' θ' k i ∨
          (a k i = 0 ∧ expectedIn s S ν' θ' k i = 0)) →
        ∃ v : ℝ, (s'.m.nll s'.w (paramVec s S ν' θ')).1 = .ok (.fin v) ∧ 0 ≤ v ∧
          (v = 0 ↔ (∀ k < s.m.chanIds.length, (∀ i, expectedIn s S ν' θ' k i = a k i) ∧ θ' k = 0) ∧
            ∀ p ∈ s.m.constrained, ν' p = ν p) := by
  subst hs'
  have hw := reachable_wf h.reachable
  have hT0 : NonZeroSums s S (fun _ _ _ => 0) := by
    intro k hk j
    simpa using hT k hk j
  obtain ⟨e1, e2, e3, e4, e5⟩ := asimov_step s h.reachable S hS htup y _ hp hT0
  have hB := Sys.Built.step h (o := .addAsimov false) (by simp [Op.structural])
  generalize s.step (.addAsimov false) = s' at *
  have hS' := modelIs_asimov hS e2 e1 e3 e4
  have hd' : DataIs s' S a := by
    intro k hk
    have hk' : k < s.m.chanIds.length := by rw [e2] at hk; exact hk
    obtain ⟨hid, f1, f2⟩ := e5 k hk'
    have ec : s'.m.chanIds[k] = s.m.chanIds[k] := by simp only [e2]
    refine ⟨hid, by rw [ec]; exact f1, ?_⟩
    rw [f2]
    congr 1
    funext i
    rw [ha]
    simp
  have hc' : ConstraintsAre s' V E := by unfold ConstraintsAre; rw [e2]; exact hc
  have hpv : ∀ ν' θ', paramVec s' S ν' θ' = paramVec s S ν' θ' := by
    intro ν' θ'; unfold paramVec; rw [e2]
  have hpn : ∀ k j, procName s' k j = procName s k j := by
    intro k j
    unfold procName
    rw [e2]
    obtain ⟨d, hd⟩ := e4 (s.m.chanIds.getD k 0)
    rw [hd]
  have hex : ∀ ν' θ' k i, expectedIn s' S ν' θ' k i = expectedIn s S ν' θ' k i := by
    intro ν' θ' k i; unfold expectedIn; simp only [hpn]
  have hN : s'.m.chanIds.length = s.m.chanIds.length := by rw [e2]
  have hlen : s.m.chanIds.length = s.m.channels.length := by simp [Mct.chanIds]
  -- value at any point
  have key : ∀ (ν' : String → ℝ) (θ' : ∀ k, Fin (S k).K → Fin (S k).n → ℝ), NonZeroSums s S θ' →
        (∀ k < s.m.chanIds.length, ∀ i, 0 < expectedIn s S ν' θ' k i ∨
          (a k i = 0 ∧ expectedIn s S ν' θ' k i = 0)) →
        ∃ v : ℝ, (s'.m.nll s'.w (paramVec s S ν' θ')).1 = .ok (.fin v) ∧ 0 ≤ v ∧
          (v = 0 ↔ (∀ k < s.m.chanIds.length, (∀ i, expectedIn s S ν' θ' k i = a k i) ∧ θ' k = 0) ∧
            ∀ p ∈ s.m.constrained, ν' p = ν p) := by
    intro ν' θ' hT' hE'
    obtain ⟨v, g1, g2, g3⟩ := C54_closed s' hB (by rw [e2]; exact hne) S hS' a hd' (by rw [hN]; exact hpos) V E hc'
      ν' θ' (by unfold NonZeroSums; rw [hN]; exact hT') (by rw [hN]; simpa only [hex] using hE')
    refine ⟨v, by rw [← hpv]; exact g1, g2, ?_⟩
    have g3' : v = ∑ k ∈ Finset.range s.m.channels.length,
        ((∑ i, poissonBin (a k i) (expectedIn s S ν' θ' k i)) + penalty (S k).R (θ' k)) +
        (s.m.constrained.map fun p => gaussTerm (ν' p) (V p) (E p)).sum := by
      rw [g3, e2]
      simp only [hex]
      rfl
    have n1 : ∀ k ∈ Finset.range s.m.channels.length,
        0 ≤ (∑ i, poissonBin (a k i) (expectedIn s S ν' θ' k i)) + penalty (S k).R (θ' k) := by
      intro k hk
      have hk : k < s.m.chanIds.length := by rw [hlen]; simpa using hk
      exact add_nonneg (Finset.sum_nonneg fun i _ => (poissonBin_nonneg' (hpos k hk i) (hE' k hk i)).1)
        (penalty_nonneg (hS k hk).2.2.1 (θ' k)).1
    have n2 : ∀ b ∈ s.m.constrained.map fun p => gaussTerm (ν' p) (V p) (E p), 0 ≤ b := by
      intro b hb
      obtain ⟨p, hp, rfl⟩ := List.mem_map.mp hb
      unfold gaussTerm; positivity
    have n3 := Finset.sum_nonneg n1
    have n4 := List.sum_nonneg n2
    have z2 : (s.m.constrained.map fun p => gaussTerm (ν' p) (V p) (E p)).sum = 0 ↔
        ∀ p ∈ s.m.constrained, ν' p = ν p := by
      have hz : ∀ l : List ℝ, (∀ b ∈ l, 0 ≤ b) → (l.sum = 0 ↔ ∀ b ∈ l, b = 0) := by
        intro l hl
        induction l with
        | nil => simp
        | cons b l ih =>
          have h1 := hl b (by simp)
          have h2 := List.sum_nonneg (fun c hc => hl c (List.mem_cons_of_mem _ hc))
          rw [List.sum_cons, List.forall_mem_cons, ← ih (fun c hc => hl c (by simp [hc]))]
          constructor
          · intro h; constructor <;> linarith
          · rintro ⟨h, h'⟩; rw [h, h', add_zero]
      rw [hz _ n2]
      simp only [List.mem_map, forall_exists_index, and_imp, forall_apply_eq_imp_iff₂]
      refine forall₂_congr fun p hp => ?_
      unfold gaussTerm
      have he := (hc p hp).2.2.2
      rw [div_eq_zero_iff, or_iff_left (by positivity), pow_eq_zero_iff two_ne_zero, sub_eq_zero, hV p hp]
    have z1 : ∑ k ∈ Finset.range s.m.channels.length,
        ((∑ i, poissonBin (a k i) (expectedIn s S ν' θ' k i)) + penalty (S k).R (θ' k)) = 0 ↔
        ∀ k < s.m.chanIds.length, (∀ i, expectedIn s S ν' θ' k i = a k i) ∧ θ' k = 0 := by
      rw [Finset.sum_eq_zero_iff_of_nonneg n1]
      simp only [Finset.mem_range, ← hlen]
      refine forall₂_congr fun k hk => ?_
      have p1 : ∀ i ∈ Finset.univ, 0 ≤ poissonBin (a k i) (expectedIn s S ν' θ' k i) :=
        fun i _ => (poissonBin_nonneg' (hpos k hk i) (hE' k hk i)).1
      have p2 := penalty_nonneg (hS k hk).2.2.1 (θ' k)
      have p3 := Finset.sum_nonneg p1
      have p4 : (∑ i, poissonBin (a k i) (expectedIn s S ν' θ' k i)) = 0 ↔
          ∀ i, expectedIn s S ν' θ' k i = a k i := by
        rw [Finset.sum_eq_zero_iff_of_nonneg p1]
        simp only [Finset.mem_univ, true_imp_iff]
        exact forall_congr' fun i => (poissonBin_nonneg' (hpos k hk i) (hE' k hk i)).2
      rw [← p4, ← p2.2]
      constructor
      · intro h; constructor <;> linarith [p2.1]
      · rintro ⟨h, h'⟩; rw [h, h', add_zero]
    rw [g3', ← z1, ← z2]
    constructor
    · intro h; constructor <;> linarith
    · rintro ⟨h, h'⟩; rw [h, h', add_zero]
  -- the start point
  have hp' : ParamsAre s' S y (fun _ _ _ => 0) := by
    intro k hk j t ht
    have hk' : k < s.m.chanIds.length := by rw [← hN]; exact hk
    have ec : s'.m.chanIds[k] = s.m.chanIds[k] := by simp only [e2]
    refine hp k hk' j t ?_
    rw [ec] at ht
    unfold World.chanTmpls at ht ⊢
    obtain ⟨d, hd⟩ := e4 s.m.chanIds[k]
    rw [hd, e1] at ht
    exact ht
  have hν' : ∀ p ∈ s'.m.processes, s'.m.getYield s'.w p = .ok (.fin (ν p)) := by
    intro p hpm
    rw [e2] at hpm ⊢
    rw [← hν p hpm]
    unfold Mct.getYield
    have : s.m.processYields s'.w = s.m.processYields s.w := by
      unfold Mct.processYields
      apply List.map_congr_left
      intro q _
      generalize s.m.chanIds = cs
      induction cs with
      | nil => rfl
      | cons c cs ih =>
        simp only [World.processYield, ih, e1]
        obtain ⟨d, hd⟩ := e4 c
        rw [hd]
    rw [this]
  have hx0 := x0_eq s' hB.reachable (by rw [e2]; exact hne) S hS' y _ hp' ν hν'
  rw [hpv] at hx0
  have hE0 : ∀ k < s.m.chanIds.length, ∀ i, expectedIn s S ν (fun _ _ _ => 0) k i = a k i := by
    intro k hk i
    rw [ha]
    unfold expectedIn expected
    refine Finset.sum_congr rfl fun j _ => ?_
    rw [hshare k hk j]
    simp
  refine ⟨_, hx0, ?_, key⟩
  obtain ⟨v, g1, g2, g3⟩ := key ν _ hT0 (by
    intro k hk i
    rw [hE0 k hk i]
    rcases hpos k hk i with h | h
    · right; exact ⟨h, h⟩
    · left; exact lt_of_lt_of_le (by norm_num) h)
  rw [g1, (g3.mpr ⟨fun k hk => ⟨hE0 k hk, rfl⟩, fun p _ => rfl⟩)]

/-! ### a consistent two-channel model -/

namespace Ex

/-- process `p` with 2 events in channel `a` and 6 in channel `b`, efficiencies 1/4 and 3/4 -/
def opsQ : List Op :=
  [.binned1 ⟨[2], vec ![1, 1]⟩ ⟨true, [0, 1, 2]⟩ (some ⟨[2], vec ![1, 1]⟩),
   .binned1 ⟨[2], vec ![2, 4]⟩ ⟨true, [0, 1, 2]⟩ (some ⟨[2], vec ![1, 1]⟩), .newTmpl1 "t" 0, .newTmpl1 "u" 1,
   .defineChannel "a" (.int 2) (.d1 .tuple 0 2), .defineChannel "b" (.int 2) (.d1 .tuple 0 2), .defineProcess "p",
   .addTemplate "a" "p" 0 (.fin (1/4)), .addTemplate "b" "p" 1 (.fin (3/4))]

def chQa : Channel :=
  ⟨"a", [2], .d1 .tuple 0 2, ["p"], [("p", 0)], [("p", .fin (1/4))], none, some 1, some .t1, some .h1⟩

def chQb : Channel :=
  ⟨"b", [2], .d1 .tuple 0 2, ["p"], [("p", 1)], [("p", .fin (3/4))], none, some 1, some .t1, some .h1⟩

def wQ : World :=
  { World.init with
    hists := Function.update (Function.update (fun _ => dummyHist) 0 (bh ![1, 1] ![1, 1])) 1 (bh ![2, 4] ![1, 1])
    nHists := 2
    tmpls := Function.update (Function.update (fun _ => dummyTmpl) 0 (bt "t" 0 ![1, 1] ![1, 1])) 1
      (bt "u" 1 ![2, 4] ![1, 1])
    nTmpls := 2
    chans := Function.update (Function.update (fun _ => dummyChan) 0 chQa) 1 chQb
    nChans := 2 }

def mQ : Mct := ⟨[("a", 0), ("b", 1)], ["p"], [], [], []⟩

/-- the model -/
def sysQ : Sys := ⟨wQ, mQ⟩

theorem runQ : Sys.init.run opsQ = sysQ := by
  simp only [opsQ, Sys.run, List.foldl_cons, List.foldl_nil, Sys.step, bh_eq, Sys.allocHist, World.newHist,
    Sys.init, World.init, Sys.allocTmpl, World.newTmpl]
  simp [bt_eq, Sys.allocTmpl, World.newTmpl, Function.update_apply]
  simp [Mct.defineChannel, Mct.defineProcess,
    Mct.addTemplate, World.addTemplate, Mct.empty, World.newChan, dictSet, dictGet, Mct.addData, World.addData,
    World.setChan, Channel.new, Channel.addTemplate, Channel.checkTemplate, Channel.procs, bt, bh,
    Hist.setBinned, Hist.blank, ChanBins.toTuple, Channel.addData, Channel.checkHist, sysQ, wQ, mQ, chQa, chQb,
    World.init, Function.update_apply]
  · funext i
    by_cases h0 : i = 0
    · subst h0; simp
    · by_cases h1 : i = 1
      · subst h1; simp
      · simp [h0, h1]

theorem sysQ_built : sysQ.Built := by
  refine ⟨_, setupFirst_of_noEval ?_, runQ⟩
  intro o ho
  simp only [opsQ, List.mem_cons, List.not_mem_nil, or_false] at ho
  rcases ho with rfl | rfl | rfl | rfl | rfl | rfl | rfl | rfl | rfl <;> exact id

/-- description of the two channels -/
def SQ : ℕ → ChanSpec
  | 0 => ⟨1, 2, fun _ => ![1, 1], fun _ i => (![1, 1] : Fin 2 → ℝ) i / (![1, 1] : Fin 2 → ℝ) i, fun _ => 1/4, fun _ => 1⟩
  | _ => ⟨1, 2, fun _ => ![2, 4], fun _ i => (![1, 1] : Fin 2 → ℝ) i / (![2, 4] : Fin 2 → ℝ) i, fun _ => 3/4, fun _ => 1⟩

theorem chanIs_single (w : World) (c : ℕ) (hc : c < w.nChans) (p : String) (tid : ℕ) (eff : ℝ) (n : String) (hid : ℕ)
    (a e : Fin 2 → ℝ) (ha : ∀ i, a i ≠ 0) (he : ∀ i, 0 < e i) (h1 : (w.chans c).processes = [p])
    (h2 : (w.chans c).templates = [(p, tid)]) (h3 : (w.chans c).effs = [(p, .fin eff)])
    (h4 : w.tmpls tid = bt n hid a e) :
    ChanIs w c (fun _ : Fin 1 => a) (fun _ i => e i / a i) (fun _ => eff) (fun _ => 1) := by
  refine ⟨hc, by simp [Channel.numTemplates, h1], by simp [h3, vec], fun _ => bt n hid a e, ?_, ?_⟩
  · simp [World.chanTmpls, h2, h4]
  · intro k
    rw [inv_one]
    exact ⟨bt_shape n hid a e ha he, one_real, one_real⟩

theorem modelQ : ModelIs sysQ SQ := by
  intro k hk
  have : k = 0 ∨ k = 1 := by
    have : k < 2 := by simpa [sysQ, mQ, Mct.chanIds] using hk
    omega
  rcases this with rfl | rfl
  · refine ⟨Nat.one_pos, Nat.two_pos, fun _ => Matrix.PosDef.one, ?_⟩
    exact chanIs_single wQ 0 (by simp [wQ]) "p" 0 (1/4) "t" 0 ![1, 1] ![1, 1] (by intro i; fin_cases i <;> simp)
      (by intro i; fin_cases i <;> simp) (by simp [wQ, chQa]) (by simp [wQ, chQa]) (by simp [wQ, chQa]) (by simp [wQ])
  · refine ⟨Nat.one_pos, Nat.two_pos, fun _ => Matrix.PosDef.one, ?_⟩
    exact chanIs_single wQ 1 (by simp [wQ]) "p" 1 (3/4) "u" 1 ![2, 4] ![1, 1] (by intro i; fin_cases i <;> simp)
      (by intro i; fin_cases i <;> simp) (by simp [wQ, chQb]) (by simp [wQ, chQb]) (by simp [wQ, chQb]) (by simp [wQ])

/-- the template yields -/
def yQ : ∀ k, Fin (SQ k).K → ℝ
  | 0 => fun _ => 2
  | _ + 1 => fun _ => 6

theorem bt_params (n : String) (hid : ℕ) (a e : Fin 2 → ℝ) :
    HasParams (bt n hid a e) (a 0 + a 1) (fun _ : Fin 2 => 0) := by
  simp [HasParams, bt, initParams, bh, Hist.setBinned, npSum, vec, List.ofFn_succ, Fl.zero_def, List.replicate]

theorem paramsQ : ParamsAre sysQ SQ yQ (fun _ _ _ => 0) := by
  intro k hk j t ht
  have : k = 0 ∨ k = 1 := by
    have : k < 2 := by simpa [sysQ, mQ, Mct.chanIds] using hk
    omega
  rcases this with rfl | rfl
  · have hj : (j : ℕ) = 0 := by have : (j : ℕ) < 1 := j.2; omega
    rw [hj] at ht
    have e : t = bt "t" 0 ![1, 1] ![1, 1] := by
      have := Option.some.inj ht
      rw [← this]; simp [sysQ, mQ, Mct.chanIds, wQ, chQa, World.chanTmpls]
    rw [e]
    have := bt_params "t" 0 ![1, 1] ![1, 1]
    norm_num at this
    exact this
  · have hj : (j : ℕ) = 0 := by have : (j : ℕ) < 1 := j.2; omega
    rw [hj] at ht
    have e : t = bt "u" 1 ![2, 4] ![1, 1] := by
      have := Option.some.inj ht
      rw [← this]; simp [sysQ, mQ, Mct.chanIds, wQ, chQb, World.chanTmpls]
    rw [e]
    have := bt_params "u" 1 ![2, 4] ![1, 1]
    norm_num at this
    exact this

theorem yieldQ : mQ.getYield wQ "p" = .ok (.fin 8) := by
  simp [Mct.getYield, mQ, Mct.processYields, Mct.chanIds, World.processYield, wQ, chQa, chQb, dictGet,
    Template.yieldParam, bt, initParams, bh, Hist.setBinned, npSum, vec, List.ofFn_succ, Fl.zero_def]
  norm_num

end Ex

/-- non-vacuity of C55 (and C54): the two-channel example closes: likelihood zero at its `x0` on its own Asimov
data -/
example : ∃ x0, (Ex.sysQ.step (.addAsimov false)).m.x0 (Ex.sysQ.step (.addAsimov false)).w = .ok x0 ∧
    ((Ex.sysQ.step (.addAsimov false)).m.nll (Ex.sysQ.step (.addAsimov false)).w x0).1 = .ok (.fin 0) := by
  have hk2 : ∀ k, k < Ex.sysQ.m.chanIds.length → k = 0 ∨ k = 1 := by
    intro k hk
    have : k < 2 := by simpa [Ex.sysQ, Ex.mQ, Mct.chanIds] using hk
    omega
  obtain ⟨x0, h1, h2, -⟩ := C55_closure Ex.sysQ Ex.sysQ_built (by simp [Ex.sysQ, Ex.mQ]) Ex.SQ Ex.modelQ
    (by simp [Ex.sysQ, Ex.mQ, Mct.chanIds, Ex.wQ, Ex.chQa, Ex.chQb, AllTuple]) Ex.yQ Ex.paramsQ
    (by
      intro k hk
      rcases hk2 k hk with rfl | rfl
      · intro j
        show ∑ i : Fin 2, (![1, 1] : Fin 2 → ℝ) i ≠ 0
        simp [Fin.sum_univ_two]
      · intro j
        show ∑ i : Fin 2, (![2, 4] : Fin 2 → ℝ) i ≠ 0
        simp [Fin.sum_univ_two]; norm_num)
    (fun _ => 8) (by simp only [Ex.sysQ]; intro p hp; simp [Ex.mQ] at hp; subst hp; exact Ex.yieldQ)
    (by
      intro k hk
      rcases hk2 k hk with rfl | rfl
      · intro j
        show (2:ℝ) = 8 * (1/4)
        norm_num
      · intro j
        show (6:ℝ) = 8 * (3/4)
        norm_num)
    (fun _ => 0) (fun _ => 1) (by intro p hp; simp [Ex.sysQ, Ex.mQ] at hp) (by intro p hp; simp [Ex.sysQ, Ex.mQ] at hp)
    _ (fun k i => rfl) (by
      intro k hk i
      right
      rcases hk2 k hk with rfl | rfl
      · revert i
        show ∀ i : Fin 2, (1e-100 : ℝ) ≤ ∑ j : Fin 1, 2 * ((![1, 1] : Fin 2 → ℝ) i / ∑ i', (![1, 1] : Fin 2 → ℝ) i')
        intro i
        fin_cases i <;> simp <;> norm_num
      · revert i
        show ∀ i : Fin 2, (1e-100 : ℝ) ≤ ∑ j : Fin 1, 6 * ((![2, 4] : Fin 2 → ℝ) i / ∑ i', (![2, 4] : Fin 2 → ℝ) i')
        intro i
        fin_cases i <;> simp <;> norm_num) _ rfl
  exact ⟨x0, h1, h2⟩

/-- the example with consistent efficiencies satisfies all hypotheses of C48–C50 and its efficiencies add up to 1 -/
theorem Ex.sysQ_hyps : Complete Ex.sysQ ∧ Unshared Ex.sysQ ∧ FiniteEffs Ex.sysQ ∧
    ∀ p ∈ Ex.sysQ.m.processes, effSum Ex.sysQ p = 1 := by
  refine ⟨?_, ?_, ?_, ?_⟩
  · intro c hc
    simp [Ex.sysQ, Ex.mQ, Mct.chanIds] at hc
    rcases hc with rfl | rfl <;> simp [Ex.sysQ, Ex.wQ, Ex.chQa, Ex.chQb]
  · simp [Unshared, Ex.sysQ, Ex.mQ, Mct.chanIds, Ex.wQ, Ex.chQa, Ex.chQb]
  · intro c hc e he
    simp [Ex.sysQ, Ex.mQ, Mct.chanIds] at hc
    rcases hc with rfl | rfl <;> simp [Ex.sysQ, Ex.wQ, Ex.chQa, Ex.chQb] at he <;> subst he <;> exact ⟨_, rfl⟩
  · intro p hp
    simp [Ex.sysQ, Ex.mQ] at hp
    subst hp
    simp [effSum, effOf, Ex.sysQ, Ex.mQ, Mct.chanIds, Ex.wQ, Ex.chQa, Ex.chQb, dictGet]
    norm_num

/-- non-vacuity of C49: here the fit parameters do round-trip -/
example (xr : Fin (Ex.sysQ.m.numProcesses + Ex.sysQ.m.numNui Ex.sysQ.w) → ℝ) :
    Ex.sysQ.m.x0 (Ex.sysQ.m.updateParameters Ex.sysQ.w (vec xr)).2 = .ok (vec xr) :=
  (C49_roundtrip_iff_partial Ex.sysQ Ex.sysQ_built (by simp [Ex.sysQ, Ex.mQ]) Ex.sysQ_hyps.1 Ex.sysQ_hyps.2.1
    Ex.sysQ_hyps.2.2.1).mpr Ex.sysQ_hyps.2.2.2 xr

/-- non-vacuity of C50: `set_yield("p", 5)` then `get_yield("p")` gives 5 -/
example : Ex.sysQ.m.getYield (Ex.sysQ.m.setYield Ex.sysQ.w "p" (.fin 5)).2 "p" = .ok (.fin 5) :=
  ((C50_yield_partial Ex.sysQ Ex.sysQ_built.reachable Ex.sysQ_hyps.2.1 Ex.sysQ_hyps.2.2.1 "p" 5).2
    (by simp [Ex.sysQ, Ex.mQ])).2.2.2.2.2 (Ex.sysQ_hyps.2.2.2 "p" (by simp [Ex.sysQ, Ex.mQ]))

end

end TF.Props
