import Verif.Props.MctProps3
import Verif.Props.MctProps11

set_option linter.unusedSimpArgs false

/-!
# When `bin_counts_from_param_values` can work at all (C41)
-/

namespace TF.Props

open Classical Spec

noncomputable section

theorem fractions_wrong {t : Template} (h : Dims t) {n : ℕ} (hn : t.numBins = n) (h2 : 2 ≤ n) {p : Vec}
    (hp : p.length ≠ n) (hp1 : p.length ≠ 1) : t.fractions p = .error .valueError := by
  have e : bop (· * ·) p t.relErr = .error .valueError := by
    have hr : t.relErr.length = n := by rw [h.rel, hn]
    unfold bop
    rw [if_neg (by rw [hr]; exact hp)]
    split
    · simp at hp1
    · rename_i heq; rw [heq, List.length_singleton] at hr; omega
    · rfl
  simp only [Template.fractions, binFractions, e, bind, Except.bind]

/-- a nuisance vector longer than the channel's own is rejected -/
theorem expectedPure_long {w : World} {c : ℕ} (h : Ready w c) (h2 : 2 ≤ (w.chans c).numBins) {y nui : Vec}
    (hy : y.length = (w.chans c).numTemplates) (hn : (w.chans c).numNui < nui.length) :
    expectedPure w c y nui = .error .valueError := by
  have hK := h.ne
  unfold expectedPure
  rw [bop_ok (by simp [hy, h.el])]
  simp only
  have : w.chanFractions c nui = .error .valueError := by
    unfold World.chanFractions splitEq
    rw [if_neg hK.ne']
    by_cases hm : nui.length % (w.chans c).numTemplates = 0
    · rw [if_neg (by simp [hm])]
      simp only
      have htl : (w.chanTmpls c).length = (w.chans c).numTemplates := by simp [World.chanTmpls, h.tl]
      have hdiv : (w.chans c).numBins < nui.length / (w.chans c).numTemplates := by
        have h1 : (w.chans c).numNui = (w.chans c).numTemplates * (w.chans c).numBins := rfl
        have h3 : nui.length = (w.chans c).numTemplates * (nui.length / (w.chans c).numTemplates) :=
          (Nat.mul_div_cancel' (Nat.dvd_of_mod_eq_zero hm)).symm
        rw [h1, h3] at hn
        exact Nat.lt_of_mul_lt_mul_left hn
      obtain ⟨K, hK'⟩ : ∃ K, (w.chans c).numTemplates = K + 1 := ⟨_, (Nat.succ_pred_eq_of_pos hK).symm⟩
      cases hts : w.chanTmpls c with
      | nil => rw [hts] at htl; simp at htl; omega
      | cons t ts =>
        obtain ⟨hd1, hd2⟩ := h.dims t (by rw [hts]; simp)
        have hpl : (List.take (nui.length / (w.chans c).numTemplates)
            (List.drop (0 * (nui.length / (w.chans c).numTemplates)) nui)).length =
              nui.length / (w.chans c).numTemplates := by
          simp [Nat.div_le_self]
        have hf := fractions_wrong hd1 (n := (w.chans c).numBins) hd2 h2
          (p := List.take (nui.length / (w.chans c).numTemplates)
            (List.drop (0 * (nui.length / (w.chans c).numTemplates)) nui)) (by rw [hpl]; omega) (by rw [hpl]; omega)
        have hr : List.range (w.chans c).numTemplates = 0 :: (List.range K).map Nat.succ := by
          rw [hK', List.range_succ_eq_map]
        rw [hr]
        simp only [List.map_cons, fractionRows, hf]
    · rw [if_pos hm]
  rw [this]

theorem numNui_le {s : Sys} {c : ℕ} (hc : c ∈ s.m.chanIds) : (s.w.chans c).numNui ≤ s.m.numNui s.w :=
  List.single_le_sum (by simp) _ (List.mem_map.mpr ⟨c, hc, rfl⟩)

/-- **C41, when it works at all (partial).** In a built model, for a channel with templates and at least two bins and a
fit result `x` of the model: `bin_counts_from_param_values(x)` of the channel returns something if and only if the
model consists of this channel alone, as far as parameters go: every process of the model has a template in it and
no other channel has templates with bins. In every other model it raises `ValueError`. -/
theorem C41_alone_partial (s : Sys) (h : s.Built) (c : ℕ) (hc : c ∈ s.m.chanIds)
    (ht : (s.w.chans c).templates ≠ []) (h2 : 2 ≤ (s.w.chans c).numBins) (x : Vec)
    (hx : x.length = s.m.numProcesses + s.m.numNui s.w) :
    ((∃ v, (s.w.binCountsFromParams c x).1 = .ok v) ↔
      (∀ p ∈ s.m.processes, p ∈ (s.w.chans c).procs) ∧ ∀ c' ∈ s.m.chanIds, c' ≠ c → (s.w.chans c').numNui = 0) ∧
    ((¬ ∃ v, (s.w.binCountsFromParams c x).1 = .ok v) → (s.w.binCountsFromParams c x).1 = .error .valueError) := by
  have hw := reachable_wf h.reachable
  have hlt := hw.lt c hc
  have hcw := hw.chan c hlt
  have hr := ready_of_templates h.reachable c hc ht
  have hpr : (s.w.chans c).procs = (s.w.chans c).processes := hcw.tkeys
  have hP : (s.w.chans c).numTemplates ≤ s.m.numProcesses :=
    (List.subperm_of_subset hcw.nodup (hw.sub c hlt)).length_le
  have hN := numNui_le hc
  have hcoh := (expectedEvts_coh h.coherent c hlt (x.take (s.w.chans c).numTemplates)
    (x.drop (s.w.chans c).numTemplates)).1
  have hres : (s.w.binCountsFromParams c x).1 = expectedPure s.w c (x.take (s.w.chans c).numTemplates)
    (x.drop (s.w.chans c).numTemplates) := hcoh
  have hy : (x.take (s.w.chans c).numTemplates).length = (s.w.chans c).numTemplates := by
    rw [List.length_take, hx]; omega
  have hA : ((∀ p ∈ s.m.processes, p ∈ (s.w.chans c).procs) ∧
      ∀ c' ∈ s.m.chanIds, c' ≠ c → (s.w.chans c').numNui = 0) ↔
      (x.drop (s.w.chans c).numTemplates).length = (s.w.chans c).numNui := by
    rw [List.length_drop, hx]
    obtain ⟨l1, l2, hl⟩ := List.append_of_mem hc
    have hnd := hw.chIds
    rw [hl] at hnd
    have hsum : s.m.numNui s.w = ((l1.map fun c => (s.w.chans c).numNui).sum +
        (l2.map fun c => (s.w.chans c).numNui).sum) + (s.w.chans c).numNui := by
      unfold Mct.numNui
      rw [hl, List.map_append, List.map_cons, List.sum_append, List.sum_cons]
      omega
    constructor
    · rintro ⟨h3, h4⟩
      have h5 : s.m.numProcesses ≤ (s.w.chans c).numTemplates := by
        rw [hpr] at h3
        exact (List.subperm_of_subset hw.procs h3).length_le
      have hz : ∀ l : List ℕ, (∀ c' ∈ l, (s.w.chans c').numNui = 0) → (l.map fun c => (s.w.chans c).numNui).sum = 0 := by
        intro l hl
        rw [List.sum_eq_zero_iff]
        intro a ha
        obtain ⟨c', hc', rfl⟩ := List.mem_map.mp ha
        exact hl c' hc'
      have e1 := hz l1 fun c' hc' => h4 c' (by rw [hl]; simp [hc']) (by
        rintro rfl
        rw [List.nodup_append] at hnd
        exact hnd.2.2 _ hc' _ (by simp) rfl)
      have e2 := hz l2 fun c' hc' => h4 c' (by rw [hl]; simp [hc']) (by
        rintro rfl
        rw [List.nodup_append] at hnd
        exact (List.nodup_cons.mp hnd.2.1).1 hc')
      omega
    · intro he
      have h5 : s.m.numProcesses = (s.w.chans c).numTemplates := by omega
      have h6 : (l1.map fun c => (s.w.chans c).numNui).sum = 0 := by omega
      have h7 : (l2.map fun c => (s.w.chans c).numNui).sum = 0 := by omega
      constructor
      · intro p hp
        rw [hpr]
        have hperm := (List.subperm_of_subset hcw.nodup (hw.sub c hlt)).perm_of_length_le h5.le
        exact hperm.mem_iff.mpr hp
      · intro c' hc' hne
        rw [hl] at hc'
        rw [List.sum_eq_zero_iff] at h6 h7
        rcases List.mem_append.mp hc' with h8 | h8
        · exact h6 _ (List.mem_map.mpr ⟨c', h8, rfl⟩)
        · rcases List.mem_cons.mp h8 with h8 | h8
          · exact absurd h8 hne
          · exact h7 _ (List.mem_map.mpr ⟨c', h8, rfl⟩)
  rw [hres, hA]
  have hge : (s.w.chans c).numNui ≤ (x.drop (s.w.chans c).numTemplates).length := by
    rw [List.length_drop, hx]; omega
  rcases hge.eq_or_lt with heq | hlt'
  · obtain ⟨e, he, _⟩ := expectedPure_ok hr hy heq.symm
    exact ⟨iff_of_true ⟨e, he⟩ heq.symm, fun hn => absurd ⟨e, he⟩ hn⟩
  · have he := expectedPure_long hr h2 hy hlt'
    refine ⟨iff_of_false ?_ (by omega), fun _ => he⟩
    rintro ⟨v, hv⟩; rw [he] at hv; cases hv

/-- non-vacuity of `C41_alone_partial`: the single channel of `Ex.wO` passes, the channels of the two-channel
model `Ex.sys1` meet the hypotheses as well and raise -/
example : (∃ v, (Ex.wO.binCountsFromParams 0 Ex.xO).1 = .ok v) ∧
    (Ex.sys1.w.binCountsFromParams 1 Ex.x1).1 = .error .valueError ∧
    2 ≤ (Ex.wO.chans 0).numBins ∧ 2 ≤ (Ex.sys1.w.chans 1).numBins := by
  refine ⟨((C41_alone_partial ⟨Ex.wO, Ex.mO⟩ Ex.sysO_built 0 (by simp [Ex.mO, Mct.chanIds])
    (by simp [Ex.wO, Ex.chO]) (by simp [Ex.wO, Ex.chO, Channel.numBins]) Ex.xO ?_).1).mpr ⟨?_, ?_⟩,
    C41_refuted_channels.2.2, ?_, ?_⟩
  · simp [Ex.xO, Ex.mO, Ex.wO, Ex.chO, Mct.numProcesses, Mct.numNui, Mct.chanIds, Channel.numNui,
      Channel.numTemplates, Channel.numBins]
  · simp [Ex.mO, Ex.wO, Ex.chO, Channel.procs]
  · simp [Ex.mO, Mct.chanIds]
  · simp [Ex.wO, Ex.chO, Channel.numBins]
  · simp [Ex.sys1, Ex.w1, Ex.w0, World.init, Ex.chB, Channel.numBins]

end

end TF.Props
