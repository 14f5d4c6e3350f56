import Verif.Props.ToyStat3

set_option linter.unusedSimpArgs false

namespace TF.Props

open Classical Spec MeasureTheory ProbabilityTheory
open scoped Matrix NNReal

noncomputable section

/-! ### the likelihood is not `-inf` for physical shapes -/

theorem Fl.sum_ne_ninf {ι : Type} {s : Finset ι} {f : ι → Fl} (h : ∀ i ∈ s, f i ≠ .ninf) : ∑ i ∈ s, f i ≠ .ninf := by
  induction s using Finset.induction_on with
  | empty => intro h0; cases h0
  | insert i s hi ih =>
    rw [Finset.sum_insert hi]
    intro h0
    rcases Fl.add_eq_ninf h0 with h1 | h1
    · exact h i (Finset.mem_insert_self _ _) h1
    · exact ih (fun j hj => h j (Finset.mem_insert_of_mem hj)) h1

theorem Fl.mul_nonneg_ne_ninf {x : Fl} (hx : x ≠ .ninf) {r : ℝ} (hr : 0 ≤ r) : x * .fin r ≠ .ninf := by
  cases x with
  | fin a => rw [Fl.fin_mul]; exact fun h => by cases h
  | nan => simp
  | ninf => exact absurd rfl hx
  | pinf =>
    show Fl.mulPinf r ≠ _
    unfold Fl.mulPinf
    split
    · exact fun h => by cases h
    · rw [if_pos (lt_of_le_of_ne hr (Ne.symm ‹_›))]
      exact fun h => by cases h

theorem binTerm_ne_ninf {d : ℝ} (hd : d = 0 ∨ (1e-100 : ℝ) ≤ d) {e : Fl} (he : e ≠ .ninf) : binTerm (.fin d) e ≠ .ninf := by
  rcases hd with rfl | hd
  · have : xlogyx (.fin 0) e = 0 := Props.C13_small (.fin 0) e (Or.inr (Or.inr ⟨0, rfl, by norm_num⟩))
    unfold binTerm
    rw [this]
    cases e with
    | fin a => exact fun h => by cases h
    | nan => simp
    | ninf => exact absurd rfl he
    | pinf => exact fun h => by cases h
  · by_cases hf : ∃ r : ℝ, e = .fin r
    · obtain ⟨r, rfl⟩ := hf
      rcases lt_trichotomy r 0 with h4 | h4 | h4
      · rw [binTerm_neg hd h4]; exact fun h => by cases h
      · rw [h4, binTerm_zero hd]; exact fun h => by cases h
      · rw [binTerm_fin (Or.inr hd) h4]; exact fun h => by cases h
    · push Not at hf
      rw [binTerm_nonfin hd hf]
      exact fun h => by cases h

theorem contribPure_not_ninf' {w : World} {c K n : ℕ} {cnt ε : Fin K → Fin n → ℝ} {eff : Fin K → ℝ}
    {R : Fin K → Matrix (Fin n) (Fin n) ℝ} (h : ChanIs w c cnt ε eff R) (hK : 0 < K)
    {hid : ℕ} (hd : (w.chans c).hdata = some hid) {d : Fin n → ℝ} (hdd : (w.hists hid).counts.data = vec d)
    (hpos : ∀ i, d i = 0 ∨ (1e-100 : ℝ) ≤ d i) (heff : ∀ j, 0 ≤ eff j) (θ : Fin K → Fin n → ℝ)
    (hT : ∀ k, ∑ j, cnt k j * (1 + θ k j * ε k j) ≠ 0)
    (hfr : ∀ k i, 0 ≤ cnt k i * (1 + θ k i * ε k i) / ∑ j, cnt k j * (1 + θ k j * ε k j))
    {y : Vec} (hy : y.length = K) (hyn : .ninf ∉ y) :
    contribPure w c y (nuiVec θ) ≠ .ok .ninf := by
  intro hv
  unfold contribPure at hv
  simp only [hd] at hv
  split at hv
  · cases hv
  · rename_i e he
    split at hv
    · cases hv
    · rename_i p hp
      rw [gaussPure_eq h θ] at hv
      simp only at hv
      have hsum := Except.ok.inj hv
      have hnl : (nuiVec θ).length = K * n := nuiVec_length θ
      have hl : (w.hists hid).counts.data.length = e.length := by
        rw [hdd, vec_length, expectedPure_length h hK hy hnl he]
      have hp' := poissonTerm_list hl hp
      have hen : ∀ x ∈ e, x ≠ .ninf := by
        obtain ⟨Y, rfl⟩ := ofFn_get hy
        have hn : nuiVec θ = (List.ofFn fun k => List.ofFn fun i => Fl.fin (θ k i)).flatten := rfl
        obtain ⟨F, hF, h1⟩ := expectedPure_ofFn h hK Y (fun k i => Fl.fin (θ k i))
        rw [hn, h1] at he
        rw [← Except.ok.inj he]
        intro x hx
        obtain ⟨i, hi, rfl⟩ := List.mem_map.mp hx
        have hi := List.mem_range.mp hi
        refine Fl.sum_ne_ninf fun k hk => ?_
        have hk := Finset.mem_range.mp hk
        have e1 : (List.ofFn fun k => Y k * .fin (eff k)).getD k 0 = Y ⟨k, hk⟩ * .fin (eff ⟨k, hk⟩) := by simp [List.getD, hk]
        have e2 : ((List.ofFn fun k => List.ofFn (F k)).getD k []).getD i 0 = F ⟨k, hk⟩ ⟨i, hi⟩ := by simp [List.getD, hk, hi]
        have e3 : F ⟨k, hk⟩ ⟨i, hi⟩ = .fin (cnt ⟨k, hk⟩ ⟨i, hi⟩ * (1 + θ ⟨k, hk⟩ ⟨i, hi⟩ * ε ⟨k, hk⟩ ⟨i, hi⟩) / ∑ j, cnt ⟨k, hk⟩ j * (1 + θ ⟨k, hk⟩ j * ε ⟨k, hk⟩ j)) := by
          rw [hF]
          simp only
          have hs : (List.ofFn fun i => Fl.fin (cnt ⟨k, hk⟩ i) * (1 + Fl.fin (θ ⟨k, hk⟩ i) * Fl.fin (ε ⟨k, hk⟩ i))).sum =
              .fin (∑ j, cnt ⟨k, hk⟩ j * (1 + θ ⟨k, hk⟩ j * ε ⟨k, hk⟩ j)) := vec_sum fun j => cnt ⟨k, hk⟩ j * (1 + θ ⟨k, hk⟩ j * ε ⟨k, hk⟩ j)
          rw [hs, ← Fl.fin_div _ _ (hT ⟨k, hk⟩)]
          rfl
        rw [e1, e2, e3]
        refine Fl.mul_nonneg_ne_ninf (Fl.mul_nonneg_ne_ninf ?_ (heff _)) (hfr _ _)
        intro h0
        exact hyn (h0 ▸ (List.mem_ofFn' _ _).mpr ⟨⟨k, hk⟩, rfl⟩)
      rcases Fl.add_eq_ninf hsum with h0 | h0
      · rw [hp'] at h0
        have hm := Fl.list_sum_eq_ninf h0
        obtain ⟨i, hi, e1⟩ := List.mem_iff_getElem.mp hm
        rw [List.getElem_zipWith] at e1
        have hi1 : i < (w.hists hid).counts.data.length := by
          simp only [List.length_zipWith] at hi; omega
        have hi2 : i < n := by rw [hdd, vec_length] at hi1; exact hi1
        have e2 : (w.hists hid).counts.data[i] = .fin (d ⟨i, hi2⟩) := by simp [hdd, vec]
        rw [e2] at e1
        exact binTerm_ne_ninf (hpos _) (hen _ (List.getElem_mem _)) e1
      · cases h0

/-- **C105, never `-inf`.** In every model built channel by channel before evaluation, with efficiencies that are not negative: at nuisance parameters for which no bin fraction is negative, the
likelihood is not `-inf` unless one of the yields is. -/
theorem C105_not_ninf (s : Sys) (h : s.Built) (hne : s.m.channels ≠ []) (S : ℕ → ChanSpec) (hS : ModelIs s S)
    (d : ∀ k, Fin (S k).n → ℝ) (hd : DataIs s S d) (hpos : ∀ k < s.m.chanIds.length, ∀ i, d k i = 0 ∨ (1e-100 : ℝ) ≤ d k i)
    (V E : String → ℝ) (hc : ConstraintsAre s V E) (heff : ∀ k < s.m.chanIds.length, ∀ j, 0 ≤ (S k).eff j)
    (θ : ∀ k, Fin (S k).K → Fin (S k).n → ℝ) (hT : NonZeroSums s S θ) (hfr : ∀ k < s.m.chanIds.length, ∀ j i, 0 ≤ fracIn S θ k j i)
    (x : Vec) (hx : x.length = s.m.numProcesses + s.m.numNui s.w) (hxn : x.drop s.m.numProcesses = (paramVec s S (fun _ => 0) θ).drop s.m.numProcesses)
    (hxy : .ninf ∉ x.take s.m.numProcesses) :
    objective s.w s.m x ≠ .ok .ninf := by
  intro ha
  have hw := reachable_wf h.reachable
  unfold objective at ha
  rw [(nll_coh h.coherent s.m hw.lt x).1] at ha
  obtain ⟨ys, ns, e1, e2, e3, e4, e5⟩ := C47_partition s h hne x hx
  have hlen : s.m.chanIds.length = s.m.channels.length := by simp [Mct.chanIds]
  rw [(perChannel_coh h.coherent s.m hw.lt x).1] at e1
  unfold nllPure at ha
  simp only [e1] at ha
  split at ha
  · cases ha
  · rename_i t ht
    split at ha
    · cases ha
    · rename_i u hu
      rcases Fl.add_eq_ninf (Except.ok.inj ha) with h0 | h0
      · rw [h0] at ht
        obtain ⟨k, hk, h2, h3, h4⟩ := channelsPure_ninf s.w s.m.chanIds ys ns (by rw [e2, hlen]) (by rw [e3, hlen]) ht
        obtain ⟨a1, a2, a3, a4⟩ := hS k hk
        obtain ⟨hid, d1, d2⟩ := hd k hk
        obtain ⟨f1, f2, f3⟩ := chanIs_numBins hw (List.getElem_mem hk) a1 a4
        obtain ⟨g1, g2, g3⟩ := e4 k hk
        rw [List.getElem?_eq_getElem h2] at g1
        have g1 := Option.some.inj g1
        rw [List.getElem?_eq_getElem h3] at g2
        have g2 := Option.some.inj g2
        have hoff : s.m.numProcesses ≤ nuiOffset s k 0 := by unfold nuiOffset Mct.numProcesses; omega
        have hb : ns[k] = nuiVec (θ k) := by
          rw [g2, ← paramVec_block hw hS (fun _ => 0) θ k hk, ← Nat.add_sub_cancel' hoff, ← List.drop_drop, ← List.drop_drop, hxn]
        rw [hb] at h4
        refine contribPure_not_ninf' a4 a1 d1 d2 (hpos k hk) (heff k hk) (θ k) (hT k hk) (hfr k hk) ?_ ?_ h4
        · rw [g1, List.length_map]
          have : (s.w.chans s.m.chanIds[k]).procs.length = (s.w.chans s.m.chanIds[k]).templates.length := by
            simp [Channel.procs]
          rw [this, f3]
        · rw [g1]
          intro hm
          obtain ⟨p, hp, hpx⟩ := List.mem_map.mp hm
          have hlt := List.idxOf_lt_length_iff.mpr (hw.subset _ (List.getElem_mem hk) p hp)
          refine hxy ?_
          have : x[s.m.processes.idxOf p]? = some .ninf := by
            rw [List.getElem?_eq_getElem (by rw [hx]; unfold Mct.numProcesses; omega)]
            rw [List.getD_eq_getElem?_getD, List.getElem?_eq_getElem (by rw [hx]; unfold Mct.numProcesses; omega), Option.getD_some] at hpx
            rw [hpx]
          refine List.mem_of_getElem? (i := s.m.processes.idxOf p) ?_
          rw [List.getElem?_take_of_lt (by exact hlt)]
          exact this
      · rw [h0] at hu
        exact constraintSum_not_ninf s.m x V E _ (fun p hp => (hc p hp).2) hu

end

end TF.Props
