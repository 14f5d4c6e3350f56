import Verif.Props.MctProps11

set_option linter.unusedSimpArgs false

/-!
# Which error a parameter vector that is too short raises (C87)
-/

namespace TF.Props

open Classical Spec

noncomputable section

theorem bop_err_value {f : Fl → Fl → Fl} {a b : Vec} {e : Err} (h : bop f a b = .error e) : e = .valueError := by
  unfold bop at h
  split at h
  · cases h
  · split at h <;> cases h; rfl

theorem fractions_error {t : Template} {p : Vec} {e : Err} (h : t.fractions p = .error e) : e = .valueError := by
  unfold Template.fractions binFractions at h
  simp only [bind, Except.bind, pure, Except.pure] at h
  split at h
  · rename_i h1; cases h; exact bop_err_value h1
  · split at h
    · rename_i h1; cases h; exact bop_err_value h1
    · cases h

theorem fractionRows_error {e : Err} (ts : List Template) : ∀ ps, fractionRows ts ps = .error e → e = .valueError := by
  induction ts with
  | nil => intro ps h; simp [fractionRows] at h
  | cons t ts ih =>
    intro ps h
    cases ps with
    | nil => simp [fractionRows] at h
    | cons p ps =>
      unfold fractionRows at h
      split at h
      · rename_i h1; cases h; exact fractions_error h1
      · split at h
        · rename_i h1; cases h; exact ih _ h1
        · cases h

theorem stackRows_error {rs : List Vec} {e : Err} (h : stackRows rs = .error e) : e = .valueError := by
  unfold stackRows at h
  simp only at h
  split at h <;> cases h; rfl

theorem vecMat_error {v : Vec} {A : Mat} {e : Err} (h : vecMat v A = .error e) : e = .valueError := by
  unfold vecMat at h
  split at h <;> cases h; rfl

theorem poissonTerm_error {a b : Vec} {e : Err} (h : poissonTerm a b = .error e) : e = .valueError := by
  unfold poissonTerm at h
  simp only [bind, Except.bind, pure, Except.pure] at h
  split at h
  · rename_i h1; cases h; exact bop_err_value h1
  · split at h
    · rename_i h1; cases h; exact bop_err_value h1
    · split at h
      · rename_i h1; cases h; exact bop_err_value h1
      · cases h

theorem contribPure_error {w : World} {c hid : ℕ} (hr : Ready w c) (hd : (w.chans c).hdata = some hid) {y n : Vec}
    {e : Err} (h : contribPure w c y n = .error e) : e = .valueError := by
  unfold contribPure at h
  simp only [hd] at h
  split at h
  · rename_i h1
    cases h
    unfold expectedPure at h1
    split at h1
    · rename_i h2; cases h1; exact bop_err_value h2
    · split at h1
      · rename_i h2
        cases h1
        unfold World.chanFractions splitEq at h2
        rw [if_neg hr.ne.ne'] at h2
        split at h2
        · rename_i h3; split at h3 <;> cases h3; cases h2; rfl
        · split at h2
          · rename_i h3; cases h2; exact fractionRows_error _ _ h3
          · exact stackRows_error h2
      · exact vecMat_error h1
  · split at h
    · rename_i h1; cases h; exact poissonTerm_error h1
    · split at h
      · rename_i h1
        cases h
        by_cases hn : n.length = (w.chans c).numNui
        · obtain ⟨g, hg⟩ := (gaussPure_iff hr n).1 hn
          rw [hg] at h1; cases h1
        · rw [(gaussPure_iff hr n).2 hn] at h1; exact (Except.error.inj h1).symm
      · cases h

theorem takeIdx_cases (v : Vec) (is : List ℕ) :
    (takeIdx v is = .error .indexError ↔ ∃ i ∈ is, v.length ≤ i) ∧
    ((∀ i ∈ is, i < v.length) → ∃ l, takeIdx v is = .ok l) := by
  induction is with
  | nil => simp [takeIdx]
  | cons i is ih =>
    obtain ⟨ih1, ih2⟩ := ih
    by_cases h : i < v.length
    · have hs : v[i]? = some v[i] := List.getElem?_eq_getElem h
      by_cases h' : ∀ j ∈ is, j < v.length
      · obtain ⟨l, hl⟩ := ih2 h'
        simp only [takeIdx, hs, hl]
        refine ⟨?_, fun _ => ⟨_, rfl⟩⟩
        constructor
        · intro h; cases h
        · rintro ⟨j, hj, hle⟩
          rcases List.mem_cons.mp hj with rfl | hj
          · omega
          · have := h' j hj; omega
      · push Not at h'
        have := ih1.mpr h'
        simp only [takeIdx, hs, this]
        refine ⟨⟨fun _ => ?_, fun _ => trivial⟩, fun hall => ?_⟩
        · obtain ⟨j, hj, hle⟩ := h'; exact ⟨j, by simp [hj], hle⟩
        · obtain ⟨j, hj, hle⟩ := h'; have := hall j (by simp [hj]); omega
    · have hs : v[i]? = none := List.getElem?_eq_none (by omega)
      simp only [takeIdx, hs]
      refine ⟨⟨fun _ => ⟨i, by simp, by omega⟩, fun _ => trivial⟩, fun hall => absurd (hall i (by simp)) h⟩

theorem computeIndices_all (procs outer : List String) (h : ∀ p ∈ procs, p ∈ outer) :
    computeIndices procs outer = .ok (procs.map outer.idxOf) := by
  induction procs with
  | nil => rfl
  | cons p ps ih =>
    unfold computeIndices
    rw [if_pos (h p (by simp)), ih fun q hq => h q (by simp [hq])]
    rfl

theorem yieldsPure_cases (w : World) (procs : List String) (y : Vec) (cs : List ℕ)
    (h : ∀ c ∈ cs, ∀ p ∈ (w.chans c).procs, p ∈ procs) :
    (yieldsPure w procs y cs = .error .indexError ∧ ∃ c ∈ cs, ∃ p ∈ (w.chans c).procs, y.length ≤ procs.idxOf p) ∨
    ((∃ ys, yieldsPure w procs y cs = .ok ys) ∧
      ¬ ∃ c ∈ cs, ∃ p ∈ (w.chans c).procs, y.length ≤ procs.idxOf p) := by
  induction cs with
  | nil => exact Or.inr ⟨⟨_, rfl⟩, by simp⟩
  | cons c cs ih =>
    have hc := computeIndices_all (w.chans c).procs procs (h c (by simp))
    obtain ⟨t1, t2⟩ := takeIdx_cases y ((w.chans c).procs.map procs.idxOf)
    unfold yieldsPure
    rw [hc]
    simp only
    by_cases hb : ∃ i ∈ (w.chans c).procs.map procs.idxOf, y.length ≤ i
    · rw [t1.mpr hb]
      obtain ⟨i, hi, hle⟩ := hb
      obtain ⟨p, hp, rfl⟩ := List.mem_map.mp hi
      exact Or.inl ⟨rfl, c, by simp, p, hp, hle⟩
    · have hb' := hb
      push Not at hb'
      obtain ⟨l, hl⟩ := t2 hb'
      rw [hl]
      simp only
      rcases ih fun c hc => h c (by simp [hc]) with ⟨h1, c', hc', hp⟩ | ⟨⟨ys, h1⟩, h2⟩
      · rw [h1]; exact Or.inl ⟨rfl, c', by simp [hc'], hp⟩
      · rw [h1]
        refine Or.inr ⟨⟨_, rfl⟩, ?_⟩
        rintro ⟨c', hc', p, hp, hle⟩
        rcases List.mem_cons.mp hc' with rfl | hc'
        · exact hb ⟨_, List.mem_map.mpr ⟨p, hp, rfl⟩, hle⟩
        · exact h2 ⟨c', hc', p, hp, hle⟩

/-- **C87, short vectors.** For every built model in which every channel has templates, bins and data, and every vector
`x` with fewer than `num_processes + num_nui_params` entries: evaluating the likelihood at `x` raises, namely
`IndexError` if the yield of some process that a channel has a template for lies beyond the end of `x`, and `ValueError`
otherwise. -/
theorem C87_short (s : Sys) (hs : s.Built) (hne : s.m.channels ≠ []) (hpop : Populated s) (hd : DataEverywhere s)
    (x : Vec) (hx : x.length < s.m.numProcesses + s.m.numNui s.w) :
    objective s.w s.m x = .error
      (if ∃ c ∈ s.m.chanIds, ∃ p ∈ (s.w.chans c).procs, x.length ≤ s.m.processes.idxOf p then .indexError
       else .valueError) := by
  have hw := reachable_wf hs.reachable
  have hobj : objective s.w s.m x = nllPure s.w s.m x := (nll_coh hs.coherent s.m hw.lt x).1
  have hex : ¬ ∃ v, objective s.w s.m x = .ok v := fun h => by
    have := (C87_accepts s hs hne hpop hd x).mp h
    omega
  have hiff : (∃ c ∈ s.m.chanIds, ∃ p ∈ (s.w.chans c).procs,
        (x.take s.m.numProcesses).length ≤ s.m.processes.idxOf p) ↔
      ∃ c ∈ s.m.chanIds, ∃ p ∈ (s.w.chans c).procs, x.length ≤ s.m.processes.idxOf p := by
    refine exists_congr fun c => and_congr_right fun hc => exists_congr fun p => and_congr_right fun hp => ?_
    have : s.m.processes.idxOf p < s.m.numProcesses := List.idxOf_lt_length_iff.mpr (sub_procs hw c hc p hp)
    rw [List.length_take]
    omega
  rw [hobj] at hex ⊢
  rcases yieldsPure_cases s.w s.m.processes (x.take s.m.numProcesses) s.m.chanIds (sub_procs hw) with
    ⟨h1, h2⟩ | ⟨⟨ys, h1⟩, h2⟩
  · rw [if_pos (hiff.mp h2)]
    simp only [nllPure, perChannelPure, h1]
  · rw [if_neg fun h => h2 (hiff.mpr h)]
    obtain ⟨y1, y2⟩ := yieldsPure_lengths _ _ _ _ h1
    simp only [nllPure, perChannelPure, h1] at hex ⊢
    set ns := splitIdx ((x.take (s.m.numNui s.w + s.m.numProcesses)).drop s.m.numProcesses)
      (cumsum (s.m.chanIds.map fun c => (s.w.chans c).numNui)).dropLast with hns
    have hnl' : ns.length = s.m.chanIds.length ∧ (ns.map (·.length)).sum =
        ((x.take (s.m.numNui s.w + s.m.numProcesses)).drop s.m.numProcesses).length := by
      obtain ⟨c0, cs0, e0⟩ : ∃ c cs, s.m.chanIds = c :: cs := by
        apply List.exists_cons_of_ne_nil
        simp [Mct.chanIds, hne]
      obtain ⟨q1, q2⟩ := splitIdxFrom_sum ((x.take (s.m.numNui s.w + s.m.numProcesses)).drop s.m.numProcesses)
        (cs0.map fun c => (s.w.chans c).numNui) (s.w.chans c0).numNui 0
      rw [hns, e0]
      simp only [splitIdx, cumsum, List.map_cons]
      rw [q1, q2]
      simp
    obtain ⟨hnl, hsum⟩ := hnl'
    have hall : ∀ k (h1 : k < s.m.chanIds.length) (h2 : k < ys.length) (h3 : k < ns.length),
        (∃ v, contribPure s.w s.m.chanIds[k] ys[k] ns[k] = .ok v) ∨
        contribPure s.w s.m.chanIds[k] ys[k] ns[k] = .error .valueError := by
      intro k k1 k2 k3
      have hm := List.getElem_mem k1
      obtain ⟨hid, d1, -⟩ := hd _ hm
      cases hc : contribPure s.w s.m.chanIds[k] ys[k] ns[k] with
      | ok v => exact Or.inl ⟨v, rfl⟩
      | error e =>
        rw [contribPure_error (ready_of_populated hs.reachable hpop _ hm) d1 hc]
        exact Or.inr rfl
    have hnp := numNui_pos hs.reachable hne hpop
    have hbad : ∃ k, ∃ (h1 : k < s.m.chanIds.length) (h2 : k < ys.length) (h3 : k < ns.length),
        contribPure s.w s.m.chanIds[k] ys[k] ns[k] = .error .valueError := by
      by_contra hno
      have hl : (ns.map (·.length)).sum = (s.m.chanIds.map fun c => (s.w.chans c).numNui).sum := by
        apply sum_eq_of_get hnl
        intro k k1 k2
        have hm := List.getElem_mem k1
        obtain ⟨hid, d1, d2⟩ := hd _ hm
        have hr := ready_of_populated hs.reachable hpop _ hm
        refine (contribPure_iff hr d1 d2 (y := ys[k]'(by omega)) ?_ _).2
          ((hall k k1 (by omega) k2).resolve_right fun he => hno ⟨k, k1, by omega, k2, he⟩)
        rw [y2 k k1 (by omega)]
        simp [Channel.procs, hr.tl]
      have hl2 : (s.m.chanIds.map fun c => (s.w.chans c).numNui).sum = s.m.numNui s.w := rfl
      rw [hsum] at hl
      rw [List.length_drop, List.length_take] at hl
      omega
    rw [channelsPure_error s.m.chanIds ys ns y1 hnl hall hbad]

/-- non-vacuity of `C87_short`: in the two-channel example (two processes, six nuisance parameters) a vector with one
entry raises `IndexError`, one with five entries `ValueError` -/
example : objective Ex.sys1.w Ex.sys1.m [1] = .error .indexError ∧
    objective Ex.sys1.w Ex.sys1.m [1, 1, 0, 0, 0] = .error .valueError := by
  have hpop : Populated Ex.sys1 := by
    intro c hc
    simp [Ex.sys1, Ex.m1, Mct.chanIds] at hc
    rcases hc with rfl | rfl <;> simp [Ex.sys1, Ex.w1, Ex.chA, Ex.chB]
  have hd : DataEverywhere Ex.sys1 := by
    intro c hc
    simp [Ex.sys1, Ex.m1, Mct.chanIds] at hc
    rcases hc with rfl | rfl <;> simp [Ex.sys1, Ex.w1, Ex.chA, Ex.chB, Ex.w0, Ex.bh, Hist.setBinned, vec_length]
  constructor
  · rw [C87_short Ex.sys1 Ex.sys1_built (by simp [Ex.sys1, Ex.m1]) hpop hd, if_pos]
    · refine ⟨0, by simp [Ex.sys1, Ex.m1, Mct.chanIds], "bkg", by simp [Ex.sys1, Ex.w1, Ex.chA, Channel.procs], ?_⟩
      simp [Ex.sys1, Ex.m1, List.idxOf_cons]
    · simp [Ex.sys1, Ex.m1, Mct.numProcesses]; omega
  · rw [C87_short Ex.sys1 Ex.sys1_built (by simp [Ex.sys1, Ex.m1]) hpop hd, if_neg]
    · rintro ⟨c, hc, p, hp, h⟩
      have : Ex.sys1.m.processes.idxOf p < Ex.sys1.m.processes.length :=
        List.idxOf_lt_length_iff.mpr (sub_procs (reachable_wf Ex.sys1_built.reachable) c hc p hp)
      simp [Ex.sys1, Ex.m1] at this h
      omega
    · simp [Ex.sys1, Ex.m1, Mct.numProcesses, Mct.numNui, Mct.chanIds, Channel.numNui, Channel.numTemplates,
        Channel.numBins, Ex.w1, Ex.chA, Ex.chB]

end

end TF.Props
