import Verif.Props.MctProps22

set_option linter.unusedSimpArgs false

/-!
# Updating parameters: which vectors are accepted and what a rejected update leaves behind (C122); updating one channel (C48)
-/

namespace TF.Props

open Classical Spec
open scoped Matrix

noncomputable section

/-! ## one channel -/

/-- **C48, one channel.** `mct.channels[ch].update_parameters(yields, nui)` with one yield per template and one nuisance
parameter per template and bin: template `j` of that channel gets yield `yields[j] * efficiency` and nuisance parameters
`nui[j*n : (j+1)*n]`; no other template, no histogram and no channel changes. -/
theorem C48_channel (s : Sys) (hs : s.Reachable) (ch : String) (c : ℕ) (hc : dictGet s.m.channels ch = some c)
    (ht : (s.w.chans c).templates ≠ []) (hu : ((s.w.chans c).templates.map (·.2)).Nodup) (ys nui : Vec)
    (hy : ys.length = (s.w.chans c).templates.length)
    (hn : nui.length = (s.w.chans c).templates.length * (s.w.chans c).bins.prod) :
    (∀ j, (hj : j < (s.w.chans c).templates.length) →
      ∃ eff, (s.w.chans c).effs[j]? = some ((s.w.chans c).templates[j].1, eff) ∧
        ((s.step (.chanUpdate ch ys nui)).w.tmpls (s.w.chans c).templates[j].2) =
          { s.w.tmpls (s.w.chans c).templates[j].2 with
            params := (ys.getD j 0 * eff) :: (nui.drop (j * (s.w.chans c).bins.prod)).take (s.w.chans c).bins.prod }) ∧
    (∀ i, i ∉ (s.w.chans c).templates.map (·.2) → (s.step (.chanUpdate ch ys nui)).w.tmpls i = s.w.tmpls i) ∧
    (s.step (.chanUpdate ch ys nui)).w.chans = s.w.chans ∧ (s.step (.chanUpdate ch ys nui)).w.hists = s.w.hists ∧
    (s.step (.chanUpdate ch ys nui)).m = s.m := by
  have hw := reachable_wf hs
  have hcm : c ∈ s.m.chanIds := List.mem_map.mpr ⟨(ch, c), dictGet_mem hc, rfl⟩
  have hcw := hw.chan c (hw.lt c hcm)
  set C := s.w.chans c with hC
  have hlen : C.templates.length = C.numTemplates := by
    rw [← List.length_map (·.1), hcw.tkeys]; rfl
  have hel : C.effs.length = C.templates.length := by
    rw [← List.length_map (·.1), hcw.ekeys, ← hcw.tkeys, List.length_map]
  have hnb : ∀ t ∈ C.templates, (s.w.tmpls t.2).numBins = C.numBins := by
    intro t ht
    obtain ⟨h1, h2, -⟩ := hcw.tmpl t ht
    rw [(hw.tmpl _ h1).num, h2]; rfl
  have hnn : nui.length = C.numNui := by rw [hn, hlen]; rfl
  have hupd := updateChannel_eq s.w c ys nui (by rw [← hC, ← hlen]; exact List.length_pos_of_ne_nil ht) hlen hel
    (hy.trans hlen) hnn hnb
  have hstep : s.step (.chanUpdate ch ys nui) = { s with w := s.w.assign (asgChan s.w c ys nui) } := by
    simp only [Sys.step, hc, hupd]
  have hids : (asgChan s.w c ys nui).map (·.1) = C.templates.map (·.2) := by
    have := asgAll_ids s.w [c] [ys] [nui] rfl rfl (by
      intro k h1 h2 h3
      have : k = 0 := by simpa using h1
      subst this
      exact ⟨by show 0 < C.numTemplates; rw [← hlen]; exact List.length_pos_of_ne_nil ht, hlen, hel, hy.trans hlen, hnn, hnb⟩)
    simpa [asgAll] using this
  have hpo := assign_paramOnly (asgChan s.w c ys nui) s.w
  rw [hstep]
  refine ⟨?_, ?_, hpo.chans, hpo.hists, rfl⟩
  · intro j hj
    have hje : j < C.effs.length := by omega
    have hmem := asgLoop_get C.templates C.effs ys (blocks (List.replicate C.numTemplates C.numBins) nui)
      j hj hje (by omega) (by rw [blocks_length, List.length_replicate, ← hlen]; exact hj)
    have hp := assign_params (asgChan s.w c ys nui) s.w (by rw [hids]; exact hu) _ hmem
    refine ⟨C.effs[j].2, ?_, ?_⟩
    · rw [List.getElem?_eq_getElem hje]
      congr 1
      have : C.effs[j].1 = C.templates[j].1 := by
        have h1 : (C.effs.map (·.1))[j]'(by simpa using hje) = (C.templates.map (·.1))[j]'(by simpa using hj) := by
          simp only [hcw.ekeys, hcw.tkeys]
        simpa using h1
      rw [← this]
    · simp only at hp
      rw [hp]
      congr 1
      have hjK : j < C.numTemplates := by rw [← hlen]; exact hj
      rw [blocks_get _ _ _ (by rw [List.length_replicate]; exact hjK)]
      simp only [List.take_replicate, List.sum_replicate, smul_eq_mul, List.getElem_replicate,
        min_eq_left hjK.le, List.cons.injEq]
      refine ⟨?_, rfl⟩
      rw [List.getD_eq_getElem?_getD, List.getElem?_eq_getElem (by omega), Option.getD_some]
  · intro i hi
    exact assign_other _ _ _ (by rw [hids]; exact hi)

/-- a channel update with wrong lengths raises; the world is unchanged or differs in the yield of the first template -/
theorem updateChannel_reject (w : World) (c : ℕ) (ys nui : Vec) (hK : 0 < (w.chans c).numTemplates)
    (hl : (w.chans c).templates.length = (w.chans c).numTemplates) (he : (w.chans c).effs.length = (w.chans c).templates.length)
    (ht : ∀ t ∈ (w.chans c).templates, (w.tmpls t.2).numBins = (w.chans c).numBins)
    (hbad : ¬ (ys.length = (w.chans c).numTemplates ∧ nui.length = (w.chans c).numNui)) :
    ∃ e, (w.updateChannel c ys nui).1 = .error e ∧
      ((ys.length ≠ (w.chans c).numTemplates ∨ nui.length % (w.chans c).numTemplates ≠ 0) → (w.updateChannel c ys nui).2 = w) ∧
        (ys.length = (w.chans c).numTemplates → nui.length % (w.chans c).numTemplates = 0 →
          ∃ p q eff, (w.chans c).templates[0]? = some p ∧ (w.chans c).effs[0]? = some (q, eff) ∧
            (w.updateChannel c ys nui).2 = w.setTmpl p.2
              { w.tmpls p.2 with params := (ys.getD 0 0 * eff) :: (w.tmpls p.2).params.tail }) := by
  unfold World.updateChannel
  set K := (w.chans c).numTemplates with hKd
  by_cases h1 : ys.length % K = 0
  swap
  · refine ⟨.valueError, ?_, fun _ => ?_, fun h => ?_⟩
    · simp [splitEq, hK.ne', h1]
    · simp [splitEq, hK.ne', h1]
    · rw [h, Nat.mod_self] at h1; exact absurd rfl h1
  by_cases h2 : nui.length % K = 0
  swap
  · refine ⟨.valueError, ?_, fun _ => ?_, fun _ h => absurd h h2⟩
    · simp [splitEq, hK.ne', h1, h2]
    · simp [splitEq, hK.ne', h1, h2]
  obtain ⟨p, ts, ets⟩ : ∃ p ts, (w.chans c).templates = p :: ts :=
    List.exists_cons_of_ne_nil (by intro e; rw [e] at hl; exact hK.ne hl)
  obtain ⟨q, es, ees⟩ : ∃ q es, (w.chans c).effs = q :: es :=
    List.exists_cons_of_ne_nil (by intro e; rw [e, ets] at he; simp at he)
  obtain ⟨K', eK⟩ : ∃ K', K = K' + 1 := ⟨K - 1, by omega⟩
  obtain ⟨p1, p2⟩ := p
  obtain ⟨q1, q2⟩ := q
  have hr : List.range K = 0 :: (List.range K').map (· + 1) := by rw [eK, List.range_succ_eq_map]
  simp only [splitEq, hK.ne', h1, h2, if_false, not_true, ne_eq, ets, ees, hr, List.map_cons, zero_mul, List.drop_zero,
    World.updateLoop]
  have hy0 : (ys.take (ys.length / K)).length = ys.length / K := by
    rw [List.length_take, min_eq_left (Nat.div_le_self _ _)]
  have hyK : K * (ys.length / K) = ys.length := Nat.mul_div_cancel' (Nat.dvd_of_mod_eq_zero h1)
  have hnK : K * (nui.length / K) = nui.length := Nat.mul_div_cancel' (Nat.dvd_of_mod_eq_zero h2)
  have hn0 : (nui.take (nui.length / K)).length = nui.length / K := by
    rw [List.length_take, min_eq_left (Nat.div_le_self _ _)]
  by_cases hy : ys.length = K
  · have hy1 : ys.length / K = 1 := by rw [hy]; exact Nat.div_self hK
    obtain ⟨y, ys', rfl⟩ : ∃ y ys', ys = y :: ys' := List.exists_cons_of_ne_nil (by intro e; rw [e] at hy; simp at hy; omega)
    have hbad' : nui.length / K ≠ (w.tmpls p2).numBins := by
      intro e
      apply hbad
      refine ⟨hy, ?_⟩
      rw [← hnK, e, ht (p1, p2) (by rw [ets]; simp)]
      rfl
    rw [hy1]
    refine ⟨.runtimeError, ?_, ?_, fun _ _ => ⟨(p1, p2), q1, q2, rfl, rfl, ?_⟩⟩
    · simp [World.updateTmpl, Template.setYield, Template.setNui, hn0, hbad', -List.length_take]
    · rintro (h | h)
      · exact absurd hy h
      · exact h.elim
    · simp [World.updateTmpl, Template.setYield, Template.setNui, hn0, hbad', -List.length_take]
  · have hy1 : ys.length / K ≠ 1 := by intro e; rw [e] at hyK; omega
    generalize hb : ys.take (ys.length / K) = b at hy0
    rw [← hy0] at hy1
    rcases b with _ | ⟨b0, _ | ⟨b1, b⟩⟩
    · exact ⟨.valueError, by simp [World.updateTmpl, Template.setYield], fun _ => by simp [World.updateTmpl, Template.setYield], fun h => absurd h hy⟩
    · simp at hy1
    · exact ⟨.runtimeError, by simp [World.updateTmpl, Template.setYield], fun _ => by simp [World.updateTmpl, Template.setYield], fun h => absurd h hy⟩

/-! ## the whole model -/

theorem updateChannels_reject (cs : List ℕ) : ∀ (w : World) (ys ns : List Vec), ys.length = cs.length → ns.length = cs.length →
    (∀ c ∈ cs, 0 < (w.chans c).numTemplates ∧ (w.chans c).templates.length = (w.chans c).numTemplates ∧
      (w.chans c).effs.length = (w.chans c).templates.length ∧
      ∀ t ∈ (w.chans c).templates, (w.tmpls t.2).numBins = (w.chans c).numBins) →
    (w.updateChannels cs ys ns).1 = .ok () → ∀ (k : ℕ) (h1 : k < cs.length) (_ : k < ys.length) (h3 : k < ns.length),
      ns[k].length = (w.chans cs[k]).numNui := by
  induction cs with
  | nil => intro w ys ns _ _ _ _ k h1; simp at h1
  | cons c cs ih =>
    intro w ys ns h1 h2 hr hok
    obtain ⟨y, ys, rfl⟩ := List.exists_cons_of_length_eq_add_one (h1.trans (List.length_cons))
    obtain ⟨n, ns, rfl⟩ := List.exists_cons_of_length_eq_add_one (h2.trans (List.length_cons))
    obtain ⟨a1, a2, a3, a4⟩ := hr c (by simp)
    simp only [World.updateChannels] at hok
    by_cases hb : y.length = (w.chans c).numTemplates ∧ n.length = (w.chans c).numNui
    swap
    · obtain ⟨e, he, -⟩ := updateChannel_reject w c y n a1 a2 a3 a4 hb
      generalize w.updateChannel c y n = r at he hok
      obtain ⟨r1, r2⟩ := r
      simp only at he
      subst he
      cases hok
    have hp := updateChannel_paramOnly w c y n
    generalize w.updateChannel c y n = r at hp hok
    obtain ⟨r1, r2⟩ := r
    cases r1 with
    | error e => cases hok
    | ok u =>
      simp only at hok hp
      have := ih r2 ys ns (by simpa using h1) (by simpa using h2) (by
        intro c' hc'
        rw [hp.chans]
        obtain ⟨b1, b2, b3, b4⟩ := hr c' (by simp [hc'])
        exact ⟨b1, b2, b3, fun t ht => by rw [hp.numBins]; exact b4 t ht⟩) hok
      intro k k1 k2 k3
      cases k with
      | zero => exact hb.2
      | succ k =>
        have h := this k (Nat.lt_of_succ_lt_succ k1) (Nat.lt_of_succ_lt_succ k2) (Nat.lt_of_succ_lt_succ k3)
        rw [hp.chans] at h
        exact h

theorem chan_form {s : Sys} (hs : s.Reachable) (hpop : Populated s) {w : World} (hch : w.chans = s.w.chans)
    (htm : w.tmpls = s.w.tmpls) : ∀ c ∈ s.m.chanIds, 0 < (w.chans c).numTemplates ∧
      (w.chans c).templates.length = (w.chans c).numTemplates ∧ (w.chans c).effs.length = (w.chans c).templates.length ∧
      ∀ t ∈ (w.chans c).templates, (w.tmpls t.2).numBins = (w.chans c).numBins := by
  intro c hc
  have hr := ready_of_populated hs hpop c hc
  rw [hch, htm]
  refine ⟨hr.ne, hr.tl, hr.el.trans hr.tl.symm, ?_⟩
  intro t ht
  exact (hr.dims _ (List.mem_map.mpr ⟨t, ht, rfl⟩)).2

/-- **C122, surplus.** Entries beyond `num_processes + num_nui_params` are ignored by `update_parameters`. -/
theorem C122_surplus (w : World) (m : Mct) (x : Vec) :
    m.updateParameters w (x.take (m.numProcesses + m.numNui w)) = m.updateParameters w x := by
  have h1 : (x.take (m.numProcesses + m.numNui w)).take m.numProcesses = x.take m.numProcesses := by
    rw [List.take_take]; congr 1; omega
  have h2 : (x.take (m.numProcesses + m.numNui w)).take (m.numNui w + m.numProcesses) =
      x.take (m.numNui w + m.numProcesses) := by
    rw [List.take_take]; congr 1; omega
  have hp : m.perChannel w (x.take (m.numProcesses + m.numNui w)) = m.perChannel w x := by
    unfold Mct.perChannel
    rw [h1, h2]
  unfold Mct.updateParameters
  rw [hp]

/-- **C122, accepted vectors.** For every built model in which every channel has templates and bins:
`update_parameters(x)` returns exactly if `x` has at least `num_processes + num_nui_params` entries. -/
theorem C122_accepts (s : Sys) (hs : s.Built) (hne : s.m.channels ≠ []) (hpop : Populated s) (x : Vec) :
    (s.m.updateParameters s.w x).1 = .ok () ↔ s.m.numProcesses + s.m.numNui s.w ≤ x.length := by
  have hw := reachable_wf hs.reachable
  constructor
  · intro hok
    unfold Mct.updateParameters at hok
    have hp := (perChannel_coh hs.coherent s.m hw.lt x).1
    have hf := perChannel_frame s.w s.m x
    generalize s.m.perChannel s.w x = r at hp hf hok
    obtain ⟨r1, w1⟩ := r
    simp only at hp hf
    subst hp
    unfold perChannelPure at hok
    cases hy : yieldsPure s.w s.m.processes (x.take s.m.numProcesses) s.m.chanIds with
    | error e => rw [hy] at hok; cases hok
    | ok ys' =>
      rw [hy] at hok
      simp only at hok
      obtain ⟨y1, y2⟩ := yieldsPure_lengths _ _ _ _ hy
      have hnp := numNui_pos hs.reachable hne hpop
      by_contra hx
      push Not at hx
      obtain ⟨c0, cs0, e0⟩ : ∃ c cs, s.m.chanIds = c :: cs := by
        apply List.exists_cons_of_ne_nil
        simp [Mct.chanIds, hne]
      set nui := (x.take (s.m.numNui s.w + s.m.numProcesses)).drop s.m.numProcesses with hnui
      set sizes := s.m.chanIds.map fun c => (s.w.chans c).numNui with hsz
      have hsum : sizes.sum = s.m.numNui s.w := rfl
      obtain ⟨q1, q2⟩ := splitIdxFrom_sum nui (cs0.map fun c => (s.w.chans c).numNui) (s.w.chans c0).numNui 0
      have esz : (s.w.chans c0).numNui :: cs0.map (fun c => (s.w.chans c).numNui) = sizes := by
        rw [hsz, e0]; rfl
      rw [esz] at q1 q2
      have q2' : (splitIdx nui (cumsum sizes).dropLast).length = s.m.chanIds.length := by
        unfold splitIdx cumsum; rw [q2, e0]; simp
      have hall := updateChannels_reject s.m.chanIds w1 ys' (splitIdx nui (cumsum sizes).dropLast) y1 q2'
        (chan_form hs.reachable hpop hf.chans hf.tmpls) hok
      have hl : ((splitIdx nui (cumsum sizes).dropLast).map (·.length)).sum = sizes.sum := by
        rw [hsz]
        apply sum_eq_of_get q2'
        intro k k1 k2
        have := hall k k1 (by omega) k2
        rwa [hf.chans] at this
      rw [hsum] at hl
      have q1' : ((splitIdx nui (cumsum sizes).dropLast).map (·.length)).sum = nui.length - 0 := q1
      have hnl : nui.length = min (s.m.numNui s.w + s.m.numProcesses) x.length - s.m.numProcesses := by
        rw [hnui, List.length_drop, List.length_take]
      omega
  · intro hx
    rw [← C122_surplus]
    obtain ⟨w1, -, he, -⟩ := updateParameters_eq s hs hne (fun c hc => (hpop c hc).1)
      (x.take (s.m.numProcesses + s.m.numNui s.w)) (by rw [List.length_take]; omega)
    rw [he]

theorem takeIdx_error (v : Vec) (is : List ℕ) (h : ∃ i ∈ is, v.length ≤ i) : takeIdx v is = .error .indexError := by
  induction is with
  | nil => obtain ⟨i, hi, -⟩ := h; simp at hi
  | cons a is ih =>
    unfold takeIdx
    cases ha : v[a]? with
    | none => rfl
    | some y =>
      have hlt : a < v.length := (List.getElem?_eq_some_iff.mp ha).1
      obtain ⟨i, hi, hv⟩ := h
      rcases List.mem_cons.mp hi with rfl | hi
      · omega
      · rw [ih ⟨i, hi, hv⟩]

theorem takeIdx_kind (v : Vec) (is : List ℕ) : ∀ {e}, takeIdx v is = .error e → e = .indexError := by
  induction is with
  | nil => intro e h; cases h
  | cons a is ih =>
    intro e h
    unfold takeIdx at h
    split at h
    · exact (Except.error.inj h).symm
    · split at h
      · rename_i h'
        rw [← Except.error.inj h]; exact ih h'
      · cases h

theorem yieldsPure_error (w : World) (procs : List String) (y : Vec) (cs : List ℕ)
    (hsub : ∀ c ∈ cs, ∀ p ∈ (w.chans c).procs, p ∈ procs)
    (hbad : ∃ c ∈ cs, ∃ p ∈ (w.chans c).procs, y.length ≤ procs.idxOf p) :
    yieldsPure w procs y cs = .error .indexError := by
  induction cs with
  | nil => obtain ⟨c, hc, -⟩ := hbad; simp at hc
  | cons c cs ih =>
    unfold yieldsPure
    rw [computeIndices_eq (hsub c (by simp))]
    simp only
    by_cases h0 : ∃ p ∈ (w.chans c).procs, y.length ≤ procs.idxOf p
    · obtain ⟨p, hp, hl⟩ := h0
      rw [takeIdx_error _ _ ⟨procs.idxOf p, List.mem_map.mpr ⟨p, hp, rfl⟩, hl⟩]
    · obtain ⟨c', hc', h1⟩ := hbad
      rcases List.mem_cons.mp hc' with rfl | hc'
      · exact absurd h1 h0
      · rw [ih (fun c hc => hsub c (by simp [hc])) ⟨c', hc', h1⟩]
        cases ht : takeIdx y ((w.chans c).procs.map procs.idxOf) with
        | error e => simp only; rw [takeIdx_kind _ _ ht]
        | ok _ => rfl

/-- **C122, too few yields.** If the vector is so short that it lacks the yield of a process with a template,
`update_parameters(x)` raises `IndexError` and no parameter of any template changes. -/
theorem C122_short_partial (s : Sys) (hs : s.Built) (x : Vec)
    (hbad : ∃ c ∈ s.m.chanIds, ∃ p ∈ (s.w.chans c).templates.map (·.1), x.length ≤ s.m.processes.idxOf p) :
    (s.m.updateParameters s.w x).1 = .error .indexError ∧ (s.m.updateParameters s.w x).2.tmpls = s.w.tmpls ∧
      (s.m.updateParameters s.w x).2.chans = s.w.chans ∧ (s.m.updateParameters s.w x).2.hists = s.w.hists := by
  have hw := reachable_wf hs.reachable
  have hp := (perChannel_coh hs.coherent s.m hw.lt x).1
  have hf := perChannel_frame s.w s.m x
  unfold perChannelPure at hp
  rw [yieldsPure_error _ _ _ _ hw.subset (by
    obtain ⟨c, hc, p, hp, hl⟩ := hbad
    refine ⟨c, hc, p, hp, ?_⟩
    rw [List.length_take]; omega)] at hp
  unfold Mct.updateParameters
  generalize s.m.perChannel s.w x = r at hp hf ⊢
  obtain ⟨r1, w1⟩ := r
  simp only at hp hf
  subst hp
  exact ⟨rfl, hf.tmpls, hf.chans, hf.hists⟩

theorem splitIdxFrom_nil (is : List ℕ) : ∀ start, splitIdxFrom ([] : Vec) start is = List.replicate (is.length + 1) [] := by
  induction is with
  | nil => intro a; simp [splitIdxFrom]
  | cons i is ih => intro a; simp [splitIdxFrom, ih, List.replicate_succ]

/-- **C122, yields without nuisance parameters.** In every built model whose channels have templates and bins: called with
the yields only (`num_processes` entries), `update_parameters` raises `RuntimeError` *after* it has overwritten the yield of
the first template of the first channel. -/
theorem C122_yields_only (s : Sys) (hs : s.Built) (hpop : Populated s) (c : ℕ) (cs : List ℕ) (hcs : s.m.chanIds = c :: cs)
    (p : String) (t : ℕ) (eff : Fl) (ht : (s.w.chans c).templates[0]? = some (p, t)) (he : (s.w.chans c).effs[0]? = some (p, eff))
    (y : Vec) (hy : y.length = s.m.numProcesses) :
    (∃ e, (s.m.updateParameters s.w y).1 = .error e) ∧
      (s.m.updateParameters s.w y).2.tmpls = Function.update s.w.tmpls t
        { s.w.tmpls t with params := (y.getD (s.m.processes.idxOf p) 0 * eff) :: (s.w.tmpls t).params.tail } ∧
      (s.m.updateParameters s.w y).2.chans = s.w.chans ∧ (s.m.updateParameters s.w y).2.hists = s.w.hists := by
  have hw := reachable_wf hs.reachable
  have hp := (perChannel_coh hs.coherent s.m hw.lt y).1
  have hf := perChannel_frame s.w s.m y
  have hyl : y.length = s.m.processes.length := hy
  unfold perChannelPure at hp
  rw [yieldsPure_eq s.w s.m.processes (y.take s.m.numProcesses) (by rw [List.length_take, hy]; exact le_of_eq (min_self _).symm)
    s.m.chanIds hw.subset, List.take_of_length_le hy.le] at hp
  have hn : (y.take (s.m.numNui s.w + s.m.numProcesses)).drop s.m.numProcesses = [] := by
    rw [List.drop_eq_nil_iff, List.length_take]; omega
  rw [hn] at hp
  simp only [splitIdx, splitIdxFrom_nil, List.replicate_succ] at hp
  unfold Mct.updateParameters
  generalize s.m.perChannel s.w y = r at hp hf ⊢
  obtain ⟨r1, w1⟩ := r
  simp only at hp hf
  subst hp
  obtain ⟨a1, a2, a3, a4⟩ := chan_form hs.reachable hpop hf.chans hf.tmpls c (by rw [hcs]; simp)
  rw [hcs]
  simp only [List.map_cons, World.updateChannels]
  obtain ⟨e, r1, -, r2⟩ := updateChannel_reject w1 c ((s.w.chans c).procs.map fun p => y.getD (s.m.processes.idxOf p) 0) []
    a1 a2 a3 a4 (by
      rintro ⟨-, h⟩
      have hb := (hpop c (by rw [hcs]; simp)).2
      rw [hf.chans] at h a1
      have : 0 < (s.w.chans c).numNui := Nat.mul_pos a1 hb
      simp at h; omega)
  obtain ⟨p', q', eff', g1, g2, g3⟩ := r2 (by rw [hf.chans, List.length_map]; rw [hf.chans] at a2; simpa [Channel.procs] using a2)
    (by simp)
  rw [hf.chans, ht] at g1
  rw [hf.chans, he] at g2
  obtain rfl := Option.some.inj g1
  obtain ⟨rfl, rfl⟩ := Prod.mk.inj (Option.some.inj g2)
  generalize w1.updateChannel c _ [] = r at r1 g3 ⊢
  obtain ⟨r1', r2'⟩ := r
  simp only at r1 g3
  subst r1 g3
  refine ⟨⟨e, rfl⟩, ?_, hf.chans, hf.hists⟩
  simp only [World.setTmpl, hf.tmpls]
  congr 3
  have h0 : (s.w.chans c).procs[0]? = some p := by simp [Channel.procs, ht]
  rw [List.getD_eq_getElem?_getD, List.getElem?_map, h0]; rfl

theorem updateTmpl_other (w : World) (tid : ℕ) (eff : Fl) (y nui : Vec) (i : ℕ) (hi : i ≠ tid) :
    (w.updateTmpl tid eff y nui).2.tmpls i = w.tmpls i := by
  unfold World.updateTmpl
  split
  · rfl
  · split <;> simp [World.setTmpl, Function.update_of_ne hi]

theorem updateLoop_other (ts : List (String × ℕ)) (i : ℕ) (hi : i ∉ ts.map (·.2)) : ∀ (w : World) (es : List (String × Fl))
    (ys ns : List Vec), (w.updateLoop ts es ys ns).2.tmpls i = w.tmpls i := by
  induction ts with
  | nil => intro w es ys ns; simp only [World.updateLoop]
  | cons t ts ih =>
    intro w es ys ns
    simp only [List.map_cons, List.mem_cons, not_or] at hi
    cases es with
    | nil => simp only [World.updateLoop]
    | cons e es =>
      cases ys with
      | nil => simp only [World.updateLoop]
      | cons y ys =>
        cases ns with
        | nil => simp only [World.updateLoop]
        | cons n ns =>
          simp only [World.updateLoop]
          have h := updateTmpl_other w t.2 e.2 y n i hi.1
          generalize w.updateTmpl t.2 e.2 y n = r at h ⊢
          obtain ⟨r1, w1⟩ := r
          cases r1 with
          | error e => exact h
          | ok u => exact (ih hi.2 w1 es ys ns).trans h

theorem updateChannel_other (w : World) (c : ℕ) (y n : Vec) (i : ℕ) (hi : i ∉ (w.chans c).templates.map (·.2)) :
    (w.updateChannel c y n).2.tmpls i = w.tmpls i := by
  unfold World.updateChannel
  split
  · rfl
  · split
    · rfl
    · exact updateLoop_other _ i hi _ _ _ _

theorem updateChannels_other (cs : List ℕ) (i : ℕ) : ∀ (w : World), (∀ c ∈ cs, i ∉ (w.chans c).templates.map (·.2)) →
    ∀ (ys ns : List Vec), (w.updateChannels cs ys ns).2.tmpls i = w.tmpls i := by
  induction cs with
  | nil => intro w _ ys ns; simp only [World.updateChannels]
  | cons c cs ih =>
    intro w hi ys ns
    cases ys with
    | nil => simp only [World.updateChannels]
    | cons y ys =>
      cases ns with
      | nil => simp only [World.updateChannels]
      | cons n ns =>
        simp only [World.updateChannels]
        have h := updateChannel_other w c y n i (hi c (by simp))
        have hp := updateChannel_paramOnly w c y n
        generalize w.updateChannel c y n = r at h hp ⊢
        obtain ⟨r1, w1⟩ := r
        cases r1 with
        | error e => exact h
        | ok u => exact (ih w1 (by intro c' hc'; rw [hp.chans]; exact hi c' (by simp [hc'])) ys ns).trans h

/-- **C122, what an update can touch.** Whether it is accepted or rejected, `update_parameters(x)` changes nothing but the
parameters of templates of the model: channels (with their data), histograms, other templates and everything else of the
model's templates stay as they were. -/
theorem C122_touches (s : Sys) (x : Vec) :
    (s.m.updateParameters s.w x).2.chans = s.w.chans ∧ (s.m.updateParameters s.w x).2.hists = s.w.hists ∧
    (∀ i, ∃ v, (s.m.updateParameters s.w x).2.tmpls i = { s.w.tmpls i with params := v }) ∧
    (∀ i, (∀ c ∈ s.m.chanIds, i ∉ (s.w.chans c).templates.map (·.2)) →
      (s.m.updateParameters s.w x).2.tmpls i = s.w.tmpls i) := by
  have hf := perChannel_frame s.w s.m x
  unfold Mct.updateParameters
  generalize s.m.perChannel s.w x = r at hf ⊢
  obtain ⟨r1, w1⟩ := r
  simp only at hf
  cases r1 with
  | error e => exact ⟨hf.chans, hf.hists, fun i => ⟨(s.w.tmpls i).params, by rw [hf.tmpls]⟩, fun i _ => by rw [hf.tmpls]⟩
  | ok p =>
    obtain ⟨ys, ns⟩ := p
    simp only
    have hp := updateChannels_paramOnly s.m.chanIds w1 ys ns
    refine ⟨hp.chans.trans hf.chans, hp.hists.trans hf.hists, ?_, ?_⟩
    · intro i
      obtain ⟨f, hf'⟩ := hp
      refine ⟨f i, ?_⟩
      rw [hf', ← hf.tmpls]
    · intro i hi
      rw [updateChannels_other _ i w1 (by intro c hc; rw [hf.chans]; exact hi c hc), hf.tmpls]

theorem Ex.pop1 : Populated Ex.sys1 := by
  intro c hc
  simp only [Ex.sys1, Ex.m1, Mct.chanIds, List.map_cons, List.map_nil, List.mem_cons, List.not_mem_nil, or_false] at hc
  rcases hc with rfl | rfl <;> simp [Ex.sys1, Ex.w1, Ex.chA, Ex.chB]

/-- **C122 is false.** In the two-channel example `update_parameters` with the two yields but without nuisance parameters
raises, and nevertheless the start values of the next fit (`x0`) have changed. -/
theorem C122_refuted : ∃ (s : Sys) (x : Vec), s.Built ∧ Populated s ∧ (∃ e, (s.m.updateParameters s.w x).1 = .error e) ∧
    s.m.x0 (s.m.updateParameters s.w x).2 ≠ s.m.x0 s.w := by
  obtain ⟨h1, h2, hch, -⟩ := C122_yields_only Ex.sys1 Ex.sys1_built Ex.pop1 0 [1] rfl "sig" 0 (.fin (1/2))
    (by simp [Ex.sys1, Ex.w1, Ex.chA]) (by simp [Ex.sys1, Ex.w1, Ex.chA]) [.fin 100, .fin 20] rfl
  refine ⟨Ex.sys1, [.fin 100, .fin 20], Ex.sys1_built, Ex.pop1, h1, ?_⟩
  generalize (Ex.sys1.m.updateParameters Ex.sys1.w [.fin 100, .fin 20]).2 = w' at *
  intro hx
  simp [Mct.x0, Mct.nuiParams, Mct.allTmpls, Mct.chanIds, World.chanTmpls, Mct.processYields, World.processYield, dictGet, h2, hch, Ex.sys1, Ex.m1, Ex.w1, Ex.chA, Ex.chB, Ex.w0, Channel.procs, Template.nuiParams, Template.yieldParam, Ex.bt, initParams, Ex.bh, Hist.setBinned, npSum, Function.update_apply] at hx
  rw [show (vec ![4, 6]).sum = .fin 10 by simp [vec, List.ofFn_succ]; norm_num] at hx
  have := Fl.fin.inj hx
  norm_num at this

/-- non-vacuity of C48_channel and C122_accepts: channel `a` of the example, with yields 10, 20 and nuisance parameters 1, 2, 3, 4 -/
example : (Ex.sys1.step (.chanUpdate "a" [.fin 10, .fin 20] [.fin 1, .fin 2, .fin 3, .fin 4])).w.tmpls 1 =
    { Ex.sys1.w.tmpls 1 with params := [.fin 20, .fin 3, .fin 4] } := by
  obtain ⟨h, -⟩ := C48_channel Ex.sys1 Ex.sys1_built.reachable "a" 0 (by simp [Ex.sys1, Ex.m1, dictGet])
    (by simp [Ex.sys1, Ex.w1, Ex.chA]) (by simp [Ex.sys1, Ex.w1, Ex.chA]) [.fin 10, .fin 20] [.fin 1, .fin 2, .fin 3, .fin 4]
    (by simp [Ex.sys1, Ex.w1, Ex.chA]) (by simp [Ex.sys1, Ex.w1, Ex.chA])
  obtain ⟨eff, h1, h2⟩ := h 1 (by simp [Ex.sys1, Ex.w1, Ex.chA])
  simp [Ex.sys1, Ex.w1, Ex.chA] at h1 h2 ⊢
  rw [h2, ← h1]
  simp

/-- … and the vector of the example with eight entries is accepted, without the last entry it is not -/
example : (Ex.sys1.m.updateParameters Ex.sys1.w Ex.x1).1 = .ok () ∧ (Ex.sys1.m.updateParameters Ex.sys1.w Ex.x1.dropLast).1 ≠ .ok () := by
  rw [ne_eq, C122_accepts Ex.sys1 Ex.sys1_built (by simp [Ex.sys1, Ex.m1]) Ex.pop1,
    C122_accepts Ex.sys1 Ex.sys1_built (by simp [Ex.sys1, Ex.m1]) Ex.pop1]
  simp [Ex.x1, Ex.sys1, Ex.m1, Mct.numProcesses, Mct.numNui, Mct.chanIds, Ex.w1, Ex.chA, Ex.chB,
      Channel.numNui, Channel.numTemplates, Channel.numBins]

/-- non-vacuity of C122_short_partial: one entry only, but process `bkg` is number 1 -/
example : (Ex.sys1.m.updateParameters Ex.sys1.w [.fin 10]).2.tmpls = Ex.sys1.w.tmpls :=
  (C122_short_partial Ex.sys1 Ex.sys1_built [.fin 10] ⟨0, by simp [Ex.sys1, Ex.m1, Mct.chanIds], "bkg",
    by simp [Ex.sys1, Ex.w1, Ex.chA], by simp [Ex.sys1, Ex.m1, List.idxOf_cons]⟩).2.1

end

end TF.Props
