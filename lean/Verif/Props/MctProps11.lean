import Verif.Lemmas.Total
import Verif.Props.MctProps10

set_option linter.unusedSimpArgs false

/-!
# Which parameter vectors the likelihood accepts (C87)
-/

namespace TF.Props

open Classical Spec

noncomputable section

theorem ready_of_populated {s : Sys} (hs : s.Reachable) (hpop : Populated s) (c : ℕ) (hc : c ∈ s.m.chanIds) :
    Ready s.w c := by
  have hw := reachable_wf hs
  have hcw := hw.chan c (hw.lt c hc)
  have h1 := congrArg List.length hcw.tkeys
  have h2 := congrArg List.length hcw.ekeys
  simp at h1 h2
  refine ⟨?_, h1, h2, ?_⟩
  · have := List.length_pos_of_ne_nil (hpop c hc).1
    unfold Channel.numTemplates; omega
  · intro t ht
    obtain ⟨q, hq, rfl⟩ := List.mem_map.mp ht
    obtain ⟨a1, a2, -, -⟩ := hcw.tmpl q hq
    obtain ⟨ops, rfl⟩ := hs
    refine ⟨init_dims ops _ a1, ?_⟩
    rw [(hw.tmpl _ a1).num, a2]

theorem sub_procs {s : Sys} (hw : SysWF s) : ∀ c ∈ s.m.chanIds, ∀ p ∈ (s.w.chans c).procs, p ∈ s.m.processes := by
  intro c hc p hp
  refine hw.sub c (hw.lt c hc) p ?_
  rw [← (hw.chan c (hw.lt c hc)).tkeys]
  exact hp

theorem nll_take (w : World) (m : Mct) (x : Vec) (hm : ∀ p ∈ m.constrained, p ∈ m.processes) :
    m.nll w (x.take (m.numProcesses + m.numNui w)) = m.nll w x := by
  have h1 : (x.take (m.numProcesses + m.numNui w)).take m.numProcesses = x.take m.numProcesses := by
    rw [List.take_take]; congr 1; omega
  have h2 : (x.take (m.numProcesses + m.numNui w)).take (m.numNui w + m.numProcesses) =
      x.take (m.numNui w + m.numProcesses) := by
    rw [List.take_take]; congr 1; omega
  have hp : m.perChannel w (x.take (m.numProcesses + m.numNui w)) = m.perChannel w x := by
    unfold Mct.perChannel
    rw [h1, h2]
  have hc : ∀ ps : List String, (∀ p ∈ ps, p ∈ m.processes) →
      m.constraintSum (x.take (m.numProcesses + m.numNui w)) ps = m.constraintSum x ps := by
    intro ps
    induction ps with
    | nil => intro _; rfl
    | cons p ps ih =>
      intro h
      have hlt : m.processes.idxOf p < m.numProcesses + m.numNui w :=
        lt_of_lt_of_le (List.idxOf_lt_length_iff.mpr (h p (by simp))) (Nat.le_add_right _ _)
      unfold Mct.constraintSum
      rw [ih fun p hp => h p (by simp [hp]), List.getElem?_take, if_pos hlt]
  unfold Mct.nll
  rw [hp, hc _ hm]

/-- **C87, surplus.** Entries of the parameter vector beyond `num_processes + num_nui_params` are ignored. -/
theorem C87_surplus (s : Sys) (hs : s.Reachable) (x : Vec) :
    objective s.w s.m (x.take (s.m.numProcesses + s.m.numNui s.w)) = objective s.w s.m x := by
  unfold objective
  rw [nll_take _ _ _ fun p hp => ((reachable_wf hs).cons p hp).1]

theorem computeIndices_length (procs outer : List String) : ∀ {l : List ℕ}, computeIndices procs outer = .ok l →
    l.length = procs.length := by
  induction procs with
  | nil => intro l h; obtain rfl := Except.ok.inj h; rfl
  | cons p ps ih =>
    intro l h
    unfold computeIndices at h
    split at h
    · split at h
      · rename_i l' hl
        obtain rfl := Except.ok.inj h
        simp [ih hl]
      · cases h
    · cases h

theorem takeIdx_length (v : Vec) (is : List ℕ) : ∀ {l : Vec}, takeIdx v is = .ok l → l.length = is.length := by
  induction is with
  | nil => intro l h; obtain rfl := Except.ok.inj h; rfl
  | cons i is ih =>
    intro l h
    unfold takeIdx at h
    split at h
    · cases h
    · split at h
      · cases h
      · rename_i l' hl
        obtain rfl := Except.ok.inj h
        simp [ih hl]

theorem yieldsPure_lengths (w : World) (procs : List String) (y : Vec) (cs : List ℕ) :
    ∀ {ys : List Vec}, yieldsPure w procs y cs = .ok ys → ys.length = cs.length ∧
      ∀ k (h1 : k < cs.length) (h2 : k < ys.length), ys[k].length = (w.chans cs[k]).procs.length := by
  induction cs with
  | nil => intro ys h; obtain rfl := Except.ok.inj h; simp
  | cons c cs ih =>
    intro ys h
    unfold yieldsPure at h
    split at h
    · cases h
    · rename_i idx hi
      split at h
      · cases h
      · rename_i y0 hy0
        split at h
        · cases h
        · rename_i l hl
          obtain rfl := Except.ok.inj h
          obtain ⟨h1, h2⟩ := ih hl
          refine ⟨by simp [h1], ?_⟩
          intro k k1 k2
          cases k with
          | zero =>
            show y0.length = _
            rw [takeIdx_length _ _ hy0, computeIndices_length _ _ hi]
            rfl
          | succ k => exact h2 k (Nat.lt_of_succ_lt_succ k1) (Nat.lt_of_succ_lt_succ k2)

theorem blocks_lengths {α : Type} (ns : List ℕ) : ∀ (l : List α), l.length = ns.sum → ∀ k (h1 : k < ns.length)
    (h2 : k < (blocks ns l).length), (blocks ns l)[k].length = ns[k] := by
  induction ns with
  | nil => intro l _ k h1; simp at h1
  | cons n ns ih =>
    intro l hl k h1 h2
    simp only [List.sum_cons] at hl
    cases k with
    | zero => simp [blocks]; omega
    | succ k =>
      have := ih (l.drop n) (by simp; omega) k (Nat.lt_of_succ_lt_succ h1) (by rw [blocks_length]; exact Nat.lt_of_succ_lt_succ h1)
      simpa [blocks] using this

theorem sum_eq_of_get {cs : List ℕ} {f : ℕ → ℕ} : ∀ {ns : List Vec}, ns.length = cs.length →
    (∀ k (h1 : k < cs.length) (h2 : k < ns.length), ns[k].length = f cs[k]) →
    (ns.map (·.length)).sum = (cs.map f).sum := by
  induction cs with
  | nil => intro ns h _; have : ns = [] := List.length_eq_zero_iff.mp h; subst this; rfl
  | cons c cs ih =>
    intro ns h hk
    cases ns with
    | nil => simp at h
    | cons n ns =>
      simp only [List.map_cons, List.sum_cons]
      rw [ih (ns := ns) (by simpa using h) fun k h1 h2 => hk (k + 1) (Nat.succ_lt_succ h1) (Nat.succ_lt_succ h2)]
      have := hk 0 (by simp) (by simp)
      simp only [List.getElem_cons_zero] at this
      rw [this]

theorem numNui_pos {s : Sys} (hs : s.Reachable) (hne : s.m.channels ≠ []) (hpop : Populated s) :
    0 < s.m.numNui s.w := by
  obtain ⟨c, cs, e⟩ : ∃ c cs, s.m.chanIds = c :: cs := by
    apply List.exists_cons_of_ne_nil
    simp [Mct.chanIds, hne]
  have hc : c ∈ s.m.chanIds := by rw [e]; simp
  have h1 := (ready_of_populated hs hpop c hc).ne
  have h2 := (hpop c hc).2
  unfold Mct.numNui
  rw [e]
  simp only [List.map_cons, List.sum_cons]
  have : 0 < (s.w.chans c).numNui := Nat.mul_pos h1 h2
  omega

/-- **C87.** For every built model in which every channel has templates, bins and data: evaluating the likelihood
at `x` returns a number exactly if `x` has at least `num_processes + num_nui_params` entries, whatever these are
(also NaN or infinite); for every shorter vector it raises. -/
theorem C87_accepts (s : Sys) (hs : s.Built) (hne : s.m.channels ≠ []) (hpop : Populated s)
    (hd : DataEverywhere s) (x : Vec) :
    (∃ v, objective s.w s.m x = .ok v) ↔ s.m.numProcesses + s.m.numNui s.w ≤ x.length := by
  have hw := reachable_wf hs.reachable
  have hobj : ∀ x, objective s.w s.m x = nllPure s.w s.m x := fun x =>
    (nll_coh hs.coherent s.m hw.lt x).1
  have hlen : ∀ c ∈ s.m.chanIds, ∀ x, (chanYields s.w s.m x c).length = (s.w.chans c).numTemplates := by
    intro c hc x
    have := (ready_of_populated hs.reachable hpop c hc).tl
    simp [chanYields, Channel.procs, this]
  constructor
  · rintro ⟨v, hv⟩
    rw [hobj] at hv
    unfold nllPure at hv
    cases hp : perChannelPure s.w s.m x with
    | error e => rw [hp] at hv; cases hv
    | ok p =>
      rw [hp] at hv
      obtain ⟨ys, ns⟩ := p
      simp only at hv
      cases hcp : channelsPure s.w s.m.chanIds ys ns with
      | error e => rw [hcp] at hv; cases hv
      | ok r =>
        unfold perChannelPure at hp
        cases hy : yieldsPure s.w s.m.processes (x.take s.m.numProcesses) s.m.chanIds with
        | error e => rw [hy] at hp; cases hp
        | ok ys' =>
          rw [hy] at hp
          simp only [Except.ok.injEq, Prod.mk.injEq] at hp
          obtain ⟨rfl, rfl⟩ := hp
          obtain ⟨y1, y2⟩ := yieldsPure_lengths _ _ _ _ hy
          have hnp := numNui_pos hs.reachable hne hpop
          by_contra hx
          push Not at hx
          obtain ⟨c0, cs0, e0⟩ : ∃ c cs, s.m.chanIds = c :: cs := by
            apply List.exists_cons_of_ne_nil
            simp [Mct.chanIds, hne]
          set nui := (x.take (s.m.numNui s.w + s.m.numProcesses)).drop s.m.numProcesses with hnui
          set sizes := s.m.chanIds.map fun c => (s.w.chans c).numNui with hsz
          have hsum : sizes.sum = s.m.numNui s.w := rfl
          obtain ⟨q1, q2⟩ := splitIdxFrom_sum nui (cs0.map fun c => (s.w.chans c).numNui) (s.w.chans c0).numNui 0
          have esz : (s.w.chans c0).numNui :: cs0.map (fun c => (s.w.chans c).numNui) = sizes := by
            rw [hsz, e0]; rfl
          rw [esz] at q1 q2
          have q2' : (splitIdx nui (cumsum sizes).dropLast).length = s.m.chanIds.length := by
            unfold splitIdx cumsum; rw [q2, e0]; simp
          have hall := (channelsPure_ok s.m.chanIds ys' (splitIdx nui (cumsum sizes).dropLast) y1 q2').mp ⟨r, hcp⟩
          have hl : ((splitIdx nui (cumsum sizes).dropLast).map (·.length)).sum = sizes.sum := by
            rw [hsz]
            apply sum_eq_of_get q2'
            intro k k1 k2
            have hm := List.getElem_mem k1
            obtain ⟨hid, d1, d2⟩ := hd _ hm
            have hr := ready_of_populated hs.reachable hpop _ hm
            refine (contribPure_iff hr d1 d2 (y := ys'[k]'(by omega)) ?_ _).2 (hall k k1 (by omega) k2)
            rw [y2 k k1 (by omega)]
            simp [Channel.procs, hr.tl]
          rw [hsum] at hl
          have q1' : ((splitIdx nui (cumsum sizes).dropLast).map (·.length)).sum = nui.length - 0 := q1
          have hnl : nui.length = min (s.m.numNui s.w + s.m.numProcesses) x.length - s.m.numProcesses := by
            rw [hnui, List.length_drop, List.length_take]
          omega
  · intro hx
    rw [← C87_surplus s hs.reachable x, hobj]
    set x' := x.take (s.m.numProcesses + s.m.numNui s.w) with hx'
    have hxl : x'.length = s.m.numProcesses + s.m.numNui s.w := by rw [hx', List.length_take]; omega
    have hpc := perChannelPure_eq s.w s.m x' hne (sub_procs hw) hxl
    unfold nllPure
    rw [hpc]
    simp only
    have hbl : (blocks (nuiSizes s.w s.m) (x'.drop s.m.numProcesses)).length = s.m.chanIds.length := by
      rw [blocks_length]; simp [nuiSizes]
    have hsl : (x'.drop s.m.numProcesses).length = (nuiSizes s.w s.m).sum := by
      rw [List.length_drop, hxl]; simp [nuiSizes, Mct.numNui]
    obtain ⟨r, hr⟩ := (channelsPure_ok (w := s.w) s.m.chanIds (s.m.chanIds.map (chanYields s.w s.m x'))
      (blocks (nuiSizes s.w s.m) (x'.drop s.m.numProcesses)) (by simp) hbl).mpr (by
        intro k k1 k2 k3
        have hm := List.getElem_mem k1
        obtain ⟨hid, d1, d2⟩ := hd _ hm
        refine (contribPure_iff (ready_of_populated hs.reachable hpop _ hm) d1 d2 ?_ _).1 ?_
        · rw [List.getElem_map, hlen _ hm]
        · have := blocks_lengths (nuiSizes s.w s.m) (x'.drop s.m.numProcesses) hsl k (by simpa [nuiSizes] using k1) k3
          rw [this]
          simp [nuiSizes])
    obtain ⟨k, hk⟩ := constraintSum_ok s.m x' (by rw [hxl]; exact Nat.le_add_right _ _) s.m.constrained hw.cons
    simp only [hr, hk]
    exact ⟨_, rfl⟩

theorem ready_of_templates {s : Sys} (hs : s.Reachable) (c : ℕ) (hc : c ∈ s.m.chanIds)
    (ht : (s.w.chans c).templates ≠ []) : Ready s.w c := by
  have hw := reachable_wf hs
  have hcw := hw.chan c (hw.lt c hc)
  have h1 := congrArg List.length hcw.tkeys
  have h2 := congrArg List.length hcw.ekeys
  simp at h1 h2
  refine ⟨?_, h1, h2, ?_⟩
  · have := List.length_pos_of_ne_nil ht
    unfold Channel.numTemplates; omega
  · intro t ht
    obtain ⟨q, hq, rfl⟩ := List.mem_map.mp ht
    obtain ⟨a1, a2, -, -⟩ := hcw.tmpl q hq
    obtain ⟨ops, rfl⟩ := hs
    exact ⟨init_dims ops _ a1, by rw [(hw.tmpl _ a1).num, a2]⟩

theorem channelsPure_error {w : World} {e : Err} (cs : List ℕ) : ∀ (ys ns : List Vec) (_ : ys.length = cs.length)
    (_ : ns.length = cs.length),
    (∀ k (h1 : k < cs.length) (h2 : k < ys.length) (h3 : k < ns.length),
      (∃ v, contribPure w cs[k] ys[k] ns[k] = .ok v) ∨ contribPure w cs[k] ys[k] ns[k] = .error e) →
    (∃ k, ∃ (h1 : k < cs.length) (h2 : k < ys.length) (h3 : k < ns.length),
      contribPure w cs[k] ys[k] ns[k] = .error e) →
    channelsPure w cs ys ns = .error e := by
  induction cs with
  | nil => intro ys ns _ _ _ h; obtain ⟨k, h1, _⟩ := h; simp at h1
  | cons c cs ih =>
    intro ys ns hy hn hall hex
    cases ys with
    | nil => simp at hy
    | cons y ys =>
      cases ns with
      | nil => simp at hn
      | cons n ns =>
        unfold channelsPure
        rcases hall 0 (by simp) (by simp) (by simp) with ⟨v, hv⟩ | hv
        · simp only [List.getElem_cons_zero] at hv
          rw [hv]
          simp only
          rw [ih ys ns (by simpa using hy) (by simpa using hn)
            (fun k h1 h2 h3 => hall (k + 1) (Nat.succ_lt_succ h1) (Nat.succ_lt_succ h2) (Nat.succ_lt_succ h3)) ?_]
          obtain ⟨k, h1, h2, h3, hk⟩ := hex
          cases k with
          | zero => simp only [List.getElem_cons_zero] at hk; rw [hv] at hk; cases hk
          | succ k => exact ⟨k, Nat.lt_of_succ_lt_succ h1, Nat.lt_of_succ_lt_succ h2, Nat.lt_of_succ_lt_succ h3, hk⟩
        · simp only [List.getElem_cons_zero] at hv
          rw [hv]

/-- one failing channel among otherwise usable ones decides the outcome -/
theorem nll_error_of_channel {s : Sys} (hs : s.Built) (hne : s.m.channels ≠ []) {e : Err} {x : Vec}
    (hx : s.m.numProcesses + s.m.numNui s.w ≤ x.length)
    (hall : ∀ c ∈ s.m.chanIds, ∀ y n, y.length = (s.w.chans c).numTemplates → n.length = (s.w.chans c).numNui →
      (∃ v, contribPure s.w c y n = .ok v) ∨ contribPure s.w c y n = .error e)
    (hex : ∃ c ∈ s.m.chanIds, ∀ y n, y.length = (s.w.chans c).numTemplates → n.length = (s.w.chans c).numNui →
      contribPure s.w c y n = .error e) :
    objective s.w s.m x = .error e := by
  have hw := reachable_wf hs.reachable
  have hobj : ∀ x, objective s.w s.m x = nllPure s.w s.m x := fun x => (nll_coh hs.coherent s.m hw.lt x).1
  rw [← C87_surplus s hs.reachable x, hobj]
  set x' := x.take (s.m.numProcesses + s.m.numNui s.w) with hx'
  have hxl : x'.length = s.m.numProcesses + s.m.numNui s.w := by rw [hx', List.length_take]; omega
  have hpc := perChannelPure_eq s.w s.m x' hne (sub_procs hw) hxl
  unfold nllPure
  rw [hpc]
  simp only
  have hlen : ∀ c ∈ s.m.chanIds, (chanYields s.w s.m x' c).length = (s.w.chans c).numTemplates := by
    intro c hc
    have h1 := congrArg List.length (hw.chan c (hw.lt c hc)).tkeys
    simp at h1
    simp [chanYields, Channel.procs, h1, Channel.numTemplates]
  have hbl : (blocks (nuiSizes s.w s.m) (x'.drop s.m.numProcesses)).length = s.m.chanIds.length := by
    rw [blocks_length]; simp [nuiSizes]
  have hsl : (x'.drop s.m.numProcesses).length = (nuiSizes s.w s.m).sum := by
    rw [List.length_drop, hxl]; simp [nuiSizes, Mct.numNui]
  have hbk : ∀ k (k1 : k < s.m.chanIds.length) (k3 : k < (blocks (nuiSizes s.w s.m) (x'.drop s.m.numProcesses)).length),
      (blocks (nuiSizes s.w s.m) (x'.drop s.m.numProcesses))[k].length = (s.w.chans s.m.chanIds[k]).numNui := by
    intro k k1 k3
    rw [blocks_lengths (nuiSizes s.w s.m) (x'.drop s.m.numProcesses) hsl k (by simpa [nuiSizes] using k1) k3]
    simp [nuiSizes]
  rw [channelsPure_error (e := e) s.m.chanIds (s.m.chanIds.map (chanYields s.w s.m x'))
      (blocks (nuiSizes s.w s.m) (x'.drop s.m.numProcesses)) (by simp) hbl ?_ ?_]
  · intro k k1 k2 k3
    have hm := List.getElem_mem k1
    exact hall _ hm _ _ (by rw [List.getElem_map, hlen _ hm]) (hbk k k1 k3)
  · obtain ⟨c, hc, h⟩ := hex
    obtain ⟨k, k1, rfl⟩ := List.mem_iff_getElem.mp hc
    refine ⟨k, k1, by simpa using k1, by rw [hbl]; exact k1, ?_⟩
    exact h _ _ (by rw [List.getElem_map, hlen _ hc]) (hbk k k1 _)

/-- **C87, missing data.** If some channel has no data (and the channels that have data have one number per bin),
evaluating the likelihood at any vector of sufficient length raises `AttributeError`. -/
theorem C87_no_data (s : Sys) (hs : s.Built) (hpop : Populated s)
    (hd : ∀ c ∈ s.m.chanIds, ∀ hid, (s.w.chans c).hdata = some hid →
      (s.w.hists hid).counts.data.length = (s.w.chans c).bins.prod)
    (hno : ∃ c ∈ s.m.chanIds, (s.w.chans c).hdata = none) (x : Vec)
    (hx : s.m.numProcesses + s.m.numNui s.w ≤ x.length) :
    objective s.w s.m x = .error .attributeError := by
  have hnone : ∀ c, (s.w.chans c).hdata = none → ∀ y n, contribPure s.w c y n = .error .attributeError := by
    intro c h y n; unfold contribPure; rw [h]
  obtain ⟨c, hc, h0⟩ := hno
  refine nll_error_of_channel hs ?_ hx ?_ ⟨c, hc, fun y n _ _ => hnone c h0 y n⟩
  · intro e; simp [Mct.chanIds, e] at hc
  · intro c hc y n hy hn
    cases h : (s.w.chans c).hdata with
    | none => exact Or.inr (hnone c h y n)
    | some hid =>
      exact Or.inl ((contribPure_iff (ready_of_populated hs.reachable hpop c hc) h (hd c hc hid h) hy n).1 hn)

/-- **C87, missing templates.** If some channel has data but no template, evaluating the likelihood raises
`ZeroDivisionError`. -/
theorem C87_no_templates (s : Sys) (hs : s.Built) (hd : DataEverywhere s)
    (hno : ∃ c ∈ s.m.chanIds, (s.w.chans c).templates = []) (x : Vec)
    (hx : s.m.numProcesses + s.m.numNui s.w ≤ x.length) :
    objective s.w s.m x = .error .zeroDivisionError := by
  have hw := reachable_wf hs.reachable
  have hempty : ∀ c ∈ s.m.chanIds, (s.w.chans c).templates = [] → ∀ y n, y.length = (s.w.chans c).numTemplates →
      contribPure s.w c y n = .error .zeroDivisionError := by
    intro c hc h y n hy
    have hcw := hw.chan c (hw.lt c hc)
    have h1 := congrArg List.length hcw.tkeys
    have h2 := congrArg List.length hcw.ekeys
    rw [h] at h1
    simp at h1 h2
    rw [← h1] at h2
    have hK : (s.w.chans c).numTemplates = 0 := h1.symm
    obtain ⟨hid, d1, d2⟩ := hd c hc
    unfold contribPure expectedPure
    simp only [d1]
    rw [bop_ok (by simp [hy, hK, h2])]
    simp only [World.chanFractions, splitEq, hK, if_true]
  obtain ⟨c, hc, h0⟩ := hno
  refine nll_error_of_channel hs ?_ hx ?_ ⟨c, hc, fun y n hy _ => hempty c hc h0 y n hy⟩
  · intro e; simp [Mct.chanIds, e] at hc
  · intro c hc y n hy hn
    by_cases h : (s.w.chans c).templates = []
    · exact Or.inr (hempty c hc h y n hy)
    · obtain ⟨hid, d1, d2⟩ := hd c hc
      exact Or.inl ((contribPure_iff (ready_of_templates hs.reachable c hc h) d1 d2 hy n).1 hn)

/-- non-vacuity of C87: the two-channel example is built, populated and has data everywhere -/
example : Ex.sys1.Built ∧ Ex.sys1.m.channels ≠ [] ∧ Populated Ex.sys1 ∧ DataEverywhere Ex.sys1 := by
  refine ⟨Ex.sys1_built, by simp [Ex.sys1, Ex.m1], ?_, ?_⟩
  · intro c hc
    simp [Ex.sys1, Ex.m1, Mct.chanIds] at hc
    rcases hc with rfl | rfl <;> simp [Ex.sys1, Ex.w1, Ex.chA, Ex.chB]
  · intro c hc
    simp [Ex.sys1, Ex.m1, Mct.chanIds] at hc
    rcases hc with rfl | rfl <;> simp [Ex.sys1, Ex.w1, Ex.chA, Ex.chB, Ex.w0, Ex.bh, Hist.setBinned, vec_length]

/-- non-vacuity of `C87_no_data`: the program that defines a channel and adds a template, but no data -/
def Ex.opsNoData : List Op := [.defineChannel "a" (.int 2) (.d1 .tuple 0 2), .defineProcess "sig", .addTemplate "a" "sig" 0 (.fin 1)]

def Ex.sysNoData : Sys :=
  ⟨{ Ex.w0 with
      chans := Function.update (fun _ => dummyChan) 0
        ⟨"a", [2], .d1 .tuple 0 2, ["sig"], [("sig", 0)], [("sig", .fin 1)], none, some 1, some .t1, some .h1⟩
      nChans := 1 }, ⟨[("a", 0)], ["sig"], [], [], []⟩⟩

theorem Ex.runNoData : Sys.init.run (Ex.ops0 ++ Ex.opsNoData) = Ex.sysNoData := by
  rw [run_append, Ex.run0]
  simp only [Ex.opsNoData, Sys.run, List.foldl_cons, List.foldl_nil, Sys.step, Mct.defineChannel, Mct.defineProcess,
    Mct.addTemplate, World.addTemplate, Mct.empty, World.newChan, dictSet, dictGet, World.setChan]
  simp [Ex.w0, World.init, Channel.new, Channel.addTemplate, Channel.checkTemplate, Channel.procs, Ex.bt, Ex.bh,
    Hist.setBinned, Hist.blank, ChanBins.toTuple, dictSet, dictGet,
    Function.update_apply, Ex.sysNoData]

example (x : Vec) (hx : 3 ≤ x.length) : objective Ex.sysNoData.w Ex.sysNoData.m x = .error .attributeError := by
  have hb : Ex.sysNoData.Built := by
    refine ⟨_, setupFirst_of_noEval ?_, Ex.runNoData⟩
    intro o ho
    simp only [Ex.ops0, Ex.opsNoData, List.cons_append, List.nil_append, List.mem_cons, List.not_mem_nil, or_false] at ho
    rcases ho with rfl | rfl | rfl | rfl | rfl | rfl | rfl | rfl | rfl <;> exact id
  refine C87_no_data Ex.sysNoData hb ?_ ?_ ⟨0, ?_, ?_⟩ x ?_
  · intro c hc
    simp [Ex.sysNoData, Mct.chanIds] at hc
    subst hc
    simp [Ex.sysNoData]
  · intro c hc hid h
    simp [Ex.sysNoData, Mct.chanIds] at hc
    subst hc
    simp [Ex.sysNoData] at h
  · simp [Ex.sysNoData, Mct.chanIds]
  · simp [Ex.sysNoData]
  · simpa [Ex.sysNoData, Mct.chanIds, Mct.numNui, Channel.numNui, Channel.numTemplates, Channel.numBins,
      Mct.numProcesses] using hx

/-- non-vacuity of `C87_no_templates`: the program that defines a channel and adds data, but no template -/
def Ex.opsNoTmpl : List Op := [.defineChannel "a" (.int 2) (.d1 .tuple 0 2), .addData [("a", 2)]]

def Ex.sysNoTmpl : Sys :=
  ⟨{ Ex.w0 with
      chans := Function.update (fun _ => dummyChan) 0
        ⟨"a", [2], .d1 .tuple 0 2, [], [], [], some 2, none, none, none⟩
      nChans := 1 }, ⟨[("a", 0)], [], [], [], []⟩⟩

theorem Ex.runNoTmpl : Sys.init.run (Ex.ops0 ++ Ex.opsNoTmpl) = Ex.sysNoTmpl := by
  rw [run_append, Ex.run0]
  simp only [Ex.opsNoTmpl, Sys.run, List.foldl_cons, List.foldl_nil, Sys.step, Mct.defineChannel,
    Mct.empty, World.newChan, dictSet, dictGet, World.setChan, Mct.addData, World.addData]
  simp [Ex.w0, World.init, Channel.new, Ex.bh, Channel.addData, Channel.checkHist,
    Hist.setBinned, Hist.blank, ChanBins.toTuple, dictSet, dictGet,
    Function.update_apply, Ex.sysNoTmpl]

example (x : Vec) : objective Ex.sysNoTmpl.w Ex.sysNoTmpl.m x = .error .zeroDivisionError := by
  have hb : Ex.sysNoTmpl.Built := by
    refine ⟨_, setupFirst_of_noEval ?_, Ex.runNoTmpl⟩
    intro o ho
    simp only [Ex.ops0, Ex.opsNoTmpl, List.cons_append, List.nil_append, List.mem_cons, List.not_mem_nil, or_false] at ho
    rcases ho with rfl | rfl | rfl | rfl | rfl | rfl | rfl | rfl <;> exact id
  refine C87_no_templates Ex.sysNoTmpl hb ?_ ⟨0, ?_, ?_⟩ x ?_
  · intro c hc
    simp [Ex.sysNoTmpl, Mct.chanIds] at hc
    subst hc
    simp [Ex.sysNoTmpl, Ex.w0, Ex.bh, Hist.setBinned, vec_length]
  · simp [Ex.sysNoTmpl, Mct.chanIds]
  · simp [Ex.sysNoTmpl]
  · simp [Ex.sysNoTmpl, Mct.chanIds, Mct.numNui, Channel.numNui, Channel.numTemplates, Channel.numBins,
      Mct.numProcesses]

end

end TF.Props
