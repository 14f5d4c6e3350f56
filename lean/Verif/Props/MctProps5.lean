import Verif.Props.MctProps4
import Std.Data.String.ToNat

set_option linter.unusedSimpArgs false

/-!
# Starting values and parameter names (C51, C52)
-/

namespace TF.Spec

/-- different templates of the model (with at least one bin) have different `<channel>_<process>` -/
def JoinedNamesDiffer (s : Sys) : Prop :=
  ∀ x ∈ s.m.channels, ∀ y ∈ s.m.channels, ∀ p ∈ (s.w.chans x.2).templates, ∀ q ∈ (s.w.chans y.2).templates,
    0 < (s.w.tmpls p.2).numBins → 0 < (s.w.tmpls q.2).numBins →
    x.1 ++ "_" ++ p.1 = y.1 ++ "_" ++ q.1 → x.1 = y.1 ∧ p.1 = q.1

end TF.Spec

namespace TF.Props

open Classical Spec

noncomputable section

/-- element `j` of block `k` of a concatenation -/
theorem flatten_get {α : Type} (L : List (List α)) : ∀ (k : ℕ) (hk : k < L.length) (j : ℕ) (hj : j < L[k].length),
    L.flatten[((L.take k).map List.length).sum + j]? = some L[k][j] := by
  induction L with
  | nil => intro k hk; simp at hk
  | cons l L ih =>
    intro k hk j hj
    cases k with
    | zero =>
      simp only [List.getElem_cons_zero] at hj
      simp [List.getElem?_append_left hj, List.getElem?_eq_getElem hj]
    | succ k =>
      simp only [List.getElem_cons_succ] at hj
      have := ih k (by simpa using hk) j hj
      simp only [List.flatten_cons, List.take_succ_cons, List.map_cons, List.sum_cons, List.getElem_cons_succ]
      rw [List.getElem?_append_right (by omega), ← this]
      congr 1; omega

theorem chan_lens {s : Sys} (hw : SysWF s) {c : ℕ} (hc : c ∈ s.m.chanIds) :
    (s.w.chans c).templates.length = (s.w.chans c).numTemplates ∧
    ∀ t ∈ (s.w.chans c).templates, (s.w.tmpls t.2).numBins = (s.w.chans c).bins.prod ∧
      (s.w.tmpls t.2).params.length = (s.w.chans c).bins.prod + 1 := by
  have hcw := hw.chan c (hw.lt c hc)
  refine ⟨?_, ?_⟩
  · rw [← List.length_map (·.1), hcw.tkeys]; rfl
  · intro t ht
    obtain ⟨h1, h2, -⟩ := hcw.tmpl t ht
    have := hw.tmpl _ h1
    rw [this.params, this.num, h2]
    exact ⟨rfl, rfl⟩

/-- a nested concatenation: one block per channel, consisting of one block of `bins.prod` entries per template -/
theorem nested_get {α : Type} {s : Sys} (hw : SysWF s) (f : ℕ → String × ℕ → List α)
    (hf : ∀ c ∈ s.m.chanIds, ∀ t ∈ (s.w.chans c).templates, (f c t).length = (s.w.chans c).bins.prod) (pre : List α)
    (hpre : pre.length = s.m.processes.length) :
    (pre ++ (s.m.chanIds.map fun c => ((s.w.chans c).templates.map (f c)).flatten).flatten).length =
      s.m.numProcesses + s.m.numNui s.w ∧
    ∀ k, (hk : k < s.m.chanIds.length) → ∀ j, (hj : j < (s.w.chans s.m.chanIds[k]).templates.length) →
      ∀ i, (hi : i < (s.w.chans s.m.chanIds[k]).bins.prod) →
      (pre ++ (s.m.chanIds.map fun c => ((s.w.chans c).templates.map (f c)).flatten).flatten)[nuiOffset s k j + i]? =
        (f s.m.chanIds[k] (s.w.chans s.m.chanIds[k]).templates[j])[i]? := by
  have hlen : ∀ c ∈ s.m.chanIds, (((s.w.chans c).templates.map (f c)).flatten).length = (s.w.chans c).numNui := by
    intro c hc
    rw [flatten_length ((s.w.chans c).bins.prod)]
    · rw [List.length_map, (chan_lens hw hc).1]; rfl
    · intro b hb
      obtain ⟨t, ht, rfl⟩ := List.mem_map.mp hb
      exact hf c hc t ht
  refine ⟨?_, ?_⟩
  · rw [List.length_append, hpre, List.length_flatten, List.map_map]
    unfold Mct.numProcesses Mct.numNui
    congr 2
    apply List.map_congr_left
    intro c hc
    exact hlen c hc
  · intro k hk j hj i hi
    have hcm : s.m.chanIds[k] ∈ s.m.chanIds := List.getElem_mem hk
    have hfj := hf _ hcm _ (List.getElem_mem hj)
    set C := s.w.chans s.m.chanIds[k] with hC
    have e1 : ((C.templates.map (f s.m.chanIds[k])).flatten)[j * C.bins.prod + i]? =
        some ((f s.m.chanIds[k] C.templates[j])[i]'(by rw [hfj]; exact hi)) := by
      have := flatten_get (C.templates.map (f s.m.chanIds[k])) j (by simpa using hj) i
        (by rw [List.getElem_map, hfj]; exact hi)
      have e2 : (((C.templates.map (f s.m.chanIds[k])).take j).map List.length).sum = j * C.bins.prod := by
        have : ((C.templates.map (f s.m.chanIds[k])).take j).map List.length =
            List.replicate j C.bins.prod := by
          apply List.ext_getElem
          · simp; omega
          · intro a a1 a2
            have ha : a < C.templates.length := by simp at a1; omega
            simp
            exact hf _ hcm _ (List.getElem_mem ha)
        rw [this, List.sum_replicate, smul_eq_mul]
      rw [e2] at this
      rw [this]
      simp
    have hlt : j * C.bins.prod + i < ((C.templates.map (f s.m.chanIds[k])).flatten).length := by
      by_contra hge
      rw [List.getElem?_eq_none (by omega)] at e1
      simp at e1
    have e3 := flatten_get (s.m.chanIds.map fun c => ((s.w.chans c).templates.map (f c)).flatten) k
      (by simpa using hk) (j * C.bins.prod + i) (by rw [List.getElem_map]; exact hlt)
    have e4 : nuiOffset s k j + i = pre.length +
        ((((s.m.chanIds.map fun c => ((s.w.chans c).templates.map (f c)).flatten).take k).map List.length).sum +
          (j * C.bins.prod + i)) := by
      have : (((s.m.chanIds.map fun c => ((s.w.chans c).templates.map (f c)).flatten).take k).map List.length) =
          (s.m.chanIds.take k).map fun c => (s.w.chans c).numTemplates * (s.w.chans c).bins.prod := by
        rw [← List.map_take, List.map_map]
        apply List.map_congr_left
        intro c hc
        exact hlen c (List.mem_of_mem_take hc)
      rw [this, hpre]
      unfold nuiOffset
      rw [List.getD_eq_getElem?_getD, List.getElem?_eq_getElem hk]
      simp only [Option.getD_some, ← hC]
      omega
    rw [e4, List.getElem?_append_right (by omega), Nat.add_sub_cancel_left, e3]
    rw [List.getElem?_eq_getElem hlt] at e1
    simp only [List.getElem_map]
    rw [Option.some.inj e1, List.getElem?_eq_getElem]

/-! ## C51 -/

theorem paramNames_form (s : Sys) (hw : SysWF s) : s.m.paramNames s.w = s.m.processes.map (· ++ "_yield") ++
    (s.m.chanIds.map fun c => ((s.w.chans c).templates.map fun p =>
      (List.range (s.w.tmpls p.2).numBins).map fun i => nuiName (s.w.chans c).name p.1 i).flatten).flatten := by
  unfold Mct.paramNames Mct.chanIds World.channelNames
  rw [List.map_map]
  congr 2
  apply List.map_congr_left
  intro p hp
  simp only [Function.comp]
  rw [hw.chName p hp]

/-- **C51.** In every reachable model: `param_names` has length `num_processes + num_nui_params`; entry `i` below
`num_processes` is `<process i>_yield`; the entry for bin `i` of template `j` of channel `k` is
`<channel>_<process>_bin_<i>`. If the model has a template, `x0` has the same length, starts with the processes'
current yields and holds at that same position that template's `i`-th nuisance parameter. -/
theorem C51_aligned (s : Sys) (h : s.Reachable) :
    (s.m.paramNames s.w).length = s.m.numProcesses + s.m.numNui s.w ∧
    (∀ i, (hi : i < s.m.processes.length) → (s.m.paramNames s.w)[i]? = some (s.m.processes[i] ++ "_yield")) ∧
    (∀ k, (hk : k < s.m.channels.length) → ∀ j, (hj : j < (s.w.chans s.m.channels[k].2).templates.length) →
      ∀ i, i < (s.w.chans s.m.channels[k].2).bins.prod →
      (s.m.paramNames s.w)[nuiOffset s k j + i]? = some (s.m.channels[k].1 ++ "_" ++
        (s.w.chans s.m.channels[k].2).templates[j].1 ++ "_bin_" ++ toString i)) ∧
    ((∃ c ∈ s.m.chanIds, (s.w.chans c).templates ≠ []) → ∃ x, s.m.x0 s.w = .ok x ∧
      x.length = s.m.numProcesses + s.m.numNui s.w ∧
      (∀ i, (hi : i < s.m.processes.length) → ∃ y, x[i]? = some y ∧ s.m.getYield s.w s.m.processes[i] = .ok y) ∧
      (∀ k, (hk : k < s.m.channels.length) → ∀ j, (hj : j < (s.w.chans s.m.channels[k].2).templates.length) →
        ∀ i, i < (s.w.chans s.m.channels[k].2).bins.prod →
        ∃ θ, x[nuiOffset s k j + i]? = some θ ∧
          (s.w.tmpls (s.w.chans s.m.channels[k].2).templates[j].2).nuiParams[i]? = some θ)) := by
  have hw := reachable_wf h
  have hid : ∀ k (hk : k < s.m.channels.length), s.m.chanIds[k]'(by simpa [Mct.chanIds] using hk) =
      s.m.channels[k].2 := by intro k hk; simp [Mct.chanIds]
  have hn := nested_get hw (fun c p => (List.range (s.w.tmpls p.2).numBins).map fun i => nuiName (s.w.chans c).name p.1 i)
    (by
      intro c hc t ht
      rw [List.length_map, List.length_range, ((chan_lens hw hc).2 t ht).1])
    (s.m.processes.map (· ++ "_yield")) (by simp)
  rw [paramNames_form s hw]
  refine ⟨hn.1, ?_, ?_, ?_⟩
  · intro i hi
    rw [List.getElem?_append_left (by simpa using hi)]
    simp [List.getElem?_eq_getElem hi]
  · intro k hk j hj i hi
    have hk' : k < s.m.chanIds.length := by simpa [Mct.chanIds] using hk
    have hh := hn.2 k hk' j (by rw [hid k hk]; exact hj) i (by rw [hid k hk]; exact hi)
    rw [hh]
    have hcm : s.m.channels[k].2 ∈ s.m.chanIds := List.mem_map_of_mem (List.getElem_mem hk)
    have hb := ((chan_lens hw hcm).2 _ (List.getElem_mem hj)).1
    simp only [hid k hk]
    rw [List.getElem?_map, List.getElem?_range (by rw [hb]; exact hi)]
    simp only [Option.map_some, nuiName]
    rw [hw.chName _ (List.getElem_mem hk)]
  · rintro ⟨c0, hc0, hne⟩
    have hall : s.m.allTmpls s.w ≠ [] := by
      obtain ⟨t, ht⟩ := List.exists_mem_of_ne_nil _ hne
      intro e
      have : s.w.tmpls t.2 ∈ s.m.allTmpls s.w := by
        unfold Mct.allTmpls
        rw [List.mem_flatten]
        exact ⟨_, List.mem_map_of_mem hc0,
          List.mem_map_of_mem (f := fun q : String × ℕ => s.w.tmpls q.2) ht⟩
      rw [e] at this; simp at this
    have hx : s.m.x0 s.w = .ok (s.m.processYields s.w ++
        (s.m.chanIds.map fun c => ((s.w.chans c).templates.map fun p => (s.w.tmpls p.2).nuiParams).flatten).flatten) := by
      unfold Mct.x0 Mct.nuiParams
      rw [if_neg hall]
      simp only
      unfold Mct.allTmpls World.chanTmpls
      rw [List.map_flatten, List.flatten_flatten, List.map_map, List.map_map]
      congr 4
      funext c
      simp [List.map_map, Function.comp_def]
    have hm := nested_get hw (fun c p => (s.w.tmpls p.2).nuiParams) (by
      intro c hc t ht
      unfold Template.nuiParams
      rw [List.length_tail, ((chan_lens hw hc).2 t ht).2]; rfl) (s.m.processYields s.w)
      (by simp [Mct.processYields])
    refine ⟨_, hx, hm.1, ?_, ?_⟩
    · intro i hi
      have hi' : i < (s.m.processYields s.w).length := by simpa [Mct.processYields] using hi
      refine ⟨(s.m.processYields s.w)[i], ?_, ?_⟩
      · rw [List.getElem?_append_left hi', List.getElem?_eq_getElem hi']
      · unfold Mct.getYield
        rw [if_neg (by simp), hw.procs.idxOf_getElem]
        simp [List.getElem?_eq_getElem hi']
    · intro k hk j hj i hi
      have hk' : k < s.m.chanIds.length := by simpa [Mct.chanIds] using hk
      have hcm : s.m.channels[k].2 ∈ s.m.chanIds := List.mem_map_of_mem (List.getElem_mem hk)
      have hh := hm.2 k hk' j (by rw [hid k hk]; exact hj) i (by rw [hid k hk]; exact hi)
      simp only [hid k hk] at hh
      have hlt : i < (s.w.tmpls (s.w.chans s.m.channels[k].2).templates[j].2).nuiParams.length := by
        unfold Template.nuiParams
        rw [List.length_tail, ((chan_lens hw hcm).2 _ (List.getElem_mem hj)).2]; simpa using hi
      refine ⟨_, ?_, List.getElem?_eq_getElem hlt⟩
      rw [hh, List.getElem?_eq_getElem hlt]

theorem processYield_sum (w : World) (p : String) : ∀ cs : List ℕ, (∀ c ∈ cs, (w.chans c).procs.Nodup) →
    w.processYield p cs = (cs.map fun c => ((w.chans c).templates.map fun q =>
      if q.1 = p then (w.tmpls q.2).params.headD 0 else 0).sum).sum := by
  intro cs
  induction cs with
  | nil => intro _; rfl
  | cons c cs ih =>
    intro hn
    rw [List.map_cons, List.sum_cons, ← ih fun c hc => hn c (by simp [hc])]
    have key : ∀ l : List (String × ℕ), (l.map (·.1)).Nodup →
        (l.map fun q => if q.1 = p then (w.tmpls q.2).params.headD 0 else 0).sum =
          match dictGet l p with
          | some t => (w.tmpls t).params.headD 0
          | none => 0 := by
      intro l
      induction l with
      | nil => intro _; rfl
      | cons x l ihl =>
        obtain ⟨k, t⟩ := x
        intro hl
        simp only [List.map_cons, List.nodup_cons] at hl
        rw [List.map_cons, List.sum_cons, ihl hl.2]
        by_cases hk : k = p
        · subst hk
          have : dictGet l k = none := by
            cases hd : dictGet l k with
            | none => rfl
            | some t' => exact absurd (List.mem_map_of_mem (f := (·.1)) (dictGet_mem hd)) hl.1
          simp [dictGet, this]
        · simp [dictGet, hk]
    rw [key _ (hn c (by simp))]
    simp only [World.processYield, Template.yieldParam]
    cases dictGet (w.chans c).templates p <;> simp

/-- **C51, the start values.** In every reachable model with a template, entry `i` of `x0` below the number of processes is the
sum, over all channels and their templates of the `i`-th process, of the templates' current yields; `get_yield` of that process is
the same number. -/
theorem C51_yields (s : Sys) (h : s.Reachable) (x : Vec) (hx : s.m.x0 s.w = .ok x) (i : ℕ) (hi : i < s.m.processes.length) :
    let y := (s.m.channels.map fun ch => ((s.w.chans ch.2).templates.map fun q =>
      if q.1 = s.m.processes[i] then (s.w.tmpls q.2).params.headD 0 else 0).sum).sum
    x[i]? = some y ∧ s.m.getYield s.w s.m.processes[i] = .ok y := by
  intro y
  have hw := reachable_wf h
  have hy : y = s.w.processYield s.m.processes[i] s.m.chanIds := by
    rw [processYield_sum s.w _ s.m.chanIds (fun c hc => by
      obtain ⟨ch, h1, rfl⟩ := List.mem_map.mp hc
      have hc := hw.chan _ (hw.chLt _ h1)
      unfold Channel.procs
      rw [hc.tkeys]
      exact hc.nodup)]
    simp [y, Mct.chanIds, Function.comp_def]
  have hi' : i < (s.m.processYields s.w).length := by simpa [Mct.processYields] using hi
  have hv : (s.m.processYields s.w)[i] = y := by
    rw [hy]; simp [Mct.processYields]
  constructor
  · unfold Mct.x0 at hx
    cases hn : s.m.nuiParams s.w with
    | error e => rw [hn] at hx; simp at hx
    | ok n =>
      rw [hn] at hx
      simp only [Except.ok.injEq] at hx
      rw [← hx, List.getElem?_append_left hi', List.getElem?_eq_getElem hi', hv]
  · unfold Mct.getYield
    rw [if_neg (by simp), hw.procs.idxOf_getElem]
    simp [List.getElem?_eq_getElem hi', hv]

/-- non-vacuity: in the two-channel example the model has a start vector -/
example : ∃ x, Ex.sys1.m.x0 Ex.sys1.w = .ok x ∧ 0 < Ex.sys1.m.processes.length := by
  obtain ⟨x, hx, -⟩ := (C51_aligned Ex.sys1 Ex.sys1_reachable).2.2.2 ⟨0, by simp [Ex.sys1, Ex.m1, Mct.chanIds],
    by simp [Ex.sys1, Ex.w1, Ex.chA]⟩
  exact ⟨x, hx, by simp [Ex.sys1, Ex.m1]⟩

/-- non-vacuity: names of the example -/
example : (Ex.sys1.m.paramNames Ex.sys1.w)[7]? = some "b_bkg_bin_1" := by
  have h := (C51_aligned Ex.sys1 Ex.sys1_reachable).2.2.1 1 (by simp [Ex.sys1, Ex.m1]) 0
    (by simp [Ex.sys1, Ex.m1, Ex.w1, Ex.chB]) 1 (by simp [Ex.sys1, Ex.m1, Ex.w1, Ex.chB])
  have e : nuiOffset Ex.sys1 1 0 + 1 = 7 := by
    simp [nuiOffset, Ex.sys1, Ex.m1, Ex.w1, Ex.chA, Ex.chB, Mct.chanIds, Channel.numTemplates]
  rw [e] at h
  rw [h]
  simp [Ex.sys1, Ex.m1, Ex.w1, Ex.chB]
  rfl

/-! ## C52 -/

theorem first_sep {α : Type} {sep : α} : ∀ {a b u v : List α}, sep ∉ a → sep ∉ b → a ++ sep :: u = b ++ sep :: v →
    a = b ∧ u = v
  | [], [], u, v, _, _, h => by simpa using h
  | [], y :: b, u, v, _, hb, h => by
    simp only [List.nil_append, List.cons_append, List.cons.injEq] at h
    exact absurd (by simp [h.1]) hb
  | x :: a, [], u, v, ha, _, h => by
    simp only [List.nil_append, List.cons_append, List.cons.injEq] at h
    exact absurd (by simp [h.1]) ha
  | x :: a, y :: b, u, v, ha, hb, h => by
    simp only [List.cons_append, List.cons.injEq] at h
    simp only [List.mem_cons, not_or] at ha hb
    obtain ⟨h1, h2⟩ := first_sep ha.2 hb.2 h.2
    exact ⟨by rw [h.1, h1], h2⟩

theorem last_sep {α : Type} {sep : α} {a b u v : List α} (ha : sep ∉ u) (hb : sep ∉ v)
    (h : a ++ sep :: u = b ++ sep :: v) : a = b ∧ u = v := by
  have h' := congrArg List.reverse h
  simp only [List.reverse_append, List.reverse_cons, List.append_assoc, List.singleton_append] at h'
  obtain ⟨h1, h2⟩ := first_sep (by simpa using ha) (by simpa using hb) h'
  exact ⟨List.reverse_injective h2, List.reverse_injective h1⟩

theorem repr_no_sep (i : ℕ) : '_' ∉ (toString i).toList := by
  show '_' ∉ (Nat.repr i).toList
  rw [Nat.toList_repr]
  exact Nat.underscore_not_in_toDigits

theorem nuiName_toList (ch p : String) (i : ℕ) :
    (nuiName ch p i).toList = ch.toList ++ '_' :: (p.toList ++ ['_', 'b', 'i', 'n', '_'] ++ (toString i).toList) := by
  unfold nuiName
  simp [String.toList_append]

theorem nuiName_inj {ch ch' p p' : String} {i i' : ℕ} (h1 : '_' ∉ ch.toList) (h2 : '_' ∉ ch'.toList)
    (h : nuiName ch p i = nuiName ch' p' i') : ch = ch' ∧ p = p' ∧ i = i' := by
  have h := congrArg String.toList h
  rw [nuiName_toList, nuiName_toList] at h
  obtain ⟨e1, e2⟩ := first_sep h1 h2 h
  have e3 : (p.toList ++ ['_', 'b', 'i', 'n']) ++ '_' :: (toString i).toList =
      (p'.toList ++ ['_', 'b', 'i', 'n']) ++ '_' :: (toString i').toList := by
    simpa using e2
  obtain ⟨e4, e5⟩ := last_sep (repr_no_sep i) (repr_no_sep i') e3
  refine ⟨String.toList_injective e1, String.toList_injective (List.append_cancel_right e4), ?_⟩
  have : Nat.repr i = Nat.repr i' := String.toList_injective e5
  exact Nat.repr_inj.mp this

theorem yield_ne_nui (p ch q : String) (i : ℕ) : p ++ "_yield" ≠ nuiName ch q i := by
  intro h
  have h := congrArg String.toList h
  rw [nuiName_toList] at h
  have e3 : p.toList ++ '_' :: ['y', 'i', 'e', 'l', 'd'] =
      (ch.toList ++ '_' :: (q.toList ++ ['_', 'b', 'i', 'n'])) ++ '_' :: (toString i).toList := by
    simpa [String.toList_append] using h
  obtain ⟨-, e⟩ := last_sep (by decide) (repr_no_sep i) e3
  have hd : ∀ c ∈ (toString i).toList, c.isDigit := by
    intro c hc
    have hc : c ∈ (Nat.repr i).toList := hc
    rw [Nat.toList_repr] at hc
    exact Nat.isDigit_of_mem_toDigits (by decide) (by decide) hc
  rw [← e] at hd
  exact absurd (hd 'y' (by simp)) (by decide)

theorem nuiName_split {ch ch' p p' : String} {i i' : ℕ} (h : nuiName ch p i = nuiName ch' p' i') :
    ch ++ "_" ++ p = ch' ++ "_" ++ p' ∧ i = i' := by
  have h := congrArg String.toList h
  rw [nuiName_toList, nuiName_toList] at h
  have e3 : (ch.toList ++ '_' :: (p.toList ++ ['_', 'b', 'i', 'n'])) ++ '_' :: (toString i).toList =
      (ch'.toList ++ '_' :: (p'.toList ++ ['_', 'b', 'i', 'n'])) ++ '_' :: (toString i').toList := by
    simpa using h
  obtain ⟨e4, e5⟩ := last_sep (repr_no_sep i) (repr_no_sep i') e3
  have e6 : (ch.toList ++ '_' :: p.toList) ++ ['_', 'b', 'i', 'n'] =
      (ch'.toList ++ '_' :: p'.toList) ++ ['_', 'b', 'i', 'n'] := by simpa using e4
  have e7 := List.append_cancel_right e6
  have : Nat.repr i = Nat.repr i' := String.toList_injective e5
  refine ⟨String.toList_injective ?_, Nat.repr_inj.mp this⟩
  simpa [String.toList_append] using e7

theorem nuiName_congr {ch ch' p p' : String} (h : ch ++ "_" ++ p = ch' ++ "_" ++ p') (i : ℕ) :
    nuiName ch p i = nuiName ch' p' i := by
  unfold nuiName; rw [h]

/-- **C52, exactly when.** In every reachable model the parameter names are pairwise different if and only if no
two templates (with at least one bin) give the same `<channel>_<process>`. -/
theorem C52_iff (s : Sys) (h : s.Reachable) : (s.m.paramNames s.w).Nodup ↔ JoinedNamesDiffer s := by
  have hw := reachable_wf h
  constructor
  · intro hn x hx y hy p hp q hq hpb hqb he
    by_contra hne
    unfold Mct.paramNames at hn
    have hn := (List.nodup_append.mp hn).2.1
    rw [List.nodup_flatten] at hn
    have hmem : ∀ z ∈ s.m.channels, ∀ t ∈ (s.w.chans z.2).templates, 0 < (s.w.tmpls t.2).numBins →
        nuiName z.1 t.1 0 ∈ s.w.channelNames z.1 z.2 := by
      intro z hz t ht hb
      unfold World.channelNames
      rw [List.mem_flatten]
      exact ⟨_, List.mem_map_of_mem ht, List.mem_map_of_mem (List.mem_range.mpr hb)⟩
    have hnn := nuiName_congr he 0
    by_cases hxy : x = y
    · subst hxy
      have hpq : p.1 ≠ q.1 := fun e => hne ⟨rfl, e⟩
      have hl := hn.1 _ (List.mem_map_of_mem hx)
      unfold World.channelNames at hl
      rw [List.nodup_flatten, List.pairwise_map] at hl
      have hpw := hl.2
      rcases List.mem_iff_getElem.mp hp with ⟨a, ha, rfl⟩
      rcases List.mem_iff_getElem.mp hq with ⟨b, hb, rfl⟩
      rw [List.pairwise_iff_getElem] at hpw
      rcases lt_trichotomy a b with hab | hab | hab
      · exact hpw a b ha hb hab (List.mem_map_of_mem (List.mem_range.mpr hpb))
          (by rw [hnn]; exact List.mem_map_of_mem (List.mem_range.mpr hqb))
      · subst hab; exact hpq rfl
      · exact hpw b a hb ha hab (List.mem_map_of_mem (List.mem_range.mpr hqb))
          (by rw [← hnn]; exact List.mem_map_of_mem (List.mem_range.mpr hpb))
    · have hpw := hn.2
      rw [List.pairwise_map] at hpw
      rcases List.mem_iff_getElem.mp hx with ⟨a, ha, rfl⟩
      rcases List.mem_iff_getElem.mp hy with ⟨b, hb, rfl⟩
      rw [List.pairwise_iff_getElem] at hpw
      rcases lt_trichotomy a b with hab | hab | hab
      · exact hpw a b ha hb hab (hmem _ hx p hp hpb) (by rw [hnn]; exact hmem _ hy q hq hqb)
      · subst hab; exact hxy rfl
      · exact hpw b a hb ha hab (hmem _ hy q hq hqb) (by rw [← hnn]; exact hmem _ hx p hp hpb)
  · intro hu
    unfold Mct.paramNames
    rw [List.nodup_append]
    refine ⟨?_, ?_, ?_⟩
    · apply hw.procs.map
      intro a b hab
      have := congrArg String.toList hab
      simp only [String.toList_append] at this
      exact String.toList_injective (List.append_cancel_right this)
    · rw [List.nodup_flatten]
      refine ⟨?_, ?_⟩
      · intro l hl
        obtain ⟨x, hx, rfl⟩ := List.mem_map.mp hl
        unfold World.channelNames
        rw [List.nodup_flatten]
        have hcw := hw.chan x.2 (hw.chLt x hx)
        have hn : ((s.w.chans x.2).templates.map (·.1)).Nodup := by rw [hcw.tkeys]; exact hcw.nodup
        refine ⟨?_, ?_⟩
        · intro l hl
          obtain ⟨t, ht, rfl⟩ := List.mem_map.mp hl
          apply List.nodup_range.map
          intro a b hab
          exact (nuiName_split hab).2
        · rw [List.pairwise_map]
          rw [List.Nodup, List.pairwise_map] at hn
          refine List.Pairwise.imp_of_mem ?_ hn
          intro a b ha hb hab n h1 h2
          obtain ⟨i, hi, rfl⟩ := List.mem_map.mp h1
          obtain ⟨i', hi', e⟩ := List.mem_map.mp h2
          exact hab (hu x hx x hx a ha b hb (by have := List.mem_range.mp hi; omega)
            (by have := List.mem_range.mp hi'; omega) (nuiName_split e.symm).1).2
      · rw [List.pairwise_map]
        have hn := hw.chNames
        rw [List.Nodup, List.pairwise_map] at hn
        refine List.Pairwise.imp_of_mem ?_ hn
        intro a b ha hb hab n h1 h2
        unfold World.channelNames at h1 h2
        obtain ⟨l1, hl1, h1⟩ := List.mem_flatten.mp h1
        obtain ⟨t1, ht1, rfl⟩ := List.mem_map.mp hl1
        obtain ⟨i, hi, rfl⟩ := List.mem_map.mp h1
        obtain ⟨l2, hl2, h2⟩ := List.mem_flatten.mp h2
        obtain ⟨t2, ht2, rfl⟩ := List.mem_map.mp hl2
        obtain ⟨i', hi', e⟩ := List.mem_map.mp h2
        exact hab (hu a ha b hb t1 ht1 t2 ht2 (by have := List.mem_range.mp hi; omega)
            (by have := List.mem_range.mp hi'; omega) (nuiName_split e.symm).1).1
    · intro a ha b hb hab
      subst hab
      obtain ⟨p, -, rfl⟩ := List.mem_map.mp ha
      obtain ⟨l, hl, hb⟩ := List.mem_flatten.mp hb
      obtain ⟨x, -, rfl⟩ := List.mem_map.mp hl
      unfold World.channelNames at hb
      obtain ⟨l2, hl2, hb⟩ := List.mem_flatten.mp hb
      obtain ⟨t, -, rfl⟩ := List.mem_map.mp hl2
      obtain ⟨i, -, e⟩ := List.mem_map.mp hb
      exact yield_ne_nui _ _ _ _ e.symm

/-- **C52 (partial).** In every reachable model in which no channel name contains an underscore, or no process name
does, the parameter names are pairwise different. Missing: names with underscores on both sides, where it is false
(`C52_refuted`); `C52_iff` tells exactly when. -/
theorem C52_unique_partial (s : Sys) (h : s.Reachable)
    (hu : (∀ x ∈ s.m.channels, '_' ∉ x.1.toList) ∨ ∀ p ∈ s.m.processes, '_' ∉ p.toList) :
    (s.m.paramNames s.w).Nodup := by
  have hw := reachable_wf h
  rw [C52_iff s h]
  intro x hx y hy p hp q hq _ _ he
  have he := congrArg String.toList he
  have he : x.1.toList ++ '_' :: p.1.toList = y.1.toList ++ '_' :: q.1.toList := by
    simpa [String.toList_append] using he
  have hproc : ∀ z ∈ s.m.channels, ∀ t ∈ (s.w.chans z.2).templates, t.1 ∈ s.m.processes := by
    intro z hz t ht
    have hl := hw.chLt z hz
    refine hw.sub z.2 hl t.1 ?_
    rw [← (hw.chan z.2 hl).tkeys]
    exact List.mem_map_of_mem ht
  rcases hu with hu | hu
  · obtain ⟨h1, h2⟩ := first_sep (hu x hx) (hu y hy) he
    exact ⟨String.toList_injective h1, String.toList_injective h2⟩
  · obtain ⟨h1, h2⟩ := last_sep (hu _ (hproc x hx p hp)) (hu _ (hproc y hy q hq)) he
    exact ⟨String.toList_injective h1, String.toList_injective h2⟩

/-- channels `a_b` (process `c`) and `a` (process `b_c`) -/
def Ex.opsN : List Op :=
  [.binned1 ⟨[2], vec ![1, 1]⟩ ⟨true, [0, 1, 2]⟩ (some ⟨[2], vec ![1, 1]⟩), .newTmpl1 "p" 0, .newTmpl1 "q" 0,
   .defineChannel "a_b" (.int 2) (.d1 .tuple 0 2), .defineChannel "a" (.int 2) (.d1 .tuple 0 2),
   .defineProcess "c", .defineProcess "b_c",
   .addTemplate "a_b" "c" 0 (.fin 1), .addTemplate "a" "b_c" 1 (.fin 1)]

/-- **C52 is false of the code:** a reachable model with two channels whose parameter names contain
`a_b_c_bin_0` and `a_b_c_bin_1` twice. -/
theorem C52_refuted : ∃ s : Sys, s.Reachable ∧ s.m.paramNames s.w =
    ["c_yield", "b_c_yield", "a_b_c_bin_0", "a_b_c_bin_1", "a_b_c_bin_0", "a_b_c_bin_1"] := by
  refine ⟨Sys.init.run Ex.opsN, ⟨_, rfl⟩, ?_⟩
  simp only [Ex.opsN, Sys.run, List.foldl_cons, List.foldl_nil, Sys.step, Ex.bh_eq, Sys.allocHist, World.newHist,
    Sys.init, World.init]
  simp only [Nat.lt_one_iff, zero_add, if_true, Function.update_self, Ex.bt_eq, Sys.allocTmpl, World.newTmpl]
  simp [Mct.defineChannel, Mct.defineProcess,
    Mct.addTemplate, World.addTemplate, Mct.empty, World.newChan, dictSet, dictGet, Mct.addData, World.addData,
    World.setChan, Channel.new, Channel.addTemplate, Channel.checkTemplate, Channel.procs, Ex.bt, Ex.bh,
    Hist.setBinned, Hist.blank, ChanBins.toTuple, Channel.addData, Channel.checkHist, World.init,
    Function.update_apply, Mct.paramNames, World.channelNames, List.range_succ, nuiName]
  refine ⟨?_, ?_, ?_, ?_⟩ <;> rfl

/-- non-vacuity of the partial theorem -/
example : (Ex.sys1.m.paramNames Ex.sys1.w).Nodup := by
  apply C52_unique_partial Ex.sys1 Ex.sys1_reachable
  left
  intro x hx
  simp [Ex.sys1, Ex.m1] at hx
  rcases hx with rfl | rfl <;> decide

end

end TF.Props
