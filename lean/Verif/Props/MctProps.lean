import Verif.Props.ChannelProps
import Verif.Lemmas.MctEval
import Verif.Props.Example

set_option linter.unusedSimpArgs false

/-!
# Properties of `MultiChannelTemplate`: construction (C43–C46)
-/

namespace TF.Props

open Classical Spec

noncomputable section

/-! ## C43 -/

/-- only `define_process` touches the processes -/
theorem step_processes (s : Sys) (o : Op) :
    (s.step o).m.processes = s.m.processes ∨
      ∃ n, o = .defineProcess n ∧ n ∉ s.m.processes ∧ (s.step o).m.processes = s.m.processes ++ [n] := by
  cases o with
  | defineProcess n =>
    by_cases h : n ∈ s.m.processes
    · left; simp [Sys.step, Mct.defineProcess, h]
    · right; exact ⟨n, rfl, h, by simp [Sys.step, Mct.defineProcess, h]⟩
  | constrain p v e =>
    left
    simp only [Sys.step, Mct.addConstraint]
    split <;> rfl
  | newHist1 b r d w => left; simp only [Sys.step, Sys.allocHist]; split <;> rfl
  | newHist2 b r d w => left; simp only [Sys.step, Sys.allocHist]; split <;> rfl
  | binned1 c e er => left; simp only [Sys.step, Sys.allocHist]; split <;> rfl
  | binned2 c ex ey er => left; simp only [Sys.step, Sys.allocHist]; split <;> rfl
  | newTmpl1 n h => left; simp only [Sys.step, Sys.allocTmpl]; split; · split <;> rfl
                    · rfl
  | newTmpl2 n h => left; simp only [Sys.step, Sys.allocTmpl]; split; · split <;> rfl
                    · rfl
  | setTmplYield t v => left; simp only [Sys.step, Sys.storeTmpl]; split; · split <;> rfl
                        · rfl
  | setTmplNui t v => left; simp only [Sys.step, Sys.storeTmpl]; split; · split <;> rfl
                      · rfl
  | setTmplParams t v => left; simp only [Sys.step, Sys.storeTmpl]; split; · split <;> rfl
                         · rfl
  | _ => left; simp only [Sys.step, Mct.defineChannel]; try (first | rfl | (split <;> rfl))

/-- **C43.** In every reachable model: `define_process(n)` appends a new name, and for an existing name raises
`RuntimeError` and changes nothing; names are unique; and whatever is called afterwards, the list of
processes only grows at its end, so every index keeps its meaning. -/
theorem C43_processes (s : Sys) (h : s.Reachable) :
    (∀ n, n ∉ s.m.processes → (s.m.defineProcess n).1 = .ok () ∧
      (s.m.defineProcess n).2 = { s.m with processes := s.m.processes ++ [n] }) ∧
    (∀ n ∈ s.m.processes, s.m.defineProcess n = (.error .runtimeError, s.m)) ∧
    s.m.processes.Nodup ∧
    (∀ ops, s.m.processes <+: (s.run ops).m.processes) ∧
    (∀ ops, ∀ p ∈ s.m.processes, (s.run ops).m.processes.idxOf p = s.m.processes.idxOf p) := by
  have hpre : ∀ ops, s.m.processes <+: (s.run ops).m.processes := by
    intro ops
    induction ops using List.reverseRecOn with
    | nil => exact List.prefix_rfl
    | append_singleton ops o ih =>
      rw [run_append]
      rcases step_processes (s.run ops) o with e | ⟨n, -, -, e⟩
      · simp only [Sys.run, List.foldl_cons, List.foldl_nil] at ih ⊢
        simp only [Sys.run] at e
        rw [e]; exact ih
      · simp only [Sys.run, List.foldl_cons, List.foldl_nil] at ih ⊢
        simp only [Sys.run] at e
        rw [e]; exact ih.trans (List.prefix_append _ _)
  refine ⟨?_, ?_, (reachable_wf h).procs, hpre, ?_⟩
  · intro n hn; simp [Mct.defineProcess, hn]
  · intro n hn; simp [Mct.defineProcess, hn]
  · intro ops p hp
    obtain ⟨t, ht⟩ := hpre ops
    rw [← ht, List.idxOf_append_of_mem hp]

/-- non-vacuity: the example has two processes; redefining one raises, a third one is appended -/
example : (Ex.sys1.m.defineProcess "bkg").1 = .error .runtimeError ∧
    (Ex.sys1.m.defineProcess "new").2.processes = ["sig", "bkg", "new"] := by
  have h := C43_processes Ex.sys1 Ex.sys1_reachable
  refine ⟨?_, ?_⟩
  · rw [h.2.1 "bkg" (by simp [Ex.sys1, Ex.m1])]
  · rw [(h.1 "new" (by simp [Ex.sys1, Ex.m1])).2]; rfl

/-! ## C44 -/

theorem chanAdd_ok (c : Channel) (p : String) (tid : ℕ) (t : Template) (hc : HistCls) (e : Fl)
    (h : (c.addTemplate p tid t hc e).1 = .ok ()) :
    (c.addTemplate p tid t hc e).2.templates = dictSet c.templates p tid ∧
      (c.addTemplate p tid t hc e).2.effs = dictSet c.effs p e ∧ p ∉ c.procs := by
  unfold Channel.addTemplate at h ⊢
  by_cases h1 : c.checkTemplate t
  · rw [if_pos h1] at h ⊢
    by_cases h2 : p ∈ c.procs
    · rw [if_pos h2] at h; simp at h
    · rw [if_neg h2] at h ⊢
      by_cases h3 : c.dim = none <;> by_cases h4 : c.ttype = none <;> by_cases h5 : some t.cls = c.ttype <;>
        simp_all
  · rw [if_neg h1] at h; simp at h

/-- **C44.** In every reachable model: `add_template` for an undefined channel or process raises
`RuntimeError` and changes nothing; each channel's processes are duplicate-free and among the model's
processes; and a successful call adds exactly the given template with the given efficiency at the end of
that channel. -/
theorem C44_defined_only (s : Sys) (h : s.Reachable) :
    (∀ ch p t e, (ch ∉ s.m.channels.map (·.1) ∨ p ∉ s.m.processes) →
      s.m.addTemplate s.w ch p t e = (.error .runtimeError, s.w)) ∧
    (∀ x ∈ s.m.channels, (s.w.chans x.2).procs.Nodup ∧ ∀ p ∈ (s.w.chans x.2).procs, p ∈ s.m.processes) ∧
    (∀ ch p t e, (s.m.addTemplate s.w ch p t e).1 = .ok () → ∃ c, (ch, c) ∈ s.m.channels ∧
      ((s.m.addTemplate s.w ch p t e).2.chans c).templates = (s.w.chans c).templates ++ [(p, t)] ∧
      ((s.m.addTemplate s.w ch p t e).2.chans c).effs = (s.w.chans c).effs ++ [(p, e)] ∧
      ∀ d, d ≠ c → (s.m.addTemplate s.w ch p t e).2.chans d = s.w.chans d) := by
  have hw := reachable_wf h
  refine ⟨?_, ?_, ?_⟩
  · intro ch p t e hcp
    unfold Mct.addTemplate
    cases hd : dictGet s.m.channels ch with
    | none => rfl
    | some c =>
      simp only
      rcases hcp with hc | hp
      · exact absurd (List.mem_map_of_mem (dictGet_mem hd)) hc
      · rw [if_pos hp]
  · intro x hx
    have hl := hw.chLt x hx
    have hc := hw.chan x.2 hl
    have e : (s.w.chans x.2).procs = (s.w.chans x.2).processes := hc.tkeys
    rw [e]
    exact ⟨hc.nodup, hw.sub x.2 hl⟩
  · intro ch p t e hok
    unfold Mct.addTemplate at hok ⊢
    cases hd : dictGet s.m.channels ch with
    | none => rw [hd] at hok; simp at hok
    | some c =>
      rw [hd] at hok
      simp only at hok ⊢
      by_cases hp : p ∉ s.m.processes
      · rw [if_pos hp] at hok; simp at hok
      · rw [if_neg hp] at hok ⊢
        have hl := hw.chLt _ (dictGet_mem hd)
        have hc := hw.chan c hl
        simp only [World.addTemplate] at hok ⊢
        obtain ⟨h1, h2, hpp⟩ := chanAdd_ok _ _ _ _ _ _ hok
        have n1 : p ∉ (s.w.chans c).templates.map (·.1) := hpp
        have n2 : p ∉ (s.w.chans c).effs.map (·.1) := by rw [hc.ekeys, ← hc.tkeys]; exact hpp
        refine ⟨c, dictGet_mem hd, ?_, ?_, ?_⟩
        · simp only [World.setChan, Function.update_self]
          rw [h1, dictSet_new _ _ _ n1]
        · simp only [World.setChan, Function.update_self]
          rw [h2, dictSet_new _ _ _ n2]
        · intro d hdc
          simp [World.setChan, Function.update_of_ne hdc]

/-- non-vacuity: the example rejects an unknown process and channel, and accepts a new template -/
example : (Ex.sys1.m.addTemplate Ex.sys1.w "a" "nope" 0 1).1 = .error .runtimeError ∧
    (Ex.sys1.m.addTemplate Ex.sys1.w "zz" "sig" 0 1).1 = .error .runtimeError ∧
    (Ex.sys1.m.addTemplate Ex.sys1.w "b" "sig" 0 1).1 = .ok () := by
  have h := (C44_defined_only Ex.sys1 Ex.sys1_reachable).1
  refine ⟨?_, ?_, ?_⟩
  · rw [h "a" "nope" 0 1 (Or.inr (by simp [Ex.sys1, Ex.m1]))]
  · rw [h "zz" "sig" 0 1 (Or.inl (by simp [Ex.sys1, Ex.m1]))]
  · simp [Mct.addTemplate, Ex.sys1, Ex.m1, dictGet, World.addTemplate, Channel.addTemplate, Channel.checkTemplate,
      Ex.w1, Ex.w0, Ex.chB, Ex.bt, Channel.procs]

/-! ## C45 -/

/-- **C45.** `define_channel(name, …)` in every reachable model: the channel now registered under `name` is a
new object without templates, efficiencies and data, with the given range and bins (an int `n` is the tuple `(n,)`); every other
name refers to the same unchanged channel as
before; a name that existed keeps its position, a new one is appended; no other object changes. -/
theorem C45_redefine (s : Sys) (h : s.Reachable) (name : String) (bins : ChanBins) (range : PyRange) :
    let r := s.m.defineChannel s.w name bins range
    (∃ c, dictGet r.2.channels name = some c ∧ c ∉ s.m.chanIds ∧ (r.1.chans c).templates = [] ∧
      (r.1.chans c).effs = [] ∧ (r.1.chans c).hdata = none ∧ (r.1.chans c).name = name ∧
      ((∀ n, bins = .int n → (r.1.chans c).bins = [n]) ∧ (∀ ns, bins = .tuple ns → (r.1.chans c).bins = ns)) ∧
      (r.1.chans c).range = range) ∧
    (∀ n, n ≠ name → dictGet r.2.channels n = dictGet s.m.channels n) ∧
    (∀ x ∈ s.m.channels, r.1.chans x.2 = s.w.chans x.2) ∧
    (name ∈ s.m.channels.map (·.1) → r.2.channels.map (·.1) = s.m.channels.map (·.1)) ∧
    (name ∉ s.m.channels.map (·.1) → r.2.channels.map (·.1) = s.m.channels.map (·.1) ++ [name]) ∧
    r.2.processes = s.m.processes ∧ r.1.tmpls = s.w.tmpls ∧ r.1.hists = s.w.hists := by
  intro r
  have hw := reachable_wf h
  refine ⟨⟨s.w.nChans, ?_, ?_, ?_, ?_, ?_, ?_, ?_, ?_⟩, ?_, ?_, ?_, ?_, rfl, rfl, rfl⟩
  · exact dictGet_set _ _ _
  · intro hc
    obtain ⟨x, hx, e⟩ := List.mem_map.mp hc
    exact absurd (hw.chLt x hx) (by rw [e]; exact lt_irrefl _)
  · simp [r, Mct.defineChannel, World.newChan, Channel.new]
  · simp [r, Mct.defineChannel, World.newChan, Channel.new]
  · simp [r, Mct.defineChannel, World.newChan, Channel.new]
  · simp [r, Mct.defineChannel, World.newChan, Channel.new]
  · refine ⟨?_, ?_⟩ <;> rintro n rfl <;> simp [r, Mct.defineChannel, World.newChan, Channel.new, ChanBins.toTuple]
  · simp [r, Mct.defineChannel, World.newChan, Channel.new]
  · intro n hn
    exact dictGet_set_ne _ _ _ _ hn
  · intro x hx
    have := hw.chLt x hx
    simp [r, Mct.defineChannel, World.newChan, Function.update_of_ne this.ne]
  · intro hm
    exact dictSet_keys_old _ _ _ hm
  · intro hm
    show (dictSet s.m.channels name _).map (·.1) = _
    rw [dictSet_new _ _ _ hm]; simp

/-- non-vacuity: redefining channel `a` of the example keeps the order of the channels and loses its templates -/
example : (Ex.sys1.m.defineChannel Ex.sys1.w "a" (.int 3) (.d1 .tuple 0 1)).2.channels.map (·.1) = ["a", "b"] ∧
    ∃ c, dictGet (Ex.sys1.m.defineChannel Ex.sys1.w "a" (.int 3) (.d1 .tuple 0 1)).2.channels "a" = some c ∧
      ((Ex.sys1.m.defineChannel Ex.sys1.w "a" (.int 3) (.d1 .tuple 0 1)).1.chans c).templates = [] := by
  obtain ⟨⟨c, h1, -, h2, -⟩, -, -, h3, -⟩ :=
    C45_redefine Ex.sys1 Ex.sys1_reachable "a" (.int 3) (.d1 .tuple 0 1)
  exact ⟨by rw [h3 (by simp [Ex.sys1, Ex.m1])]; simp [Ex.sys1, Ex.m1], c, h1, h2⟩

/-- **C31, right after `define_channel`.** In every reachable model, after `define_channel(name, bins, range)` a template of a
defined process is accepted as the first template of that channel exactly if its bins are `bins` (`(n,)` for an int `n`) and its
range is `range`; otherwise `RuntimeError`. -/
theorem C31_defined (s : Sys) (h : s.Reachable) (name : String) (bins : ChanBins) (range : PyRange) (p : String)
    (hp : p ∈ s.m.processes) (tid : ℕ) (eff : Fl) (B : List ℕ) (hB : bins = .tuple B ∨ ∃ n, bins = .int n ∧ B = [n]) :
    let r := s.m.defineChannel s.w name bins range
    (r.2.addTemplate r.1 name p tid eff).1 =
      if (s.w.tmpls tid).bins = B ∧ (s.w.tmpls tid).range = range then .ok () else .error .runtimeError := by
  intro r
  obtain ⟨⟨c, h1, -, h2, h3, -, -, ⟨h4, h4'⟩, h5⟩, -, -, -, -, h6, h7, -⟩ := C45_redefine s h name bins range
  have hb : (r.1.chans c).bins = B := by
    rcases hB with hB | ⟨n, hB, rfl⟩
    · exact h4' B hB
    · exact h4 n hB
  have ht : (r.1.chans c).ttype = none ∧ (r.1.chans c).dim = none := by
    have e : s.w.nChans = c := by
      have : dictGet r.2.channels name = some s.w.nChans := dictGet_set _ _ _
      rw [this] at h1
      exact Option.some.inj h1
    rw [← e]
    simp [r, Mct.defineChannel, World.newChan, Channel.new]
  have hacc := (C31_accepts (r.1.chans c) p tid (r.1.tmpls tid) (r.1.hists (r.1.tmpls tid).hist).cls eff).1
  have hrej := C31_rejects (r.1.chans c) p tid (r.1.tmpls tid) (r.1.hists (r.1.tmpls tid).hist).cls eff (fun _ => ht.1)
  rw [hb, h5, h2, ht.1] at hacc
  have e : (r.2.addTemplate r.1 name p tid eff).1 =
      ((r.1.chans c).addTemplate p tid (r.1.tmpls tid) (r.1.hists (r.1.tmpls tid).hist).cls eff).1 := by
    unfold Mct.addTemplate
    rw [h1]
    simp only
    rw [if_neg (by rw [h6]; simpa using hp)]
    rfl
  rw [e]
  rw [show r.1.tmpls = s.w.tmpls from h7] at hacc hrej ⊢
  split
  · rename_i hc
    exact hacc.mpr ⟨hc, by simp, Or.inl rfl⟩
  · rename_i hc
    exact (hrej fun h => hc (hacc.mp h).1).1

/-- non-vacuity: redefine channel `a` of the example with two bins and with three -/
example : let f := fun (n : ℕ) => let r := Ex.sys1.m.defineChannel Ex.sys1.w "a" (.int n) (Ex.sys1.w.tmpls 0).range
      (r.2.addTemplate r.1 "a" "sig" 0 1).1
    f 2 = .ok () ∧ f 3 = .error .runtimeError := by
  have h := fun n => C31_defined Ex.sys1 Ex.sys1_reachable "a" (.int n) (Ex.sys1.w.tmpls 0).range "sig"
    (by simp [Ex.sys1, Ex.m1]) 0 1 [n] (Or.inr ⟨n, rfl, rfl⟩)
  have hb : (Ex.sys1.w.tmpls 0).bins = [2] := by simp [Ex.sys1, Ex.w1, Ex.w0, Ex.bt]
  exact ⟨(h 2).trans (by rw [if_pos ⟨hb, rfl⟩]), (h 3).trans (by rw [if_neg (by rw [hb]; simp)])⟩

/-! ## C46 -/

theorem worldAddData_cases (w : World) (c hid : ℕ) :
    (w.addData c hid = (.error .runtimeError, w)) ∨
      (w.addData c hid = (.ok (), w.setChan c { w.chans c with hdata := some hid })) := by
  unfold World.addData Channel.addData
  split
  · right; rfl
  · left
    simp only [Prod.mk.injEq, true_and]
    simp [World.setChan, Function.update_eq_self]

/-- **C46 (partial).** If `add_data` raises, it raises `RuntimeError` and the model is in the state left by a
successful call with the keyword arguments before the offending one (so a call with one argument is
all-or-nothing). If it succeeds, each named channel holds the given histogram and every other channel is
unchanged. Missing: nothing changes when a later argument is rejected — false, see `C46_refuted`. -/
theorem C46_prefix_partial (m : Mct) : ∀ (hs : List (String × ℕ)) (w : World) (e : Err) (w' : World),
    m.addData w hs = (.error e, w') → e = .runtimeError ∧
      ∃ pre x post, hs = pre ++ x :: post ∧ m.addData w pre = (.ok (), w') ∧
        (m.addData w' [x]) = (.error .runtimeError, w') := by
  intro hs
  induction hs with
  | nil => intro w e w' h; simp [Mct.addData] at h
  | cons x hs ih =>
    intro w e w' h
    obtain ⟨ch, hid⟩ := x
    simp only [Mct.addData] at h
    cases hd : dictGet m.channels ch with
    | none =>
      rw [hd] at h
      simp only [Prod.mk.injEq, Except.error.injEq] at h
      obtain ⟨rfl, rfl⟩ := h
      exact ⟨rfl, [], (ch, hid), hs, rfl, rfl, by simp [Mct.addData, hd]⟩
    | some c =>
      rw [hd] at h
      simp only at h
      rcases worldAddData_cases w c hid with e1 | e1
      · rw [e1] at h
        simp only [Prod.mk.injEq, Except.error.injEq] at h
        obtain ⟨rfl, rfl⟩ := h
        exact ⟨rfl, [], (ch, hid), hs, rfl, rfl, by simp [Mct.addData, hd, e1]⟩
      · rw [e1] at h
        simp only at h
        obtain ⟨he, pre, y, post, h1, h2, h3⟩ := ih _ _ _ h
        refine ⟨he, (ch, hid) :: pre, y, post, by rw [h1]; rfl, ?_, h3⟩
        simp only [Mct.addData, hd, e1]; exact h2

/-- one histogram: all or nothing -/
theorem C46_single_partial (m : Mct) (w : World) (ch : String) (hid : ℕ) (e : Err) (w' : World)
    (h : m.addData w [(ch, hid)] = (.error e, w')) : w' = w ∧ e = .runtimeError := by
  obtain ⟨he, pre, x, post, h1, h2, -⟩ := C46_prefix_partial m _ w e w' h
  cases pre with
  | nil => simp [Mct.addData] at h2; exact ⟨h2.symm, he⟩
  | cons a pre =>
    have := congrArg List.length h1
    simp at this

theorem addData_success (m : Mct) (hinj : ∀ a b c, dictGet m.channels a = some c → dictGet m.channels b = some c → a = b) :
    ∀ (hs : List (String × ℕ)) (w w' : World), (hs.map (·.1)).Nodup → m.addData w hs = (.ok (), w') →
      (∀ x ∈ hs, ∃ c, dictGet m.channels x.1 = some c ∧ w'.chans c = { w.chans c with hdata := some x.2 }) ∧
      (∀ n c, dictGet m.channels n = some c → n ∉ hs.map (·.1) → w'.chans c = w.chans c) := by
  intro hs
  induction hs with
  | nil =>
    intro w w' _ h
    simp [Mct.addData] at h
    subst h
    exact ⟨by simp, fun _ _ _ _ => rfl⟩
  | cons x hs ih =>
    intro w w' hn h
    obtain ⟨ch, hid⟩ := x
    simp only [List.map_cons, List.nodup_cons] at hn
    simp only [Mct.addData] at h
    cases hd : dictGet m.channels ch with
    | none => rw [hd] at h; simp at h
    | some c =>
      rw [hd] at h
      simp only at h
      rcases worldAddData_cases w c hid with e1 | e1
      · rw [e1] at h; simp at h
      · rw [e1] at h
        simp only at h
        obtain ⟨i1, i2⟩ := ih _ _ hn.2 h
        have hc := i2 ch c hd hn.1
        refine ⟨?_, ?_⟩
        · intro y hy
          rcases List.mem_cons.mp hy with rfl | hy
          · exact ⟨c, hd, by rw [hc]; simp [World.setChan]⟩
          · obtain ⟨d, hd', e⟩ := i1 y hy
            refine ⟨d, hd', ?_⟩
            have : d ≠ c := by
              rintro rfl
              have := hinj _ _ _ hd hd'
              apply hn.1
              rw [this]; exact List.mem_map_of_mem hy
            rw [e]; simp [World.setChan, Function.update_of_ne this]
        · intro n d hd' hnn
          simp only [List.map_cons, List.mem_cons, not_or] at hnn
          rw [i2 n d hd' hnn.2]
          have : d ≠ c := by
            rintro rfl
            exact hnn.1 (hinj _ _ _ hd' hd)
          simp [World.setChan, Function.update_of_ne this]

theorem dict_inj {s : Sys} (h : SysWF s) (a b : String) (c : ℕ) (ha : dictGet s.m.channels a = some c)
    (hb : dictGet s.m.channels b = some c) : a = b := by
  exact (h.chName _ (dictGet_mem ha)).symm.trans (h.chName _ (dictGet_mem hb))

/-- successful calls store every histogram and touch nothing else -/
theorem C46_success_partial (s : Sys) (h : s.Reachable) (hs : List (String × ℕ)) (w' : World)
    (hn : (hs.map (·.1)).Nodup) (hok : s.m.addData s.w hs = (.ok (), w')) :
    (∀ x ∈ hs, ∃ c, dictGet s.m.channels x.1 = some c ∧ w'.chans c = { s.w.chans c with hdata := some x.2 }) ∧
    (∀ n c, dictGet s.m.channels n = some c → n ∉ hs.map (·.1) → w'.chans c = s.w.chans c) :=
  addData_success s.m (fun a b c => dict_inj (reachable_wf h) a b c) hs s.w w' hn hok

/-- a histogram with three bins: it fits no channel of the example -/
def Ex.hist3 : Hist := Hist.blank .h1 [⟨true, [0, 1, 2, 3]⟩] [3] (.d1 .tuple 0 3)

/-- the example after `add_data` of another histogram to both channels has been prepared -/
def Ex.opsD : List Op := Ex.ops0 ++ Ex.ops1 ++ [.newHist1 (.edges ⟨true, [0, 1, 2, 3]⟩) none none .none]

/-- **C46 is false of the code:** in a reachable model with data in both channels, `add_data(a=h0, b=h3)` with
a histogram `h3` that does not fit raises `RuntimeError`, and channel `a` has lost its data to `h0`. -/
theorem C46_refuted : ∃ (s : Sys) (e : Err), s.Reachable ∧
    (s.m.addData s.w [("a", 0), ("b", 3)]).1 = .error e ∧
    (s.w.chans 0).hdata = some 2 ∧ ((s.m.addData s.w [("a", 0), ("b", 3)]).2.chans 0).hdata = some 0 ∧
    3 < s.w.nHists := by
  refine ⟨Sys.init.run Ex.opsD, .runtimeError, ⟨_, rfl⟩, ?_⟩
  have hn : Hist1d.new (.edges ⟨true, [0, 1, 2, 3]⟩) none none .none = .ok Ex.hist3 := by
    simp [Hist1d.new, Hist1d.init, Ex.hist3, getBinRange]
  rw [Ex.opsD, run_append, Ex.run1]
  simp only [Sys.run, List.foldl_cons, List.foldl_nil, Sys.step, hn, Sys.allocHist, World.newHist]
  simp [Ex.sys1, Ex.m1, Ex.w1, Ex.w0, Mct.addData, dictGet, World.addData, Channel.addData, Channel.checkHist, Ex.chA,
    Ex.chB, Ex.hist3, Hist.blank, Ex.bh, Hist.setBinned, World.setChan, Function.update_apply]

/-- non-vacuity of the partial theorems: `add_data(a=h0, b=h1)` succeeds in the example -/
example : ∃ w', Ex.sys1.m.addData Ex.sys1.w [("a", 0), ("b", 1)] = (.ok (), w') ∧
    (w'.chans 0).hdata = some 0 ∧ (w'.chans 1).hdata = some 1 := by
  refine ⟨(Ex.sys1.m.addData Ex.sys1.w [("a", 0), ("b", 1)]).2, ?_, ?_⟩ <;>
  simp [Ex.sys1, Ex.m1, Ex.w1, Ex.w0, Mct.addData, dictGet, World.addData, Channel.addData, Channel.checkHist, Ex.chA,
    Ex.chB, Hist.blank, Ex.bh, Hist.setBinned, World.setChan, Function.update_apply]

end

end TF.Props
