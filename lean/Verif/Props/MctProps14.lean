import Verif.Props.MctProps13

set_option linter.unusedSimpArgs false

/-!
# Programs that make the same calls in a different order (C98)
-/

namespace TF.Spec

open Classical

noncomputable section

/-- the call builds the model (defines a channel or a process, adds a template, data or a constraint) and is accepted,
that is, does not raise -/
def Accepts (s : Sys) : Op → Prop
  | .defineChannel _ _ _ => True
  | .defineProcess n => (s.m.defineProcess n).1 = .ok ()
  | .addTemplate c p t e => t < s.w.nTmpls ∧ (s.m.addTemplate s.w c p t e).1 = .ok ()
  | .addData hs => (∀ h ∈ hs, h.2 < s.w.nHists) ∧ (s.m.addData s.w hs).1 = .ok ()
  | .constrain p v e => (s.m.addConstraint p v e).1 = .ok ()
  | _ => False

/-- all calls of the list build the model and are accepted, one after the other -/
def AllAccepted (s : Sys) : List Op → Prop
  | [] => True
  | o :: L => Accepts s o ∧ AllAccepted (s.step o) L

/-- the channel a call defines -/
def defined : Op → List String
  | .defineChannel a _ _ => [a]
  | _ => []

/-- the channels and histograms for which a call adds data -/
def dataOf : Op → List (String × ℕ)
  | .addData hs => hs
  | _ => []

/-- the process a call constrains -/
def constrainedBy : Op → List String
  | .constrain p _ _ => [p]
  | _ => []

/-- no channel is defined twice, none gets data twice, no process is constrained twice -/
def Once (L : List Op) : Prop :=
  (L.flatMap defined).Nodup ∧ ((L.flatMap dataOf).map (·.1)).Nodup ∧ (L.flatMap constrainedBy).Nodup

end

end TF.Spec

namespace TF.Props

open Classical Spec

noncomputable section

/-- what the model consists of after the calls `L` -/
structure Added (s0 t : Sys) (L : List Op) : Prop where
  hists : t.w.hists = s0.w.hists
  tmpls : t.w.tmpls = s0.w.tmpls
  names : ∀ a, a ∈ t.m.channels.map (·.1) ↔ a ∈ L.flatMap defined
  knownT : ∀ a p i e, Op.addTemplate a p i e ∈ L → a ∈ t.m.channels.map (·.1)
  knownD : ∀ x ∈ L.flatMap dataOf, x.1 ∈ t.m.channels.map (·.1)
  templates : ∀ a c, (a, c) ∈ t.m.channels → ∀ p i, (p, i) ∈ (t.w.chans c).templates ↔ ∃ e, Op.addTemplate a p i e ∈ L
  effs : ∀ a c, (a, c) ∈ t.m.channels → ∀ p e, (p, e) ∈ (t.w.chans c).effs ↔ ∃ i, Op.addTemplate a p i e ∈ L
  data : ∀ a c, (a, c) ∈ t.m.channels → ∀ h, (t.w.chans c).hdata = some h ↔ (a, h) ∈ L.flatMap dataOf
  cons : t.m.constrained = L.flatMap constrainedBy
  cvals : ∀ p v, dictGet t.m.cvals p = some v ↔ ∃ e, Op.constrain p v e ∈ L
  cerrs : ∀ p e, dictGet t.m.cerrs p = some e ↔ ∃ v, Op.constrain p v e ∈ L

theorem added_nil (s : Sys) (h : s.m = Mct.empty) : Added s s [] := by
  refine ⟨rfl, rfl, ?_, ?_, ?_, ?_, ?_, ?_, ?_, ?_, ?_⟩ <;> simp [h, Mct.empty, dictGet]

theorem chan_unique {s : Sys} (hw : SysWF s) {a b : String} {c : ℕ} (h1 : (a, c) ∈ s.m.channels)
    (h2 : (b, c) ∈ s.m.channels) : a = b := by
  have e1 := hw.chName _ h1
  have e2 := hw.chName _ h2
  exact e1.symm.trans e2

theorem name_unique {s : Sys} (hw : SysWF s) {a : String} {c d : ℕ} (h1 : (a, c) ∈ s.m.channels)
    (h2 : (a, d) ∈ s.m.channels) : c = d := by
  have e1 := dictGet_of_mem hw.chNames h1
  have e2 := dictGet_of_mem hw.chNames h2
  rw [e1] at e2; exact Option.some.inj e2

theorem added_defineChannel {s0 t : Sys} {L : List Op} (hw : SysWF t) (h : Added s0 t L) (a : String) (b : ChanBins)
    (r : PyRange) (hn : a ∉ L.flatMap defined) : Added s0 (t.step (.defineChannel a b r)) (L ++ [.defineChannel a b r]) := by
  have hna : a ∉ t.m.channels.map (·.1) := fun hh => hn ((h.names a).mp hh)
  have hch : (t.step (.defineChannel a b r)).m.channels = t.m.channels ++ [(a, t.w.nChans)] := by
    simp only [Sys.step, Mct.defineChannel, World.newChan]
    exact dictSet_new _ _ _ hna
  have hmem : ∀ a' c, (a', c) ∈ (t.step (.defineChannel a b r)).m.channels ↔
      ((a', c) ∈ t.m.channels ∨ (a' = a ∧ c = t.w.nChans)) := by
    intro a' c; rw [hch]; simp
  have hold : ∀ a' c, (a', c) ∈ t.m.channels → (t.step (.defineChannel a b r)).w.chans c = t.w.chans c := by
    intro a' c hc
    have := hw.chLt _ hc
    simp only [Sys.step, Mct.defineChannel, World.newChan]
    exact Function.update_of_ne (by simp at this; omega) _ _
  have hnew : (t.step (.defineChannel a b r)).w.chans t.w.nChans = Channel.new a b r := by
    simp [Sys.step, Mct.defineChannel, World.newChan]
  refine ⟨h.hists, h.tmpls, ?_, ?_, ?_, ?_, ?_, ?_, ?_, ?_, ?_⟩
  · intro x
    have := h.names x
    rw [hch]
    simp only [List.map_append, List.mem_append, List.flatMap_append, this]
    simp [defined]
  · intro a' p i e hm
    rw [hch]
    simp at hm
    have := h.knownT a' p i e hm
    simp only [List.map_append, List.mem_append]
    exact Or.inl this
  · intro x hx
    rw [hch]
    simp only [List.flatMap_append, List.mem_append] at hx
    rcases hx with hx | hx
    · simp only [List.map_append, List.mem_append]
      exact Or.inl (h.knownD x hx)
    · simp [dataOf] at hx
  · intro a' c hc p i
    rcases (hmem a' c).mp hc with hc | ⟨rfl, rfl⟩
    · rw [hold _ _ hc, h.templates a' c hc]
      simp
    · rw [hnew]
      simp only [Channel.new, List.not_mem_nil, false_iff]
      rintro ⟨e, he⟩
      simp at he
      exact hna (h.knownT _ _ _ _ he)
  · intro a' c hc p i
    rcases (hmem a' c).mp hc with hc | ⟨rfl, rfl⟩
    · rw [hold _ _ hc, h.effs a' c hc]
      simp
    · rw [hnew]
      simp only [Channel.new, List.not_mem_nil, false_iff]
      rintro ⟨e, he⟩
      simp at he
      exact hna (h.knownT _ _ _ _ he)
  · intro a' c hc x
    rcases (hmem a' c).mp hc with hc | ⟨rfl, rfl⟩
    · rw [hold _ _ hc, h.data a' c hc]
      simp [dataOf]
    · rw [hnew]
      simp only [Channel.new, List.flatMap_append, List.mem_append]
      constructor
      · intro hh; cases hh
      · rintro (hh | hh)
        · exact absurd (h.knownD _ hh) hna
        · simp [dataOf] at hh
  · have : (t.step (.defineChannel a b r)).m.constrained = t.m.constrained := rfl
    rw [this, h.cons]; simp [constrainedBy]
  · intro p v
    have : (t.step (.defineChannel a b r)).m.cvals = t.m.cvals := rfl
    rw [this, h.cvals]; simp
  · intro p v
    have : (t.step (.defineChannel a b r)).m.cerrs = t.m.cerrs := rfl
    rw [this, h.cerrs]; simp

theorem added_defineProcess {s0 t : Sys} {L : List Op} (h : Added s0 t L) (n : String) :
    Added s0 (t.step (.defineProcess n)) (L ++ [.defineProcess n]) := by
  have e1 : (t.step (.defineProcess n)).w = t.w := rfl
  have e2 : (t.step (.defineProcess n)).m.channels = t.m.channels ∧
      (t.step (.defineProcess n)).m.constrained = t.m.constrained ∧
      (t.step (.defineProcess n)).m.cvals = t.m.cvals ∧ (t.step (.defineProcess n)).m.cerrs = t.m.cerrs := by
    simp only [Sys.step, Mct.defineProcess]
    split <;> simp
  obtain ⟨e2, e3, e4, e5⟩ := e2
  refine ⟨?_, ?_, ?_, ?_, ?_, ?_, ?_, ?_, ?_, ?_, ?_⟩
  · rw [e1]; exact h.hists
  · rw [e1]; exact h.tmpls
  · rw [e2]; intro a; rw [h.names]; simp [defined]
  · rw [e2]; intro a p i e hm; exact h.knownT a p i e (by simpa using hm)
  · rw [e2]; intro x hx; exact h.knownD x (by simpa [dataOf] using hx)
  · rw [e1, e2]; intro a c hc p i; rw [h.templates a c hc]; simp
  · rw [e1, e2]; intro a c hc p i; rw [h.effs a c hc]; simp
  · rw [e1, e2]; intro a c hc p; rw [h.data a c hc]; simp [dataOf]
  · rw [e3, h.cons]; simp [constrainedBy]
  · rw [e4]; intro p v; rw [h.cvals]; simp
  · rw [e5]; intro p v; rw [h.cerrs]; simp

theorem added_constrain {s0 t : Sys} {L : List Op} (h : Added s0 t L) (p : String) (v e : Fl)
    (hok : (t.m.addConstraint p v e).1 = .ok ()) (hn : p ∉ L.flatMap constrainedBy) :
    Added s0 (t.step (.constrain p v e)) (L ++ [.constrain p v e]) := by
  have hp : p ∈ t.m.processes := by
    unfold Mct.addConstraint at hok
    by_contra hh
    rw [if_pos hh] at hok
    cases hok
  have hm : (t.step (.constrain p v e)).m = { t.m with
      constrained := t.m.constrained ++ [p]
      cvals := dictSet t.m.cvals p v
      cerrs := dictSet t.m.cerrs p e } := by
    simp only [Sys.step, Mct.addConstraint, hp, not_true, if_false]
  have hnc : ∀ v e, Op.constrain p v e ∉ L := by
    intro v e hh
    exact hn (List.mem_flatMap.mpr ⟨_, hh, by simp [constrainedBy]⟩)
  have e1 : (t.step (.constrain p v e)).w = t.w := rfl
  have e2 : (t.step (.constrain p v e)).m.channels = t.m.channels := by rw [hm]
  refine ⟨?_, ?_, ?_, ?_, ?_, ?_, ?_, ?_, ?_, ?_, ?_⟩
  · rw [e1]; exact h.hists
  · rw [e1]; exact h.tmpls
  · rw [e2]; intro a; rw [h.names]; simp [defined]
  · rw [e2]; intro a p i e hm; exact h.knownT a p i e (by simpa using hm)
  · rw [e2]; intro x hx; exact h.knownD x (by simpa [dataOf] using hx)
  · rw [e1, e2]; intro a c hc p i; rw [h.templates a c hc]; simp
  · rw [e1, e2]; intro a c hc p i; rw [h.effs a c hc]; simp
  · rw [e1, e2]; intro a c hc p; rw [h.data a c hc]; simp [dataOf]
  · rw [hm]; simp [h.cons, constrainedBy]
  · rw [hm]; intro q v'
    by_cases hq : q = p
    · subst hq
      simp only [dictGet_set, List.mem_append, hnc, false_or, List.mem_singleton]
      simp
      exact eq_comm
    · simp only [dictGet_set_ne _ _ _ _ hq, h.cvals]
      simp [hq]
  · rw [hm]; intro q v'
    by_cases hq : q = p
    · subst hq
      simp only [dictGet_set, List.mem_append, hnc, false_or, List.mem_singleton]
      simp
      exact eq_comm
    · simp only [dictGet_set_ne _ _ _ _ hq, h.cerrs]
      simp [hq]

theorem chanAdd_named {C : Channel} {p : String} {tid : ℕ} {T : Template} {hc : HistCls} {e : Fl}
    (hcw : C.effs.map (·.1) = C.processes) (hct : C.templates.map (·.1) = C.processes)
    (h : (C.addTemplate p tid T hc e).1 = .ok ()) :
    (C.addTemplate p tid T hc e).2.templates = C.templates ++ [(p, tid)] ∧
    (C.addTemplate p tid T hc e).2.effs = C.effs ++ [(p, e)] ∧
    (C.addTemplate p tid T hc e).2.hdata = C.hdata ∧ p ∉ C.procs := by
  unfold Channel.addTemplate at h ⊢
  by_cases h1 : C.checkTemplate T
  · rw [if_pos h1] at h ⊢
    by_cases h2 : p ∈ C.procs
    · rw [if_pos h2] at h; cases h
    · rw [if_neg h2] at h ⊢
      have hf : ∀ C1 : Channel, (C1 = C ∨ C1 = { C with dim := some T.bins.length }) →
          ∀ C2 : Channel, (C2 = C1 ∨ C2 = { C1 with ttype := some T.cls, htype := some hc }) →
          C2.templates = C.templates ∧ C2.effs = C.effs ∧ C2.hdata = C.hdata := by
        rintro C1 (rfl | rfl) C2 (rfl | rfl) <;> exact ⟨rfl, rfl, rfl⟩
      simp only at h ⊢
      generalize hC1 : (if C.dim = none then { C with dim := some T.bins.length } else C) = C1 at h ⊢
      generalize hC2 : (if C1.ttype = none then { C1 with ttype := some T.cls, htype := some hc } else C1) = C2 at h ⊢
      have := hf C1 (by rw [← hC1]; split <;> simp) C2 (by rw [← hC2]; split <;> simp)
      obtain ⟨f1, f2, f3⟩ := this
      by_cases h3 : some T.cls ≠ C2.ttype
      · rw [if_pos h3] at h; cases h
      · rw [if_neg h3]
        refine ⟨?_, ?_, f3, h2⟩
        · simp only [f1]
          exact dictSet_new _ _ _ h2
        · simp only [f2]
          refine dictSet_new _ _ _ ?_
          rw [hcw, ← hct]; exact h2
  · rw [if_neg h1] at h; cases h

theorem added_addTemplate {s0 t : Sys} {L : List Op} (hw : SysWF t) (h : Added s0 t L) (a p : String) (i : ℕ) (e : Fl)
    (hi : i < t.w.nTmpls) (hok : (t.m.addTemplate t.w a p i e).1 = .ok ()) :
    Added s0 (t.step (.addTemplate a p i e)) (L ++ [.addTemplate a p i e]) := by
  unfold Mct.addTemplate at hok
  cases hd : dictGet t.m.channels a with
  | none => rw [hd] at hok; cases hok
  | some c =>
    rw [hd] at hok
    simp only at hok
    by_cases hp : p ∉ t.m.processes
    · rw [if_pos hp] at hok; cases hok
    rw [if_neg hp] at hok
    have hac := dictGet_mem hd
    have hcw := hw.chan c (hw.chLt _ hac)
    have hst : (t.step (.addTemplate a p i e)) = { t with w := (t.w.addTemplate c p i e).2 } := by
      simp only [Sys.step, if_pos hi, Mct.addTemplate, hd, if_neg hp]
    obtain ⟨k1, k2, k3, k4⟩ := chanAdd_named hcw.ekeys hcw.tkeys hok
    rw [hst]
    have hat : ((t.w.addTemplate c p i e).2).chans c = ((t.w.chans c).addTemplate p i (t.w.tmpls i)
        (t.w.hists (t.w.tmpls i).hist).cls e).2 := by simp [World.addTemplate, World.setChan]
    have hot : ∀ c', c' ≠ c → ((t.w.addTemplate c p i e).2).chans c' = t.w.chans c' := by
      intro c' hc'; simp [World.addTemplate, World.setChan, Function.update_of_ne hc']
    refine ⟨h.hists, h.tmpls, ?_, ?_, ?_, ?_, ?_, ?_, ?_, ?_, ?_⟩
    · intro x; rw [show (({ t with w := (t.w.addTemplate c p i e).2 } : Sys).m) = t.m from rfl, h.names]; simp [defined]
    · intro a' p' i' e' hm
      simp only [List.mem_append, List.mem_singleton, Op.addTemplate.injEq] at hm
      rcases hm with hm | ⟨rfl, -⟩
      · exact h.knownT _ _ _ _ hm
      · exact List.mem_map.mpr ⟨_, hac, rfl⟩
    · intro x hx; exact h.knownD x (by simpa [dataOf] using hx)
    · intro a' c' hc' p' i'
      by_cases hcc : c' = c
      · subst hcc
        have := chan_unique hw hc' hac
        subst this
        simp only [hat, k1, List.mem_append, h.templates _ _ hac, List.mem_singleton, Prod.mk.injEq,
          Op.addTemplate.injEq, true_and]
        constructor
        · rintro (⟨x, hx⟩ | ⟨rfl, rfl⟩)
          · exact ⟨x, Or.inl hx⟩
          · exact ⟨e, Or.inr ⟨rfl, rfl, rfl⟩⟩
        · rintro ⟨x, hx | ⟨rfl, rfl, rfl⟩⟩
          · exact Or.inl ⟨x, hx⟩
          · exact Or.inr ⟨rfl, rfl⟩
      · have hne : a' ≠ a := fun hh => hcc (name_unique hw (hh ▸ hc') hac)
        simp only [hot c' hcc]
        rw [h.templates a' c' hc']
        simp [hne]
    · intro a' c' hc' p' e'
      by_cases hcc : c' = c
      · subst hcc
        have := chan_unique hw hc' hac
        subst this
        simp only [hat, k2, List.mem_append, h.effs _ _ hac, List.mem_singleton, Prod.mk.injEq,
          Op.addTemplate.injEq, true_and]
        constructor
        · rintro (⟨x, hx⟩ | ⟨rfl, rfl⟩)
          · exact ⟨x, Or.inl hx⟩
          · exact ⟨i, Or.inr ⟨rfl, rfl, rfl⟩⟩
        · rintro ⟨x, hx | ⟨rfl, rfl, rfl⟩⟩
          · exact Or.inl ⟨x, hx⟩
          · exact Or.inr ⟨rfl, rfl⟩
      · have hne : a' ≠ a := fun hh => hcc (name_unique hw (hh ▸ hc') hac)
        simp only [hot c' hcc]
        rw [h.effs a' c' hc']
        simp [hne]
    · intro a' c' hc' x
      by_cases hcc : c' = c
      · subst hcc
        simp only [hat, k3]
        rw [h.data a' c' hc']
        simp [dataOf]
      · simp only [hot c' hcc]
        rw [h.data a' c' hc']
        simp [dataOf]
    · show t.m.constrained = _
      rw [h.cons]; simp [constrainedBy]
    · intro q v
      show dictGet t.m.cvals q = some v ↔ _
      rw [h.cvals]; simp
    · intro q v
      show dictGet t.m.cerrs q = some v ↔ _
      rw [h.cerrs]; simp

theorem addData_ok (m : Mct) (hnm : ∀ a c d, (a, c) ∈ m.channels → (a, d) ∈ m.channels → c = d)
    (hid : ∀ a b c, (a, c) ∈ m.channels → (b, c) ∈ m.channels → a = b) :
    ∀ (hs : List (String × ℕ)) (w : World), (hs.map (·.1)).Nodup → (m.addData w hs).1 = .ok () →
      (m.addData w hs).2.hists = w.hists ∧ (m.addData w hs).2.tmpls = w.tmpls ∧
      (∀ c, ((m.addData w hs).2.chans c).templates = (w.chans c).templates ∧
        ((m.addData w hs).2.chans c).effs = (w.chans c).effs) ∧
      (∀ x ∈ hs, x.1 ∈ m.channels.map (·.1)) ∧
      ∀ a c, (a, c) ∈ m.channels → ∀ h, ((m.addData w hs).2.chans c).hdata = some h ↔
        ((a, h) ∈ hs ∨ (a ∉ hs.map (·.1) ∧ (w.chans c).hdata = some h)) := by
  intro hs
  induction hs with
  | nil => intro w _ _; simp [Mct.addData]
  | cons x rest ih =>
    intro w hn hok
    obtain ⟨ch, k⟩ := x
    unfold Mct.addData at hok ⊢
    cases hd : dictGet m.channels ch with
    | none => rw [hd] at hok; cases hok
    | some c0 =>
      rw [hd] at hok
      simp only at hok ⊢
      have hac := dictGet_mem hd
      by_cases hch : (w.chans c0).checkHist (w.hists k)
      · have hw1 : w.addData c0 k = (.ok (), w.setChan c0 { w.chans c0 with hdata := some k }) := by
          simp only [World.addData, Channel.addData, if_pos hch]
        rw [hw1] at hok ⊢
        simp only at hok ⊢
        have hn' : (rest.map (·.1)).Nodup := by simp at hn; exact hn.2
        have hnot : ch ∉ rest.map (·.1) := by
          simp at hn; simpa using hn.1
        obtain ⟨i1, i2, i3, i4, i5⟩ := ih _ hn' hok
        refine ⟨i1, i2, ?_, ?_, ?_⟩
        · intro c
          obtain ⟨j1, j2⟩ := i3 c
          rw [j1, j2]
          by_cases hc : c = c0
          · subst hc; simp [World.setChan]
          · simp [World.setChan, Function.update_of_ne hc]
        · intro y hy
          rcases List.mem_cons.mp hy with rfl | hy
          · exact List.mem_map.mpr ⟨_, hac, rfl⟩
          · exact i4 y hy
        · intro a c hc h
          rw [i5 a c hc h]
          by_cases hcc : c = c0
          · subst hcc
            have := hid _ _ _ hc hac
            subst this
            have hm : ∀ h, (a, h) ∉ rest := fun h hh => hnot (List.mem_map.mpr ⟨_, hh, rfl⟩)
            simp [World.setChan, hm, hnot]
            exact eq_comm
          · have hne : a ≠ ch := fun hh => hcc (hnm _ _ _ (hh ▸ hc) hac)
            simp [World.setChan, Function.update_of_ne hcc, hne]
      · have hw1 : (w.addData c0 k).1 = .error .runtimeError := by
          simp only [World.addData, Channel.addData, if_neg hch]
        cases hw2 : w.addData c0 k with
        | mk r w1 =>
          rw [hw2] at hw1 hok
          simp only at hw1
          subst hw1
          cases hok

theorem added_addData {s0 t : Sys} {L : List Op} (hw : SysWF t) (h : Added s0 t L) (hs : List (String × ℕ))
    (hi : ∀ x ∈ hs, x.2 < t.w.nHists) (hok : (t.m.addData t.w hs).1 = .ok ())
    (hn : ((L.flatMap dataOf ++ hs).map (·.1)).Nodup) :
    Added s0 (t.step (.addData hs)) (L ++ [.addData hs]) := by
  have hst : (t.step (.addData hs)) = { t with w := (t.m.addData t.w hs).2 } := by
    simp only [Sys.step]
    rw [if_pos hi]
  rw [List.map_append, List.nodup_append] at hn
  obtain ⟨-, hn2, hdis⟩ := hn
  obtain ⟨i1, i2, i3, i4, i5⟩ := addData_ok t.m (fun _ _ _ => name_unique hw) (fun _ _ _ => chan_unique hw) hs t.w hn2 hok
  rw [hst]
  refine ⟨i1.trans h.hists, i2.trans h.tmpls, ?_, ?_, ?_, ?_, ?_, ?_, ?_, ?_, ?_⟩
  · intro x
    show x ∈ t.m.channels.map (·.1) ↔ _
    rw [h.names]; simp [defined]
  · intro a p i e hm; exact h.knownT a p i e (by simpa using hm)
  · intro x hx
    simp only [List.flatMap_append, List.mem_append] at hx
    rcases hx with hx | hx
    · exact h.knownD x hx
    · exact i4 x (by simpa [dataOf] using hx)
  · intro a c hc p i
    simp only [(i3 c).1]
    rw [h.templates a c hc]; simp
  · intro a c hc p i
    simp only [(i3 c).2]
    rw [h.effs a c hc]; simp
  · intro a c hc x
    simp only []
    rw [i5 a c hc x, h.data a c hc]
    simp only [List.flatMap_append, List.mem_append]
    simp only [List.flatMap_cons, List.flatMap_nil, dataOf, List.append_nil]
    constructor
    · rintro (h1 | ⟨-, h2⟩)
      · exact Or.inr h1
      · exact Or.inl h2
    · rintro (h1 | h2)
      · right
        refine ⟨?_, h1⟩
        intro hh
        exact hdis _ (List.mem_map.mpr ⟨_, h1, rfl⟩) _ hh rfl
      · exact Or.inl h2
  · show t.m.constrained = _
    rw [h.cons]; simp [constrainedBy]
  · intro q v
    show dictGet t.m.cvals q = some v ↔ _
    rw [h.cvals]; simp
  · intro q v
    show dictGet t.m.cerrs q = some v ↔ _
    rw [h.cerrs]; simp

theorem added_run {s0 : Sys} : ∀ (L : List Op) (done : List Op) (t : Sys), SysWF t → Added s0 t done → AllAccepted t L →
    Once (done ++ L) → Added s0 (t.run L) (done ++ L) := by
  intro L
  induction L with
  | nil => intro done t _ h _ _; simpa [Sys.run] using h
  | cons o L ih =>
    intro done t hw h hacc honce
    obtain ⟨ho, hacc⟩ := hacc
    have key : Added s0 (t.step o) (done ++ [o]) := by
      obtain ⟨n1, n2, n3⟩ := honce
      cases o with
      | defineChannel a b r =>
        refine added_defineChannel hw h a b r ?_
        intro hh
        simp only [List.flatMap_append, List.nodup_append] at n1
        exact n1.2.2 _ hh a (by simp [defined]) rfl
      | defineProcess n => exact added_defineProcess h n
      | addTemplate a p i e => exact added_addTemplate hw h a p i e ho.1 ho.2
      | addData hs =>
        refine added_addData hw h hs ho.1 ho.2 ?_
        simp only [List.flatMap_append, List.flatMap_cons, List.map_append, dataOf, ← List.append_assoc] at n2 ⊢
        exact (List.nodup_append.mp n2).1
      | constrain p v e =>
        refine added_constrain h p v e ho ?_
        intro hh
        simp only [List.flatMap_append, List.nodup_append] at n3
        exact n3.2.2 _ hh p (by simp [constrainedBy]) rfl
      | _ => exact ho.elim
    have := ih (done ++ [o]) (t.step o) (step_wf hw o) key hacc (by simpa using honce)
    simpa [Sys.run] using this

theorem once_perm {L L' : List Op} (h : Once L) (hp : L.Perm L') : Once L' :=
  ⟨(hp.flatMap_right _).nodup_iff.mp h.1, ((hp.flatMap_right _).map _).nodup_iff.mp h.2.1,
   (hp.flatMap_right _).nodup_iff.mp h.2.2⟩

/-- two models that consist of the same additions -/
theorem named_transfer {s0 t t' : Sys} {L L' : List Op} (hp : L.Perm L') (h : Added s0 t L) (h' : Added s0 t' L')
    {A : Finset String} {D : String → NamedChan} (hm : NamedModel t A D) : NamedModel t' A D := by
  have hnames : ∀ a, a ∈ t.m.channels.map (·.1) ↔ a ∈ t'.m.channels.map (·.1) := by
    intro a; rw [h.names, h'.names]; exact (hp.flatMap_right _).mem_iff
  refine ⟨fun a => (hm.names a).trans (hnames a), ?_⟩
  intro a c' hc'
  obtain ⟨⟨b, c⟩, hc, rfl⟩ := List.mem_map.mp ((hnames a).mpr (List.mem_map.mpr ⟨_, hc', rfl⟩))
  have hN := hm.chan _ _ hc
  have ht : ∀ p i, (p, i) ∈ (t'.w.chans c').templates ↔ (p, i) ∈ (t.w.chans c).templates := by
    intro p i
    rw [h.templates _ _ hc, h'.templates _ _ hc']
    simp only [hp.mem_iff]
  have he : ∀ p i, (p, i) ∈ (t'.w.chans c').effs ↔ (p, i) ∈ (t.w.chans c).effs := by
    intro p i
    rw [h.effs _ _ hc, h'.effs _ _ hc']
    simp only [hp.mem_iff]
  refine ⟨hN.bins, hN.procsNe, ?_, ?_, ?_, ?_⟩
  · intro p
    rw [hN.procs]
    unfold Channel.procs
    simp only [List.mem_map, Prod.exists, exists_and_right, exists_eq_right, ht]
  · intro p e hm; exact hN.effs p e ((he p e).mp hm)
  · intro p i hm
    rw [h'.tmpls, ← h.tmpls]
    exact hN.tmpls p i ((ht p i).mp hm)
  · obtain ⟨hid, h1, h2⟩ := hN.data
    refine ⟨hid, ?_, ?_⟩
    · rw [h.data _ _ hc] at h1
      rw [h'.data _ _ hc']
      exact (hp.flatMap_right _).mem_iff.mp h1
    · rw [h'.hists, ← h.hists]; exact h2

theorem accepted_noEval : ∀ (L : List Op) (s : Sys), AllAccepted s L → ∀ o ∈ L, ¬ o.evaluates := by
  intro L
  induction L with
  | nil => simp
  | cons o L ih =>
    intro s h x hx
    rcases List.mem_cons.mp hx with rfl | hx
    · have := h.1
      cases x <;> first | exact this.elim | exact fun hh => hh
    · exact ih _ h.2 x hx

theorem setupFirst_noEval {ops : List Op} (h : ∀ o ∈ ops, ¬ o.evaluates) : SetupFirst ops := by
  refine setupFirst_of_before ?_
  intro pre o post he _ e hm
  exact h e (by rw [he]; simp [hm])

/-- **C98, programs.** A program creates histograms and templates (`pre`), and then builds the model by accepted calls
`L` that define no channel twice, and add data or a constraint at most once each. If the same calls are made in another
order `L'` in which they are accepted as well, then the likelihood at the same named parameters is the same number. -/
theorem C98_programs (pre L L' : List Op) (hpre : ∀ o ∈ pre, ¬ o.evaluates) (hempty : (Sys.init.run pre).m = Mct.empty)
    (hL : AllAccepted (Sys.init.run pre) L) (hL' : AllAccepted (Sys.init.run pre) L') (hp : L.Perm L') (ho : Once L)
    (s s' : Sys) (hs : s = Sys.init.run (pre ++ L)) (hs' : s' = Sys.init.run (pre ++ L'))
    (hne : s.m.channels ≠ []) (A : Finset String) (D : String → NamedChan) (hm : NamedModel s A D)
    (V E : String → ℝ) (hc : ConstraintsAre s V E) (ν : String → ℝ) (θ : ∀ a, String → Fin (D a).n → ℝ)
    (hreg : ∀ a ∈ A, (D a).Regular ν (θ a)) :
    ∃ v : ℝ, (s.m.nll s.w (namedVec s D ν θ)).1 = .ok (.fin v) ∧
      (s'.m.nll s'.w (namedVec s' D ν θ)).1 = .ok (.fin v) := by
  have hb : ∀ M, AllAccepted (Sys.init.run pre) M → (Sys.init.run (pre ++ M)).Built := by
    intro M hM
    refine ⟨_, setupFirst_noEval ?_, rfl⟩
    intro o hmem
    rcases List.mem_append.mp hmem with h1 | h1
    · exact hpre o h1
    · exact accepted_noEval _ _ hM o h1
  have hw0 := run_wf init_wf pre
  have h1 : Added (Sys.init.run pre) s L := by
    have := added_run L [] (Sys.init.run pre) hw0 (added_nil _ hempty) hL (by simpa using ho)
    rw [hs, run_append]; simpa using this
  have h2 : Added (Sys.init.run pre) s' L' := by
    have := added_run L' [] (Sys.init.run pre) hw0 (added_nil _ hempty) hL' (by simpa using once_perm ho hp)
    rw [hs', run_append]; simpa using this
  have hbs : s.Built := hs ▸ hb L hL
  have hbs' : s'.Built := hs' ▸ hb L' hL'
  have hm' := named_transfer hp h1 h2 hm
  have hcon : s.m.constrained.Perm s'.m.constrained := by
    rw [h1.cons, h2.cons]; exact hp.flatMap_right _
  have hw' := reachable_wf hbs'.reachable
  have hc' : ConstraintsAre s' V E := by
    intro p hpm
    obtain ⟨-, a, b, c⟩ := hc p (hcon.mem_iff.mpr hpm)
    refine ⟨(hw'.cons p hpm).1, ?_, ?_, c⟩
    · rw [h2.cvals]; rw [h1.cvals] at a
      simpa only [hp.mem_iff] using a
    · rw [h2.cerrs]; rw [h1.cerrs] at b
      simpa only [hp.mem_iff] using b
  obtain ⟨e, v, hv⟩ := C98_order s s' hbs hbs' hne A D hm hm' V E hc hc' hcon ν θ hreg
  exact ⟨v, hv, e ▸ hv⟩

/-- every described model is described by name -/
theorem named_of_ordered {s : Sys} (hw : SysWF s) {S : ℕ → ChanSpec} (hS : ModelIs s S)
    {d : ∀ k, Fin (S k).n → ℝ} (hd : DataIs s S d) :
    ∃ (D : String → NamedChan), NamedModel s (s.m.channels.map (·.1)).toFinset D ∧
      ∀ a, ∀ i, ∃ k j, (D a).d i = d k j := by
  have key : ∀ a, ∃ D : NamedChan, (∀ c, (a, c) ∈ s.m.channels → NamedChanIs s.w c D) ∧ ∀ i, ∃ k j, D.d i = d k j := by
    intro a
    by_cases ha : a ∈ s.m.channels.map (·.1)
    · obtain ⟨⟨b, c⟩, hc, rfl⟩ := List.mem_map.mp ha
      obtain ⟨k, hk, he⟩ := List.getElem_of_mem hc
      have hk' : k < s.m.chanIds.length := by simpa [Mct.chanIds] using hk
      have hid : s.m.chanIds[k] = c := by simp [Mct.chanIds, he]
      obtain ⟨h1, h2, h3, h4⟩ := hS k hk'
      obtain ⟨hid0, g1, g2⟩ := hd k hk'
      rw [hid] at h4 g1
      have hcw := hw.chan c (hw.chLt _ hc)
      have hnd : (s.w.chans c).procs.Nodup := by
        have := hcw.nodup; rw [← hcw.tkeys] at this; exact this
      have hlen : (s.w.chans c).procs.length = (S k).K := by
        rw [← h4.num]; unfold Channel.numTemplates; rw [← hcw.tkeys]; rfl
      have hpe : (s.w.chans c).effs.map (·.1) = (s.w.chans c).procs := by rw [hcw.ekeys, ← hcw.tkeys]; rfl
      -- position of a process
      let J : String → Fin (S k).K := fun p =>
        if h : p ∈ (s.w.chans c).procs then ⟨(s.w.chans c).procs.idxOf p, hlen ▸ List.idxOf_lt_length_of_mem h⟩ else ⟨0, h1⟩
      have hJ : ∀ (j : ℕ) (hj : j < (s.w.chans c).procs.length), (J ((s.w.chans c).procs[j]) : ℕ) = j := by
        intro j hj
        simp only [J]
        rw [dif_pos (List.getElem_mem hj)]
        exact hnd.idxOf_getElem j hj
      refine ⟨⟨(S k).n, (s.w.chans c).procs.toFinset, fun p => (S k).cnt (J p), fun p => (S k).ε (J p),
        fun p => (S k).eff (J p), fun p => (S k).R (J p), d k⟩, ?_, fun i => ⟨k, i, rfl⟩⟩
      intro c' hc'
      have : c' = c := name_unique hw hc' hc
      subst this
      refine ⟨h2, ?_, ?_, ?_, ?_, ⟨hid0, g1, g2⟩⟩
      · have : (s.w.chans c').procs ≠ [] := by
          intro e; rw [e] at hlen; simp at hlen; omega
        obtain ⟨x, hx⟩ := List.exists_mem_of_ne_nil _ this
        exact ⟨x, by simpa using hx⟩
      · intro p; simp
      · intro p e hm
        obtain ⟨j, hj, he⟩ := List.getElem_of_mem hm
        have hj' : j < (s.w.chans c').procs.length := by rw [← hpe]; simpa using hj
        have hp : (s.w.chans c').procs[j] = p := by simp only [← hpe, List.getElem_map, he]
        have hv := h4.effs
        have h5 : ((s.w.chans c').effs.map (·.2))[j]'(by simpa using hj) = e := by simp [he]
        have h6 : ((s.w.chans c').effs.map (·.2))[j]'(by simpa using hj) = .fin ((S k).eff ⟨j, hlen ▸ hj'⟩) := by
          simp only [hv, vec, List.getElem_ofFn]
        rw [← h5, h6]
        have : J p = ⟨j, hlen ▸ hj'⟩ := by apply Fin.ext; rw [← hp]; exact hJ j hj'
        simp only [this]
      · intro p t hm
        obtain ⟨j, hj, he⟩ := List.getElem_of_mem hm
        have hj' : j < (s.w.chans c').procs.length := by simpa [Channel.procs] using hj
        have hp : (s.w.chans c').procs[j] = p := by simp [Channel.procs, he]
        obtain ⟨T, hT, hT2⟩ := h4.tmpls
        have h5 : s.w.tmpls t = T ⟨j, hlen ▸ hj'⟩ := by
          have h6 : (s.w.chanTmpls c')[j]'(by simpa [World.chanTmpls] using hj) = s.w.tmpls t := by
            simp [World.chanTmpls, he]
          rw [← h6]
          simp only [hT, List.getElem_ofFn]
        have hJp : J p = ⟨j, hlen ▸ hj'⟩ := by apply Fin.ext; rw [← hp]; exact hJ j hj'
        simp only [hJp, h5]
        obtain ⟨a1, a2, a3⟩ := hT2 ⟨j, hlen ▸ hj'⟩
        exact ⟨a1, h3 _, a2, a3⟩
    · refine ⟨⟨0, ∅, fun _ => 0, fun _ => 0, fun _ => 0, fun _ => 0, fun _ => 0⟩, ?_, fun i => i.elim0⟩
      intro c hc
      exact absurd (List.mem_map.mpr ⟨_, hc, rfl⟩) ha
  choose D hD hD2 using key
  exact ⟨D, ⟨fun a => by simp, fun a c hc => hD a c hc⟩, hD2⟩

/-- **C98, every model.** Every model built by a program with physical inputs, with populated channels and data, is
described by name, so that `C98_by_name` and `C98_programs` apply. -/
theorem C98_reachable (ops : List Op) (hp : PhysicalProgram ops) (hpop : Populated (Sys.init.run ops))
    (hdat : DataEverywhere (Sys.init.run ops)) :
    ∃ (A : Finset String) (D : String → NamedChan), NamedModel (Sys.init.run ops) A D := by
  obtain ⟨S, hS⟩ := C84_models ops hp hpop
  obtain ⟨d, hd⟩ := data_described ops hp S hS hdat
  obtain ⟨D, hD, -⟩ := named_of_ordered (run_wf init_wf ops) hS hd
  exact ⟨_, D, hD⟩

/-! ### a concrete pair of programs -/

namespace Ex

/-- the calls of `ops1`, in another order -/
def ops1r : List Op :=
  [.defineProcess "bkg", .defineProcess "sig", .defineChannel "b" (.int 2) (.d1 .tuple 0 2),
   .defineChannel "a" (.int 2) (.d1 .tuple 0 2),
   .addData [("a", 2), ("b", 2)], .addTemplate "b" "bkg" 2 (.fin (1/4)),
   .addTemplate "a" "bkg" 1 (.fin 1), .addTemplate "a" "sig" 0 (.fin (1/2))]

theorem ops1_perm : ops1.Perm ops1r :=
  ((List.reverse_perm [Op.defineProcess "bkg", .defineProcess "sig", .defineChannel "b" (.int 2) (.d1 .tuple 0 2),
   .defineChannel "a" (.int 2) (.d1 .tuple 0 2)]).append (List.reverse_perm [Op.addData [("a", 2), ("b", 2)], .addTemplate "b" "bkg" 2 (.fin (1/4)),
   .addTemplate "a" "bkg" 1 (.fin 1), .addTemplate "a" "sig" 0 (.fin (1/2))]))

theorem ops1_once : Once ops1 := by
  refine ⟨?_, ?_, ?_⟩ <;> simp [ops1, defined, dataOf, constrainedBy]

theorem ops1_accepted : AllAccepted ⟨w0, Mct.empty⟩ ops1 := by
  simp [ops1, AllAccepted, Accepts, Sys.step, Mct.defineChannel, Mct.defineProcess,
    Mct.addTemplate, World.addTemplate, Mct.empty, World.newChan, dictSet, dictGet, Mct.addData, World.addData,
    World.setChan, w0, World.init, Channel.new, Channel.addTemplate, Channel.checkTemplate, Channel.procs, bt, bh,
    Hist.setBinned, Hist.blank, ChanBins.toTuple, Channel.addData, Channel.checkHist,
    Function.update_apply]

theorem ops1r_accepted : AllAccepted ⟨w0, Mct.empty⟩ ops1r := by
  simp [ops1r, AllAccepted, Accepts, Sys.step, Mct.defineChannel, Mct.defineProcess,
    Mct.addTemplate, World.addTemplate, Mct.empty, World.newChan, dictSet, dictGet, Mct.addData, World.addData,
    World.setChan, w0, World.init, Channel.new, Channel.addTemplate, Channel.checkTemplate, Channel.procs, bt, bh,
    Hist.setBinned, Hist.blank, ChanBins.toTuple, Channel.addData, Channel.checkHist,
    Function.update_apply]

/-- channel `a` by name -/
def DA : NamedChan :=
  ⟨2, {"sig", "bkg"}, fun p => if p = "sig" then ![4, 6] else ![5, 5],
      fun p => if p = "sig" then fun i => (![2, 3] : Fin 2 → ℝ) i / (![4, 6] : Fin 2 → ℝ) i
        else fun i => (![1, 1] : Fin 2 → ℝ) i / (![5, 5] : Fin 2 → ℝ) i,
      fun p => if p = "sig" then 1 / 2 else 1, fun _ => 1, ![10, 5]⟩

/-- channel `b` by name -/
def DB : NamedChan :=
  ⟨2, {"bkg"}, fun _ => ![5, 5], fun _ i => (![1, 1] : Fin 2 → ℝ) i / (![5, 5] : Fin 2 → ℝ) i,
      fun _ => 1 / 4, fun _ => 1, ![10, 5]⟩

/-- the two channels -/
def D1 : String → NamedChan
  | "a" => DA
  | _ => DB

theorem tm_s : sys1.w.tmpls 0 = bt "s" 0 ![4, 6] ![2, 3] := by simp [sys1, w1, w0]
theorem tm_b : sys1.w.tmpls 1 = bt "b" 1 ![5, 5] ![1, 1] := by simp [sys1, w1, w0]
theorem tm_c : sys1.w.tmpls 2 = bt "c" 1 ![5, 5] ![1, 1] := by simp [sys1, w1, w0]

theorem named1 : NamedModel sys1 {"a", "b"} D1 := by
  refine ⟨by intro a; simp [sys1, m1], ?_⟩
  intro a c hc
  have hc : (a = "a" ∧ c = 0) ∨ (a = "b" ∧ c = 1) := by simpa [sys1, m1] using hc
  rcases hc with ⟨rfl, rfl⟩ | ⟨rfl, rfl⟩
  · refine ⟨Nat.two_pos, ⟨"sig", by simp [D1, DA, DB]⟩, ?_, ?_, ?_, 2, ?_, ?_⟩
    · intro p; simp [D1, DA, DB, sys1, w1, chA, Channel.procs]
    · intro p e hm
      simp [sys1, w1, chA] at hm
      rcases hm with ⟨rfl, rfl⟩ | ⟨rfl, rfl⟩ <;> simp [D1, DA]
    · intro p t hm
      have hm : (p = "sig" ∧ t = 0) ∨ (p = "bkg" ∧ t = 1) := by simpa [sys1, w1, chA] using hm
      rcases hm with ⟨rfl, rfl⟩ | ⟨rfl, rfl⟩
      · refine ⟨?_, Matrix.PosDef.one, ?_, ?_⟩
        · rw [tm_s]; exact bt_shape "s" 0 ![4, 6] ![2, 3] (by intro i; fin_cases i <;> simp) (by intro i; fin_cases i <;> simp)
        · rw [tm_s]; exact one_real
        · show IsReal _ (1 : Matrix (Fin 2) (Fin 2) ℝ)⁻¹
          rw [inv_one]
          rw [tm_s]; exact one_real
      · refine ⟨?_, Matrix.PosDef.one, ?_, ?_⟩
        · rw [tm_b]; exact bt_shape "b" 1 ![5, 5] ![1, 1] (by intro i; fin_cases i <;> simp) (by intro i; fin_cases i <;> simp)
        · rw [tm_b]; exact one_real
        · show IsReal _ (1 : Matrix (Fin 2) (Fin 2) ℝ)⁻¹
          rw [inv_one]
          rw [tm_b]; exact one_real
    · simp [sys1, w1, chA]
    · show _ = vec (![10, 5] : Fin 2 → ℝ)
      simp [sys1, w1, w0, bh, Hist.setBinned]
  · refine ⟨Nat.two_pos, ⟨"bkg", by simp [D1, DA, DB]⟩, ?_, ?_, ?_, 2, ?_, ?_⟩
    · intro p; simp [D1, DA, DB, sys1, w1, chB, Channel.procs]
    · intro p e hm
      simp [sys1, w1, chB] at hm
      obtain ⟨rfl, rfl⟩ := hm
      simp [D1, DB]
    · intro p t hm
      have hm : (p = "bkg" ∧ t = 2) := by simpa [sys1, w1, chB] using hm
      obtain ⟨rfl, rfl⟩ := hm
      refine ⟨?_, Matrix.PosDef.one, ?_, ?_⟩
      · rw [tm_c]; exact bt_shape "c" 1 ![5, 5] ![1, 1] (by intro i; fin_cases i <;> simp) (by intro i; fin_cases i <;> simp)
      · rw [tm_c]; exact one_real
      · show IsReal _ (1 : Matrix (Fin 2) (Fin 2) ℝ)⁻¹
        rw [inv_one]
        rw [tm_c]; exact one_real
    · simp [sys1, w1, chB]
    · show _ = vec (![10, 5] : Fin 2 → ℝ)
      simp [sys1, w1, w0, bh, Hist.setBinned]

theorem regularA : DA.Regular (fun _ => 10) (fun _ _ => 0) := by
  have hd : DA.procs = {"sig", "bkg"} := rfl
  refine ⟨?_, ?_, ?_⟩
  · show ∀ i : Fin 2, (![10, 5] : Fin 2 → ℝ) i = 0 ∨ (1e-100 : ℝ) ≤ (![10, 5] : Fin 2 → ℝ) i
    intro i; right; fin_cases i <;> simp <;> norm_num
  · intro p hp
    have hp : p = "sig" ∨ p = "bkg" := by simpa [DA] using hp
    rcases hp with rfl | rfl
    · show ∑ i : Fin 2, (![4, 6] : Fin 2 → ℝ) i * (1 + 0 * _) ≠ 0
      simp [Fin.sum_univ_two]; norm_num
    · show ∑ i : Fin 2, (![5, 5] : Fin 2 → ℝ) i * (1 + 0 * _) ≠ 0
      simp [Fin.sum_univ_two]
  · intro i
    left
    unfold NamedChan.expected
    rw [hd, Finset.sum_pair (by decide)]
    revert i
    show ∀ i : Fin 2, 0 < 10 * (1 / 2) * ((![4, 6] : Fin 2 → ℝ) i * (1 + 0 * _) / ∑ i' : Fin 2, (![4, 6] : Fin 2 → ℝ) i' * (1 + 0 * _)) +
      10 * 1 * ((![5, 5] : Fin 2 → ℝ) i * (1 + 0 * _) / ∑ i' : Fin 2, (![5, 5] : Fin 2 → ℝ) i' * (1 + 0 * _))
    intro i
    fin_cases i <;> simp [Fin.sum_univ_two] <;> norm_num

theorem regularB : DB.Regular (fun _ => 10) (fun _ _ => 0) := by
  have hd : DB.procs = {"bkg"} := rfl
  refine ⟨?_, ?_, ?_⟩
  · show ∀ i : Fin 2, (![10, 5] : Fin 2 → ℝ) i = 0 ∨ (1e-100 : ℝ) ≤ (![10, 5] : Fin 2 → ℝ) i
    intro i; right; fin_cases i <;> simp <;> norm_num
  · intro p hp
    show ∑ i : Fin 2, (![5, 5] : Fin 2 → ℝ) i * (1 + 0 * _) ≠ 0
    simp [Fin.sum_univ_two]
  · intro i
    left
    unfold NamedChan.expected
    rw [hd, Finset.sum_singleton]
    revert i
    show ∀ i : Fin 2, 0 < 10 * (1 / 4) * ((![5, 5] : Fin 2 → ℝ) i * (1 + 0 * _) / ∑ i' : Fin 2, (![5, 5] : Fin 2 → ℝ) i' * (1 + 0 * _))
    intro i
    fin_cases i <;> simp [Fin.sum_univ_two]

theorem regular1 : ∀ a ∈ ({"a", "b"} : Finset String), (D1 a).Regular (fun _ => 10) (fun _ _ => 0) := by
  intro a ha
  have ha : a = "a" ∨ a = "b" := by simpa using ha
  rcases ha with rfl | rfl
  · exact regularA
  · exact regularB

end Ex

/-- non-vacuity of C98: the two-channel program and its rearrangement, in which channels, processes and templates have
other positions -/
example : ∃ v : ℝ,
    ((Sys.init.run (Ex.ops0 ++ Ex.ops1)).m.nll (Sys.init.run (Ex.ops0 ++ Ex.ops1)).w
      (namedVec (Sys.init.run (Ex.ops0 ++ Ex.ops1)) Ex.D1 (fun _ => 10) (fun _ _ => 0))).1 = .ok (.fin v) ∧
    ((Sys.init.run (Ex.ops0 ++ Ex.ops1r)).m.nll (Sys.init.run (Ex.ops0 ++ Ex.ops1r)).w
      (namedVec (Sys.init.run (Ex.ops0 ++ Ex.ops1r)) Ex.D1 (fun _ => 10) (fun _ _ => 0))).1 = .ok (.fin v) := by
  refine C98_programs Ex.ops0 Ex.ops1 Ex.ops1r ?_ (by rw [Ex.run0]) (by rw [Ex.run0]; exact Ex.ops1_accepted)
    (by rw [Ex.run0]; exact Ex.ops1r_accepted) Ex.ops1_perm Ex.ops1_once _ _ rfl rfl (by rw [Ex.run1]; simp [Ex.sys1, Ex.m1])
    {"a", "b"} Ex.D1 (by rw [Ex.run1]; exact Ex.named1) (fun _ => 0) (fun _ => 1)
    (by rw [Ex.run1]; intro p hp; simp [Ex.sys1, Ex.m1] at hp) (fun _ => 10) (fun _ _ => 0) Ex.regular1
  intro o ho
  simp only [Ex.ops0, List.mem_cons, List.not_mem_nil, or_false] at ho
  rcases ho with rfl | rfl | rfl | rfl | rfl | rfl <;> exact id

end

end TF.Props
