import Verif.Props.FitterProps8
import Verif.Model.Toy

set_option linter.unusedSimpArgs false

/-!
# Toy studies: what one attempt at an experiment depends on
-/

namespace TF.Spec

open Classical

noncomputable section

/-- `w'` differs from `w` at most in the data attached to the channels, in additional histogram objects and in
the method caches: same templates with the same parameters, same channels, same old histograms. -/
structure SameButData (w w' : World) : Prop where
  tmpls : w'.tmpls = w.tmpls
  nTmpls : w'.nTmpls = w.nTmpls
  nChans : w'.nChans = w.nChans
  chans : ∀ c, ∃ d, w'.chans c = { w.chans c with hdata := d }
  nHists : w.nHists ≤ w'.nHists
  hists : ∀ i < w.nHists, w'.hists i = w.hists i

/-- the data attached to the channels of the model are exactly `data` -/
def HasData (w : World) (m : Mct) (data : List (String × Hist)) : Prop :=
  data.map (·.1) = m.channels.map (·.1) ∧
  ∀ q ∈ data, ∃ c hid, dictGet m.channels q.1 = some c ∧ (w.chans c).hdata = some hid ∧ w.hists hid = q.2

/-- What a user does by hand for one toy experiment with the random numbers and the optimiser of attempt `k`,
starting from the model in state `w`: generate a toy data set, add it, fit with a new fitter (no update of the
templates, nuisance parameters fixed) and note the fitted values and their uncertainties. -/
def toyFit (env : ToyEnv) (m : Mct) (id : String) (getHesse : Bool) (w : World) (k : ℕ) : Except Err (Vec × Vec) :=
  match m.toy w (env.draw k) with
  | .error e => .error e
  | .ok data =>
    match (m.addDatasets w data).1 with
    | .error e => .error e
    | .ok () =>
      match ((Fitter.new id).doFit (env.optim k) (m.addDatasets w data).2 m false getHesse true none).1 with
      | .error e => .error e
      | .ok r => .ok (r.params.values, r.params.errors)

end

end TF.Spec

namespace TF

open Classical Spec Props

noncomputable section

theorem Spec.SameButData.refl (w : World) : SameButData w w :=
  ⟨rfl, rfl, rfl, fun c => ⟨(w.chans c).hdata, rfl⟩, le_refl _, fun _ _ => rfl⟩

theorem Spec.SameButData.trans {a b c : World} (h : SameButData a b) (h' : SameButData b c) : SameButData a c := by
  refine ⟨h'.tmpls.trans h.tmpls, h'.nTmpls.trans h.nTmpls, h'.nChans.trans h.nChans, ?_, h.nHists.trans h'.nHists, ?_⟩
  · intro i
    obtain ⟨d, hd⟩ := h.chans i
    obtain ⟨e, he⟩ := h'.chans i
    exact ⟨e, by rw [he, hd]⟩
  · intro i hi
    rw [h'.hists i (lt_of_lt_of_le hi h.nHists), h.hists i hi]

theorem CacheOnly.sameButData {a b : World} (h : CacheOnly a b) : SameButData a b :=
  ⟨h.tmpls, h.nTmpls, h.nChans, fun c => ⟨(a.chans c).hdata, by rw [h.chans]⟩, le_of_eq h.nHists.symm,
    fun i _ => by rw [h.hists]⟩

/-- adding data sets -/
theorem addDatasets_same (l : List (String × Hist)) : ∀ (w : World) (m : Mct), SameButData w (m.addDatasets w l).2 := by
  induction l with
  | nil => intro w m; exact SameButData.refl w
  | cons a l ih =>
    obtain ⟨ch, h⟩ := a
    intro w m
    simp only [Mct.addDatasets]
    have h0 : SameButData w (w.newHist h).2 := by
      refine ⟨rfl, rfl, rfl, fun c => ⟨(w.chans c).hdata, rfl⟩, Nat.le_succ _, ?_⟩
      intro i hi
      have : i ≠ w.nHists := by omega
      simp [World.newHist, Function.update_of_ne this]
    cases dictGet m.channels ch with
    | none => exact h0
    | some c =>
      simp only
      have h1 : SameButData (w.newHist h).2 ((w.newHist h).2.addData c (w.newHist h).1).2 := by
        refine ⟨rfl, rfl, rfl, ?_, le_refl _, fun _ _ => rfl⟩
        intro i
        simp only [World.addData, World.setChan]
        by_cases hi : i = c
        · subst hi
          rw [Function.update_self]
          unfold Channel.addData
          split
          · exact ⟨_, rfl⟩
          · exact ⟨_, rfl⟩
        · rw [Function.update_of_ne hi]; exact ⟨_, rfl⟩
      generalize (w.newHist h).2.addData c (w.newHist h).1 = r at h1 ⊢
      obtain ⟨r1, w1⟩ := r
      cases r1 with
      | error e => exact h0.trans h1
      | ok u => exact (h0.trans h1).trans (ih w1 m)

/-- whether adding data sets raises does not depend on the data attached so far -/
theorem addDatasets_res (l : List (String × Hist)) : ∀ {a b : World} (m : Mct), SameButData a b →
    (m.addDatasets b l).1 = (m.addDatasets a l).1 := by
  have key : ∀ (l : List (String × Hist)) (a b : World) (m : Mct),
      (∀ c, (b.chans c).bins = (a.chans c).bins ∧ (b.chans c).range = (a.chans c).range) →
      (m.addDatasets b l).1 = (m.addDatasets a l).1 := by
    intro l
    induction l with
    | nil => intro a b m h; rfl
    | cons q l ih =>
      obtain ⟨ch, hh⟩ := q
      intro a b m h
      simp only [Mct.addDatasets]
      cases dictGet m.channels ch with
      | none => rfl
      | some c =>
        simp only [World.addData, World.newHist, Function.update_self, Channel.addData]
        have hck : (b.chans c).checkHist hh ↔ (a.chans c).checkHist hh := by
          unfold Channel.checkHist
          rw [(h c).1, (h c).2]
        by_cases hc : (a.chans c).checkHist hh
        · rw [if_pos hc, if_pos (hck.mpr hc)]
          simp only
          apply ih
          intro c'
          simp only [World.setChan]
          by_cases e : c' = c
          · subst e; simp [h c']
          · simp [Function.update_of_ne e, h c']
        · rw [if_neg hc, if_neg (fun x => hc (hck.mp x))]
  intro a b m h
  apply key
  intro c
  obtain ⟨d, hd⟩ := h.chans c
  rw [hd]
  exact ⟨rfl, rfl⟩

/-- after adding data sets for distinct channels they are there -/
theorem addDatasets_has {m : Mct} (hinj : ∀ a b c, dictGet m.channels a = some c → dictGet m.channels b = some c → a = b)
    (l : List (String × Hist)) (hn : (l.map (·.1)).Nodup) (w : World) (hok : (m.addDatasets w l).1 = .ok ()) :
    ∀ q ∈ l, ∃ c hid, dictGet m.channels q.1 = some c ∧ ((m.addDatasets w l).2.chans c).hdata = some hid ∧
      (m.addDatasets w l).2.hists hid = q.2 := by
  have hck : ∀ (l : List (String × Hist)) (w : World), (m.addDatasets w l).1 = .ok () →
      ∀ q ∈ l, ∃ c, dictGet m.channels q.1 = some c ∧ (w.chans c).checkHist q.2 := by
    intro l
    induction l with
    | nil => intro w _ q hq; cases hq
    | cons a l ih =>
      obtain ⟨ch, hh⟩ := a
      intro w hok q hq
      simp only [Mct.addDatasets] at hok
      cases hd : dictGet m.channels ch with
      | none => rw [hd] at hok; simp at hok
      | some c =>
        rw [hd] at hok
        simp only [World.addData, World.newHist, Function.update_self, Channel.addData] at hok
        by_cases hc : (w.chans c).checkHist hh
        · rw [if_pos hc] at hok
          simp only at hok
          rcases List.mem_cons.mp hq with rfl | hq
          · exact ⟨c, hd, hc⟩
          · obtain ⟨c', h1, h2⟩ := ih _ hok q hq
            refine ⟨c', h1, ?_⟩
            simp only [World.setChan] at h2
            by_cases e : c' = c
            · subst e; simp [Channel.checkHist] at h2 ⊢; exact h2
            · rw [Function.update_of_ne e] at h2; exact h2
        · rw [if_neg hc] at hok; simp at hok
  intro q hq
  obtain ⟨-, b2, -⟩ := addDatasets_ok m hinj l w hn (hck l w hok)
  obtain ⟨c, hid, e1, e2, -, e4⟩ := b2 q hq
  exact ⟨c, hid, e1, by rw [e2], e4⟩

theorem generate_keys {m : Mct} {gen : ℕ → Except Err Hist} {l : List (String × Hist)}
    (h : m.generate gen = .ok l) : l.map (·.1) = m.channels.map (·.1) := by
  unfold Mct.generate at h
  generalize m.channels = cs at h ⊢
  induction cs generalizing l with
  | nil => simp at h; subst h; rfl
  | cons q cs ih =>
    simp only [List.foldr_cons] at h
    split at h
    · simp at h
    · split at h
      · simp at h
      · rename_i l' ht
        simp only [Except.ok.injEq] at h
        subst h
        simp [ih ht]

theorem Spec.HasData.of_add {s : Sys} (hw : SysWF s) {w : World} {draw : ℕ → Vec → ℕ → ℕ} {w1 : World}
    {data : List (String × Hist)} (hd : s.m.toy w draw = .ok data) (hok : (s.m.addDatasets w1 data).1 = .ok ()) :
    HasData (s.m.addDatasets w1 data).2 s.m data := by
  have hk := generate_keys hd
  exact ⟨hk, addDatasets_has (fun a b c => dict_inj hw a b c) data (by rw [hk]; exact hw.chNames) w1 hok⟩

/-- toy data sets do not depend on the attached data -/
theorem toy_same {s : Sys} (hw : SysWF s) {w' : World} (h : SameButData s.w w') (draw : ℕ → Vec → ℕ → ℕ) :
    s.m.toy w' draw = s.m.toy s.w draw := by
  unfold Mct.toy Mct.generate
  have : ∀ q ∈ s.m.channels, w'.toy q.2 (draw q.2) = s.w.toy q.2 (draw q.2) := by
    intro q hq
    have hlt := hw.chLt q hq
    obtain ⟨d, hd⟩ := h.chans q.2
    have ht : w'.chanTmpls q.2 = s.w.chanTmpls q.2 := by unfold World.chanTmpls; rw [hd, h.tmpls]
    unfold World.toy
    rw [ht]
    cases sumValues (s.w.chanTmpls q.2) with
    | error e => rfl
    | ok S =>
      simp only
      have : ∀ C, w'.datasetFrom q.2 C = s.w.datasetFrom q.2 C := by
        intro C
        unfold World.datasetFrom
        rw [hd, h.tmpls]
        simp only
        cases htm : (s.w.chans q.2).templates with
        | nil => cases (s.w.chans q.2).htype with
          | none => rfl
          | some c => cases c <;> rfl
        | cons p ps =>
          have hp := ((hw.chan q.2 hlt).tmpl p (by rw [htm]; simp)).1
          have hh := (hw.tmpl p.2 hp).hist
          obtain ⟨p1, p2⟩ := p
          simp only at hp hh ⊢
          have he := h.hists _ hh
          cases (s.w.chans q.2).htype with
          | none => rfl
          | some c => cases c <;> simp only [he]
      rw [this]
  generalize s.m.channels = l at this ⊢
  induction l with
  | nil => rfl
  | cons q l ih =>
    simp only [List.foldr_cons]
    rw [this q (by simp), ih (fun q hq => this q (by simp [hq]))]

/-- the likelihood with the same templates and the same data contents -/
theorem nllPure_same {m : Mct} {w a b : World} (ha : SameButData w a) (hb : SameButData w b)
    {data : List (String × Hist)} (hda : HasData a m data) (hdb : HasData b m data)
    (hdict : ∀ q ∈ m.channels, dictGet m.channels q.1 = some q.2) (x : Vec) : nllPure b m x = nllPure a m x := by
  have hch : ∀ c, ∃ d, b.chans c = { a.chans c with hdata := d } := by
    intro c
    obtain ⟨d, hd⟩ := ha.chans c
    obtain ⟨e, he⟩ := hb.chans c
    exact ⟨e, by rw [he, hd]⟩
  have htm : b.tmpls = a.tmpls := hb.tmpls.trans ha.tmpls.symm
  have ht : ∀ c, b.chanTmpls c = a.chanTmpls c := by
    intro c
    obtain ⟨d, hd⟩ := hch c
    unfold World.chanTmpls; rw [hd, htm]
  have hdat : ∀ c ∈ m.chanIds, ∃ i j, (a.chans c).hdata = some i ∧ (b.chans c).hdata = some j ∧ b.hists j = a.hists i := by
    intro c hc
    obtain ⟨q, hq, rfl⟩ := List.mem_map.mp hc
    have hk : q.1 ∈ data.map (·.1) := by rw [hda.1]; exact List.mem_map_of_mem hq
    obtain ⟨r, hr, er⟩ := List.mem_map.mp hk
    obtain ⟨c1, i, e1, e2, e3⟩ := hda.2 r hr
    obtain ⟨c2, j, f1, f2, f3⟩ := hdb.2 r hr
    rw [er, hdict q hq] at e1 f1
    cases e1; cases f1
    exact ⟨i, j, e2, f2, by rw [e3, f3]⟩
  have hexp : ∀ c y n, expectedPure b c y n = expectedPure a c y n := by
    intro c y n
    obtain ⟨d, hd⟩ := hch c
    unfold expectedPure World.chanFractions
    rw [ht c, hd]
    rfl
  have hg : ∀ c n, gaussPure b c n = gaussPure a c n := by
    intro c n; unfold gaussPure; rw [ht c]
  have hcon : ∀ cs, (∀ c ∈ cs, c ∈ m.chanIds) → ∀ ys ns, channelsPure b cs ys ns = channelsPure a cs ys ns := by
    intro cs
    induction cs with
    | nil => intro _ ys ns; simp only [channelsPure]
    | cons c cs ih =>
      intro hcs ys ns
      cases ys with
      | nil => simp only [channelsPure]
      | cons y ys =>
        cases ns with
        | nil => simp only [channelsPure]
        | cons n ns =>
          have : contribPure b c y n = contribPure a c y n := by
            obtain ⟨i, j, e1, e2, e3⟩ := hdat c (hcs c (by simp))
            unfold contribPure
            rw [e1, e2]
            simp only
            rw [e3, hexp, hg]
          simp only [channelsPure, this, ih (fun c hc => hcs c (by simp [hc]))]
  have hy : ∀ cs y, yieldsPure b m.processes y cs = yieldsPure a m.processes y cs := by
    intro cs y
    induction cs with
    | nil => rfl
    | cons c cs ih =>
      obtain ⟨d, hd⟩ := hch c
      simp only [yieldsPure, ih]
      rw [hd]; rfl
  have hn : ∀ c, (b.chans c).numNui = (a.chans c).numNui := by
    intro c
    obtain ⟨d, hd⟩ := hch c
    rw [hd]; rfl
  unfold nllPure perChannelPure Mct.numNui
  simp only [hy, hn, hcon m.chanIds (fun _ h => h)]

theorem names_same {a b : World} (h : SameButData a b) (m : Mct) :
    m.paramNames b = m.paramNames a ∧ m.numNui b = m.numNui a ∧ m.x0 b = m.x0 a := by
  have ht : ∀ c, b.chanTmpls c = a.chanTmpls c := by
    intro c
    obtain ⟨d, hd⟩ := h.chans c
    unfold World.chanTmpls; rw [hd, h.tmpls]
  have hpy : ∀ p cs, b.processYield p cs = a.processYield p cs := by
    intro p cs
    induction cs with
    | nil => rfl
    | cons c cs ih =>
      obtain ⟨d, hd⟩ := h.chans c
      simp only [World.processYield, ih, h.tmpls]
      rw [hd]
  refine ⟨?_, ?_, ?_⟩
  · unfold Mct.paramNames World.channelNames
    congr 2
    apply List.map_congr_left
    intro q _
    obtain ⟨d, hd⟩ := h.chans q.2
    rw [hd, h.tmpls]
  · unfold Mct.numNui
    congr 1
    apply List.map_congr_left
    intro c _
    obtain ⟨d, hd⟩ := h.chans c
    rw [hd]; rfl
  · unfold Mct.x0 Mct.nuiParams Mct.allTmpls Mct.processYields
    have : b.chanTmpls = a.chanTmpls := funext ht
    simp only [hpy, this]

/-- the outcome of a fit without update depends on the objective, names and start values only -/
theorem doFit_congr {f : Fitter} {o : Optim} {a b : World} {m : Mct} {g fx : Bool} {lim : Option Bounds}
    (h : SameButData a b) (ho : objective b m = objective a m) :
    (f.doFit o b m false g fx lim).1 = (f.doFit o a m false g fx lim).1 := by
  obtain ⟨h1, h2, h3⟩ := names_same h m
  unfold Fitter.doFit
  rw [h1, h2]
  cases minKindOf f.minimizerId with
  | error e => rfl
  | ok k =>
    simp only
    cases f.setup k (m.paramNames a) m.numProcesses (m.numNui a) fx lim with
    | error e => rfl
    | ok z =>
      simp only
      have := runMinimizer_congr o m z g h3 ho
      generalize runMinimizer o a m z g = p at this
      generalize runMinimizer o b m z g = q at this
      obtain ⟨p1, p2⟩ := p
      obtain ⟨q1, q2⟩ := q
      simp only at this
      subst this
      cases q1 <;> rfl

theorem doFit_frame (o : Optim) (f : Fitter) (w : World) (m : Mct) (g fx : Bool) (lim : Option Bounds) :
    ∃ xs, (f.doFit o w m false g fx lim).2 = evalAll w m xs := by
  unfold Fitter.doFit
  cases minKindOf f.minimizerId with
  | error e => exact ⟨[], rfl⟩
  | ok k =>
    simp only
    cases f.setup k (m.paramNames w) m.numProcesses (m.numNui w) fx lim with
    | error e => exact ⟨[], rfl⟩
    | ok z =>
      simp only
      have := runMinimizer_evals o w m z g
      generalize runMinimizer o w m z g = p at this
      obtain ⟨p1, p2⟩ := p
      cases p1 <;> exact this

theorem evalAll_coherent (m : Mct) (xs : List Vec) : ∀ w : World, Coherent w → (∀ c ∈ m.chanIds, c < w.nChans) →
    Coherent (evalAll w m xs) := by
  induction xs with
  | nil => intro w h _; exact h
  | cons x xs ih =>
    intro w h hc
    have hf := nll_frame w m x
    exact ih _ (nll_coh h m hc x).2 (by rw [hf.nChans]; exact hc)

/-- The state during a toy study of a model that started as `w0`. -/
structure ToyInv (w0 : World) (w : World) : Prop where
  same : SameButData w0 w
  coh : Coherent w

/-- **One attempt.** Its outcome is that of `toyFit` on the model as it was when the study started; rows are
appended exactly on success; nothing of the model changes except the attached data. -/
theorem attempt_spec {s : Sys} (hs : s.Built) (env : ToyEnv) (t : Toy) (ht : ToyInv s.w t.w) (g : Bool)
    (r : Except Err Unit × Toy) (hr : r = t.attempt env s.m g) :
    ToyInv s.w r.2.w ∧ r.2.tries = t.tries + 1 ∧ r.2.minimizerId = t.minimizerId ∧ r.2.fitted = t.fitted ∧
    (∀ e, toyFit env s.m t.minimizerId g s.w t.tries = .error e → r.1 = .error e ∧ r.2.params = t.params ∧ r.2.uncs = t.uncs) ∧
    (∀ v u, toyFit env s.m t.minimizerId g s.w t.tries = .ok (v, u) → r.1 = .ok () ∧ r.2.params = t.params ++ [v] ∧
      r.2.uncs = t.uncs ++ [u] ∧ ∃ data, s.m.toy s.w (env.draw t.tries) = .ok data ∧ HasData r.2.w s.m data) := by
  have hw := reachable_wf hs.reachable
  subst hr
  unfold Toy.attempt toyFit
  rw [toy_same hw ht.same]
  cases hd : s.m.toy s.w (env.draw t.tries) with
  | error e =>
    refine ⟨ht, rfl, rfl, rfl, ?_, ?_⟩
    · intro e' he'; cases he'; exact ⟨rfl, rfl, rfl⟩
    · intro v u h; cases h
  | ok data =>
    simp only
    rw [← addDatasets_res data s.m ht.same]
    have h1 := addDatasets_same data t.w s.m
    have h0 := addDatasets_same data s.w s.m
    have hco := (addDatasets_model data t.w s.m).coherent ht.coh
    have hco0 := (addDatasets_model data s.w s.m).coherent hs.coherent
    have hhas : (s.m.addDatasets t.w data).1 = .ok () → HasData (s.m.addDatasets t.w data).2 s.m data :=
      fun h => HasData.of_add hw hd h
    have hhas0 : (s.m.addDatasets t.w data).1 = .ok () → HasData (s.m.addDatasets s.w data).2 s.m data :=
      fun h => HasData.of_add hw hd (by rw [← addDatasets_res data s.m ht.same]; exact h)
    generalize s.m.addDatasets t.w data = q at h1 hco hhas hhas0 ⊢
    obtain ⟨q1, w1⟩ := q
    simp only at h1 hco hhas hhas0
    cases q1 with
    | error e =>
      refine ⟨⟨ht.same.trans h1, hco⟩, rfl, rfl, rfl, ?_, ?_⟩
      · intro e' he'; cases he'; exact ⟨rfl, rfl, rfl⟩
      · intro v u h; cases h
    | ok u =>
      simp only
      have hlt : ∀ c ∈ s.m.chanIds, c < s.w.nChans := by
        intro c hc
        obtain ⟨p, hp, rfl⟩ := List.mem_map.mp hc
        exact hw.chLt p hp
      have hobj : objective w1 s.m = objective (s.m.addDatasets s.w data).2 s.m := by
        funext x
        unfold objective
        rw [(nll_coh hco s.m (by rw [(ht.same.trans h1).nChans]; exact hlt) x).1,
          (nll_coh hco0 s.m (by rw [h0.nChans]; exact hlt) x).1]
        exact nllPure_same h0 (ht.same.trans h1) (hhas0 rfl) (hhas rfl)
          (fun q hq => dictGet_of_mem hw.chNames hq) x
      have hfit : ((Fitter.new t.minimizerId).doFit (env.optim t.tries) w1 s.m false g true none).1 =
          ((Fitter.new t.minimizerId).doFit (env.optim t.tries) (s.m.addDatasets s.w data).2 s.m false g true none).1 := by
        obtain ⟨a1, a2, a3⟩ := names_same h0 s.m
        obtain ⟨b1, b2, b3⟩ := names_same (ht.same.trans h1) s.m
        unfold Fitter.doFit
        rw [a1, a2, b1, b2]
        cases minKindOf (Fitter.new t.minimizerId).minimizerId with
        | error e => rfl
        | ok k =>
          simp only
          cases (Fitter.new t.minimizerId).setup k (s.m.paramNames s.w) s.m.numProcesses (s.m.numNui s.w) true none with
          | error e => rfl
          | ok z =>
            simp only
            have := runMinimizer_congr (env.optim t.tries) s.m z g (b3.trans a3.symm) hobj
            generalize runMinimizer (env.optim t.tries) w1 s.m z g = p at this
            generalize runMinimizer (env.optim t.tries) (s.m.addDatasets s.w data).2 s.m z g = q at this
            obtain ⟨p1, p2⟩ := p
            obtain ⟨q1, q2⟩ := q
            simp only at this
            subst this
            cases p1 <;> rfl
      rw [← hfit]
      obtain ⟨xs, hxs⟩ := doFit_frame (env.optim t.tries) (Fitter.new t.minimizerId) w1 s.m g true none
      have hfr := evalAll_frame s.m xs w1
      have hcoh := evalAll_coherent s.m xs w1 hco (by rw [(ht.same.trans h1).nChans]; exact hlt)
      rw [← hxs] at hfr hcoh
      generalize (Fitter.new t.minimizerId).doFit (env.optim t.tries) w1 s.m false g true none = p at hfr hcoh ⊢
      obtain ⟨p1, w2⟩ := p
      simp only at hfr hcoh
      have hinv : ToyInv s.w w2 := ⟨(ht.same.trans h1).trans hfr.sameButData, hcoh⟩
      cases p1 with
      | error e =>
        refine ⟨hinv, rfl, rfl, rfl, ?_, ?_⟩
        · intro e' he'; cases he'; exact ⟨rfl, rfl, rfl⟩
        · intro v u h; cases h
      | ok r =>
        refine ⟨hinv, rfl, rfl, rfl, ?_, ?_⟩
        · intro e' he'; cases he'
        · intro v u h
          simp only [Except.ok.injEq, Prod.mk.injEq] at h
          obtain ⟨rfl, rfl⟩ := h
          refine ⟨rfl, rfl, rfl, data, rfl, ?_⟩
          obtain ⟨k1, k2⟩ := hhas rfl
          refine ⟨k1, fun q hq => ?_⟩
          obtain ⟨c, hid, e1, e2, e3⟩ := k2 q hq
          exact ⟨c, hid, e1, by rw [hfr.chans]; exact e2, by rw [hfr.hists]; exact e3⟩

end

end TF
