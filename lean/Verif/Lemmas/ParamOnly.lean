import Verif.Lemmas.Cache

set_option linter.unusedSimpArgs false

/-!
# Operations that only move template parameters; coherence of the caches along histories
-/

namespace TF

open Classical

noncomputable section

/-- `w'` is `w` with other parameter values (yields, nuisance parameters) in the templates. -/
def ParamOnly (w w' : World) : Prop :=
  ∃ f : ℕ → Vec, w' = { w with tmpls := fun i => { w.tmpls i with params := f i } }

theorem ParamOnly.refl (w : World) : ParamOnly w w := ⟨fun i => (w.tmpls i).params, rfl⟩

theorem ParamOnly.trans {a b c : World} (h : ParamOnly a b) (h' : ParamOnly b c) : ParamOnly a c := by
  obtain ⟨f, rfl⟩ := h
  obtain ⟨g, rfl⟩ := h'
  exact ⟨g, rfl⟩

theorem ParamOnly.symm {a b : World} (h : ParamOnly a b) : ParamOnly b a := by
  obtain ⟨f, rfl⟩ := h
  exact ⟨fun i => (a.tmpls i).params, rfl⟩

theorem setTmpl_paramOnly (w : World) (i : ℕ) (t : Template) (p : Vec)
    (h : t = { w.tmpls i with params := p }) : ParamOnly w (w.setTmpl i t) := by
  refine ⟨fun j => if j = i then p else (w.tmpls j).params, ?_⟩
  unfold World.setTmpl
  congr 1
  funext j
  by_cases hj : j = i
  · subst hj; simp [h]
  · simp [Function.update_of_ne hj, hj]

theorem setYield_params {t t' : Template} {v : YieldVal} (h : t.setYield v = .ok t') :
    ∃ p, t' = { t with params := p } := (setYield_ok h).2.2.2

theorem updateTmpl_paramOnly (w : World) (tid : ℕ) (eff : Fl) (y nui : Vec) :
    ParamOnly w (w.updateTmpl tid eff y nui).2 := by
  unfold World.updateTmpl
  cases h1 : (w.tmpls tid).setYield (.arr (y.map (· * eff))) with
  | error e => exact ParamOnly.refl w
  | ok t1 =>
    obtain ⟨p, hp⟩ := setYield_params h1
    simp only
    cases h2 : t1.setNui nui with
    | error e => exact setTmpl_paramOnly w tid t1 p hp
    | ok t2 =>
      obtain ⟨e, _⟩ := setNui_ok h2
      exact setTmpl_paramOnly w tid t2 _ (by rw [e, hp])

theorem updateLoop_paramOnly (ts : List (String × ℕ)) : ∀ (w : World) (es : List (String × Fl))
    (ys ns : List Vec), ParamOnly w (w.updateLoop ts es ys ns).2 := by
  induction ts with
  | nil => intro w es ys ns; simp only [World.updateLoop]; exact ParamOnly.refl w
  | cons t ts ih =>
    intro w es ys ns
    cases es with
    | nil => simp only [World.updateLoop]; exact ParamOnly.refl w
    | cons e es =>
      cases ys with
      | nil => simp only [World.updateLoop]; exact ParamOnly.refl w
      | cons y ys =>
        cases ns with
        | nil => simp only [World.updateLoop]; exact ParamOnly.refl w
        | cons n ns =>
          simp only [World.updateLoop]
          have h := updateTmpl_paramOnly w t.2 e.2 y n
          generalize w.updateTmpl t.2 e.2 y n = r at h ⊢
          obtain ⟨r1, w1⟩ := r
          cases r1 with
          | error e => exact h
          | ok u => exact h.trans (ih w1 es ys ns)

theorem updateChannel_paramOnly (w : World) (c : ℕ) (y n : Vec) :
    ParamOnly w (w.updateChannel c y n).2 := by
  unfold World.updateChannel
  split
  · exact ParamOnly.refl w
  · split
    · exact ParamOnly.refl w
    · exact updateLoop_paramOnly _ _ _ _ _

theorem updateChannels_paramOnly (cs : List ℕ) : ∀ (w : World) (ys ns : List Vec),
    ParamOnly w (w.updateChannels cs ys ns).2 := by
  induction cs with
  | nil => intro w ys ns; simp only [World.updateChannels]; exact ParamOnly.refl w
  | cons c cs ih =>
    intro w ys ns
    cases ys with
    | nil => simp only [World.updateChannels]; exact ParamOnly.refl w
    | cons y ys =>
      cases ns with
      | nil => simp only [World.updateChannels]; exact ParamOnly.refl w
      | cons n ns =>
        simp only [World.updateChannels]
        have h := updateChannel_paramOnly w c y n
        generalize w.updateChannel c y n = r at h ⊢
        obtain ⟨r1, w1⟩ := r
        cases r1 with
        | error e => exact h
        | ok u => exact h.trans (ih w1 ys ns)

theorem setYieldLoop_paramOnly (p : String) (v : Fl) (cs : List ℕ) : ∀ w : World,
    ParamOnly w (w.setYieldLoop p v cs).2 := by
  induction cs with
  | nil => intro w; exact ParamOnly.refl w
  | cons c cs ih =>
    intro w
    simp only [World.setYieldLoop]
    split
    · rename_i tid eff _ _
      cases h : (w.tmpls tid).setYield (.float (v * eff)) with
      | error e => exact ParamOnly.refl w
      | ok t =>
        obtain ⟨q, hq⟩ := setYield_params h
        exact (setTmpl_paramOnly w tid t q hq).trans (ih _)
    · exact ih w

theorem setYield_paramOnly (w : World) (m : Mct) (p : String) (v : Fl) :
    ParamOnly w (m.setYield w p v).2 := by
  unfold Mct.setYield
  split
  · exact ParamOnly.refl w
  · exact setYieldLoop_paramOnly p v _ w

theorem resetTmpls_paramOnly (ts : List (String × ℕ)) : ∀ w : World, ParamOnly w (w.resetTmpls ts) := by
  induction ts with
  | nil => intro w; exact ParamOnly.refl w
  | cons p ts ih =>
    intro w
    exact (setTmpl_paramOnly w p.2 _ _ rfl).trans (ih _)

theorem resetChannels_paramOnly (cs : List ℕ) : ∀ w : World, ParamOnly w (w.resetChannels cs) := by
  induction cs with
  | nil => intro w; exact ParamOnly.refl w
  | cons c cs ih => intro w; exact (resetTmpls_paramOnly _ w).trans (ih _)

theorem storeTmpl_paramOnly (s : Sys) (i : ℕ) (r : Except Err Template)
    (h : ∀ t, r = .ok t → ∃ p, t = { s.w.tmpls i with params := p }) :
    ParamOnly s.w (s.storeTmpl i r).w ∧ (s.storeTmpl i r).m = s.m := by
  cases r with
  | error e => exact ⟨ParamOnly.refl _, rfl⟩
  | ok t =>
    obtain ⟨p, hp⟩ := h t rfl
    exact ⟨setTmpl_paramOnly _ i t p hp, rfl⟩

/-! ### the likelihood does not read the template parameters -/

theorem fractionRows_params (f : ℕ → Vec) (g : ℕ → Template) : ∀ (is : List ℕ) (ps : List Vec),
    fractionRows (is.map fun i => { g i with params := f i }) ps = fractionRows (is.map g) ps := by
  intro is
  induction is with
  | nil => intro ps; simp only [List.map_nil, fractionRows]
  | cons i is ih =>
    intro ps
    cases ps with
    | nil => simp only [List.map_cons, fractionRows]
    | cons p ps => simp only [List.map_cons, fractionRows, ih]; rfl

theorem ParamOnly.contribPure {a b : World} (h : ParamOnly a b) (c : ℕ) (y n : Vec) :
    contribPure b c y n = contribPure a c y n := by
  obtain ⟨f, rfl⟩ := h
  have h1 : ∀ n, World.chanFractions { a with tmpls := fun i => { a.tmpls i with params := f i } } c n =
      a.chanFractions c n := by
    intro n
    unfold World.chanFractions World.chanTmpls
    have := fractionRows_params f a.tmpls ((a.chans c).templates.map (·.2))
    simp only [List.map_map] at this
    simp only [Function.comp_def] at this
    simp only [this]
  have h2 : gaussPure { a with tmpls := fun i => { a.tmpls i with params := f i } } c n =
      gaussPure a c n := by
    unfold gaussPure World.chanTmpls
    simp only [List.map_map]
    rfl
  unfold TF.contribPure expectedPure
  simp only [h1, h2]

theorem ParamOnly.channelsPure {a b : World} (h : ParamOnly a b) (cs : List ℕ) :
    ∀ ys ns, channelsPure b cs ys ns = channelsPure a cs ys ns := by
  induction cs with
  | nil => intro ys ns; simp only [TF.channelsPure]
  | cons c cs ih =>
    intro ys ns
    cases ys with
    | nil => simp only [TF.channelsPure]
    | cons y ys =>
      cases ns with
      | nil => simp only [TF.channelsPure]
      | cons n ns => simp only [TF.channelsPure, h.contribPure, ih]

theorem ParamOnly.chans {a b : World} (h : ParamOnly a b) : b.chans = a.chans := by
  obtain ⟨f, rfl⟩ := h; rfl

theorem ParamOnly.nChans {a b : World} (h : ParamOnly a b) : b.nChans = a.nChans := by
  obtain ⟨f, rfl⟩ := h; rfl

theorem ParamOnly.hists {a b : World} (h : ParamOnly a b) : b.hists = a.hists := by
  obtain ⟨f, rfl⟩ := h; rfl

theorem ParamOnly.yieldsPure {a b : World} (h : ParamOnly a b) (procs : List String) (y : Vec)
    (cs : List ℕ) : yieldsPure b procs y cs = yieldsPure a procs y cs := by
  induction cs with
  | nil => rfl
  | cons c cs ih => simp only [TF.yieldsPure, h.chans, ih]

theorem ParamOnly.perChannelPure {a b : World} (h : ParamOnly a b) (m : Mct) (x : Vec) :
    perChannelPure b m x = perChannelPure a m x := by
  unfold TF.perChannelPure Mct.numNui; rw [h.yieldsPure, h.chans]

theorem ParamOnly.nllPure {a b : World} (h : ParamOnly a b) (m : Mct) (x : Vec) :
    nllPure b m x = nllPure a m x := by
  unfold TF.nllPure
  rw [h.perChannelPure]
  simp only [h.channelsPure]

theorem ParamOnly.coherent {a b : World} (h : ParamOnly a b) (hc : Coherent a) : Coherent b := by
  obtain ⟨f, rfl⟩ := h
  refine ⟨hc.idx, hc.eff, ?_⟩
  intro p hp
  obtain ⟨h1, h2⟩ := hc.inv p hp
  refine ⟨h1, ?_⟩
  rw [← h2]
  unfold World.chanTmpls
  simp only [List.map_map]
  rfl

/-! ### coherence along histories -/

/-- API calls that add templates or systematic uncertainties -/
def Op.structural : Op → Prop
  | .addTemplate .. | .addCovMat .. | .addVariation .. => True
  | _ => False

/-- API calls that go through one of the memoised methods -/
def Op.evaluates : Op → Prop
  | .nll .. | .binCounts .. | .procIndices .. | .update .. => True
  | _ => False

/-- no memoised values at all -/
def World.NoCache (w : World) : Prop :=
  w.idxCache.items = [] ∧ w.effCache.items = [] ∧ w.invCache.items = []

theorem NoCache.coherent {w : World} (h : w.NoCache) : Coherent w := by
  obtain ⟨h1, h2, h3⟩ := h
  refine ⟨?_, ?_, ?_⟩ <;> simp [h1, h2, h3]

/-- the caches of two worlds are the same -/
def SameCaches (w w' : World) : Prop :=
  w'.idxCache = w.idxCache ∧ w'.effCache = w.effCache ∧ w'.invCache = w.invCache

theorem SameCaches.refl (w : World) : SameCaches w w := ⟨rfl, rfl, rfl⟩

theorem SameCaches.trans {a b c : World} (h : SameCaches a b) (h' : SameCaches b c) : SameCaches a c :=
  ⟨h'.1.trans h.1, h'.2.1.trans h.2.1, h'.2.2.trans h.2.2⟩

theorem ParamOnly.sameCaches {a b : World} (h : ParamOnly a b) : SameCaches a b := by
  obtain ⟨f, rfl⟩ := h; exact ⟨rfl, rfl, rfl⟩

/-- memoised methods read only this much of the state -/
structure SameModel (w w' : World) : Prop where
  caches : SameCaches w w'
  le : w.nChans ≤ w'.nChans
  chan : ∀ c < w.nChans, (w'.chans c).templates = (w.chans c).templates ∧
    (w'.chans c).effs = (w.chans c).effs
  inv : ∀ c < w.nChans, ∀ p ∈ (w.chans c).templates, (w'.tmpls p.2).invCorr = (w.tmpls p.2).invCorr

theorem SameModel.refl (w : World) : SameModel w w :=
  ⟨SameCaches.refl w, le_refl _, fun _ _ => ⟨rfl, rfl⟩, fun _ _ _ _ => rfl⟩

theorem SameModel.trans {a b c : World} (h : SameModel a b) (h' : SameModel b c) : SameModel a c := by
  refine ⟨h.caches.trans h'.caches, h.le.trans h'.le, ?_, ?_⟩
  · intro i hi
    obtain ⟨h1, h2⟩ := h.chan i hi
    obtain ⟨h3, h4⟩ := h'.chan i (lt_of_lt_of_le hi h.le)
    exact ⟨h3.trans h1, h4.trans h2⟩
  · intro i hi p hp
    have h1 := h.inv i hi p hp
    have h2 := h'.inv i (lt_of_lt_of_le hi h.le) p (by rw [(h.chan i hi).1]; exact hp)
    exact h2.trans h1

theorem SameModel.coherent {w w' : World} (h : SameModel w w') (hc : Coherent w) : Coherent w' := by
  obtain ⟨e1, e2, e3⟩ := h.caches
  refine ⟨?_, ?_, ?_⟩
  · intro p hp
    rw [e1] at hp
    obtain ⟨h1, h2⟩ := hc.idx p hp
    refine ⟨lt_of_lt_of_le h1 h.le, ?_⟩
    unfold Channel.procs at h2 ⊢
    rw [(h.chan _ h1).1]; exact h2
  · intro p hp
    rw [e2] at hp
    obtain ⟨h1, h2⟩ := hc.eff p hp
    refine ⟨lt_of_lt_of_le h1 h.le, ?_⟩
    rw [(h.chan _ h1).2]; exact h2
  · intro p hp
    rw [e3] at hp
    obtain ⟨h1, h2⟩ := hc.inv p hp
    refine ⟨lt_of_lt_of_le h1 h.le, ?_⟩
    rw [← h2]
    unfold World.chanTmpls
    rw [(h.chan _ h1).1]
    simp only [List.map_map]
    congr 1
    apply List.map_congr_left
    intro q hq
    exact h.inv _ h1 q hq

theorem setChan_data_model (w : World) (i : ℕ) (c : Channel) (h1 : c.templates = (w.chans i).templates)
    (h2 : c.effs = (w.chans i).effs) : SameModel w (w.setChan i c) := by
  refine ⟨⟨rfl, rfl, rfl⟩, le_refl _, ?_, fun _ _ _ _ => rfl⟩
  intro j hj
  by_cases hji : j = i
  · subst hji; simp [World.setChan, h1, h2]
  · simp [World.setChan, Function.update_of_ne hji]

theorem worldAddData_model (w : World) (c hid : ℕ) : SameModel w (w.addData c hid).2 := by
  unfold World.addData
  apply setChan_data_model
  · unfold Channel.addData; split <;> rfl
  · unfold Channel.addData; split <;> rfl

theorem addData_model (hs : List (String × ℕ)) : ∀ (w : World) (m : Mct), SameModel w (m.addData w hs).2 := by
  induction hs with
  | nil => intro w m; exact SameModel.refl w
  | cons a hs ih =>
    intro w m
    simp only [Mct.addData]
    cases dictGet m.channels a.1 with
    | none => exact SameModel.refl w
    | some c =>
      simp only
      have h := worldAddData_model w c a.2
      generalize w.addData c a.2 = r at h ⊢
      obtain ⟨r1, w1⟩ := r
      cases r1 with
      | error e => exact h
      | ok u => exact h.trans (ih w1 m)

theorem newHist_model (w : World) (h : Hist) : SameModel w (w.newHist h).2 :=
  ⟨⟨rfl, rfl, rfl⟩, le_refl _, fun _ _ => ⟨rfl, rfl⟩, fun _ _ _ _ => rfl⟩

theorem addDatasets_model (l : List (String × Hist)) : ∀ (w : World) (m : Mct),
    SameModel w (m.addDatasets w l).2 := by
  induction l with
  | nil => intro w m; exact SameModel.refl w
  | cons a l ih =>
    intro w m
    simp only [Mct.addDatasets]
    have h0 := newHist_model w a.2
    cases dictGet m.channels a.1 with
    | none => exact h0
    | some c =>
      simp only
      have h := worldAddData_model (w.newHist a.2).2 c (w.newHist a.2).1
      generalize (w.newHist a.2).2.addData c (w.newHist a.2).1 = r at h ⊢
      obtain ⟨r1, w1⟩ := r
      cases r1 with
      | error e => exact h0.trans h
      | ok u => exact (h0.trans h).trans (ih w1 m)

theorem ParamOnly.sameModel {a b : World} (h : ParamOnly a b) : SameModel a b := by
  obtain ⟨f, rfl⟩ := h
  exact ⟨⟨rfl, rfl, rfl⟩, le_refl _, fun _ _ => ⟨rfl, rfl⟩, fun _ _ _ _ => rfl⟩

/-- calls that neither evaluate nor add templates or systematics keep what the memoised methods read -/
theorem step_model {s : Sys} (hs : SysWF s) (o : Op) (h1 : ¬ o.structural) (h2 : ¬ o.evaluates) :
    SameModel s.w (s.step o).w := by
  have halloc : ∀ r, SameModel s.w (s.allocHist r).w := by
    intro r; cases r with
    | error e => exact SameModel.refl _
    | ok h => exact newHist_model _ _
  have hallocT : ∀ r, SameModel s.w (s.allocTmpl r).w := by
    intro r; cases r with
    | error e => exact SameModel.refl _
    | ok t =>
      refine ⟨⟨rfl, rfl, rfl⟩, le_refl _, fun _ _ => ⟨rfl, rfl⟩, ?_⟩
      intro c hc p hp
      have := ((hs.chan c hc).tmpl p hp).1
      have hne : p.2 ≠ s.w.nTmpls := by omega
      simp [Sys.allocTmpl, World.newTmpl, Function.update_of_ne hne]
  cases o with
  | newHist1 b r d w => exact halloc _
  | newHist2 b r d w => exact halloc _
  | binned1 c e er => exact halloc _
  | binned2 c ex ey er => exact halloc _
  | fill h x y w =>
    simp only [Sys.step]
    split
    · exact ⟨⟨rfl, rfl, rfl⟩, le_refl _, fun _ _ => ⟨rfl, rfl⟩, fun _ _ _ _ => rfl⟩
    · exact SameModel.refl _
  | newTmpl1 n h =>
    simp only [Sys.step]
    split
    · exact hallocT _
    · exact SameModel.refl _
  | newTmpl2 n h =>
    simp only [Sys.step]
    split
    · exact hallocT _
    · exact SameModel.refl _
  | addVariation => exact absurd trivial h1
  | addCovMat => exact absurd trivial h1
  | setTmplYield t v =>
    simp only [Sys.step]
    split
    · exact (storeTmpl_paramOnly s t _ fun t' ht => setYield_params ht).1.sameModel
    · exact SameModel.refl _
  | setTmplNui t v =>
    simp only [Sys.step]
    split
    · exact (storeTmpl_paramOnly s t _ fun t' ht => ⟨_, (setNui_ok ht).1⟩).1.sameModel
    · exact SameModel.refl _
  | setTmplParams t v =>
    simp only [Sys.step]
    split
    · exact (storeTmpl_paramOnly s t _ fun t' ht => ⟨_, (setParams_ok ht).1⟩).1.sameModel
    · exact SameModel.refl _
  | resetTmpl t =>
    simp only [Sys.step]
    split
    · exact (setTmpl_paramOnly _ t _ _ rfl).sameModel
    · exact SameModel.refl _
  | defineChannel n b r =>
    refine ⟨⟨rfl, rfl, rfl⟩, Nat.le_succ _, ?_, fun _ _ _ _ => rfl⟩
    intro c hc
    have hne : c ≠ s.w.nChans := by omega
    simp [Sys.step, Mct.defineChannel, World.newChan, Function.update_of_ne hne]
  | defineProcess n => exact SameModel.refl _
  | addTemplate => exact absurd trivial h1
  | addData hs =>
    simp only [Sys.step]
    split
    · exact addData_model _ _ _
    · exact SameModel.refl _
  | constrain p v e => exact SameModel.refl _
  | setYield p v => exact (setYield_paramOnly _ _ _ _).sameModel
  | update x => exact absurd trivial h2
  | reset => exact (resetChannels_paramOnly _ _).sameModel
  | nll x => exact absurd trivial h2
  | binCounts ch x => exact absurd trivial h2
  | procIndices ch o => exact absurd trivial h2
  | chanUpdate ch y n =>
    simp only [Sys.step]
    split
    · exact SameModel.refl _
    · exact (updateChannel_paramOnly _ _ _ _).sameModel
  | chanReset ch =>
    simp only [Sys.step]
    split
    · exact SameModel.refl _
    · exact (resetTmpls_paramOnly _ _).sameModel
  | addAsimov i =>
    simp only [Sys.step]
    split
    · exact SameModel.refl _
    · exact addDatasets_model _ _ _
  | addToy d =>
    simp only [Sys.step]
    split
    · exact SameModel.refl _
    · exact addDatasets_model _ _ _

/-- calls that do not evaluate leave the caches alone -/
theorem step_caches {s : Sys} (hs : SysWF s) (o : Op) (h : ¬ o.evaluates) :
    SameCaches s.w (s.step o).w := by
  by_cases h1 : o.structural
  · cases o with
    | addVariation t x y up down => simp only [Sys.step]; split <;> exact ⟨rfl, rfl, rfl⟩
    | addCovMat t m => simp only [Sys.step]; split <;> exact ⟨rfl, rfl, rfl⟩
    | addTemplate c p t e =>
      simp only [Sys.step]
      split
      · unfold Mct.addTemplate
        split
        · exact SameCaches.refl _
        · split
          · exact SameCaches.refl _
          · exact ⟨rfl, rfl, rfl⟩
      · exact SameCaches.refl _
    | _ => exact h1.elim
  · exact (step_model hs o h1 h).caches

/-- evaluations keep coherent caches coherent -/
theorem step_eval_coherent {s : Sys} (hs : SysWF s) (o : Op) (h : o.evaluates) (hc : Coherent s.w) :
    Coherent (s.step o).w := by
  have hcs : ∀ c ∈ s.m.chanIds, c < s.w.nChans := by
    intro c hc
    obtain ⟨p, hp, rfl⟩ := List.mem_map.mp hc
    exact hs.chLt p hp
  cases o with
  | nll x => exact (nll_coh hc s.m hcs x).2
  | binCounts ch x =>
    simp only [Sys.step]
    cases hd : dictGet s.m.channels ch with
    | none => exact hc
    | some c => exact (expectedEvts_coh hc c (hs.chLt _ (dictGet_mem hd)) _ _).2
  | procIndices ch o =>
    simp only [Sys.step]
    cases hd : dictGet s.m.channels ch with
    | none => exact hc
    | some c => exact (processIndices_coh hc c o (hs.chLt _ (dictGet_mem hd))).2
  | update x =>
    simp only [Sys.step]
    unfold Mct.updateParameters
    obtain ⟨_, h2⟩ := perChannel_coh hc s.m hcs x
    generalize s.m.perChannel s.w x = r at h2 ⊢
    obtain ⟨r1, w1⟩ := r
    cases r1 with
    | error e => exact h2
    | ok p => exact (updateChannels_paramOnly _ _ _ _).coherent h2
  | _ => exact h.elim

/-- The call adds a template, or a systematic uncertainty of one of its templates, to the channel object `c`
(`s` is the state before the call). -/
def Op.extendsChan (s : Sys) (c : ℕ) : Op → Prop
  | .addTemplate ch _ _ _ => dictGet s.m.channels ch = some c
  | .addCovMat t _ | .addVariation t _ _ _ _ => ∃ p ∈ (s.w.chans c).templates, p.2 = t
  | _ => False

/-- The call evaluates the channel object `c`: the likelihood and `update_parameters` evaluate all channels of the
model, `bin_counts_from_param_values` and `process_indices` the named one (`s` is the state before the call). -/
def Op.evaluatesChan (s : Sys) (c : ℕ) : Op → Prop
  | .nll _ | .update _ => c ∈ s.m.chanIds
  | .binCounts ch _ | .procIndices ch _ => dictGet s.m.channels ch = some c
  | _ => False

/-- No channel is extended after it has been evaluated: templates and systematic uncertainties of a channel are
added before the first evaluation of that channel. -/
def SetupFirst (ops : List Op) : Prop :=
  ∀ a e b o post c, ops = a ++ e :: (b ++ o :: post) → e.evaluatesChan (Sys.init.run a) c →
    ¬ o.extendsChan (Sys.init.run (a ++ e :: b)) c

theorem extends_structural {s : Sys} {c : ℕ} {o : Op} (h : o.extendsChan s c) : o.structural := by
  cases o <;> first | exact trivial | exact h.elim

theorem evaluatesChan_evaluates {s : Sys} {c : ℕ} {o : Op} (h : o.evaluatesChan s c) : o.evaluates := by
  cases o <;> first | exact trivial | exact h.elim

/-- in particular: everything is added before the first evaluation of anything -/
theorem setupFirst_of_before {ops : List Op}
    (h : ∀ pre o post, ops = pre ++ o :: post → o.structural → ∀ e ∈ pre, ¬ e.evaluates) : SetupFirst ops := by
  intro a e b o post c he h1 h2
  exact h (a ++ e :: b) o post (by rw [he]; simp) (extends_structural h2) e (by simp) (evaluatesChan_evaluates h1)

theorem SetupFirst.prefix {a b : List Op} (h : SetupFirst (a ++ b)) : SetupFirst a := by
  intro x e y o post c he h1
  exact h x e y o (post ++ b) c (by rw [he]; simp) h1

theorem run_append (s : Sys) (a b : List Op) : s.run (a ++ b) = (s.run a).run b := by
  simp [Sys.run, List.foldl_append]

theorem run_noCache (ops : List Op) : ∀ {s : Sys}, SysWF s → s.w.NoCache →
    (∀ e ∈ ops, ¬ e.evaluates) → (s.run ops).w.NoCache := by
  induction ops with
  | nil => intro s _ h _; exact h
  | cons o ops ih =>
    intro s hs h he
    refine ih (step_wf hs o) ?_ (fun e h' => he e (by simp [h']))
    obtain ⟨e1, e2, e3⟩ := step_caches hs o (he o (by simp))
    unfold World.NoCache
    rw [e1, e2, e3]; exact h

/-- the channels for which some memoised value is stored -/
def World.Cached (w : World) (c : ℕ) : Prop :=
  (∃ p ∈ w.idxCache.items, p.1.1 = c) ∨ (∃ p ∈ w.effCache.items, p.1 = c) ∨ ∃ p ∈ w.invCache.items, p.1 = c

theorem processIndices_cached (w : World) (c : ℕ) (o : List String) (d : ℕ)
    (h : (w.processIndices c o).2.Cached d) : w.Cached d ∨ d = c := by
  rcases h with ⟨p, hp, rfl⟩ | h | h
  · rcases lru_call_mem _ _ _ p hp with hp | ⟨hk, -⟩
    · exact Or.inl (Or.inl ⟨p, hp, rfl⟩)
    · exact Or.inr (congrArg Prod.fst hk)
  · exact Or.inl (Or.inr (Or.inl h))
  · exact Or.inl (Or.inr (Or.inr h))

theorem effArray_cached (w : World) (c : ℕ) (d : ℕ) (h : (w.effArray c).2.Cached d) : w.Cached d ∨ d = c := by
  rcases h with h | ⟨p, hp, rfl⟩ | h
  · exact Or.inl (Or.inl h)
  · rcases lru_call_mem _ _ _ p hp with hp | ⟨hk, -⟩
    · exact Or.inl (Or.inr (Or.inl ⟨p, hp, rfl⟩))
    · exact Or.inr hk
  · exact Or.inl (Or.inr (Or.inr h))

theorem invCorrBlock_cached (w : World) (c : ℕ) (d : ℕ) (h : (w.invCorrBlock c).2.Cached d) :
    w.Cached d ∨ d = c := by
  rcases h with h | h | ⟨p, hp, rfl⟩
  · exact Or.inl (Or.inl h)
  · exact Or.inl (Or.inr (Or.inl h))
  · rcases lru_call_mem _ _ _ p hp with hp | ⟨hk, -⟩
    · exact Or.inl (Or.inr (Or.inr ⟨p, hp, rfl⟩))
    · exact Or.inr hk

theorem expectedEvts_cached (w : World) (c : ℕ) (y n : Vec) (d : ℕ) (h : (w.expectedEvts c y n).2.Cached d) :
    w.Cached d ∨ d = c := by
  have h1 := effArray_cached w c d
  unfold World.expectedEvts at h
  generalize w.effArray c = r at h h1
  obtain ⟨r1, w1⟩ := r
  cases r1 with
  | error e => exact h1 h
  | ok v =>
    simp only at h
    split at h
    · exact h1 h
    · split at h <;> exact h1 h

theorem gaussTerm_cached (w : World) (c : ℕ) (n : Vec) (d : ℕ) (h : (w.gaussTerm c n).2.Cached d) :
    w.Cached d ∨ d = c := by
  have h1 := invCorrBlock_cached w c d
  unfold World.gaussTerm at h
  generalize w.invCorrBlock c = r at h h1
  obtain ⟨r1, w1⟩ := r
  cases r1 with
  | error e => exact h1 h
  | ok v =>
    simp only at h
    split at h
    · exact h1 h
    · split at h <;> exact h1 h

theorem nllContribution_cached (w : World) (c : ℕ) (y n : Vec) (d : ℕ)
    (h : (w.nllContribution c y n).2.Cached d) : w.Cached d ∨ d = c := by
  unfold World.nllContribution at h
  split at h
  · exact Or.inl h
  · have h1 := expectedEvts_cached w c y n d
    generalize w.expectedEvts c y n = r at h h1
    obtain ⟨r1, w1⟩ := r
    cases r1 with
    | error e => exact h1 h
    | ok v =>
      simp only at h
      split at h
      · exact h1 h
      · have h2 := gaussTerm_cached w1 c n d
        generalize w1.gaussTerm c n = r at h h2
        obtain ⟨r1, w2⟩ := r
        have h3 : w2.Cached d := by cases r1 <;> exact h
        rcases h2 h3 with h4 | h4
        · exact h1 h4
        · exact Or.inr h4

theorem nllChannels_cached (d : ℕ) (cs : List ℕ) : ∀ (w : World) (ys ns : List Vec),
    (w.nllChannels cs ys ns).2.Cached d → w.Cached d ∨ d ∈ cs := by
  induction cs with
  | nil => intro w ys ns h; simp only [World.nllChannels] at h; exact Or.inl h
  | cons c cs ih =>
    intro w ys ns h
    cases ys with
    | nil => simp only [World.nllChannels] at h; exact Or.inl h
    | cons y ys =>
      cases ns with
      | nil => simp only [World.nllChannels] at h; exact Or.inl h
      | cons n ns =>
        simp only [World.nllChannels] at h
        have h1 := nllContribution_cached w c y n d
        generalize w.nllContribution c y n = r at h h1
        obtain ⟨r1, w1⟩ := r
        have h1' : w1.Cached d → w.Cached d ∨ d ∈ c :: cs := fun h' => (h1 h').imp id (fun e => by simp [e])
        cases r1 with
        | error e => exact h1' h
        | ok v =>
          simp only at h
          have h2 := ih w1 ys ns
          generalize w1.nllChannels cs ys ns = r at h h2
          obtain ⟨r1, w2⟩ := r
          have h3 : w2.Cached d := by cases r1 <;> exact h
          rcases h2 h3 with h4 | h4
          · exact h1' h4
          · exact Or.inr (by simp [h4])

theorem channelYields_cached (d : ℕ) (procs : List String) (y : Vec) (cs : List ℕ) : ∀ (w : World),
    (w.channelYields procs y cs).2.Cached d → w.Cached d ∨ d ∈ cs := by
  induction cs with
  | nil => intro w h; exact Or.inl h
  | cons c cs ih =>
    intro w h
    simp only [World.channelYields] at h
    have h1 := processIndices_cached w c procs d
    generalize w.processIndices c procs = r at h h1
    obtain ⟨r1, w1⟩ := r
    have h1' : w1.Cached d → w.Cached d ∨ d ∈ c :: cs := fun h' => (h1 h').imp id (fun e => by simp [e])
    cases r1 with
    | error e => exact h1' h
    | ok idx =>
      simp only at h
      split at h
      · exact h1' h
      · have h2 := ih w1
        generalize w1.channelYields procs y cs = r at h h2
        obtain ⟨r1, w2⟩ := r
        have h3 : w2.Cached d := by cases r1 <;> exact h
        rcases h2 h3 with h4 | h4
        · exact h1' h4
        · exact Or.inr (by simp [h4])

theorem perChannel_cached (m : Mct) (w : World) (x : Vec) (d : ℕ) (h : (m.perChannel w x).2.Cached d) :
    w.Cached d ∨ d ∈ m.chanIds := by
  unfold Mct.perChannel at h
  have h1 := channelYields_cached d m.processes (x.take m.numProcesses) m.chanIds w
  generalize w.channelYields m.processes (x.take m.numProcesses) m.chanIds = r at h h1
  obtain ⟨r1, w1⟩ := r
  have h3 : w1.Cached d := by cases r1 <;> exact h
  exact h1 h3

theorem nll_cached (m : Mct) (w : World) (x : Vec) (d : ℕ) (h : (m.nll w x).2.Cached d) :
    w.Cached d ∨ d ∈ m.chanIds := by
  unfold Mct.nll at h
  have h1 := perChannel_cached m w x d
  generalize m.perChannel w x = r at h h1
  obtain ⟨r1, w1⟩ := r
  cases r1 with
  | error e => exact h1 h
  | ok p =>
    obtain ⟨ys, ns⟩ := p
    simp only at h
    have h2 := nllChannels_cached d m.chanIds w1 ys ns
    generalize w1.nllChannels m.chanIds ys ns = r at h h2
    obtain ⟨r1, w2⟩ := r
    have h3 : w2.Cached d := by
      cases r1 with
      | error e => exact h
      | ok v => simp only at h; split at h <;> exact h
    rcases h2 h3 with h4 | h4
    · exact h1 h4
    · exact Or.inr h4

theorem SameCaches.cached {a b : World} (h : SameCaches a b) (d : ℕ) (hd : b.Cached d) : a.Cached d := by
  obtain ⟨e1, e2, e3⟩ := h
  unfold World.Cached at hd ⊢
  rw [e1, e2, e3] at hd; exact hd

/-- memoised values are stored only for channels that are evaluated -/
theorem step_cached {s : Sys} (hs : SysWF s) (o : Op) (d : ℕ) (h : (s.step o).w.Cached d) :
    s.w.Cached d ∨ o.evaluatesChan s d := by
  by_cases he : o.evaluates
  · cases o with
    | nll x => exact nll_cached _ _ _ _ h
    | binCounts ch x =>
      simp only [Sys.step] at h
      cases hd : dictGet s.m.channels ch with
      | none => rw [hd] at h; exact Or.inl h
      | some c =>
        rw [hd] at h
        rcases expectedEvts_cached _ _ _ _ _ h with h | rfl
        · exact Or.inl h
        · exact Or.inr hd
    | procIndices ch o =>
      simp only [Sys.step] at h
      cases hd : dictGet s.m.channels ch with
      | none => rw [hd] at h; exact Or.inl h
      | some c =>
        rw [hd] at h
        rcases processIndices_cached _ _ _ _ h with h | rfl
        · exact Or.inl h
        · exact Or.inr hd
    | update x =>
      simp only [Sys.step] at h
      unfold Mct.updateParameters at h
      have h1 := perChannel_cached s.m s.w x d
      generalize s.m.perChannel s.w x = r at h h1
      obtain ⟨r1, w1⟩ := r
      cases r1 with
      | error e => exact h1 h
      | ok p => exact h1 ((updateChannels_paramOnly _ _ _ _).sameCaches.cached d h)
    | _ => exact he.elim
  · exact Or.inl ((step_caches hs o he).cached d h)

/-- a call that extends only channels for which nothing is memoised keeps the caches coherent -/
theorem step_structural_coherent {s : Sys} (o : Op) (ho : o.structural) (hc : Coherent s.w)
    (hn : ∀ c, s.w.Cached c → ¬ o.extendsChan s c) : Coherent (s.step o).w := by
  have hcov : ∀ (t : ℕ) (t' : Template), (∀ c, s.w.Cached c → ¬ ∃ p ∈ (s.w.chans c).templates, p.2 = t) →
      Coherent (s.w.setTmpl t t') := by
    intro t t' hn
    refine ⟨hc.idx, hc.eff, ?_⟩
    intro p hp
    obtain ⟨h1, h2⟩ := hc.inv p hp
    refine ⟨h1, ?_⟩
    rw [← h2]
    unfold World.chanTmpls
    simp only [List.map_map]
    congr 1
    apply List.map_congr_left
    intro q hq
    have hne : q.2 ≠ t := fun e => hn p.1 (Or.inr (Or.inr ⟨p, hp, rfl⟩)) ⟨q, hq, e⟩
    simp [World.setTmpl, Function.update_of_ne hne]
  cases o with
  | addVariation t x y up down =>
    simp only [Sys.step]
    split
    · exact hcov _ _ hn
    · exact hc
  | addCovMat t m =>
    simp only [Sys.step]
    split
    · exact hcov _ _ hn
    · exact hc
  | addTemplate ch p t e =>
    simp only [Sys.step]
    split
    · unfold Mct.addTemplate
      cases hd : dictGet s.m.channels ch with
      | none => exact hc
      | some c =>
        simp only
        split
        · exact hc
        · have hch : ∀ c', s.w.Cached c' → c' ≠ c := fun c' h e => hn c' h (by rw [e]; exact hd)
          unfold World.addTemplate
          refine ⟨?_, ?_, ?_⟩
          · intro q hq
            have hne := hch q.1.1 (Or.inl ⟨q, hq, rfl⟩)
            simp only [World.setChan, Function.update_of_ne hne]
            exact hc.idx q hq
          · intro q hq
            have hne := hch q.1 (Or.inr (Or.inl ⟨q, hq, rfl⟩))
            simp only [World.setChan, Function.update_of_ne hne]
            exact hc.eff q hq
          · intro q hq
            have hne := hch q.1 (Or.inr (Or.inr ⟨q, hq, rfl⟩))
            simp only [World.setChan, World.chanTmpls, Function.update_of_ne hne]
            exact hc.inv q hq
    · exact hc
  | _ => exact ho.elim

/-- memoised values are stored only for channels evaluated at some time -/
theorem run_cached (ops : List Op) (d : ℕ) (h : (Sys.init.run ops).w.Cached d) :
    ∃ a e b, ops = a ++ e :: b ∧ e.evaluatesChan (Sys.init.run a) d := by
  induction ops using List.reverseRecOn with
  | nil =>
    rcases h with ⟨p, hp, -⟩ | ⟨p, hp, -⟩ | ⟨p, hp, -⟩ <;> exact absurd hp (by simp [Sys.run, Sys.init, World.init])
  | append_singleton ops o ih =>
    rw [run_append] at h
    rcases step_cached (run_wf init_wf ops) o d h with h | h
    · obtain ⟨a, e, b, rfl, he⟩ := ih h
      exact ⟨a, e, b ++ [o], by simp, he⟩
    · exact ⟨ops, o, [], rfl, h⟩

theorem run_coherent (ops : List Op) (h : SetupFirst ops) : Coherent (Sys.init.run ops).w := by
  induction ops using List.reverseRecOn with
  | nil => exact NoCache.coherent ⟨rfl, rfl, rfl⟩
  | append_singleton ops o ih =>
    have hw : SysWF (Sys.init.run ops) := run_wf init_wf ops
    rw [run_append]
    show Coherent ((Sys.init.run ops).step o).w
    by_cases h1 : o.structural
    · refine step_structural_coherent o h1 (ih h.prefix) ?_
      intro c hc hx
      obtain ⟨a, e, b, rfl, he⟩ := run_cached ops c hc
      exact h a e b o [] c (by simp) he hx
    · by_cases h2 : o.evaluates
      · exact step_eval_coherent hw o h2 (ih h.prefix)
      · exact (step_model hw o h1 h2).coherent (ih h.prefix)

end

end TF
