import Verif.Lemmas.TmplRunLemmas
import Verif.Model.Sys

set_option linter.unusedSimpArgs false

/-! What the API calls leave alone: frame lemmas about the heap. -/

namespace TF

open Classical

noncomputable section

/-- only the method caches may differ -/
structure CacheOnly (w w' : World) : Prop where
  hists : w'.hists = w.hists
  nHists : w'.nHists = w.nHists
  tmpls : w'.tmpls = w.tmpls
  nTmpls : w'.nTmpls = w.nTmpls
  chans : w'.chans = w.chans
  nChans : w'.nChans = w.nChans

theorem CacheOnly.refl (w : World) : CacheOnly w w := ⟨rfl, rfl, rfl, rfl, rfl, rfl⟩

theorem CacheOnly.trans {a b c : World} (h : CacheOnly a b) (h' : CacheOnly b c) : CacheOnly a c :=
  ⟨h'.hists.trans h.hists, h'.nHists.trans h.nHists, h'.tmpls.trans h.tmpls, h'.nTmpls.trans h.nTmpls,
   h'.chans.trans h.chans, h'.nChans.trans h.nChans⟩

theorem CacheOnly.symm {a b : World} (h : CacheOnly a b) : CacheOnly b a :=
  ⟨h.hists.symm, h.nHists.symm, h.tmpls.symm, h.nTmpls.symm, h.chans.symm, h.nChans.symm⟩

theorem CacheOnly.chanTmpls {a b : World} (h : CacheOnly a b) (c : ℕ) : b.chanTmpls c = a.chanTmpls c := by
  unfold World.chanTmpls; rw [h.chans, h.tmpls]

theorem CacheOnly.chanFractions {a b : World} (h : CacheOnly a b) (c : ℕ) (nui : Vec) :
    b.chanFractions c nui = a.chanFractions c nui := by
  unfold World.chanFractions; rw [h.chans, h.chanTmpls c]

theorem processIndices_frame (w : World) (c : ℕ) (o : List String) :
    CacheOnly w (w.processIndices c o).2 := ⟨rfl, rfl, rfl, rfl, rfl, rfl⟩

theorem effArray_frame (w : World) (c : ℕ) : CacheOnly w (w.effArray c).2 := ⟨rfl, rfl, rfl, rfl, rfl, rfl⟩

theorem invCorrBlock_frame (w : World) (c : ℕ) : CacheOnly w (w.invCorrBlock c).2 :=
  ⟨rfl, rfl, rfl, rfl, rfl, rfl⟩

theorem expectedEvts_frame (w : World) (c : ℕ) (y n : Vec) : CacheOnly w (w.expectedEvts c y n).2 := by
  unfold World.expectedEvts
  have h := effArray_frame w c
  generalize w.effArray c = r at h ⊢
  obtain ⟨r1, w1⟩ := r
  cases r1 with
  | error e => exact h
  | ok eff =>
    dsimp only
    split
    · exact h
    · split <;> exact h

theorem gaussTerm_frame (w : World) (c : ℕ) (n : Vec) : CacheOnly w (w.gaussTerm c n).2 := by
  unfold World.gaussTerm
  have h := invCorrBlock_frame w c
  generalize w.invCorrBlock c = r at h ⊢
  obtain ⟨r1, w1⟩ := r
  cases r1 with
  | error e => exact h
  | ok eff =>
    dsimp only
    split
    · exact h
    · split <;> exact h

theorem nllContribution_frame (w : World) (c : ℕ) (y n : Vec) : CacheOnly w (w.nllContribution c y n).2 := by
  unfold World.nllContribution
  split
  · exact CacheOnly.refl w
  · have h := expectedEvts_frame w c y n
    generalize w.expectedEvts c y n = r at h ⊢
    obtain ⟨r1, w1⟩ := r
    cases r1 with
    | error e => exact h
    | ok expd =>
      dsimp only
      split
      · exact h
      · have h2 := gaussTerm_frame w1 c n
        generalize w1.gaussTerm c n = r at h2 ⊢
        obtain ⟨r2, w2⟩ := r
        cases r2 <;> exact h.trans h2

theorem nllChannels_frame (cs : List ℕ) : ∀ (w : World) (ys ns : List Vec),
    CacheOnly w (w.nllChannels cs ys ns).2 := by
  induction cs with
  | nil => intro w ys ns; simp only [World.nllChannels]; exact CacheOnly.refl w
  | cons c cs ih =>
    intro w ys ns
    match ys, ns with
    | [], _ => simp only [World.nllChannels]; exact CacheOnly.refl w
    | _ :: _, [] => simp only [World.nllChannels]; exact CacheOnly.refl w
    | y :: ys, n :: ns =>
      simp only [World.nllChannels]
      have h := nllContribution_frame w c y n
      generalize w.nllContribution c y n = r at h ⊢
      obtain ⟨r1, w1⟩ := r
      cases r1 with
      | error e => exact h
      | ok v =>
        dsimp only
        have h2 := ih w1 ys ns
        generalize w1.nllChannels cs ys ns = r at h2 ⊢
        obtain ⟨r2, w2⟩ := r
        cases r2 <;> exact h.trans h2

theorem channelYields_frame (procs : List String) (y : Vec) (cs : List ℕ) : ∀ (w : World),
    CacheOnly w (w.channelYields procs y cs).2 := by
  induction cs with
  | nil => intro w; simp only [World.channelYields]; exact CacheOnly.refl w
  | cons c cs ih =>
    intro w
    simp only [World.channelYields]
    have h := processIndices_frame w c procs
    generalize w.processIndices c procs = r at h ⊢
    obtain ⟨r1, w1⟩ := r
    cases r1 with
    | error e => exact h
    | ok idx =>
      dsimp only
      split
      · exact h
      · have h2 := ih w1
        generalize w1.channelYields procs y cs = r at h2 ⊢
        obtain ⟨r2, w2⟩ := r
        cases r2 <;> exact h.trans h2

theorem perChannel_frame (w : World) (m : Mct) (x : Vec) : CacheOnly w (m.perChannel w x).2 := by
  unfold Mct.perChannel
  have h := channelYields_frame m.processes (x.take m.numProcesses) m.chanIds w
  generalize w.channelYields m.processes (x.take m.numProcesses) m.chanIds = r at h ⊢
  obtain ⟨r1, w1⟩ := r
  cases r1 <;> exact h

theorem nll_frame (w : World) (m : Mct) (x : Vec) : CacheOnly w (m.nll w x).2 := by
  unfold Mct.nll
  have h := perChannel_frame w m x
  generalize m.perChannel w x = r at h ⊢
  obtain ⟨r1, w1⟩ := r
  cases r1 with
  | error e => exact h
  | ok p =>
    obtain ⟨ys, ns⟩ := p
    dsimp only
    have h2 := nllChannels_frame m.chanIds w1 ys ns
    generalize w1.nllChannels m.chanIds ys ns = r at h2 ⊢
    obtain ⟨r2, w2⟩ := r
    cases r2 with
    | error e => exact h.trans h2
    | ok s =>
      dsimp only
      split <;> exact h.trans h2

/-! ### calls that only change template objects (parameters or covariance information) -/

/-- histograms and channels untouched, templates keep everything but parameters and covariance
information; parameter arrays keep their length -/
structure TmplStep (w w' : World) : Prop where
  hists : w'.hists = w.hists
  nHists : w'.nHists = w.nHists
  nTmpls : w'.nTmpls = w.nTmpls
  chans : w'.chans = w.chans
  nChans : w'.nChans = w.nChans
  tmpls : ∀ i, SameFrame (w.tmpls i) (w'.tmpls i)
  len : ∀ i, (w.tmpls i).params.length = (w.tmpls i).numBins + 1 →
    (w'.tmpls i).params.length = (w.tmpls i).numBins + 1

theorem TmplStep.refl (w : World) : TmplStep w w :=
  ⟨rfl, rfl, rfl, rfl, rfl, fun i => SameFrame.refl _, fun _ h => h⟩

theorem TmplStep.trans {a b c : World} (h : TmplStep a b) (h' : TmplStep b c) : TmplStep a c :=
  ⟨h'.hists.trans h.hists, h'.nHists.trans h.nHists, h'.nTmpls.trans h.nTmpls,
   h'.chans.trans h.chans, h'.nChans.trans h.nChans, fun i => (h.tmpls i).trans (h'.tmpls i),
   fun i hi => by
    have h1 := h.len i hi
    rw [← (h.tmpls i).numBins] at h1 ⊢
    exact h'.len i h1⟩

theorem CacheOnly.tmplStep {a b : World} (h : CacheOnly a b) : TmplStep a b :=
  ⟨h.hists, h.nHists, h.nTmpls, h.chans, h.nChans, fun i => by rw [h.tmpls]; exact SameFrame.refl _,
   fun i hi => by rw [h.tmpls]; exact hi⟩

theorem setTmpl_step (w : World) (i : ℕ) (t : Template) (hf : SameFrame (w.tmpls i) t)
    (hl : (w.tmpls i).params.length = (w.tmpls i).numBins + 1 →
      t.params.length = (w.tmpls i).numBins + 1) : TmplStep w (w.setTmpl i t) := by
  refine ⟨rfl, rfl, rfl, rfl, rfl, ?_, ?_⟩
  · intro j
    by_cases h : j = i
    · subst h; simpa [World.setTmpl] using hf
    · simp [World.setTmpl, Function.update_of_ne h]; exact SameFrame.refl _
  · intro j hj
    by_cases h : j = i
    · subst h; simpa [World.setTmpl] using hl hj
    · simpa [World.setTmpl, Function.update_of_ne h] using hj

theorem setYield_ok {t t' : Template} {v : YieldVal} (h : t.setYield v = .ok t') :
    SameFrame t t' ∧ (t.params.length = t.numBins + 1 → t'.params.length = t.numBins + 1) ∧
    t'.nuiParams = t.nuiParams ∧ (∃ p, t' = { t with params := p }) := by
  cases v with
  | float r =>
    have := Except.ok.inj h; subst this
    exact ⟨⟨rfl, rfl, rfl, rfl, rfl, rfl, rfl, rfl⟩, fun hl => by simp [hl], rfl, _, rfl⟩
  | int r =>
    have := Except.ok.inj h; subst this
    exact ⟨⟨rfl, rfl, rfl, rfl, rfl, rfl, rfl, rfl⟩, fun hl => by simp [hl], rfl, _, rfl⟩
  | other => simp [Template.setYield] at h
  | arr v => match v with
    | [] => simp [Template.setYield] at h
    | [r] =>
      have := Except.ok.inj h; subst this
      exact ⟨⟨rfl, rfl, rfl, rfl, rfl, rfl, rfl, rfl⟩, fun hl => by simp [hl], rfl, _, rfl⟩
    | _ :: _ :: _ => simp [Template.setYield] at h

theorem setNui_ok {t t' : Template} {v : Vec} (h : t.setNui v = .ok t') :
    t' = { t with params := t.params.headD 0 :: v } ∧ v.length = t.numBins := by
  unfold Template.setNui at h
  split at h
  · simp at h
  · rename_i hv
    exact ⟨(Except.ok.inj h).symm, not_not.mp hv⟩

theorem setParams_ok {t t' : Template} {v : Vec} (h : t.setParams v = .ok t') :
    t' = { t with params := v } ∧ v.length = t.params.length := by
  unfold Template.setParams at h
  split at h
  · simp at h
  · rename_i hv
    exact ⟨(Except.ok.inj h).symm, not_not.mp hv⟩

theorem updateTmpl_step (w : World) (tid : ℕ) (eff : Fl) (y nui : Vec) :
    TmplStep w (w.updateTmpl tid eff y nui).2 := by
  unfold World.updateTmpl
  cases h1 : (w.tmpls tid).setYield (.arr (y.map (· * eff))) with
  | error e => exact TmplStep.refl w
  | ok t1 =>
    dsimp only
    obtain ⟨f1, l1, -, -⟩ := setYield_ok h1
    cases h2 : t1.setNui nui with
    | error e => exact setTmpl_step w tid t1 f1 l1
    | ok t2 =>
      obtain ⟨e2, hl⟩ := setNui_ok h2
      subst e2
      refine setTmpl_step w tid _ (f1.trans ⟨rfl, rfl, rfl, rfl, rfl, rfl, rfl, rfl⟩) fun _ => ?_
      simp [hl, f1.numBins]

theorem updateLoop_step (ts : List (String × ℕ)) : ∀ (w : World) (es : List (String × Fl)) (ys ns : List Vec),
    TmplStep w (w.updateLoop ts es ys ns).2 := by
  induction ts with
  | nil => intro w es ys ns; simp only [World.updateLoop]; exact TmplStep.refl w
  | cons t ts ih =>
    intro w es ys ns
    match es, ys, ns with
    | [], _, _ => simp only [World.updateLoop]; exact TmplStep.refl w
    | _ :: _, [], _ => simp only [World.updateLoop]; exact TmplStep.refl w
    | _ :: _, _ :: _, [] => simp only [World.updateLoop]; exact TmplStep.refl w
    | e :: es, y :: ys, n :: ns =>
      obtain ⟨p, tid⟩ := t
      obtain ⟨q, eff⟩ := e
      simp only [World.updateLoop]
      have h := updateTmpl_step w tid eff y n
      generalize w.updateTmpl tid eff y n = r at h ⊢
      obtain ⟨r1, w1⟩ := r
      cases r1 with
      | error e => exact h
      | ok u => exact h.trans (ih w1 es ys ns)

theorem updateChannel_step (w : World) (c : ℕ) (y n : Vec) : TmplStep w (w.updateChannel c y n).2 := by
  unfold World.updateChannel
  split
  · exact TmplStep.refl w
  · split
    · exact TmplStep.refl w
    · exact updateLoop_step _ _ _ _ _

theorem updateChannels_step (cs : List ℕ) : ∀ (w : World) (ys ns : List Vec),
    TmplStep w (w.updateChannels cs ys ns).2 := by
  induction cs with
  | nil => intro w ys ns; simp only [World.updateChannels]; exact TmplStep.refl w
  | cons c cs ih =>
    intro w ys ns
    match ys, ns with
    | [], _ => simp only [World.updateChannels]; exact TmplStep.refl w
    | _ :: _, [] => simp only [World.updateChannels]; exact TmplStep.refl w
    | y :: ys, n :: ns =>
      simp only [World.updateChannels]
      have h := updateChannel_step w c y n
      generalize w.updateChannel c y n = r at h ⊢
      obtain ⟨r1, w1⟩ := r
      cases r1 with
      | error e => exact h
      | ok u => exact h.trans (ih w1 ys ns)

theorem updateParameters_step (w : World) (m : Mct) (x : Vec) : TmplStep w (m.updateParameters w x).2 := by
  unfold Mct.updateParameters
  have h := perChannel_frame w m x
  generalize m.perChannel w x = r at h ⊢
  obtain ⟨r1, w1⟩ := r
  cases r1 with
  | error e => exact h.tmplStep
  | ok p => exact h.tmplStep.trans (updateChannels_step _ _ _ _)

theorem setYieldLoop_step (p : String) (v : Fl) (cs : List ℕ) : ∀ w : World,
    TmplStep w (w.setYieldLoop p v cs).2 := by
  induction cs with
  | nil => intro w; exact TmplStep.refl w
  | cons c cs ih =>
    intro w
    simp only [World.setYieldLoop]
    split
    · split
      · exact TmplStep.refl w
      · rename_i tid _ _ _ _ t ht
        obtain ⟨f, l, -, -⟩ := setYield_ok ht
        exact (setTmpl_step w tid t f l).trans (ih _)
    · exact ih w

theorem setYield_step (w : World) (m : Mct) (p : String) (v : Fl) : TmplStep w (m.setYield w p v).2 := by
  unfold Mct.setYield
  split
  · exact TmplStep.refl w
  · exact setYieldLoop_step p v _ w

theorem resetTmpls_step (ts : List (String × ℕ)) : ∀ w : World, TmplStep w (w.resetTmpls ts) := by
  induction ts with
  | nil => intro w; exact TmplStep.refl w
  | cons p ts ih =>
    intro w
    obtain ⟨nm, tid⟩ := p
    refine (setTmpl_step w tid ((w.tmpls tid).reset (w.hists (w.tmpls tid).hist))
      ⟨rfl, rfl, rfl, rfl, rfl, rfl, rfl, rfl⟩ ?_).trans (ih _)
    intro _
    simp [Template.reset, initParams]

theorem resetChannels_step (cs : List ℕ) : ∀ w : World, TmplStep w (w.resetChannels cs) := by
  induction cs with
  | nil => intro w; exact TmplStep.refl w
  | cons c cs ih => intro w; exact (resetTmpls_step _ w).trans (ih _)

theorem setTmpl_self (w : World) (i : ℕ) : TmplStep w (w.setTmpl i (w.tmpls i)) :=
  setTmpl_step w i _ (SameFrame.refl _) (fun h => h)

theorem addCovMat_step (w : World) (i : ℕ) (m : Mat) :
    TmplStep w (w.setTmpl i ((w.tmpls i).addCovMat m).2) := by
  rcases addCovMat_cases (w.tmpls i) m with ⟨h, _⟩ | ⟨h, _⟩
  · rw [h]; exact setTmpl_self w i
  · rw [h]
    obtain ⟨a, b⟩ := addCov_frame (w.tmpls i) m
    exact setTmpl_step w i _ a (fun hl => by rw [b]; exact hl)

theorem addVariation_step (w : World) (i : ℕ) (h : Hist) (x y : Vec) (up down : Weights) :
    TmplStep w (w.setTmpl i ((w.tmpls i).addVariation h x y up down).2) := by
  rcases addVariation_cases (w.tmpls i) h x y up down with ⟨h, _⟩ | ⟨m, _, h⟩
  · rw [h]; exact setTmpl_self w i
  · rw [h]
    obtain ⟨a, b⟩ := addCov_frame (w.tmpls i) m
    exact setTmpl_step w i _ a (fun hl => by rw [b]; exact hl)

theorem storeTmpl_step (s : Sys) (i : ℕ) (r : Except Err Template)
    (h : ∀ t, r = .ok t → SameFrame (s.w.tmpls i) t ∧
      ((s.w.tmpls i).params.length = (s.w.tmpls i).numBins + 1 →
        t.params.length = (s.w.tmpls i).numBins + 1)) :
    TmplStep s.w (s.storeTmpl i r).w ∧ (s.storeTmpl i r).m = s.m := by
  cases r with
  | error e => exact ⟨TmplStep.refl _, rfl⟩
  | ok t => exact ⟨setTmpl_step _ i t (h t rfl).1 (h t rfl).2, rfl⟩

/-- API calls that neither create objects nor change channels or the model definition -/
def Op.isTmplStep : Op → Prop
  | .addVariation .. | .addCovMat .. | .setTmplYield .. | .setTmplNui .. | .setTmplParams ..
  | .resetTmpl .. | .setYield .. | .update .. | .reset | .nll .. | .binCounts .. | .procIndices ..
  | .chanUpdate .. | .chanReset .. => True
  | _ => False

theorem step_tmplStep (s : Sys) (o : Op) (h : o.isTmplStep) :
    TmplStep s.w (s.step o).w ∧ (s.step o).m = s.m := by
  cases o with
  | addVariation t x y up down =>
    simp only [Sys.step]
    split
    · exact ⟨addVariation_step _ _ _ _ _ _ _, rfl⟩
    · exact ⟨TmplStep.refl _, rfl⟩
  | addCovMat t m =>
    simp only [Sys.step]
    split
    · exact ⟨addCovMat_step _ _ _, rfl⟩
    · exact ⟨TmplStep.refl _, rfl⟩
  | setTmplYield t v =>
    simp only [Sys.step]
    split
    · exact storeTmpl_step s t _ fun t' ht => ⟨(setYield_ok ht).1, (setYield_ok ht).2.1⟩
    · exact ⟨TmplStep.refl _, rfl⟩
  | setTmplNui t v =>
    simp only [Sys.step]
    split
    · refine storeTmpl_step s t _ fun t' ht => ?_
      obtain ⟨e, hl⟩ := setNui_ok ht
      subst e
      exact ⟨⟨rfl, rfl, rfl, rfl, rfl, rfl, rfl, rfl⟩, fun _ => by simp [hl]⟩
    · exact ⟨TmplStep.refl _, rfl⟩
  | setTmplParams t v =>
    simp only [Sys.step]
    split
    · refine storeTmpl_step s t _ fun t' ht => ?_
      obtain ⟨e, hl⟩ := setParams_ok ht
      subst e
      exact ⟨⟨rfl, rfl, rfl, rfl, rfl, rfl, rfl, rfl⟩, fun h => by show v.length = _; rw [hl, h]⟩
    · exact ⟨TmplStep.refl _, rfl⟩
  | resetTmpl t =>
    simp only [Sys.step]
    split
    · exact ⟨setTmpl_step _ t _ ⟨rfl, rfl, rfl, rfl, rfl, rfl, rfl, rfl⟩
        (fun _ => by simp [Template.reset, initParams]), rfl⟩
    · exact ⟨TmplStep.refl _, rfl⟩
  | setYield p v => exact ⟨setYield_step _ _ _ _, rfl⟩
  | update x => exact ⟨updateParameters_step _ _ _, rfl⟩
  | reset => exact ⟨resetChannels_step _ _, rfl⟩
  | nll x => exact ⟨(nll_frame _ _ _).tmplStep, rfl⟩
  | binCounts ch x =>
    simp only [Sys.step]
    split
    · exact ⟨TmplStep.refl _, rfl⟩
    · exact ⟨(expectedEvts_frame _ _ _ _).tmplStep, rfl⟩
  | procIndices ch o =>
    simp only [Sys.step]
    split
    · exact ⟨TmplStep.refl _, rfl⟩
    · exact ⟨(processIndices_frame _ _ _).tmplStep, rfl⟩
  | chanUpdate ch y n =>
    simp only [Sys.step]
    split
    · exact ⟨TmplStep.refl _, rfl⟩
    · exact ⟨updateChannel_step _ _ _ _, rfl⟩
  | chanReset ch =>
    simp only [Sys.step]
    split
    · exact ⟨TmplStep.refl _, rfl⟩
    · exact ⟨resetTmpls_step _ _, rfl⟩
  | _ => exact h.elim

end

end TF
