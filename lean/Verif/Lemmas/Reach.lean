import Verif.Lemmas.ParamOnly
import Verif.Lemmas.TmplCovLemmas

set_option linter.unusedSimpArgs false

/-!
# Histories with physical inputs keep the covariance information of every template usable
-/

namespace TF.Spec

open Classical

noncomputable section

/-- symmetric positive semi-definite real matrix, if it is square at all -/
def PsdMat (m : Mat) : Prop :=
  ∀ n, m.rows = n → m.cols = n → ∃ A : Matrix (Fin n) (Fin n) ℝ, IsReal m A ∧ A.PosSemidef

/-- An API call with physical systematics and efficiencies: covariance matrices are positive semi-definite,
variation weights finite, efficiencies finite. Nothing is asked of any other call. -/
def Physical : Op → Prop
  | .addCovMat _ m => PsdMat m
  | .addVariation _ _ _ up down => up.Finite ∧ down.Finite
  | .addTemplate _ _ _ e => ∃ r : ℝ, e = .fin r
  | _ => True

/-- the template was made from a histogram with finite contents and finite non-negative squared errors
(both are recorded at construction and never change) -/
def FiniteTmpl (t : Template) : Prop :=
  (∀ x ∈ t.flatCounts, ∃ r : ℝ, x = .fin r) ∧ ∀ x ∈ t.flatErrSq, ∃ r : ℝ, 0 ≤ r ∧ x = .fin r

end

end TF.Spec

namespace TF

open Classical Spec Props

noncomputable section

/-- what one API call does to an existing template object: new parameter values, or one covariance call -/
def TmplMove (s : Sys) (o : Op) (i : ℕ) : Prop :=
  (∃ p, (s.step o).w.tmpls i = { s.w.tmpls i with params := p }) ∨
  (∃ m, o = .addCovMat i m ∧ (s.step o).w.tmpls i = ((s.w.tmpls i).apply (.addCovMat m)).2) ∨
  (∃ x y up down, o = .addVariation i x y up down ∧ (s.step o).w.tmpls i =
    ((s.w.tmpls i).apply (.addVariation (s.w.hists (s.w.tmpls i).hist) x y up down)).2)

theorem ParamOnly.move {s : Sys} {o : Op} (h : ParamOnly s.w (s.step o).w) (i : ℕ) : TmplMove s o i := by
  obtain ⟨f, e⟩ := h
  left
  rw [e]
  exact ⟨f i, rfl⟩

theorem TmplMove.same {s : Sys} {o : Op} {i : ℕ} (h : (s.step o).w.tmpls i = s.w.tmpls i) : TmplMove s o i :=
  Or.inl ⟨(s.w.tmpls i).params, h⟩

theorem worldAddData_tmpls (w : World) (c hid : ℕ) :
    (w.addData c hid).2.tmpls = w.tmpls ∧ (w.addData c hid).2.nTmpls = w.nTmpls := by
  unfold World.addData
  exact ⟨rfl, rfl⟩

theorem addData_tmpls (hs : List (String × ℕ)) : ∀ (w : World) (m : Mct),
    (m.addData w hs).2.tmpls = w.tmpls ∧ (m.addData w hs).2.nTmpls = w.nTmpls := by
  induction hs with
  | nil => intro w m; exact ⟨rfl, rfl⟩
  | cons a hs ih =>
    intro w m
    simp only [Mct.addData]
    cases dictGet m.channels a.1 with
    | none => exact ⟨rfl, rfl⟩
    | some c =>
      simp only
      have h := worldAddData_tmpls w c a.2
      generalize w.addData c a.2 = r at h ⊢
      obtain ⟨r1, w1⟩ := r
      cases r1 with
      | error e => exact h
      | ok u => exact ⟨(ih w1 m).1.trans h.1, (ih w1 m).2.trans h.2⟩

theorem addDatasets_tmpls (l : List (String × Hist)) : ∀ (w : World) (m : Mct),
    (m.addDatasets w l).2.tmpls = w.tmpls ∧ (m.addDatasets w l).2.nTmpls = w.nTmpls := by
  induction l with
  | nil => intro w m; exact ⟨rfl, rfl⟩
  | cons a l ih =>
    intro w m
    simp only [Mct.addDatasets]
    cases dictGet m.channels a.1 with
    | none => exact ⟨rfl, rfl⟩
    | some c =>
      simp only
      have h := worldAddData_tmpls (w.newHist a.2).2 c (w.newHist a.2).1
      generalize (w.newHist a.2).2.addData c (w.newHist a.2).1 = r at h ⊢
      obtain ⟨r1, w1⟩ := r
      cases r1 with
      | error e => exact h
      | ok u => exact ⟨(ih w1 m).1.trans h.1, (ih w1 m).2.trans h.2⟩

theorem addTemplate_tmpls (w : World) (m : Mct) (c p : String) (t : ℕ) (e : Fl) :
    (m.addTemplate w c p t e).2.tmpls = w.tmpls ∧ (m.addTemplate w c p t e).2.nTmpls = w.nTmpls := by
  unfold Mct.addTemplate
  split
  · exact ⟨rfl, rfl⟩
  · split
    · exact ⟨rfl, rfl⟩
    · exact ⟨rfl, rfl⟩

theorem step_move (s : Sys) (o : Op) (i : ℕ) (hi : i < s.w.nTmpls) : TmplMove s o i := by
  have hallocH : ∀ r, (s.allocHist r).w.tmpls i = s.w.tmpls i := by
    intro r; cases r <;> rfl
  have hallocT : ∀ r, (s.allocTmpl r).w.tmpls i = s.w.tmpls i := by
    intro r; cases r with
    | error e => rfl
    | ok t =>
      have hne : i ≠ s.w.nTmpls := by omega
      simp [Sys.allocTmpl, World.newTmpl, Function.update_of_ne hne]
  cases o with
  | newHist1 b r d w => exact .same (hallocH _)
  | newHist2 b r d w => exact .same (hallocH _)
  | binned1 c e er => exact .same (hallocH _)
  | binned2 c ex ey er => exact .same (hallocH _)
  | fill h x y w => apply TmplMove.same; simp only [Sys.step]; split <;> rfl
  | newTmpl1 n h => apply TmplMove.same; simp only [Sys.step]; split <;> [exact hallocT _; rfl]
  | newTmpl2 n h => apply TmplMove.same; simp only [Sys.step]; split <;> [exact hallocT _; rfl]
  | addVariation t x y up down =>
    by_cases hti : t = i
    · subst hti
      right; right
      exact ⟨x, y, up, down, rfl, by simp [Sys.step, if_pos hi, World.setTmpl, Template.apply]⟩
    · apply TmplMove.same
      simp only [Sys.step]; split <;> simp [World.setTmpl, Function.update_of_ne (Ne.symm hti)]
  | addCovMat t m =>
    by_cases hti : t = i
    · subst hti
      right; left
      exact ⟨m, rfl, by simp [Sys.step, if_pos hi, World.setTmpl, Template.apply]⟩
    · apply TmplMove.same
      simp only [Sys.step]; split <;> simp [World.setTmpl, Function.update_of_ne (Ne.symm hti)]
  | setTmplYield t v =>
    apply ParamOnly.move
    simp only [Sys.step]
    split
    · exact (storeTmpl_paramOnly s t _ fun t' ht => setYield_params ht).1
    · exact ParamOnly.refl _
  | setTmplNui t v =>
    apply ParamOnly.move
    simp only [Sys.step]
    split
    · exact (storeTmpl_paramOnly s t _ fun t' ht => ⟨_, (setNui_ok ht).1⟩).1
    · exact ParamOnly.refl _
  | setTmplParams t v =>
    apply ParamOnly.move
    simp only [Sys.step]
    split
    · exact (storeTmpl_paramOnly s t _ fun t' ht => ⟨_, (setParams_ok ht).1⟩).1
    · exact ParamOnly.refl _
  | resetTmpl t =>
    apply ParamOnly.move
    simp only [Sys.step]
    split
    · exact setTmpl_paramOnly _ t _ _ rfl
    · exact ParamOnly.refl _
  | defineChannel n b r => exact .same rfl
  | defineProcess n => exact .same rfl
  | addTemplate c p t e =>
    apply TmplMove.same
    simp only [Sys.step]
    split
    · exact congrFun (addTemplate_tmpls s.w s.m c p t e).1 i
    · rfl
  | addData hs =>
    apply TmplMove.same
    simp only [Sys.step]
    split
    · exact congrFun (addData_tmpls hs s.w s.m).1 i
    · rfl
  | constrain p v e => exact .same rfl
  | setYield p v => exact ParamOnly.move (setYield_paramOnly _ _ _ _) i
  | update x =>
    left
    simp only [Sys.step]
    unfold Mct.updateParameters
    have h2 := (perChannel_frame s.w s.m x).tmpls
    generalize s.m.perChannel s.w x = r at h2 ⊢
    obtain ⟨r1, w1⟩ := r
    cases r1 with
    | error e => exact ⟨(s.w.tmpls i).params, congrFun h2 i⟩
    | ok p =>
      obtain ⟨f, e⟩ := updateChannels_paramOnly s.m.chanIds w1 p.1 p.2
      simp only at h2 ⊢
      refine ⟨f i, ?_⟩
      rw [e, h2]
  | reset => exact ParamOnly.move (resetChannels_paramOnly _ _) i
  | nll x => exact .same (congrFun (nll_frame _ _ _).tmpls i)
  | binCounts ch x =>
    apply TmplMove.same
    simp only [Sys.step]
    split
    · rfl
    · exact congrFun (expectedEvts_frame _ _ _ _).tmpls i
  | procIndices ch o =>
    apply TmplMove.same
    simp only [Sys.step]
    split
    · rfl
    · exact congrFun (processIndices_frame _ _ _).tmpls i
  | chanUpdate ch y n =>
    apply ParamOnly.move
    simp only [Sys.step]
    split
    · exact ParamOnly.refl _
    · exact updateChannel_paramOnly _ _ _ _
  | chanReset ch =>
    apply ParamOnly.move
    simp only [Sys.step]
    split
    · exact ParamOnly.refl _
    · exact resetTmpls_paramOnly _ _
  | addAsimov b =>
    apply TmplMove.same
    simp only [Sys.step]
    split
    · rfl
    · exact congrFun (addDatasets_tmpls _ _ _).1 i
  | addToy d =>
    apply TmplMove.same
    simp only [Sys.step]
    split
    · rfl
    · exact congrFun (addDatasets_tmpls _ _ _).1 i

/-- new templates are the constructors' results -/
theorem step_new (s : Sys) (o : Op) (i : ℕ) (hi : i < (s.step o).w.nTmpls) (hn : ¬ i < s.w.nTmpls) :
    ∃ name h, h < s.w.nHists ∧ (newTemplate name h (s.w.hists h) = .ok ((s.step o).w.tmpls i)) := by
  have hallocH : ∀ r, (s.allocHist r).w.nTmpls = s.w.nTmpls := by
    intro r; cases r <;> rfl
  have hallocT : ∀ r, i < (s.allocTmpl r).w.nTmpls → r = .ok ((s.allocTmpl r).w.tmpls i) := by
    intro r hr; cases r with
    | error e => exact absurd hr hn
    | ok t =>
      have : i = s.w.nTmpls := by
        have : i < s.w.nTmpls + 1 := hr
        omega
      subst this
      simp [Sys.allocTmpl, World.newTmpl]
  have hts : ∀ h : o.isTmplStep, False := fun h => by
    rw [(step_tmplStep s o h).1.nTmpls] at hi; exact hn hi
  cases o with
  | newHist1 b r d w => exact absurd (by simpa [Sys.step, hallocH] using hi) hn
  | newHist2 b r d w => exact absurd (by simpa [Sys.step, hallocH] using hi) hn
  | binned1 c e er => exact absurd (by simpa [Sys.step, hallocH] using hi) hn
  | binned2 c ex ey er => exact absurd (by simpa [Sys.step, hallocH] using hi) hn
  | fill h x y w =>
    refine absurd ?_ hn
    simp only [Sys.step] at hi
    split at hi <;> exact hi
  | newTmpl1 n h =>
    simp only [Sys.step] at hi ⊢
    split at hi
    · rename_i hh
      rw [if_pos hh]
      have := hallocT _ hi
      refine ⟨n, h, hh, ?_⟩
      unfold newTemplate
      cases hc : (s.w.hists h).cls with
      | h1 => exact this
      | h2 =>
        exfalso
        unfold Template1d.new at this
        rw [hc] at this
        simp at this
    · exact absurd hi hn
  | newTmpl2 n h =>
    simp only [Sys.step] at hi ⊢
    split at hi
    · rename_i hh
      rw [if_pos hh]
      have := hallocT _ hi
      refine ⟨n, h, hh, ?_⟩
      unfold newTemplate
      cases hc : (s.w.hists h).cls with
      | h2 => exact this
      | h1 =>
        exfalso
        unfold Template2d.new at this
        rw [hc] at this
        simp at this
    · exact absurd hi hn
  | defineChannel n b r => exact absurd hi hn
  | defineProcess n => exact absurd hi hn
  | addTemplate c p t e =>
    refine absurd ?_ hn
    simp only [Sys.step] at hi
    split at hi
    · rw [(addTemplate_tmpls s.w s.m c p t e).2] at hi; exact hi
    · exact hi
  | addData hs =>
    refine absurd ?_ hn
    simp only [Sys.step] at hi
    split at hi
    · rw [(addData_tmpls hs s.w s.m).2] at hi; exact hi
    · exact hi
  | constrain p v e => exact absurd hi hn
  | addAsimov b =>
    refine absurd ?_ hn
    simp only [Sys.step] at hi
    split at hi
    · exact hi
    · rw [(addDatasets_tmpls _ _ _).2] at hi; exact hi
  | addToy d =>
    refine absurd ?_ hn
    simp only [Sys.step] at hi
    split at hi
    · exact hi
    · rw [(addDatasets_tmpls _ _ _).2] at hi; exact hi
  | _ => exact (hts trivial).elim

/-! ### covariance information -/

/-- the covariance information of a template with finite nominal content is usable -/
def CovOk (t : Template) : Prop :=
  FiniteTmpl t → ∃ (c : Fin t.numBins → ℝ) (C : Matrix (Fin t.numBins) (Fin t.numBins) ℝ), CovInv t c C

theorem CovInv.ok {t : Template} {n : ℕ} {c : Fin n → ℝ} {C : Matrix (Fin n) (Fin n) ℝ} (h : CovInv t c C) :
    ∃ (c : Fin t.numBins → ℝ) (C : Matrix (Fin t.numBins) (Fin t.numBins) ℝ), CovInv t c C := by
  obtain rfl := h.bins
  exact ⟨c, C, h⟩

theorem SameFrame.finite {t t' : Template} (h : SameFrame t t') (hf : FiniteTmpl t') : FiniteTmpl t := by
  unfold FiniteTmpl at hf ⊢
  rw [h.flatCounts, h.flatErrSq] at hf
  exact hf

theorem covOk_apply {t : Template} (h : CovOk t) (o : TOp) (ho : ∀ n, GoodOp n o) : CovOk (t.apply o).2 := by
  intro hf
  obtain ⟨c, C, hC⟩ := h ((apply_frame t o).finite hf)
  obtain ⟨C', h'⟩ := (apply_inv hC o (ho _)).2
  exact h'.ok

theorem finite_vec {n : ℕ} {v : Vec} (hl : v.length = n) (hf : ∀ x ∈ v, ∃ r : ℝ, x = .fin r) :
    ∃ f : Fin n → ℝ, v = vec f :=
  allFin_vec hl fun x hx => by obtain ⟨r, rfl⟩ := hf x hx; trivial

theorem covOk_new {name : String} {hid : ℕ} {h : Hist} (hw : HistWF h) {t : Template}
    (ht : newTemplate name hid h = .ok t) : CovOk t := by
  intro hf
  obtain ⟨hs, -, -, e1, -, -, -, -⟩ := newTemplate_covSum ht
  have e2 : t.flatErrSq = h.errSq.data ∧ h.counts.data.length = t.numBins ∧ h.errSq.data.length = t.numBins ∧
      t.numBins = h.numBins.prod := by
    unfold newTemplate at ht
    cases hc : h.cls with
    | h1 =>
      rw [hc] at ht
      simp only [Template1d.new, hc, Template.build] at ht
      split at ht
      · rename_i hl
        have := Except.ok.inj ht
        subst this
        refine ⟨rfl, hl.1, hl.2, ?_⟩
        rcases hw.2 with ⟨_, n, _, _, _, _, h2, _⟩ | ⟨h2, _⟩
        · simp [h2]
        · rw [hc] at h2; simp at h2
      · simp at ht
    | h2 =>
      rw [hc] at ht
      simp only [Template2d.new, hc, Template.build] at ht
      split at ht
      · rename_i hl
        have := Except.ok.inj ht
        subst this
        exact ⟨rfl, hl.1, hl.2, rfl⟩
      · simp at ht
  obtain ⟨e2, e3, e4, e5⟩ := e2
  obtain ⟨c, hc⟩ := finite_vec e3 (by rw [← e1]; exact hf.1)
  obtain ⟨q, hq⟩ := finite_vec e4 (by
    rw [← e2]; intro x hx; obtain ⟨r, _, e⟩ := hf.2 x hx; exact ⟨r, e⟩)
  have hh : HistIs h c q := by
    refine ⟨hc, hq, ?_, e5.symm, by rw [hw.1, e5], ?_⟩
    · intro i
      obtain ⟨r, hr, e⟩ := hf.2 (.fin (q i)) (by rw [e2, hq]; exact List.mem_ofFn.mpr ⟨i, rfl⟩)
      rw [Fl.fin.inj e]; exact hr
    · rcases hw.2 with ⟨_, n, _, _, _, _, h2, _⟩ | ⟨h2, _⟩
      · left; rw [h2] at e5 ⊢; rw [e5]; simp
      · right; exact h2
  obtain ⟨t', ht', hfr⟩ := newTemplate_fresh name hid h c q hh
  rw [ht] at ht'
  have := Except.ok.inj ht'
  subst this
  exact (fresh_inv hh hfr).ok

theorem step_covOk {s : Sys} (hw : SysWF s) (o : Op) (ho : Physical o)
    (h : ∀ i < s.w.nTmpls, CovOk (s.w.tmpls i)) : ∀ i < (s.step o).w.nTmpls, CovOk ((s.step o).w.tmpls i) := by
  intro i hi
  by_cases hlt : i < s.w.nTmpls
  · rcases step_move s o i hlt with ⟨p, e⟩ | ⟨m, rfl, e⟩ | ⟨x, y, up, down, rfl, e⟩
    · rw [e]
      intro hf
      obtain ⟨c, C, hC⟩ := h i hlt hf
      exact ⟨c, C, hC.bins, hC.counts, hC.pos, hC.cov, hC.corr, hC.inv, hC.rel⟩
    · rw [e]; exact covOk_apply (h i hlt) _ ho
    · rw [e]; exact covOk_apply (h i hlt) _ fun _ => ho
  · obtain ⟨name, hid, hh, e⟩ := step_new s o i hi hlt
    exact covOk_new (hw.hist hid hh) e

theorem run_covOk (ops : List Op) : ∀ {s : Sys}, SysWF s → (∀ o ∈ ops, Physical o) →
    (∀ i < s.w.nTmpls, CovOk (s.w.tmpls i)) → ∀ i < (s.run ops).w.nTmpls, CovOk ((s.run ops).w.tmpls i) := by
  induction ops with
  | nil => intro s _ _ h; exact h
  | cons o ops ih =>
    intro s hw ho h
    exact ih (step_wf hw o) (fun o' h' => ho o' (by simp [h'])) (step_covOk hw o (ho o (by simp)) h)

theorem init_covOk (ops : List Op) (ho : ∀ o ∈ ops, Physical o) (i : ℕ) (hi : i < (Sys.init.run ops).w.nTmpls) :
    CovOk ((Sys.init.run ops).w.tmpls i) :=
  run_covOk ops init_wf ho (fun i hi => absurd hi (Nat.not_lt_zero i)) i hi

/-! ### efficiencies -/

/-- all efficiencies of all channels are finite -/
def EffsFin (w : World) : Prop := ∀ c, ∀ e ∈ (w.chans c).effs, ∃ r : ℝ, e.2 = .fin r

theorem setChan_effs {w : World} {i : ℕ} {c : Channel} (h : EffsFin w)
    (hc : ∀ e ∈ c.effs, ∃ r : ℝ, e.2 = .fin r) : EffsFin (w.setChan i c) := by
  intro j
  by_cases e : j = i
  · subst e; simpa [World.setChan] using hc
  · simp only [World.setChan, Function.update_of_ne e]; exact h j

theorem worldAddData_effs {w : World} (h : EffsFin w) (c hid : ℕ) : EffsFin (w.addData c hid).2 := by
  unfold World.addData
  apply setChan_effs h
  unfold Channel.addData
  split <;> exact h c

theorem addData_effs (hs : List (String × ℕ)) : ∀ (w : World) (m : Mct), EffsFin w →
    EffsFin (m.addData w hs).2 := by
  induction hs with
  | nil => intro w m h; exact h
  | cons a hs ih =>
    intro w m h
    simp only [Mct.addData]
    cases dictGet m.channels a.1 with
    | none => exact h
    | some c =>
      simp only
      have h := worldAddData_effs h c a.2
      generalize w.addData c a.2 = r at h ⊢
      obtain ⟨r1, w1⟩ := r
      cases r1 with
      | error e => exact h
      | ok u => exact ih w1 m h

theorem addDatasets_effs (l : List (String × Hist)) : ∀ (w : World) (m : Mct), EffsFin w →
    EffsFin (m.addDatasets w l).2 := by
  induction l with
  | nil => intro w m h; exact h
  | cons a l ih =>
    intro w m h
    simp only [Mct.addDatasets]
    cases dictGet m.channels a.1 with
    | none => exact h
    | some c =>
      simp only
      have h := worldAddData_effs (w := (w.newHist a.2).2) h c (w.newHist a.2).1
      generalize (w.newHist a.2).2.addData c (w.newHist a.2).1 = r at h ⊢
      obtain ⟨r1, w1⟩ := r
      cases r1 with
      | error e => exact h
      | ok u => exact ih w1 m h

theorem addTemplate_chan_effs {c : Channel} {p : String} {tid : ℕ} {t : Template} {k : HistCls} {eff : Fl}
    (h : ∀ e ∈ c.effs, ∃ r : ℝ, e.2 = .fin r) (he : ∃ r : ℝ, eff = .fin r) :
    ∀ e ∈ (c.addTemplate p tid t k eff).2.effs, ∃ r : ℝ, e.2 = .fin r := by
  unfold Channel.addTemplate
  split
  · split
    · exact h
    · dsimp only
      have key : ∀ c' : Channel, c'.effs = c.effs → ∀ e ∈ dictSet c'.effs p eff, ∃ r : ℝ, e.2 = .fin r := by
        intro c' hc e hm
        rw [hc] at hm
        rcases dictSet_mem _ _ _ _ hm with h1 | h1
        · rw [h1]; exact he
        · exact h e h1
      have e1 : (if c.dim = none then { c with dim := some t.bins.length } else c).effs = c.effs := by
        split <;> rfl
      generalize (if c.dim = none then { c with dim := some t.bins.length } else c : Channel) = c1 at *
      have e2 : (if c1.ttype = none then { c1 with ttype := some t.cls, htype := some k } else c1).effs = c.effs := by
        split <;> exact e1
      generalize (if c1.ttype = none then { c1 with ttype := some t.cls, htype := some k } else c1 : Channel) = c2 at *
      split
      · rw [e2]; exact h
      · exact key c2 e2
  · exact h

theorem step_effs {s : Sys} (o : Op) (ho : Physical o) (h : EffsFin s.w) : EffsFin (s.step o).w := by
  have hallocH : ∀ r, EffsFin (s.allocHist r).w := by intro r; cases r <;> exact h
  have hallocT : ∀ r, EffsFin (s.allocTmpl r).w := by intro r; cases r <;> exact h
  have hts : ∀ _ : o.isTmplStep, EffsFin (s.step o).w := fun h' => by
    unfold EffsFin; rw [(step_tmplStep s o h').1.chans]; exact h
  cases o with
  | newHist1 b r d w => exact hallocH _
  | newHist2 b r d w => exact hallocH _
  | binned1 c e er => exact hallocH _
  | binned2 c ex ey er => exact hallocH _
  | fill i x y w => simp only [Sys.step]; split <;> exact h
  | newTmpl1 n i => simp only [Sys.step]; split <;> [exact hallocT _; exact h]
  | newTmpl2 n i => simp only [Sys.step]; split <;> [exact hallocT _; exact h]
  | defineChannel n b r =>
    intro c
    simp only [Sys.step, Mct.defineChannel, World.newChan]
    by_cases e : c = s.w.nChans
    · subst e; simp [Channel.new]
    · simp only [Function.update_of_ne e]; exact h c
  | defineProcess n => exact h
  | addTemplate c p t e =>
    simp only [Sys.step]
    split
    · unfold Mct.addTemplate
      split
      · exact h
      · split
        · exact h
        · unfold World.addTemplate
          exact setChan_effs h (addTemplate_chan_effs (h _) ho)
    · exact h
  | addData hs =>
    simp only [Sys.step]
    split
    · exact addData_effs _ _ _ h
    · exact h
  | constrain p v e => exact h
  | addAsimov i =>
    simp only [Sys.step]
    split
    · exact h
    · exact addDatasets_effs _ _ _ h
  | addToy d =>
    simp only [Sys.step]
    split
    · exact h
    · exact addDatasets_effs _ _ _ h
  | _ => exact hts trivial

theorem init_effs (ops : List Op) (ho : ∀ o ∈ ops, Physical o) : EffsFin (Sys.init.run ops).w := by
  induction ops using List.reverseRecOn with
  | nil => intro c e he; simp [Sys.run, Sys.init, World.init, dummyChan, Channel.new] at he
  | append_singleton ops o ih =>
    rw [run_append]
    exact step_effs o (ho o (by simp)) (ih fun o' h' => ho o' (by simp [h']))

end

end TF
