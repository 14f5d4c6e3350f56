import Verif.Props.TemplateProps2

/-!
# C28 for every history, resets included
-/

namespace TF.Spec

/-- Two calls on a template that are the same except for the contents of the template's histogram at the time of the call (events may have
been filled in between; its binning never changes). -/
inductive SameCall : TOp → TOp → Prop
  | setYield (v : YieldVal) : SameCall (.setYield v) (.setYield v)
  | setNui (v : Vec) : SameCall (.setNui v) (.setNui v)
  | setParams (v : Vec) : SameCall (.setParams v) (.setParams v)
  | addCovMat (m : Mat) : SameCall (.addCovMat m) (.addCovMat m)
  | reset (h h' : Hist) : SameCall (.reset h) (.reset h')
  | addVariation (h h' : Hist) (hn : h'.numBins = h.numBins) (x y : Vec) (up down : Weights) :
      SameCall (.addVariation h x y up down) (.addVariation h' x y up down)

/-- everything a template shows except its yield is the same: name, bins, contents, errors, covariance matrices, correlations, relative
errors, nuisance parameters -/
def SameButYield (a b : Template) : Prop := a = { b with params := a.params } ∧ a.params.tail = b.params.tail ∧ a.params.length = b.params.length

end TF.Spec

namespace TF.Props

open Classical Spec

noncomputable section

theorem addCov_params_frame (t : Template) (p : Vec) (m : Mat) :
    (Template.addCov { t with params := p } m).2 = { (t.addCov m).2 with params := p } ∧ (t.addCov m).2.params = t.params := by
  unfold Template.addCov
  by_cases h : m.rows = t.cov.rows ∧ m.cols = t.cov.cols
  · cases hi : npInv (cov2corr (t.cov.add m)) <;> simp [h, hi]
  · simp [h]

theorem addVariation_params_frame (t : Template) (p : Vec) (h h' : Hist) (hn : h'.numBins = h.numBins) (x y : Vec) (up down : Weights) :
    (Template.addVariation { t with params := p } h' x y up down).2 = { (t.addVariation h x y up down).2 with params := p } ∧
      (t.addVariation h x y up down).2.params = t.params := by
  unfold Template.addVariation Template1d.addVariation Template2d.addVariation
  simp only [hn]
  repeat' split
  all_goals first | exact addCov_params_frame t p _ | exact ⟨rfl, rfl⟩

theorem addCovMat_params_frame (t : Template) (p : Vec) (m : Mat) :
    (Template.addCovMat { t with params := p } m).2 = { (t.addCovMat m).2 with params := p } ∧ (t.addCovMat m).2.params = t.params := by
  unfold Template.addCovMat Template1d.addCovMat
  repeat' split
  all_goals first | exact addCov_params_frame t p _ | exact ⟨rfl, rfl⟩ | simp_all

theorem apply_sameCall {a b : Template} (h : SameButYield a b) (hp : 1 ≤ b.params.length) {o o' : TOp} (ho : SameCall o o') :
    SameButYield (a.apply o').2 (b.apply o).2 ∧ 1 ≤ (b.apply o).2.params.length := by
  obtain ⟨h1, h2, h3⟩ := h
  cases ho with
  | setYield v =>
    have hk : ∀ r : Fl, SameButYield { a with params := r :: a.params.tail } { b with params := r :: b.params.tail } := by
      intro r
      refine ⟨?_, h2, by simp [h2]⟩
      rw [h1]
    simp only [Template.apply, Template.setYield]
    cases v with
    | float r => exact ⟨hk r, by simp [keepOnError]⟩
    | int i => exact ⟨hk _, by simp [keepOnError]⟩
    | other => exact ⟨⟨h1, h2, h3⟩, hp⟩
    | arr l =>
      match l with
      | [] => exact ⟨⟨h1, h2, h3⟩, hp⟩
      | [r] => exact ⟨hk r, by simp [keepOnError]⟩
      | _ :: _ :: _ => exact ⟨⟨h1, h2, h3⟩, hp⟩
  | setNui v =>
    have hb : a.numBins = b.numBins := by rw [h1]
    simp only [Template.apply, Template.setNui, hb]
    by_cases hv : v.length ≠ b.numBins
    · simp only [if_pos hv, keepOnError]; exact ⟨⟨h1, h2, h3⟩, hp⟩
    · simp only [if_neg hv, keepOnError]
      refine ⟨⟨?_, rfl, by simp⟩, by simp⟩
      rw [h1]
  | setParams v =>
    simp only [Template.apply, Template.setParams, h3]
    by_cases hv : v.length ≠ b.params.length
    · simp only [if_pos hv, keepOnError]; exact ⟨⟨h1, h2, h3⟩, hp⟩
    · simp only [if_neg hv, keepOnError]
      refine ⟨⟨?_, rfl, rfl⟩, by push Not at hv; simpa [hv] using hp⟩
      rw [h1]
  | addCovMat m =>
    have f := addCovMat_params_frame b a.params m
    rw [← h1] at f
    simp only [Template.apply]
    refine ⟨⟨?_, ?_, ?_⟩, by rw [f.2]; exact hp⟩
    · rw [f.1]
    · rw [f.1, f.2]; exact h2
    · rw [f.1, f.2]; exact h3
  | reset g g' =>
    have hb : a.numBins = b.numBins := by rw [h1]
    refine ⟨⟨?_, by simp [Template.apply, Template.reset, initParams, hb], by simp [Template.apply, Template.reset, initParams, hb]⟩,
      by simp [Template.apply, Template.reset, initParams]⟩
    simp only [Template.apply, Template.reset]
    rw [h1]
  | addVariation g g' hn x y up down =>
    have f := addVariation_params_frame b a.params g g' hn x y up down
    rw [← h1] at f
    simp only [Template.apply]
    refine ⟨⟨?_, ?_, ?_⟩, by rw [f.2]; exact hp⟩
    · rw [f.1]
    · rw [f.1, f.2]; exact h2
    · rw [f.1, f.2]; exact h3

/-- **C28 (partial), resets included.** Whatever is filled into the histogram between the calls on a template, after any history of calls
everything the template shows except its yield is the same; and right after a `reset()` the yield is the total content of the histogram at
that moment and all nuisance parameters are zero. -/
theorem C28_all_but_yield_partial (t : Template) (hp : 1 ≤ t.params.length) (ops ops' : List TOp) (hops : List.Forall₂ SameCall ops ops')
    (h : Hist) :
    SameButYield (t.run ops') (t.run ops) ∧
      ((t.run ops).apply (.reset h)).2.params = npSum h.counts.data :: List.replicate t.numBins 0 := by
  have key : ∀ (a b : Template), SameButYield a b → 1 ≤ b.params.length → ∀ ops ops', List.Forall₂ SameCall ops ops' →
      SameButYield (a.run ops') (b.run ops) := by
    intro a b hab hb ops ops' hops
    induction hops generalizing a b with
    | nil => exact hab
    | cons ho _ ih =>
      have := apply_sameCall hab hb ho
      exact ih _ _ this.1 this.2
  refine ⟨key t t ⟨rfl, rfl, rfl⟩ hp _ _ hops, ?_⟩
  show initParams _ h = _
  have hnb : ∀ (ops : List TOp) (t : Template), (t.run ops).numBins = t.numBins := by
    intro ops
    induction ops with
    | nil => intro t; rfl
    | cons o ops ih =>
      intro t
      show ((t.apply o).2.run ops).numBins = _
      rw [ih]
      have hc : ∀ m, (t.addCov m).2.numBins = t.numBins := by
        intro m
        unfold Template.addCov
        by_cases h : m.rows = t.cov.rows ∧ m.cols = t.cov.cols
        · cases hi : npInv (cov2corr (t.cov.add m)) <;> simp [h, hi]
        · simp [h]
      cases o with
      | setYield v =>
        simp only [Template.apply, Template.setYield]
        split <;> simp [keepOnError]
      | setNui v =>
        simp only [Template.apply, Template.setNui]
        split <;> simp [keepOnError]
      | setParams v =>
        simp only [Template.apply, Template.setParams]
        split <;> simp [keepOnError]
      | reset h => rfl
      | addCovMat m =>
        simp only [Template.apply, Template.addCovMat, Template1d.addCovMat]
        repeat' split
        all_goals first | rfl | exact hc _
      | addVariation h x y up down =>
        simp only [Template.apply, Template.addVariation, Template1d.addVariation, Template2d.addVariation]
        repeat' split
        all_goals first | rfl | exact hc _
  simp only [initParams, hnb]

/-- non-vacuity of `C28_all_but_yield_partial`: a history with a reset, a variation and setters, with different histogram contents -/
example : ∃ t : Template, newTemplate "t" 0 exHistB = .ok t ∧ 1 ≤ t.params.length ∧
    List.Forall₂ SameCall [.addVariation exHistB [.fin 2] [] .none .none, .reset exHistB, .setYield (.int 3)]
      [.addVariation (exHistB.fill [.fin (1/2)] [] .none).2 [.fin 2] [] .none .none, .reset (exHistB.fill [.fin (1/2)] [] .none).2, .setYield (.int 3)] := by
  obtain ⟨t, ht⟩ : ∃ t, newTemplate "t" 0 exHistB = .ok t := ⟨_, rfl⟩
  refine ⟨t, ht, ?_, .cons (.addVariation _ _ (fill_frame _ _ _ _).1 _ _ _ _) (.cons (.reset _ _) (.cons (.setYield _) .nil))⟩
  rw [(newTemplate_covSum ht).2.2.2.2.2.2.2]
  simp [initParams]

end

end TF.Props
