import Verif.Lemmas.TmplLemmas
import Verif.Lemmas.HistLemmas
import Verif.Model.TmplRun

set_option linter.unusedSimpArgs false

namespace TF

open Classical Spec

noncomputable section

/-- what no template call changes, and that the number of parameters stays the same -/
structure SameFrame (t t' : Template) : Prop where
  cls : t'.cls = t.cls
  name : t'.name = t.name
  hist : t'.hist = t.hist
  flatCounts : t'.flatCounts = t.flatCounts
  flatErrSq : t'.flatErrSq = t.flatErrSq
  bins : t'.bins = t.bins
  numBins : t'.numBins = t.numBins
  range : t'.range = t.range

theorem SameFrame.refl (t : Template) : SameFrame t t := ⟨rfl, rfl, rfl, rfl, rfl, rfl, rfl, rfl⟩

theorem SameFrame.trans {a b c : Template} (h : SameFrame a b) (h' : SameFrame b c) : SameFrame a c :=
  ⟨h'.cls.trans h.cls, h'.name.trans h.name, h'.hist.trans h.hist, h'.flatCounts.trans h.flatCounts,
   h'.flatErrSq.trans h.flatErrSq, h'.bins.trans h.bins, h'.numBins.trans h.numBins,
   h'.range.trans h.range⟩

theorem addCov_frame (t : Template) (m : Mat) :
    SameFrame t (t.addCov m).2 ∧ (t.addCov m).2.params = t.params := by
  unfold Template.addCov
  dsimp only
  split
  · split <;> exact ⟨⟨rfl, rfl, rfl, rfl, rfl, rfl, rfl, rfl⟩, rfl⟩
  · exact ⟨⟨rfl, rfl, rfl, rfl, rfl, rfl, rfl, rfl⟩, rfl⟩

theorem addCovMat_cases (t : Template) (m : Mat) :
    ((t.addCovMat m).2 = t ∧ ∃ e, (t.addCovMat m).1 = .error e ∧ e ≠ .linAlgError) ∨
    (t.addCovMat m = t.addCov m ∧ m.rows = t.numBins ∧ m.cols = t.numBins) := by
  unfold Template.addCovMat
  split
  · unfold Template1d.addCovMat
    split
    · left; exact ⟨rfl, _, rfl, by simp⟩
    · right; rename_i h; rw [not_not] at h; exact ⟨rfl, h.1, h.2⟩
  · left; exact ⟨rfl, _, rfl, by simp⟩

/-- the matrix that a 1-d systematic variation adds -/
def variationMat (t : Template) (h : Hist) (data : Vec) (up down : Weights) : Except Err Mat := do
  let hup ← Hist1d.new (.int (h.numBins.getD 0 0)) (some t.range) (some data) up
  let hdown ← Hist1d.new (.int (h.numBins.getD 0 0)) (some t.range) (some data) down
  getSystematicCovMat t.flatCounts hup.counts.data hdown.counts.data

theorem addVariation1_eq (t : Template) (h : Hist) (data : Vec) (up down : Weights) :
    Template1d.addVariation t h data up down =
      match variationMat t h data up down with
      | .error e => (.error e, t)
      | .ok m => t.addCov m := by
  unfold Template1d.addVariation variationMat
  cases Hist1d.new (.int (h.numBins.getD 0 0)) (some t.range) (some data) up with
  | error e => rfl
  | ok h1 =>
    cases Hist1d.new (.int (h.numBins.getD 0 0)) (some t.range) (some data) down with
    | error e => rfl
    | ok h2 =>
      show (match getSystematicCovMat t.flatCounts h1.counts.data h2.counts.data with
        | .error e => _ | .ok m => _) = (match getSystematicCovMat t.flatCounts h1.counts.data h2.counts.data with
        | .error e => _ | .ok m => _)
      cases getSystematicCovMat t.flatCounts h1.counts.data h2.counts.data <;> rfl

theorem accumulate_not_linalg (h : Hist) (s s2 : Except Err NdArr) (b : Bool)
    (h1 : s ≠ .error .linAlgError) (h2 : s2 ≠ .error .linAlgError) :
    (h.accumulate s s2 b).1 ≠ .error .linAlgError := by
  unfold Hist.accumulate
  split
  · rename_i e; intro hc; simp at hc; subst hc; exact h1 rfl
  · split
    · rename_i e he
      unfold NdArr.iadd at he
      split at he
      · simp at he
      · simp at he; subst he; simp
    · dsimp only
      split
      · simp
      · split
        · rename_i e _; intro hc; simp at hc; subst hc; exact h2 rfl
        · split
          · rename_i e he
            unfold NdArr.iadd at he
            split at he
            · simp at he
            · simp at he; subst he; simp
          · simp

theorem binnedSum_not_linalg (e : List ℝ) (d v : Vec) : binnedSum e d v ≠ .error .linAlgError := by
  unfold binnedSum; split
  · simp
  · split <;> simp

theorem binnedSum2_not_linalg (e f : List ℝ) (x y v : Vec) : binnedSum2 e f x y v ≠ .error .linAlgError := by
  unfold binnedSum2; split
  · simp
  · split
    · simp
    · split <;> simp

theorem hist1_new_not_linalg (b : ℕ) (r : PyRange) (d : Vec) (W : Weights) :
    Hist1d.new (.int b) (some r) (some d) W ≠ .error .linAlgError := by
  cases r with
  | d2 => simp [Hist1d.new, Hist1d.init, uniform1]
  | d1 k lo hi =>
    have hb : ¬ ((b : ℤ) < 0) := by omega
    simp only [Hist1d.new, Hist1d.init, uniform1, if_neg hb]
    generalize hg : Hist1d.fill _ d W = g
    obtain ⟨r, h'⟩ := g
    cases r with
    | ok u => simp
    | error e =>
      intro hc
      simp at hc; subst hc
      unfold Hist1d.fill at hg
      apply accumulate_not_linalg _ _ _ _ (binnedSum_not_linalg _ _ _) (binnedSum_not_linalg _ _ _)
      rw [hg]

theorem hist2_new_not_linalg (a b : ℕ) (r : PyRange) (x y : Vec) (W : Weights) :
    Hist2d.new (.ints a b) (some r) (some (x, y)) W ≠ .error .linAlgError := by
  cases r with
  | d1 => simp [Hist2d.new, Hist2d.init]
  | d2 k kx ky xlo xhi ylo yhi =>
    have hb : ¬ ((a : ℤ) < 0 ∨ (b : ℤ) < 0) := by omega
    simp only [Hist2d.new, Hist2d.init, if_neg hb]
    generalize hg : Hist2d.fill _ x y W = g
    obtain ⟨r, h'⟩ := g
    cases r with
    | ok u => simp
    | error e =>
      intro hc
      simp at hc; subst hc
      unfold Hist2d.fill at hg
      apply accumulate_not_linalg _ _ _ _ (binnedSum2_not_linalg _ _ _ _ _) (binnedSum2_not_linalg _ _ _ _ _)
      rw [hg]

theorem variationMat_not_linalg (t : Template) (h : Hist) (data : Vec) (up down : Weights) :
    variationMat t h data up down ≠ .error .linAlgError := by
  unfold variationMat
  simp only [bind, Except.bind]
  intro hc
  split at hc
  · rename_i e he
    simp at hc; subst hc
    exact hist1_new_not_linalg _ _ _ _ he
  · split at hc
    · rename_i e he
      simp at hc; subst hc
      exact hist1_new_not_linalg _ _ _ _ he
    · unfold getSystematicCovMat at hc
      split at hc <;> simp at hc

theorem variationMat_shape (t : Template) (h : Hist) (data : Vec) (up down : Weights) (m : Mat)
    (hm : variationMat t h data up down = .ok m) :
    m.rows = t.flatCounts.length ∧ m.cols = t.flatCounts.length := by
  unfold variationMat at hm
  simp only [bind, Except.bind] at hm
  split at hm
  · simp at hm
  · split at hm
    · simp at hm
    · unfold getSystematicCovMat at hm
      split at hm
      · rename_i hl
        simp at hm
        rw [← hm]
        simp [Mat.outer, hl.1, hl.2]
      · simp at hm

theorem addVariation2_cases (t : Template) (h : Hist) (x y : Vec) (up down : Weights) :
    (Template2d.addVariation t h x y up down).2 = t ∧
      (Template2d.addVariation t h x y up down).1 ≠ .error .linAlgError ∧
      (Template2d.addVariation t h x y up down).1 ≠ .ok () := by
  unfold Template2d.addVariation
  have h1 := hist2_new_not_linalg (h.numBins.getD 0 0) (h.numBins.getD 1 0) t.range x y up
  have h2 := hist2_new_not_linalg (h.numBins.getD 0 0) (h.numBins.getD 1 0) t.range x y down
  cases e1 : Hist2d.new (.ints (h.numBins.getD 0 0) (h.numBins.getD 1 0)) (some t.range) (some (x, y)) up with
  | error e => rw [e1] at h1; exact ⟨rfl, by simpa using h1, by simp⟩
  | ok a =>
    cases e2 : Hist2d.new (.ints (h.numBins.getD 0 0) (h.numBins.getD 1 0)) (some t.range) (some (x, y)) down with
    | error e => rw [e2] at h2; exact ⟨rfl, by simpa using h2, by simp⟩
    | ok b => exact ⟨rfl, by simp, by simp⟩

theorem addVariation_cases (t : Template) (h : Hist) (x y : Vec) (up down : Weights) :
    ((t.addVariation h x y up down).2 = t ∧
      ((t.addVariation h x y up down).1 ≠ .error .linAlgError) ∧
      ((t.addVariation h x y up down).1 ≠ .ok ())) ∨
    ∃ m, variationMat t h x up down = .ok m ∧ t.addVariation h x y up down = t.addCov m := by
  unfold Template.addVariation
  cases hcl : t.cls with
  | t1 =>
    simp only []
    rw [addVariation1_eq]
    cases hm : variationMat t h x up down with
    | error e =>
      left
      refine ⟨rfl, ?_, by simp⟩
      intro hc; simp at hc; subst hc
      exact variationMat_not_linalg t h x up down hm
    | ok m => right; exact ⟨m, rfl, rfl⟩
  | t2 => left; exact addVariation2_cases t h x y up down

theorem apply_frame (t : Template) (o : TOp) : SameFrame t (t.apply o).2 := by
  cases o with
  | setYield v =>
    simp only [Template.apply]
    cases v with
    | float r => exact ⟨rfl, rfl, rfl, rfl, rfl, rfl, rfl, rfl⟩
    | int i => exact ⟨rfl, rfl, rfl, rfl, rfl, rfl, rfl, rfl⟩
    | other => exact SameFrame.refl t
    | arr v =>
      match v with
      | [] => exact SameFrame.refl t
      | [r] => exact ⟨rfl, rfl, rfl, rfl, rfl, rfl, rfl, rfl⟩
      | _ :: _ :: _ => exact SameFrame.refl t
  | setNui v =>
    simp only [Template.apply, Template.setNui]
    split
    · exact SameFrame.refl t
    · exact ⟨rfl, rfl, rfl, rfl, rfl, rfl, rfl, rfl⟩
  | setParams v =>
    simp only [Template.apply, Template.setParams]
    split
    · exact SameFrame.refl t
    · exact ⟨rfl, rfl, rfl, rfl, rfl, rfl, rfl, rfl⟩
  | reset h => exact ⟨rfl, rfl, rfl, rfl, rfl, rfl, rfl, rfl⟩
  | addCovMat m =>
    simp only [Template.apply]
    rcases addCovMat_cases t m with ⟨h, _⟩ | ⟨h, _⟩
    · rw [h]; exact SameFrame.refl t
    · rw [h]; exact (addCov_frame t m).1
  | addVariation h x y up down =>
    simp only [Template.apply]
    rcases addVariation_cases t h x y up down with ⟨h, _⟩ | ⟨m, _, h⟩
    · rw [h]; exact SameFrame.refl t
    · rw [h]; exact (addCov_frame t m).1

theorem run_frame (t : Template) (ops : List TOp) : SameFrame t (t.run ops) := by
  induction ops generalizing t with
  | nil => exact SameFrame.refl t
  | cons o ops ih => exact (apply_frame t o).trans (ih _)

/-- general invariant rule for template histories -/
theorem run_inv (P : Template → Prop) (Q : TOp → Prop) (t : Template) (ops : List TOp)
    (h0 : P t) (hs : ∀ t o, P t → Q o → P (t.apply o).2) (hq : ∀ o ∈ ops, Q o) : P (t.run ops) := by
  induction ops generalizing t with
  | nil => exact h0
  | cons o ops ih =>
    exact ih _ (hs t o h0 (hq o (by simp))) (fun o' ho' => hq o' (by simp [ho']))

end

end TF
