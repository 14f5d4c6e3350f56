import Verif.Lemmas.TmplLemmas
import Verif.Lemmas.HistLemmas
import Verif.Model.TmplRun
import Verif.Model.Sys
import Verif.Props.UtilityProps
import Verif.Props.HistProps

set_option linter.unusedSimpArgs false

/-!
# Properties of `Template1d` / `Template2d` (C19–C30)
-/

namespace TF.Props

open Classical Spec

noncomputable section

/-! ## C19, C20 -/

/-- **C19.** The fractions are the varied contents over the varied total, sum to one, are
non-negative when all varied contents are, and at `θ = 0` are the nominal shape. -/
theorem C19_fractions {n : ℕ} (t : Template) (c ε : Fin n → ℝ) (h : HasShape t c ε) (θ : Fin n → ℝ)
    (hT : ∑ j, c j * (1 + θ j * ε j) ≠ 0) :
    ∃ f : Fin n → ℝ, t.fractions (vec θ) = .ok (vec f) ∧
      (∀ i, f i = c i * (1 + θ i * ε i) / ∑ j, c j * (1 + θ j * ε j)) ∧
      ∑ i, f i = 1 ∧
      ((∀ i, 0 ≤ c i * (1 + θ i * ε i)) → ∀ i, 0 ≤ f i) ∧
      (θ = 0 → ∀ i, f i = c i / ∑ j, c j) := by
  refine ⟨frac c ε θ, fractions_vec h θ hT, fun i => rfl, sum_frac c ε θ hT, ?_, ?_⟩
  · intro hp i
    exact div_nonneg (hp i) (Finset.sum_nonneg fun j _ => hp j)
  · rintro rfl i
    simp [frac, varied]

/-- **C19**, wrong number of nuisance parameters: rejected unless one side has a single entry
(numpy broadcasting). -/
theorem C19_mismatch {n : ℕ} (t : Template) (c ε : Fin n → ℝ) (h : HasShape t c ε) (θ : Vec)
    (hl : θ.length ≠ n) (h1 : θ.length ≠ 1) (hn : n ≠ 1) :
    t.fractions θ = .error .valueError := by
  have hb : bop (· * ·) θ (vec ε) = .error .valueError := by
    unfold bop
    rw [if_neg (by rw [vec_length]; exact hl)]
    have hε : (vec ε).length ≠ 1 := by rw [vec_length]; exact hn
    revert hε
    generalize vec ε = v
    intro hε
    split
    · simp at h1
    · simp at hε
    · rfl
  simp only [Template.fractions, binFractions, h.rel, hb, bind, Except.bind]

/-- **C20.** The values of a template add up to its yield, for every yield and every nuisance
setting with non-vanishing varied total. -/
theorem C20_values_sum {n : ℕ} (t : Template) (c ε : Fin n → ℝ) (h : HasShape t c ε) (y : ℝ)
    (θ : Fin n → ℝ) (hp : HasParams t y θ) (hT : ∑ j, c j * (1 + θ j * ε j) ≠ 0) :
    ∃ v : Fin n → ℝ, t.values = .ok ⟨t.bins, vec v⟩ ∧ ∑ i, v i = y ∧
      (∀ i, v i = y * (c i * (1 + θ i * ε i) / ∑ j, c j * (1 + θ j * ε j))) ∧
      t.yieldParam = .fin y := by
  refine ⟨_, values_vec h hp hT, ?_, fun i => rfl, ?_⟩
  · rw [← Finset.mul_sum, sum_frac c ε θ hT, mul_one]
  · unfold Template.yieldParam; rw [hp]; rfl

/-! ## C21 -/

/-- the class of template that goes with a histogram -/
def newTemplate (name : String) (hid : ℕ) (h : Hist) : Except Err Template :=
  match h.cls with
  | .h1 => Template1d.new name hid h
  | .h2 => Template2d.new name hid h

theorem newTemplate_eq {n : ℕ} (name : String) (hid : ℕ) (h : Hist) (c s : Fin n → ℝ)
    (hh : HistIs h c s) : ∃ cls, (cls = TmplCls.t1 ↔ h.cls = .h1) ∧
    newTemplate name hid h = .ok
      { cls := cls, name := name, hist := hid, flatCounts := vec c, flatErrSq := vec s
        bins := h.shape, numBins := n, range := h.range
        params := .fin (∑ i, c i) :: List.replicate n 0
        cov := Mat.diagOf (vec fun i => statVar (s i))
        covMats := [Mat.diagOf (vec fun i => statVar (s i))]
        corr := Mat.diagOf (List.replicate n 1), invCorr := Mat.diagOf (List.replicate n 1)
        relErr := vec fun i => relOf (statVar (s i)) (c i) } := by
  have hrel : relErrs (Mat.diagOf (vec fun i => statVar (s i))) (vec c) =
      vec fun i => relOf (statVar (s i)) (c i) := by
    rw [relErrs_vec (isReal_diagOf _) (by intro i; simpa using (statVar_pos (hh.nonneg i)).le)]
    simp
  unfold newTemplate
  rcases hc : h.cls with _ | _
  · have hnb : h.numBins = [n] := by
      rcases hh.dims with h1 | h1
      · exact h1
      · rw [hc] at h1; simp at h1
    refine ⟨.t1, by simp, ?_⟩
    simp only [Template1d.new, hc, hnb, List.getD_cons_zero, Template.build, hh.counts, hh.errSq,
      vec_length, and_self, if_true, initParams, npSum, vec_sum, statErrSq_vec, hrel]
  · refine ⟨.t2, by simp, ?_⟩
    simp only [Template2d.new, hc, hh.numBins, Template.build, hh.counts, hh.errSq,
      vec_length, and_self, if_true, initParams, npSum, vec_sum, statErrSq_vec, hrel]

/-- the fields of a fresh template -/
structure FreshIs (t : Template) (h : Hist) {n : ℕ} (c s : Fin n → ℝ) : Prop where
  cls : t.cls = .t1 ↔ h.cls = .h1
  range : t.range = h.range
  flatCounts : t.flatCounts = vec c
  bins : t.bins = h.shape
  numBins : t.numBins = n
  params : t.params = .fin (∑ i, c i) :: List.replicate n 0
  cov : t.cov = Mat.diagOf (vec fun i => statVar (s i))
  covMats : t.covMats = [Mat.diagOf (vec fun i => statVar (s i))]
  corr : t.corr = Mat.diagOf (List.replicate n 1)
  invCorr : t.invCorr = Mat.diagOf (List.replicate n 1)
  relErr : t.relErr = vec fun i => relOf (statVar (s i)) (c i)

theorem newTemplate_fresh {n : ℕ} (name : String) (hid : ℕ) (h : Hist) (c s : Fin n → ℝ)
    (hh : HistIs h c s) : ∃ t, newTemplate name hid h = .ok t ∧ FreshIs t h c s := by
  obtain ⟨cls, hc, ht⟩ := newTemplate_eq name hid h c s hh
  exact ⟨_, ht, hc, rfl, rfl, rfl, rfl, rfl, rfl, rfl, rfl, rfl, rfl⟩

theorem replicate_zero_vec (n : ℕ) : List.replicate n (0 : Fl) = vec (fun _ : Fin n => (0 : ℝ)) := by
  unfold vec
  rw [List.ofFn_const]; rfl

theorem replicate_one_vec (n : ℕ) : List.replicate n (1 : Fl) = vec (fun _ : Fin n => (1 : ℝ)) := by
  unfold vec
  rw [List.ofFn_const]; rfl

/-- **C21.** A fresh template (1-d or 2-d) reproduces its histogram: values are the bin contents,
the yield is the total, nuisance parameters vanish; the error of a non-empty bin is the
statistical error (with the documented floor `1e-7` if that is zero) and zero in an empty bin. -/
theorem C21_fresh {n : ℕ} (name : String) (hid : ℕ) (h : Hist) (c s : Fin n → ℝ) (hh : HistIs h c s)
    (htot : ∑ i, c i ≠ 0) :
    ∃ (t : Template) (v e : NdArr), newTemplate name hid h = .ok t ∧ t.values = .ok v ∧
      t.errors = .ok e ∧ v.data = h.counts.data ∧ v.shape = h.shape ∧ e.shape = h.shape ∧
      t.yieldParam = npSum h.counts.data ∧ t.nuiParams = List.replicate n 0 ∧ t.numBins = n ∧
      ∀ i : Fin n, e.data[(i : ℕ)]? = some (.fin
        (if c i = 0 then 0 else if s i = 0 then 1e-7 else Real.sqrt (s i))) := by
  obtain ⟨t, ht, hf⟩ := newTemplate_fresh name hid h c s hh
  have hs : HasShape t c (fun i => relOf (statVar (s i)) (c i)) :=
    ⟨hf.numBins, hf.flatCounts, hf.relErr, by rw [hf.bins]; exact hh.shape⟩
  have hp : HasParams t (∑ i, c i) (fun _ : Fin n => (0:ℝ)) := by
    unfold HasParams; rw [hf.params, replicate_zero_vec]
  refine ⟨t, ⟨h.shape, vec c⟩, ⟨h.shape, vec fun i => relOf (statVar (s i)) (c i) * c i⟩, ht, ?_, ?_,
    hh.counts.symm, rfl, rfl, ?_, ?_, hf.numBins, ?_⟩
  · rw [values_vec hs hp (by simpa [varied] using htot), hf.bins]
    congr 3
    funext i; simp [frac, varied]; field_simp
  · rw [errors_vec hs hp (by simpa [varied] using htot), hf.bins]
    congr 3
    funext i; congr 1; simp [frac, varied]; field_simp
  · rw [hh.counts, npSum, vec_sum, Template.yieldParam, hf.params]; rfl
  · rw [Template.nuiParams, hf.params]; rfl
  · intro i
    rw [vec_getElem?]
    congr 2
    unfold relOf statVar
    split
    · rename_i h0; rw [h0]; ring
    · rename_i h0
      split
      · rw [div_mul_cancel₀ _ h0, show (1e-14 : ℝ) = (1e-7) ^ 2 by norm_num,
          Real.sqrt_sq (by norm_num)]
      · rw [div_mul_cancel₀ _ h0]

/-- a concrete two-bin histogram: contents 3, 0, squared errors 5, 0 -/
def exHistA : Hist := ⟨.h1, ⟨[2], vec ![3, 0]⟩, ⟨[2], vec ![5, 0]⟩, [⟨true, [0, 1, 2]⟩], [2], [2],
  .d1 .tuple 0 2, false⟩

theorem exHistA_is : HistIs exHistA (![3, 0] : Fin 2 → ℝ) ![5, 0] :=
  ⟨rfl, rfl, by intro i; fin_cases i <;> simp, rfl, rfl, Or.inl rfl⟩

/-- non-vacuity of C21 (and of C19, C20: the fresh template has shape and parameters) -/
example : ∃ t, newTemplate "a" 0 exHistA = .ok t ∧
    HasShape t (![3, 0] : Fin 2 → ℝ) (fun i => relOf (statVar (![5, 0] i)) (![3, 0] i)) ∧
    HasParams t 3 (fun _ : Fin 2 => (0 : ℝ)) := by
  obtain ⟨cls, _, ht⟩ := newTemplate_eq "a" 0 exHistA _ _ exHistA_is
  refine ⟨_, ht, ⟨rfl, rfl, rfl, rfl⟩, ?_⟩
  show _ :: _ = _
  rw [replicate_zero_vec]; simp

/-! ## C22 -/

theorem vec_map_const {n : ℕ} (f : Fin n → ℝ) (g : Fl → Fl) (x : Fl) (h : ∀ i, g (.fin (f i)) = x) :
    (vec f).map g = List.replicate n x := by
  unfold vec
  rw [List.map_ofFn, ← List.ofFn_const]
  congr 1; funext i; exact h i

/-- **C22 is false of the code:** every value (and error) of a template built from an empty
histogram is NaN, because the fractions are `0 / 0`. -/
theorem C22_refuted {n : ℕ} (name : String) (hid : ℕ) (h : Hist)
    (hh : HistIs h (fun _ : Fin n => (0 : ℝ)) (fun _ => 0)) :
    ∃ (t : Template) (v e : NdArr), newTemplate name hid h = .ok t ∧ t.values = .ok v ∧
      t.errors = .ok e ∧ v.data = List.replicate n Fl.nan ∧ e.data = List.replicate n Fl.nan := by
  obtain ⟨t, ht, hf⟩ := newTemplate_fresh name hid h _ _ hh
  have hv : ∀ t : Template, t.flatCounts = vec (fun _ : Fin n => (0:ℝ)) →
      t.relErr = vec (fun _ : Fin n => (1e-7:ℝ)) → t.params.tail = vec (fun _ : Fin n => (0:ℝ)) →
      t.bins.prod = n → t.values = .ok ⟨t.bins, List.replicate n .nan⟩ := by
    intro t h1 h2 h3 h4
    have e1 := bop_vec (fun _ : Fin n => (0:ℝ)) (fun _ : Fin n => (1e-7:ℝ)) (· * ·) (fun _ => 0)
      (fun i => by simp)
    have e2 := map_vec (fun _ : Fin n => (0:ℝ)) ((1 : Fl) + ·) (fun _ => 1) (fun i => by
      rw [Fl.one_def, Fl.fin_add]; simp)
    have e3 := bop_vec (fun _ : Fin n => (0:ℝ)) (fun _ : Fin n => (1:ℝ)) (· * ·) (fun _ => 0)
      (fun i => by simp)
    have e4 := vec_map_const (fun _ : Fin n => (0:ℝ)) (· / npSum (vec fun _ : Fin n => (0:ℝ))) .nan
      (fun i => by rw [npSum, vec_sum]; simp [Fl.fin_div_zero])
    have hr : reshape (List.replicate n Fl.nan) t.bins = .ok ⟨t.bins, List.replicate n Fl.nan⟩ := by
      simp [reshape, h4]
    simp only [Template.values, Template.fractions, binFractions, Template.nuiParams, h1, h2, h3,
      e1, e2, e3, e4, hr, bind, Except.bind, pure, Except.pure, NdArr.map]
    simp
  have hrel : (fun i : Fin n => relOf (statVar 0) 0) = fun _ => (1e-7 : ℝ) := by
    funext i; simp [relOf]
  have hval := hv t hf.flatCounts (by rw [hf.relErr, hrel]) (by rw [hf.params]; exact replicate_zero_vec n)
    (by rw [hf.bins]; exact hh.shape)
  rw [hf.bins] at hval
  refine ⟨t, _, ⟨h.shape, List.replicate n .nan⟩, ht, hval, ?_, rfl, rfl⟩
  unfold Template.errors
  rw [hval, hf.relErr, hf.bins]
  simp only [hrel, reshape, vec_length, hh.shape, if_true, bind, Except.bind, pure, Except.pure]
  congr 2
  unfold vec
  rw [List.ofFn_const, List.zipWith_replicate]
  simp

/-- **C22 (partial).** What does hold: an empty template has yield zero and vanishing nuisance
parameters. (Missing: values and errors are NaN instead of zero, see `C22_refuted`.) -/
theorem C22_params_partial {n : ℕ} (name : String) (hid : ℕ) (h : Hist)
    (hh : HistIs h (fun _ : Fin n => (0 : ℝ)) (fun _ => 0)) :
    ∃ t, newTemplate name hid h = .ok t ∧ t.yieldParam = 0 ∧ t.nuiParams = List.replicate n 0 := by
  obtain ⟨cls, _, ht⟩ := newTemplate_eq name hid h _ _ hh
  exact ⟨_, ht, by simp [Template.yieldParam]; rfl, rfl⟩

/-- non-vacuity of C22: an empty histogram as produced by the constructor -/
example : HistIs (Hist.blank .h1 [⟨true, [0, 1, 2]⟩] [2] (.d1 .tuple 0 2))
    (fun _ : Fin 2 => (0 : ℝ)) (fun _ => 0) :=
  ⟨by rw [← replicate_zero_vec]; rfl, by rw [← replicate_zero_vec]; rfl, by simp, rfl, rfl, Or.inl rfl⟩

end

end TF.Props
