import Verif.Lemmas.TmplCovLemmas

set_option linter.unusedSimpArgs false

/-!
# Properties of `Template1d` / `Template2d` (C23–C30)

Histories of a template are lists of calls (`TOp`); `t.run ops` is the state after them, calls
that raised included.
-/

namespace TF.Props

open Classical Spec

noncomputable section

/-! ## C23 -/

/-- **C23**, first half: after any history of calls (also rejected ones) the covariance matrix is the sum
of all matrices listed in `cov_mats`, the first of which is the statistical one. -/
theorem C23_cov_is_sum (name : String) (hid : ℕ) (h : Hist) (t0 : Template)
    (h0 : newTemplate name hid h = .ok t0) (ops : List TOp) :
    (t0.run ops).numBins = h.counts.data.length ∧
    (t0.run ops).cov.rows = (t0.run ops).numBins ∧ (t0.run ops).cov.cols = (t0.run ops).numBins ∧
    (∀ i < (t0.run ops).numBins, ∀ j < (t0.run ops).numBins,
      (t0.run ops).cov.e i j = ((t0.run ops).covMats.map fun M => M.e i j).sum) ∧
    ∃ M0, (t0.run ops).covMats.head? = some M0 ∧
      ∀ i v, h.errSq.data[i]? = some v → ∀ j, M0.e i j =
        if i = j then (if v.beq 0 then Fl.fin (1e-14) else v) else 0 := by
  obtain ⟨h1, h2, -, h4, -⟩ := newTemplate_covSum h0
  have hinv := run_inv (fun t => CovSum t ∧ t.covMats.head? = some (Mat.diagOf (statErrSq h.errSq.data)))
    (fun _ => True) t0 ops ⟨h1, h2⟩
    (fun t o ⟨a, b⟩ _ => ⟨covSum_apply a o, covMats_head_apply b o a⟩) (fun _ _ => trivial)
  obtain ⟨hs, hh⟩ := hinv
  have hf := run_frame t0 ops
  refine ⟨?_, hs.rows, hs.cols, hs.sum, _, hh, ?_⟩
  · rw [← h4, h1.len, hf.numBins]
  · intro i v hv j
    simp only [Mat.diagOf, statErrSq, List.getD_eq_getElem?_getD, List.getElem?_map, hv, Option.map_some,
      Option.getD_some]

/-- no call of the history failed in the matrix inversion -/
def NoInversionFailure : Template → List TOp → Prop
  | _, [] => True
  | t, o :: ops => (t.apply o).1 ≠ .error .linAlgError ∧ NoInversionFailure (t.apply o).2 ops

/-- **C23**, second half: the relative errors are the square root of the covariance diagonal over
the bin content, `1e-7` in empty bins. -/
theorem C23_relative_errors (name : String) (hid : ℕ) (h : Hist) (t0 : Template)
    (h0 : newTemplate name hid h = .ok t0) (ops : List TOp) (hok : NoInversionFailure t0 ops)
    (i : ℕ) (c : Fl) (hc : h.counts.data[i]? = some c) :
    (t0.run ops).relErr[i]? =
      some (if c.beq 0 then Fl.fin (1e-7) else Fl.sqrt ((t0.run ops).cov.e i i) / c) := by
  obtain ⟨h1, h2, h3, h4, -⟩ := newTemplate_covSum h0
  have key : ∀ (ops : List TOp) (t : Template), CovSum t → t.relErr = relErrs t.cov t.flatCounts →
      NoInversionFailure t ops → (t.run ops).relErr = relErrs (t.run ops).cov (t.run ops).flatCounts ∧
        CovSum (t.run ops) := by
    intro ops
    induction ops with
    | nil => intro t a b _; exact ⟨b, a⟩
    | cons o ops ih =>
      intro t a b hn
      exact ih _ (covSum_apply a o) (relErr_apply a b o hn.1) hn.2
  obtain ⟨hr, hs⟩ := key ops t0 h1 h3 hok
  have hf := run_frame t0 ops
  have hi : i < h.counts.data.length := (List.getElem?_eq_some_iff.mp hc).1
  have hn : (t0.run ops).numBins = h.counts.data.length := by rw [hf.numBins, ← h1.len, h4]
  rw [hr, relErrs, hf.flatCounts, h4]
  have hd : (t0.run ops).cov.diag[i]? = some ((t0.run ops).cov.e i i) := by
    unfold Mat.diag
    rw [List.getElem?_map, List.getElem?_range (by rw [hs.rows, hn]; exact hi)]; rfl
  rw [List.getElem?_zipWith, hd, hc]

/-! ## C24 -/

/-- **C24.** Whatever systematic variations (with finite weights) and symmetric positive
semi-definite covariance matrices are added, in any order and mixed with any other calls: the
inversion never fails, the total covariance `C` is positive definite, the correlation matrix `R`
is `C` normalised to unit diagonal and `inv_corr_mat` is its two-sided (positive definite) inverse. -/
theorem C24_correlation_invertible {n : ℕ} (name : String) (hid : ℕ) (h : Hist) (c s : Fin n → ℝ)
    (hh : HistIs h c s) (t0 : Template) (h0 : newTemplate name hid h = .ok t0) (ops : List TOp)
    (hgood : ∀ o ∈ ops, GoodOp n o) :
    NoInversionFailure t0 ops ∧
    ∃ C R S : Matrix (Fin n) (Fin n) ℝ,
      IsReal (t0.run ops).cov C ∧ IsReal (t0.run ops).corr R ∧ IsReal (t0.run ops).invCorr S ∧
      C.PosDef ∧ C.IsSymm ∧ (∀ i, R i i = 1) ∧
      (∀ i j, R i j = C i j / (Real.sqrt (C i i) * Real.sqrt (C j j))) ∧
      R * S = 1 ∧ S * R = 1 ∧ S.PosDef := by
  obtain ⟨t, ht, hf⟩ := newTemplate_fresh name hid h c s hh
  rw [ht] at h0
  have := Except.ok.inj h0
  subst this
  have hi := fresh_inv hh hf
  constructor
  · have key : ∀ (ops : List TOp) (t : Template) (C : Matrix (Fin n) (Fin n) ℝ), CovInv t c C →
        (∀ o ∈ ops, GoodOp n o) → NoInversionFailure t ops := by
      intro ops
      induction ops with
      | nil => intros; trivial
      | cons o ops ih =>
        intro t C hC hg
        obtain ⟨h1, C', h2⟩ := apply_inv hC o (hg o (by simp))
        exact ⟨h1, ih _ C' h2 fun o' ho' => hg o' (by simp [ho'])⟩
    exact key ops t _ hi hgood
  · obtain ⟨C, hC⟩ := run_covInv hi ops hgood
    have hd : ∀ i, 0 < C i i := fun i => hC.pos.diag_pos
    have hR := corrOf_posDef hC.pos
    have hu : IsUnit (corrOf C).det := (Matrix.isUnit_iff_isUnit_det _).mp (Matrix.PosDef.isUnit hR)
    refine ⟨C, corrOf C, (corrOf C)⁻¹, hC.cov, hC.corr, hC.inv, hC.pos, ?_, corrOf_diag_one hd, ?_,
      Matrix.mul_nonsing_inv _ hu, Matrix.nonsing_inv_mul _ hu, hR.inv⟩
    · have := hC.pos.isHermitian
      rw [Matrix.IsHermitian, Matrix.conjTranspose_eq_transpose_of_trivial] at this
      exact this
    · intro i j
      simp [corrOf, (hd i).ne', (hd j).ne']

/-- **C24**, success: on a 1-d template in any such state a symmetric positive semi-definite matrix
of the right shape is accepted. -/
theorem C24_psd_accepted {n : ℕ} (name : String) (hid : ℕ) (h : Hist) (c s : Fin n → ℝ)
    (hh : HistIs h c s) (h1 : h.cls = .h1) (t0 : Template) (h0 : newTemplate name hid h = .ok t0)
    (ops : List TOp) (hgood : ∀ o ∈ ops, GoodOp n o) (m : Mat) (A : Matrix (Fin n) (Fin n) ℝ)
    (hm : IsReal m A) (hA : A.PosSemidef) : ((t0.run ops).addCovMat m).1 = .ok () := by
  obtain ⟨t, ht, hf⟩ := newTemplate_fresh name hid h c s hh
  rw [ht] at h0
  have := Except.ok.inj h0
  subst this
  obtain ⟨C, hC⟩ := run_covInv (fresh_inv hh hf) ops hgood
  have hcls : (t.run ops).cls = .t1 := by rw [(run_frame t ops).cls]; exact hf.cls.mpr h1
  have hs : m.rows = (t.run ops).numBins ∧ m.cols = (t.run ops).numBins := by
    rw [hC.bins]; exact ⟨hm.1, hm.2.1⟩
  simp only [Template.addCovMat, hcls, Template1d.addCovMat, hs, and_self, not_true, if_false]
  exact (addCov_inv hC hm hA).1

/-- non-vacuity of C23/C24: a template that received the matrix `[[1, 1], [1, 1]]` -/
example : GoodOp 2 (.addCovMat (Mat.outer (vec ![1, 1]) (vec ![(1:ℝ), 1]))) := by
  intro _ _
  refine ⟨_, isReal_outer _ _, ?_⟩
  have := Matrix.posSemidef_vecMulVec_self_star (R := ℝ) (![1, 1] : Fin 2 → ℝ)
  simpa using this

/-! ## C25 -/

/-- two bins with content 1, squared error 1 -/
def exHistB : Hist := ⟨.h1, ⟨[2], vec ![1, 1]⟩, ⟨[2], vec ![1, 1]⟩, [⟨true, [0, 1, 3]⟩], [2], [2],
  .d1 .tuple 0 3, false⟩

theorem exHistB_is : HistIs exHistB (![1, 1] : Fin 2 → ℝ) ![1, 1] :=
  ⟨rfl, rfl, by intro i; fin_cases i <;> simp, rfl, rfl, Or.inl rfl⟩

/-- **C25 is false of the code:** `add_cov_mat` with `[[0, 1], [1, 0]]` on a two-bin template with
unit variances raises `LinAlgError` in the inversion, after the matrix was already added: the list
of covariance matrices and the total covariance have changed, while the inverse correlation and the
relative errors still belong to the old covariance. -/
theorem C25_refuted : ∃ (t : Template) (m : Mat),
    newTemplate "t" 0 exHistB = .ok t ∧ m.rows = t.numBins ∧ m.cols = t.numBins ∧
    (t.addCovMat m).1 = .error .linAlgError ∧
    (t.addCovMat m).2.covMats.length = t.covMats.length + 1 ∧
    t.cov.e 0 1 = 0 ∧ (t.addCovMat m).2.cov.e 0 1 = .fin 1 ∧
    (t.addCovMat m).2.invCorr = t.invCorr ∧ (t.addCovMat m).2.relErr = t.relErr := by
  obtain ⟨t, ht, hf⟩ := newTemplate_fresh "t" 0 exHistB _ _ exHistB_is
  set A : Matrix (Fin 2) (Fin 2) ℝ := !![0, 1; 1, 0] with hA
  have hcls : t.cls = .t1 := hf.cls.mpr rfl
  have hm := isReal_ofMatrix A
  have hsv : (fun i : Fin 2 => statVar ((![1, 1] : Fin 2 → ℝ) i)) = fun _ => 1 := by
    funext i; fin_cases i <;> simp [statVar]
  have hcov : IsReal t.cov (1 : Matrix (Fin 2) (Fin 2) ℝ) := by
    rw [hf.cov, hsv, ← Matrix.diagonal_one]; exact isReal_diagOf _
  have hadd := hcov.add hm
  have hone : ∀ i j, (1 + A) i j = 1 := by
    intro i j; fin_cases i <;> fin_cases j <;> simp [hA]
  have hcorr : IsReal (cov2corr (t.cov.add (Mat.ofMatrix A))) (corrOf (1 + A)) :=
    cov2corr_isReal hadd (fun i => by rw [hone]; norm_num) (fun i j h => by
      rw [hone, hone] at h; norm_num at h)
  have hdet : (corrOf (1 + A)).det = 0 := by
    rw [Matrix.det_fin_two]
    simp [corrOf, hone]
  have hinv := npInv_singular hcorr hdet
  have hr : (Mat.ofMatrix A).rows = t.cov.rows ∧ (Mat.ofMatrix A).cols = t.cov.cols := by
    rw [hcov.1, hcov.2.1]; exact ⟨rfl, rfl⟩
  have hn : t.numBins = 2 := hf.numBins
  have e : t.addCovMat (Mat.ofMatrix A) = (.error .linAlgError,
      { t with covMats := t.covMats ++ [Mat.ofMatrix A], cov := t.cov.add (Mat.ofMatrix A)
               corr := cov2corr (t.cov.add (Mat.ofMatrix A)) }) := by
    have h2 : ¬¬((Mat.ofMatrix A).rows = t.numBins ∧ (Mat.ofMatrix A).cols = t.numBins) := by
      rw [hn]; simp [Mat.ofMatrix]
    simp only [Template.addCovMat, hcls, Template1d.addCovMat]
    rw [if_neg h2]
    simp only [Template.addCov, hr, and_self, if_true, hinv, hcls]
  refine ⟨t, Mat.ofMatrix A, ht, hn.symm, hn.symm, ?_⟩
  rw [e]
  refine ⟨rfl, by simp, ?_, ?_, rfl, rfl⟩
  · have := hcov.2.2 0 1; rw [Fl.zero_def]; simpa using this
  · have := hadd.2.2 0 1
    rw [hone] at this; exact this

/-- **C25 (partial).** A matrix rejected for any other reason than a failing inversion (wrong
shape; class without `add_cov_mat`) leaves the template unchanged, on every template state;
and the parameters are never touched. Missing: `LinAlgError`, see `C25_refuted`. -/
theorem C25_rejected_unchanged_partial (name : String) (hid : ℕ) (h : Hist) (t0 : Template)
    (_ : newTemplate name hid h = .ok t0) (ops : List TOp) (m : Mat) (e : Err)
    (he : ((t0.run ops).addCovMat m).1 = .error e) :
    (e ≠ .linAlgError → ((t0.run ops).addCovMat m).2 = t0.run ops) ∧
    ((t0.run ops).addCovMat m).2.params = (t0.run ops).params := by
  have hs := (run_inv CovSum (fun _ => True) t0 ops (newTemplate_covSum ‹_›).1
    (fun t o a _ => covSum_apply a o) (fun _ _ => trivial))
  rcases addCovMat_cases (t0.run ops) m with ⟨h1, _⟩ | ⟨h1, hr, hc⟩
  · exact ⟨fun _ => h1, by rw [h1]⟩
  · refine ⟨fun hne => ?_, by rw [h1]; exact (addCov_frame _ m).2⟩
    rw [h1] at he
    exfalso
    unfold Template.addCov at he
    have h2 : m.rows = (t0.run ops).cov.rows ∧ m.cols = (t0.run ops).cov.cols := by
      rw [hs.rows, hs.cols]; exact ⟨hr, hc⟩
    simp only [h2, and_self, if_true] at he
    cases hi : npInv (cov2corr ((t0.run ops).cov.add m)) with
    | ok inv => rw [hi] at he; simp at he
    | error e2 =>
      rw [hi] at he
      simp at he
      subst he
      unfold npInv at hi
      split at hi
      · simp at hi; exact hne hi.symm
      · split at hi
        · split at hi
          · simp at hi; exact hne hi.symm
          · simp at hi
        · simp at hi

/-- non-vacuity of C25: a 3×3 matrix on a two-bin template is rejected -/
example : ∃ t, newTemplate "t" 0 exHistB = .ok t ∧
    ((t.run []).addCovMat (Mat.zeros 3 3)).1 = .error .valueError := by
  obtain ⟨t, ht, hf⟩ := newTemplate_fresh "t" 0 exHistB _ _ exHistB_is
  refine ⟨t, ht, ?_⟩
  have hcls : t.cls = .t1 := hf.cls.mpr rfl
  simp [Template.run, Template.addCovMat, hcls, Template1d.addCovMat, hf.numBins, Mat.zeros]

/-! ## C26 -/

/-- the number of parameters of a template never changes -/
theorem params_length_apply (t : Template) (o : TOp) (h : t.params.length = t.numBins + 1) :
    (t.apply o).2.params.length = (t.apply o).2.numBins + 1 := by
  cases o with
  | setYield v =>
    cases v with
    | float r => simp [Template.apply, Template.setYield, keepOnError, h]
    | int i => simp [Template.apply, Template.setYield, keepOnError, h]
    | other => simpa [Template.apply, Template.setYield, keepOnError] using h
    | arr v => match v with
      | [] => simpa [Template.apply, Template.setYield, keepOnError] using h
      | [r] => simp [Template.apply, Template.setYield, keepOnError, h]
      | _ :: _ :: _ => simpa [Template.apply, Template.setYield, keepOnError] using h
  | setNui v =>
    simp only [Template.apply, Template.setNui]
    split
    · exact h
    · rename_i hv; simp [keepOnError, not_not.mp hv]
  | setParams v =>
    simp only [Template.apply, Template.setParams]
    split
    · exact h
    · rename_i hv; rw [not_not] at hv; simp [keepOnError, hv, h]
  | reset hh => simp [Template.apply, Template.reset, initParams]
  | addCovMat m =>
    simp only [Template.apply]
    rcases addCovMat_cases t m with ⟨he, _⟩ | ⟨he, _⟩
    · rw [he]; exact h
    · rw [he, (addCov_frame t m).2, (addCov_frame t m).1.numBins]; exact h
  | addVariation hh x y up down =>
    simp only [Template.apply]
    rcases addVariation_cases t hh x y up down with ⟨he, _⟩ | ⟨m, _, he⟩
    · rw [he]; exact h
    · rw [he, (addCov_frame t m).2, (addCov_frame t m).1.numBins]; exact h

/-- **C26.** In every state `t` of a template, reached by any history of calls: the number of
parameters is `num_bins + 1`; a numeric yield changes exactly the yield; nuisance parameters of
the right length change exactly the nuisance parameters; both can be read back; everything else
(wrong length, wrong type) is rejected and changes nothing. -/
theorem C26_setters (name : String) (hid : ℕ) (h : Hist) (t0 : Template)
    (h0 : newTemplate name hid h = .ok t0) (ops : List TOp) (t : Template) (ht : t = t0.run ops) :
    t.params.length = t.numBins + 1 ∧ t.numBins = t0.numBins ∧ t.nuiParams.length = t.numBins ∧
    -- yields
    (∀ r : Fl, ∃ t', t.apply (.setYield (.float r)) = (.ok (), t') ∧ t'.yieldParam = r ∧
      t'.nuiParams = t.nuiParams ∧ t' = { t with params := r :: t.nuiParams }) ∧
    (∀ i : ℤ, ∃ t', t.apply (.setYield (.int i)) = (.ok (), t') ∧ t'.yieldParam = .fin i ∧
      t'.nuiParams = t.nuiParams ∧ t' = { t with params := .fin (i : ℝ) :: t.nuiParams }) ∧
    (∀ r : Fl, ∃ t', t.apply (.setYield (.arr [r])) = (.ok (), t') ∧ t'.yieldParam = r ∧
      t'.nuiParams = t.nuiParams ∧ t' = { t with params := r :: t.nuiParams }) ∧
    (∀ v : Vec, 2 ≤ v.length → t.apply (.setYield (.arr v)) = (.error .runtimeError, t)) ∧
    t.apply (.setYield (.arr [])) = (.error .valueError, t) ∧
    t.apply (.setYield .other) = (.error .runtimeError, t) ∧
    -- nuisance parameters
    (∀ v : Vec, v.length = t.numBins → ∃ t', t.apply (.setNui v) = (.ok (), t') ∧ t'.nuiParams = v ∧
      t'.yieldParam = t.yieldParam ∧ t' = { t with params := t.yieldParam :: v }) ∧
    (∀ v : Vec, v.length ≠ t.numBins → t.apply (.setNui v) = (.error .runtimeError, t)) ∧
    -- all parameters
    (∀ v : Vec, v.length = t.numBins + 1 → t.apply (.setParams v) = (.ok (), { t with params := v })) ∧
    (∀ v : Vec, v.length ≠ t.numBins + 1 → t.apply (.setParams v) = (.error .runtimeError, t)) := by
  have hl : t.params.length = t.numBins + 1 := by
    rw [ht]
    exact run_inv (fun t => t.params.length = t.numBins + 1) (fun _ => True) t0 ops
      (newTemplate_covSum h0).2.2.2.2.1 (fun t o a _ => params_length_apply t o a) (fun _ _ => trivial)
  refine ⟨hl, by rw [ht]; exact (run_frame t0 ops).numBins, by simp [Template.nuiParams, hl],
    fun r => ⟨_, rfl, rfl, rfl, rfl⟩, fun i => ⟨_, rfl, rfl, rfl, rfl⟩, fun r => ⟨_, rfl, rfl, rfl, rfl⟩,
    ?_, rfl, rfl, ?_, ?_, ?_, ?_⟩
  · intro v hv
    match v with
    | [] => simp at hv
    | [r] => simp at hv
    | _ :: _ :: _ => rfl
  · intro v hv
    refine ⟨{ t with params := t.params.headD 0 :: v }, ?_, rfl, rfl, rfl⟩
    simp [Template.apply, Template.setNui, hv, keepOnError]
  · intro v hv
    simp [Template.apply, Template.setNui, hv, keepOnError]
  · intro v hv
    simp [Template.apply, Template.setParams, hv, hl, keepOnError]
  · intro v hv
    simp [Template.apply, Template.setParams, hv, hl, keepOnError]

/-! ## C27 -/

/-- **C27**, single template: after any history `reset()` restores the initial parameters (yield =
histogram total, zero nuisance parameters) and keeps all covariance information. -/
theorem C27_reset (name : String) (hid : ℕ) (h : Hist) (t0 : Template)
    (h0 : newTemplate name hid h = .ok t0) (ops : List TOp) :
    ((t0.run ops).reset h).params = t0.params ∧
    ((t0.run ops).reset h).yieldParam = npSum h.counts.data ∧
    ((t0.run ops).reset h).nuiParams = List.replicate t0.numBins 0 ∧
    (t0.run ops).reset h = { t0.run ops with params := t0.params } := by
  have hp := (newTemplate_covSum h0).2.2.2.2.2.2.2
  have hn := (run_frame t0 ops).numBins
  have key : ((t0.run ops).reset h).params = t0.params := by
    rw [hp]; unfold Template.reset; rw [hn]
  refine ⟨key, rfl, ?_, ?_⟩
  · unfold Template.nuiParams; rw [key, hp]; rfl
  · rw [← key]; rfl

/-- **C27**, values: after any history with usable systematics, `reset()` restores the original
values, i.e. the bin contents of the histogram. -/
theorem C27_reset_values {n : ℕ} (name : String) (hid : ℕ) (h : Hist) (c s : Fin n → ℝ)
    (hh : HistIs h c s) (htot : ∑ i, c i ≠ 0) (t0 : Template) (h0 : newTemplate name hid h = .ok t0)
    (ops : List TOp) (hgood : ∀ o ∈ ops, GoodOp n o) :
    ∃ v : NdArr, ((t0.run ops).reset h).values = .ok v ∧ v.data = h.counts.data ∧ v.shape = h.shape := by
  have hr := (C27_reset name hid h t0 h0 ops).2.2.2
  obtain ⟨t, ht, hf⟩ := newTemplate_fresh name hid h c s hh
  rw [ht] at h0
  have := Except.ok.inj h0
  subst this
  obtain ⟨C, hC⟩ := run_covInv (fresh_inv hh hf) ops hgood
  have hfr := run_frame t ops
  have hb : ((t.run ops).reset h).bins = h.shape := by rw [hr]; show (t.run ops).bins = _; rw [hfr.bins, hf.bins]
  have hs : HasShape ((t.run ops).reset h) c (fun i => relOf (C i i) (c i)) := by
    refine ⟨?_, ?_, ?_, by rw [hb]; exact hh.shape⟩
    · rw [hr]; exact hC.bins
    · rw [hr]; exact hC.counts
    · rw [hr]; exact hC.rel
  have hp : HasParams ((t.run ops).reset h) (∑ i, c i) (fun _ : Fin n => (0:ℝ)) := by
    unfold HasParams
    rw [hr]
    show t.params = _
    rw [hf.params, replicate_zero_vec]
  refine ⟨_, values_vec hs hp (by simpa [varied] using htot), ?_, hb⟩
  rw [hh.counts]
  show vec _ = vec _
  congr 1
  funext i; simp [frac, varied]; field_simp

/-! ### channels and multi-channel models -/

theorem reset_idem (t : Template) (h : Hist) : (t.reset h).reset h = t.reset h := rfl

theorem resetTmpls_spec (ts : List (String × ℕ)) : ∀ w : World,
    (w.resetTmpls ts).hists = w.hists ∧ (w.resetTmpls ts).chans = w.chans ∧
    ∀ i, (w.resetTmpls ts).tmpls i =
      if i ∈ ts.map (·.2) then (w.tmpls i).reset (w.hists (w.tmpls i).hist) else w.tmpls i := by
  induction ts with
  | nil => intro w; exact ⟨rfl, rfl, by simp [World.resetTmpls]⟩
  | cons p ts ih =>
    intro w
    obtain ⟨nm, tid⟩ := p
    obtain ⟨h1, h2, h3⟩ := ih (w.setTmpl tid ((w.tmpls tid).reset (w.hists (w.tmpls tid).hist)))
    refine ⟨h1, h2, ?_⟩
    intro i
    rw [World.resetTmpls, h3]
    by_cases hi : i = tid
    · subst hi
      simp [World.setTmpl, Template.reset]
    · simp [World.setTmpl, Function.update_of_ne hi, hi]

theorem resetChannels_spec (cs : List ℕ) : ∀ w : World,
    (w.resetChannels cs).hists = w.hists ∧ (w.resetChannels cs).chans = w.chans ∧
    ∀ i, (w.resetChannels cs).tmpls i =
      if ∃ c ∈ cs, i ∈ (w.chans c).templates.map (·.2)
      then (w.tmpls i).reset (w.hists (w.tmpls i).hist) else w.tmpls i := by
  induction cs with
  | nil => intro w; exact ⟨rfl, rfl, by simp [World.resetChannels]⟩
  | cons c cs ih =>
    intro w
    obtain ⟨h1, h2, h3⟩ := ih (w.resetChannel c)
    obtain ⟨g1, g2, g3⟩ := resetTmpls_spec (w.chans c).templates w
    refine ⟨h1.trans g1, h2.trans g2, ?_⟩
    intro i
    rw [World.resetChannels, h3]
    have g1' : (w.resetChannel c).hists = w.hists := g1
    have g2' : (w.resetChannel c).chans = w.chans := g2
    have g3' : (w.resetChannel c).tmpls i = _ := g3 i
    rw [g1', g2', g3']
    by_cases ha : i ∈ (w.chans c).templates.map (·.2)
    · have hb : ∃ c' ∈ c :: cs, i ∈ (w.chans c').templates.map (·.2) := ⟨c, by simp, ha⟩
      rw [if_pos ha, if_pos hb]
      split <;> rfl
    · rw [if_neg ha]
      by_cases hb : ∃ c' ∈ cs, i ∈ (w.chans c').templates.map (·.2)
      · obtain ⟨c', hc', hi⟩ := hb
        rw [if_pos ⟨c', hc', hi⟩, if_pos ⟨c', by simp [hc'], hi⟩]
      · rw [if_neg hb, if_neg]
        rintro ⟨c', hc', hi⟩
        rcases List.mem_cons.mp hc' with rfl | hc'
        · exact ha hi
        · exact hb ⟨c', hc', hi⟩

/-- **C27**, channel: `channel.reset()` resets exactly the templates of that channel, everything
else in the program state stays as it was. -/
theorem C27_channel_reset (w : World) (c : ℕ) :
    (∀ p tid, (p, tid) ∈ (w.chans c).templates → (w.resetChannel c).tmpls tid =
      { w.tmpls tid with params := npSum (w.hists (w.tmpls tid).hist).counts.data ::
                          List.replicate (w.tmpls tid).numBins 0 }) ∧
    (∀ tid, (∀ p, (p, tid) ∉ (w.chans c).templates) → (w.resetChannel c).tmpls tid = w.tmpls tid) ∧
    (w.resetChannel c).hists = w.hists ∧ (w.resetChannel c).chans = w.chans := by
  obtain ⟨h1, h2, h3⟩ := resetTmpls_spec (w.chans c).templates w
  refine ⟨?_, ?_, h1, h2⟩
  · intro p tid hp
    have hm : tid ∈ (w.chans c).templates.map (·.2) := List.mem_map.mpr ⟨_, hp, rfl⟩
    have := h3 tid
    rw [if_pos hm] at this
    exact this
  · intro tid hn
    have hm : tid ∉ (w.chans c).templates.map (·.2) := by
      intro hm
      obtain ⟨⟨p, t'⟩, hp, rfl⟩ := List.mem_map.mp hm
      exact hn p hp
    have := h3 tid
    rw [if_neg hm] at this
    exact this

/-- **C27**, model: `reset_parameters()` resets every template of every channel (also templates
shared between channels), everything else stays as it was. -/
theorem C27_model_reset (w : World) (m : Mct) :
    (∀ ch c p tid, (ch, c) ∈ m.channels → (p, tid) ∈ (w.chans c).templates →
      (m.resetParameters w).tmpls tid =
      { w.tmpls tid with params := npSum (w.hists (w.tmpls tid).hist).counts.data ::
                          List.replicate (w.tmpls tid).numBins 0 }) ∧
    (∀ tid, (∀ ch c p, (ch, c) ∈ m.channels → (p, tid) ∉ (w.chans c).templates) →
      (m.resetParameters w).tmpls tid = w.tmpls tid) ∧
    (m.resetParameters w).hists = w.hists ∧ (m.resetParameters w).chans = w.chans := by
  obtain ⟨h1, h2, h3⟩ := resetChannels_spec m.chanIds w
  refine ⟨?_, ?_, h1, h2⟩
  · intro ch c p tid hc hp
    have hm : ∃ c ∈ m.chanIds, tid ∈ (w.chans c).templates.map (·.2) :=
      ⟨c, List.mem_map.mpr ⟨_, hc, rfl⟩, List.mem_map.mpr ⟨_, hp, rfl⟩⟩
    have := h3 tid
    rw [if_pos hm] at this
    exact this
  · intro tid hn
    have hm : ¬ ∃ c ∈ m.chanIds, tid ∈ (w.chans c).templates.map (·.2) := by
      rintro ⟨c, hc, ht⟩
      obtain ⟨⟨ch, c'⟩, hc', rfl⟩ := List.mem_map.mp hc
      obtain ⟨⟨p, t'⟩, hp, rfl⟩ := List.mem_map.mp ht
      exact hn ch _ p hc' hp
    have := h3 tid
    rw [if_neg hm] at this
    exact this

/-! ## C28 -/

theorem accumulate_frame (h : Hist) (s s2 : Except Err NdArr) (b : Bool) :
    (h.accumulate s s2 b).2.numBins = h.numBins ∧ (h.accumulate s s2 b).2.edges = h.edges ∧
    (h.accumulate s s2 b).2.shape = h.shape ∧ (h.accumulate s s2 b).2.range = h.range ∧
    (h.accumulate s s2 b).2.cls = h.cls := by
  unfold Hist.accumulate
  split
  · exact ⟨rfl, rfl, rfl, rfl, rfl⟩
  · split
    · exact ⟨rfl, rfl, rfl, rfl, rfl⟩
    · dsimp only
      split
      · exact ⟨rfl, rfl, rfl, rfl, rfl⟩
      · split
        · exact ⟨rfl, rfl, rfl, rfl, rfl⟩
        · split <;> exact ⟨rfl, rfl, rfl, rfl, rfl⟩

theorem fill_frame (h : Hist) (x y : Vec) (w : Weights) :
    (h.fill x y w).2.numBins = h.numBins ∧ (h.fill x y w).2.edges = h.edges ∧
    (h.fill x y w).2.shape = h.shape ∧ (h.fill x y w).2.range = h.range ∧
    (h.fill x y w).2.cls = h.cls := by
  unfold Hist.fill
  split <;> exact accumulate_frame _ _ _ _

/-- **C28 is false of the code:** `reset()` reads the live histogram. Whenever events with
non-vanishing total weight in range are filled into the histogram after the template was built,
the yield after `reset()` differs from the initial one by exactly that weight. -/
theorem C28_refuted (name : String) (hid : ℕ) (h : Hist) (edges : List ℝ) (hg : Good1 h edges)
    (t0 : Template) (h0 : newTemplate name hid h = .ok t0)
    (x w : Vec) (W : Weights) (hW : Usable W x w) (hl : x.length = w.length) :
    (t0.reset (h.fill x [] W).2).yieldParam = t0.yieldParam + weightInRange edges x w := by
  have hy : t0.yieldParam = npSum h.counts.data := by
    unfold Template.yieldParam
    rw [(newTemplate_covSum h0).2.2.2.2.2.2.2]; rfl
  rw [hy]
  show npSum (h.fill x [] W).2.counts.data = _
  simp only [Hist.fill, hg.cls, fill1_eq hg hW hl, npSum]
  rw [sum_zipWith_add (by simp [hg.counts_len]), sum_weightIn edges hg.incr hg.two]

/-- non-vacuity of C28_refuted: one event in the first bin changes the yield from 2 to 3 -/
example : Good1 exHistB [0, 1, 3] ∧ Usable .none [.fin (1/2)] [1] ∧
    weightInRange [0, 1, 3] [.fin (1/2)] [1] = 1 := by
  refine ⟨⟨rfl, rfl, by simp, by norm_num, rfl, rfl, rfl, rfl⟩, Or.inl ⟨rfl, rfl⟩, ?_⟩
  have : ∃ i, InBin [0, 1, 3] i (.fin (1/2)) :=
    ⟨0, Or.inl ⟨0, 1, rfl, rfl, by norm_num, by norm_num⟩⟩
  simp only [weightInRange, List.zip_cons_cons, List.zip_nil_right, List.filter_cons, this, decide_true,
    if_true, List.filter_nil, List.map_cons, List.map_nil, List.sum_cons, List.sum_nil, add_zero]

/-- calls other than `reset()`, with the histogram argument in another state `g` of the same
object (fills change contents only) -/
def withHist (g : Hist → Hist) : TOp → TOp
  | .addVariation h x y up down => .addVariation (g h) x y up down
  | o => o

/-- **C28 (partial).** Apart from `reset()` the template is a snapshot: a fill changes no template
of the program, and any later history of calls without `reset()` gives the same template state
whether or not the histogram was filled in between. -/
theorem C28_snapshot_partial (s : Sys) (hid : ℕ) (x y : Vec) (W : Weights) (t : Template)
    (ops : List TOp) (hno : ∀ o ∈ ops, ∀ h, o ≠ .reset h) :
    (s.step (.fill hid x y W)).w.tmpls = s.w.tmpls ∧
    t.run (ops.map (withHist fun h => (h.fill x y W).2)) = t.run ops := by
  constructor
  · simp only [Sys.step]
    split <;> rfl
  · induction ops generalizing t with
    | nil => rfl
    | cons o ops ih =>
      have h1 : t.apply (withHist (fun h => (h.fill x y W).2) o) = t.apply o := by
        cases o with
        | addVariation h a b up down =>
          simp only [withHist, Template.apply, Template.addVariation, Template1d.addVariation,
            Template2d.addVariation, (fill_frame h x y W).1]
        | reset h => exact absurd rfl (hno _ (by simp) h)
        | _ => rfl
      simp only [Template.run, List.map_cons, List.foldl_cons, h1]
      exact ih _ (fun o ho => hno o (by simp [ho]))

/-! ## C29 -/

/-- The claim of C29 for one call: `add_variation(x, up, down)` appends the covariance of the
up/down histograms of `x` in the bins `edges`, i.e. the outer product of the signed shifts of the
weight sums `U`, `D` per bin with respect to the nominal contents `c`. -/
def UsesBins (t : Template) (h : Hist) (edges : List ℝ) (x u d : Vec) {n : ℕ} (c : Fin n → ℝ) : Prop :=
  ∀ U D : Fin n → ℝ, (∀ i : Fin n, weightIn edges i x u = .fin (U i)) →
    (∀ i : Fin n, weightIn edges i x d = .fin (D i)) →
    ∃ m, (t.addVariation h x [] (.array u) (.array d)).2.covMats = t.covMats ++ [m] ∧
      IsReal m (Matrix.vecMulVec (fun i => shift (c i) (U i) (D i)) (fun i => shift (c i) (U i) (D i)))

theorem hist1_new_uniform {n : ℕ} (hn : 1 ≤ n) {k : SeqKind} {lo hi : ℝ} (hlt : lo < hi) (x u : Vec)
    (hl : x.length = u.length) (U : Fin n → ℝ)
    (hU : ∀ i : Fin n, weightIn (linspace lo hi (n + 1)) i x u = .fin (U i)) :
    ∃ h', Hist1d.new (.int n) (some (.d1 k lo hi)) (some x) (.array u) = .ok h' ∧
      h'.counts.data = vec U := by
  have hb : ¬ ((n : ℤ) < 0) := by omega
  have hg : Good1 (Hist.blank .h1 [⟨true, linspace lo hi (n + 1)⟩] [n] (.d1 k lo hi))
      (linspace lo hi (n + 1)) :=
    blank_good1 (e := ⟨true, linspace lo hi (n + 1)⟩) (by simp [linspace_length]; omega)
      (linspace_pairwise hlt n hn) (by simp [linspace_length])
  have hf := fill1_eq hg (W := .array u) (data := x) (w := u) (Or.inr (Or.inr rfl)) hl
  simp only [Hist1d.new, Hist1d.init, uniform1, if_neg hb, Int.toNat_natCast, hf]
  refine ⟨_, rfl, ?_⟩
  simp only [Hist.blank, NdArr.zeros, linspace_length, Nat.add_sub_cancel]
  unfold vec
  apply List.ext_getElem?
  intro i
  by_cases hi : i < n
  · simp only [List.getElem?_zipWith, List.getElem?_map, List.getElem?_range hi, Option.map_some,
      List.getElem?_ofFn, hi, dif_pos]
    rw [List.getElem?_replicate]
    simp only [List.prod_cons, List.prod_nil, mul_one, hi, if_true]
    have := hU ⟨i, hi⟩
    simp only at this
    rw [this, zero_add]
  · rw [List.getElem?_eq_none (by simp; omega), List.getElem?_eq_none (by simp; omega)]

theorem addVariation_uniform {n : ℕ} (hn : 1 ≤ n) (t : Template) (h : Hist) (c : Fin n → ℝ)
    (hcls : t.cls = .t1) (hc : t.flatCounts = vec c) (hcov : t.cov.rows = n ∧ t.cov.cols = n)
    (hnb : h.numBins = [n]) (k : SeqKind) (lo hi : ℝ) (hlt : lo < hi) (hr : t.range = .d1 k lo hi)
    (x u d : Vec) (hu : x.length = u.length) (hd : x.length = d.length) :
    UsesBins t h (linspace lo hi (n + 1)) x u d c := by
  intro U D hU hD
  obtain ⟨h1, e1, f1⟩ := hist1_new_uniform hn (k := k) hlt x u hu U hU
  obtain ⟨h2, e2, f2⟩ := hist1_new_uniform hn (k := k) hlt x d hd D hD
  refine ⟨_, ?_, isReal_outer _ _⟩
  have hv : variationMat t h x (.array u) (.array d) = .ok (Mat.outer
      (vec fun i => shift (c i) (U i) (D i)) (vec fun i => shift (c i) (U i) (D i))) := by
    simp only [variationMat, hnb, List.getD_cons_zero, hr, e1, e2, bind, Except.bind, f1, f2, hc,
      sysCov_eq]
  simp only [Template.addVariation, hcls, addVariation1_eq, hv]
  exact (addCov_cov t _ (by simp [Mat.outer, vec_length, hcov.1]) (by simp [Mat.outer, vec_length, hcov.2])).2

/-- **C29 (partial).** For a 1-d template, in any state, whose histogram has equal-width bins (any
number, any range) the covariance added by `add_variation` is the one in the template's own bins.
Missing: other binnings, see `C29_refuted`. -/
theorem C29_uniform_partial {n : ℕ} (hn : 1 ≤ n) (name : String) (hid : ℕ) (h : Hist) (c s : Fin n → ℝ)
    (hh : HistIs h c s) (h1 : h.cls = .h1) (k : SeqKind) (lo hi : ℝ) (hlt : lo < hi)
    (hr : h.range = .d1 k lo hi) (edges : List ℝ) (_ : Good1 h edges)
    (he : edges = linspace lo hi (n + 1))
    (t0 : Template) (h0 : newTemplate name hid h = .ok t0) (ops : List TOp)
    (x u d : Vec) (hu : x.length = u.length) (hd : x.length = d.length) :
    UsesBins (t0.run ops) h edges x u d c := by
  rw [he]
  obtain ⟨t, ht, hf⟩ := newTemplate_fresh name hid h c s hh
  rw [ht] at h0
  have := Except.ok.inj h0
  subst this
  have hfr := run_frame t ops
  obtain ⟨-, hrow, hcol, -⟩ := C23_cov_is_sum name hid h t ht ops
  have hnb : h.numBins = [n] := by
    rcases hh.dims with h2 | h2
    · exact h2
    · rw [h1] at h2; simp at h2
  exact addVariation_uniform hn (t.run ops) h c (by rw [hfr.cls]; exact hf.cls.mpr h1)
    (by rw [hfr.flatCounts]; exact hf.flatCounts)
    ⟨by rw [hrow, hfr.numBins, hf.numBins], by rw [hcol, hfr.numBins, hf.numBins]⟩ hnb k lo hi hlt
    (by rw [hfr.range, hf.range, hr]) x u d hu hd

/-- the equal-width bins used for a template with edges 0, 1, 3 -/
theorem linspace_ex : linspace 0 3 (2 + 1) = [0, 3/2, 3] := by
  simp [linspace, List.range_succ]; norm_num

theorem weightIn_one (e : List ℝ) (i : ℕ) (r a : ℝ) :
    weightIn e i [.fin r] [.fin a] = .fin (if InBin e i (.fin r) then a else 0) := by
  unfold weightIn
  by_cases h : InBin e i (.fin r) <;> simp [h]
  rfl

/-- **C29 is false of the code:** a template with bins `[0, 1), [1, 3]`, one event at 1.2 with up
weight 5 and down weight 1. The event lies in the template's second bin, but the variation is
booked with equal-width bins `[0, 1.5), [1.5, 3]`, so the shift appears in the first bin. -/
theorem C29_refuted : ∃ t, newTemplate "t" 0 exHistB = .ok t ∧ Good1 exHistB [0, 1, 3] ∧
    ¬ UsesBins t exHistB [0, 1, 3] [.fin (6/5)] [.fin 5] [.fin 1] (![1, 1] : Fin 2 → ℝ) := by
  obtain ⟨t, ht, hf⟩ := newTemplate_fresh "t" 0 exHistB _ _ exHistB_is
  have hgood : Good1 exHistB [0, 1, 3] := ⟨rfl, rfl, by simp, by norm_num, rfl, rfl, rfl, rfl⟩
  refine ⟨t, ht, hgood, ?_⟩
  have hown1 : InBin [0, 1, 3] 1 (.fin (6/5)) := Or.inl ⟨1, 3, rfl, rfl, by norm_num, by norm_num⟩
  have hown0 : ¬ InBin [0, 1, 3] 0 (.fin (6/5)) := fun h0 => by
    have := inBin_unique (edges := [0, 1, 3]) (by norm_num) (by simp) h0 hown1
    simp at this
  have huni0 : InBin [0, 3/2, 3] 0 (.fin (6/5)) := Or.inl ⟨0, 3/2, rfl, rfl, by norm_num, by norm_num⟩
  have huni1 : ¬ InBin [0, 3/2, 3] 1 (.fin (6/5)) := fun h0 => by
    have := inBin_unique (edges := [0, 3/2, 3]) (by norm_num) (by simp) h0 huni0
    simp at this
  intro hU
  obtain ⟨m, hm, hreal⟩ := hU ![0, 5] ![0, 1]
    (by intro i; rw [weightIn_one]; fin_cases i <;> simp [hown0, hown1])
    (by intro i; rw [weightIn_one]; fin_cases i <;> simp [hown0, hown1])
  have hcovr : t.cov.rows = 2 ∧ t.cov.cols = 2 := by
    rw [hf.cov]; simp [Mat.diagOf, vec_length]
  have huni := addVariation_uniform (n := 2) (by norm_num) t exHistB ![1, 1] (hf.cls.mpr rfl) hf.flatCounts
    hcovr rfl .tuple 0 3 (by norm_num) (by rw [hf.range]; rfl) [.fin (6/5)] [.fin 5] [.fin 1] rfl rfl
  rw [linspace_ex] at huni
  obtain ⟨m', hm', hreal'⟩ := huni ![5, 0] ![1, 0]
    (by intro i; rw [weightIn_one]; fin_cases i <;> simp [huni0, huni1])
    (by intro i; rw [weightIn_one]; fin_cases i <;> simp [huni0, huni1])
  rw [hm] at hm'
  have hmm : m = m' := by simpa using hm'
  subst hmm
  have a := hreal.2.2 0 0
  have b := hreal'.2.2 0 0
  rw [a] at b
  simp [Matrix.vecMulVec_apply, shift] at b
  norm_num at b

/-! ## C30 -/

/-- **C30 is false of the code:** `Template2d.add_variation` never succeeds. With well-formed input
(both variation histograms can be built) it raises `TypeError`. -/
theorem C30_refuted (t : Template) (hcls : t.cls = .t2) (h : Hist) (x y : Vec) (up down : Weights) :
    (t.addVariation h x y up down).1 ≠ .ok () ∧
    (∀ hup hdown,
      Hist2d.new (.ints (h.numBins.getD 0 0) (h.numBins.getD 1 0)) (some t.range) (some (x, y)) up = .ok hup →
      Hist2d.new (.ints (h.numBins.getD 0 0) (h.numBins.getD 1 0)) (some t.range) (some (x, y)) down = .ok hdown →
      (t.addVariation h x y up down).1 = .error .typeError) := by
  have e : t.addVariation h x y up down = Template2d.addVariation t h x y up down := by
    simp only [Template.addVariation, hcls]
  rw [e]
  refine ⟨(addVariation2_cases t h x y up down).2.2, ?_⟩
  intro hup hdown h1 h2
  simp only [Template2d.addVariation, h1, h2]

/-- **C30 (partial).** The failing call leaves the template unchanged. -/
theorem C30_unchanged_partial (t : Template) (hcls : t.cls = .t2) (h : Hist) (x y : Vec)
    (up down : Weights) : (t.addVariation h x y up down).2 = t := by
  have e : t.addVariation h x y up down = Template2d.addVariation t h x y up down := by
    simp only [Template.addVariation, hcls]
  rw [e]
  exact (addVariation2_cases t h x y up down).1

/-- non-vacuity of C30: well-formed variation histograms exist -/
example : ∃ h', Hist2d.new (.ints 1 1) (some (.d2 .tuple .tuple .tuple 0 1 0 1)) (some ([.fin (1/2)], [.fin (1/2)])) .none = .ok h' := by
  have hg : Good2 (Hist.blank .h2 [⟨true, linspace 0 1 2⟩, ⟨true, linspace 0 1 2⟩] [1, 1]
      (.d2 .tuple .tuple .tuple 0 1 0 1)) (linspace 0 1 2) (linspace 0 1 2) :=
    blank_good2 (ex := ⟨true, linspace 0 1 2⟩) (ey := ⟨true, linspace 0 1 2⟩)
      (by simp [linspace_length]) (by simp [linspace_length])
      (linspace_pairwise (by norm_num) 1 (by norm_num)) (linspace_pairwise (by norm_num) 1 (by norm_num))
      (by simp [linspace_length]) (by simp [linspace_length])
  have hf := fill2_eq hg (W := .none) (x := [.fin (1/2)]) (y := [.fin (1/2)]) (w := [1])
    (Or.inl ⟨rfl, rfl⟩) rfl rfl (by simp)
  have hf' : ∃ hh, Hist2d.fill (Hist.blank .h2 [⟨true, linspace 0 1 2⟩, ⟨true, linspace 0 1 2⟩] [1, 1]
      (.d2 .tuple .tuple .tuple 0 1 0 1)) [.fin (1/2)] [.fin (1/2)] .none = (.ok (), hh) := ⟨_, hf⟩
  obtain ⟨hh, hf'⟩ := hf'
  refine ⟨hh, ?_⟩
  simp only [Hist2d.new, Hist2d.init]
  rw [if_neg (by norm_num)]
  show (match Hist2d.fill _ _ _ _ with | (.ok (), h') => Except.ok h' | (.error e, _) => .error e) = _
  have e : ((1 : ℤ).toNat + 1) = 2 ∧ (1 : ℤ).toNat = 1 := ⟨rfl, rfl⟩
  simp only [e.1, e.2, hf']

end

end TF.Props
