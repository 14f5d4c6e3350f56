import Verif.Props.TemplateProps2

set_option linter.unusedSimpArgs false

/-!
# Where exactly the refuted template claims hold (C25, C29)
-/

namespace TF.Props

open Classical Spec
open scoped Matrix

noncomputable section

/-! ## C25 -/

/-- **C25, the whole effect (partial).** In every state of a 1-d template with real covariance matrix `C`, let a
real matrix `A` be given such that the variances of `C + A` are positive. `add_cov_mat` raises
exactly if the correlation matrix of `C + A` is singular, and then with `LinAlgError`; in both cases the
matrix is in the list afterwards and the covariance matrix is `C + A` with its correlation matrix; if it raised,
inverse correlation matrix and relative errors are still the old ones. Parameters stay in any case. -/
theorem C25_exact_partial {n : ℕ} (name : String) (hid : ℕ) (h : Hist) (t0 : Template)
    (h0 : newTemplate name hid h = .ok t0) (h1 : h.cls = .h1) (ops : List TOp) (m : Mat)
    (C A : Matrix (Fin n) (Fin n) ℝ) (hC : IsReal (t0.run ops).cov C) (hA : IsReal m A)
    (hv : ∀ i, 0 < (C + A) i i) :
    (((t0.run ops).addCovMat m).1 =
      if (Matrix.of fun i j => (C + A) i j / Real.sqrt ((C + A) i i * (C + A) j j)).det = 0
      then .error .linAlgError else .ok ()) ∧
    ((t0.run ops).addCovMat m).2.covMats = (t0.run ops).covMats ++ [m] ∧
    IsReal ((t0.run ops).addCovMat m).2.cov (C + A) ∧
    IsReal ((t0.run ops).addCovMat m).2.corr
      (Matrix.of fun i j => (C + A) i j / Real.sqrt ((C + A) i i * (C + A) j j)) ∧
    (((t0.run ops).addCovMat m).1 ≠ .ok () →
      ((t0.run ops).addCovMat m).2.invCorr = (t0.run ops).invCorr ∧
      ((t0.run ops).addCovMat m).2.relErr = (t0.run ops).relErr) ∧
    ((t0.run ops).addCovMat m).2.params = (t0.run ops).params := by
  have hs := (run_inv CovSum (fun _ => True) t0 ops (newTemplate_covSum h0).1
    (fun t o a _ => covSum_apply a o) (fun _ _ => trivial))
  have hcls : (t0.run ops).cls = .t1 := by
    rw [(run_frame t0 ops).cls]
    simp only [newTemplate, Template1d.new, h1, Template.build] at h0
    split at h0
    · rw [← Except.ok.inj h0]
    · cases h0
  generalize t0.run ops = t at *
  have hcorr : IsReal (cov2corr (t.cov.add m)) (corrOf (C + A)) :=
    cov2corr_isReal (hC.add hA) (fun i => (hv i).le)
      (fun i j h => by rcases h with h | h <;> exact absurd h (hv _).ne')
  have hco : corrOf (C + A) = Matrix.of fun i j => (C + A) i j / Real.sqrt ((C + A) i i * (C + A) j j) := by
    ext i j
    simp only [corrOf, Matrix.of_apply, (hv i).ne', (hv j).ne', or_self, if_false, Real.sqrt_mul (hv i).le]
  rw [← hco]
  have hr : m.rows = t.cov.rows ∧ m.cols = t.cov.cols := ⟨hA.1.trans hC.1.symm, hA.2.1.trans hC.2.1.symm⟩
  have hb : ¬¬(m.rows = t.numBins ∧ m.cols = t.numBins) := by
    rw [not_not]
    exact ⟨hr.1.trans hs.rows, hr.2.trans hs.cols⟩
  have e : t.addCovMat m = t.addCov m := by
    simp only [Template.addCovMat, hcls, Template1d.addCovMat]
    rw [if_neg hb]
  rw [e]
  obtain ⟨e1, e2⟩ := addCov_cov t m hr.1 hr.2
  refine ⟨?_, e2, by rw [e1]; exact hC.add hA, ?_, ?_, (addCov_frame t m).2⟩
  · by_cases hdet : (corrOf (C + A)).det = 0
    · rw [if_pos hdet]
      simp only [Template.addCov, hr, and_self, if_true, npInv_singular hcorr hdet]
    · rw [if_neg hdet]
      obtain ⟨N, hN, _⟩ := npInv_isReal hcorr hdet
      simp only [Template.addCov, hr, and_self, if_true, hN]
  · have : (t.addCov m).2.corr = cov2corr (t.cov.add m) := by
      unfold Template.addCov
      simp only [hr, and_self, if_true]
      split <;> rfl
    rw [this]; exact hcorr
  · intro hne
    unfold Template.addCov at hne ⊢
    simp only [hr, and_self, if_true] at hne ⊢
    split
    · exact ⟨rfl, rfl⟩
    · rename_i hN; rw [hN] at hne; simp at hne

/-- non-vacuity of `C25_exact_partial`: on the two-bin template with unit variances both outcomes occur, for the
matrices `[[0, 1], [1, 0]]` (sum singular) and the unit matrix -/
example : ∃ (t : Template) (C A B : Matrix (Fin 2) (Fin 2) ℝ), newTemplate "t" 0 exHistB = .ok t ∧
    IsReal (t.run []).cov C ∧ (∀ i, 0 < (C + A) i i) ∧ (∀ i, 0 < (C + B) i i) ∧
    (Matrix.of fun i j => (C + A) i j / Real.sqrt ((C + A) i i * (C + A) j j)).det = 0 ∧
    (Matrix.of fun i j => (C + B) i j / Real.sqrt ((C + B) i i * (C + B) j j)).det ≠ 0 := by
  obtain ⟨t, ht, hf⟩ := newTemplate_fresh "t" 0 exHistB _ _ exHistB_is
  have hsv : (fun i : Fin 2 => statVar ((![1, 1] : Fin 2 → ℝ) i)) = fun _ => 1 := by
    funext i; fin_cases i <;> simp [statVar]
  refine ⟨t, 1, !![0, 1; 1, 0], 1, ht, ?_, ?_, ?_, ?_, ?_⟩
  · show IsReal t.cov _
    rw [hf.cov, hsv, ← Matrix.diagonal_one]; exact isReal_diagOf _
  · intro i; fin_cases i <;> simp
  · intro i; fin_cases i <;> norm_num
  · rw [Matrix.det_fin_two]; simp
  · rw [Matrix.det_fin_two]; simp

/-! ## C29 -/

/-- **C29, exactly when.** For a 1-d template in any state whose bins (strictly increasing edges) run from the lower
to the upper end of its range: `add_variation` uses the template's own bins for every sample if and only if these
are the equal-width bins of the range. -/
theorem C29_iff {n : ℕ} (hn : 1 ≤ n) (name : String) (hid : ℕ) (h : Hist) (c s : Fin n → ℝ)
    (hh : HistIs h c s) (h1 : h.cls = .h1) (k : SeqKind) (lo hi : ℝ) (hlt : lo < hi)
    (hr : h.range = .d1 k lo hi) (edges : List ℝ) (hg : Good1 h edges) (hlen : edges.length = n + 1)
    (hlo : edges[0]? = some lo) (hhi : edges[n]? = some hi)
    (t0 : Template) (h0 : newTemplate name hid h = .ok t0) (ops : List TOp) :
    (∀ x u d : Vec, x.length = u.length → x.length = d.length → UsesBins (t0.run ops) h edges x u d c) ↔
      edges = linspace lo hi (n + 1) := by
  obtain ⟨t, ht, hf⟩ := newTemplate_fresh name hid h c s hh
  rw [ht] at h0
  have := Except.ok.inj h0
  subst this
  have hfr := run_frame t ops
  obtain ⟨-, hrow, hcol, -⟩ := C23_cov_is_sum name hid h t ht ops
  have hnb : h.numBins = [n] := by
    rcases hh.dims with h2 | h2
    · exact h2
    · rw [h1] at h2; simp at h2
  have huni := fun (x u d : Vec) (hu : x.length = u.length) (hd : x.length = d.length) =>
    addVariation_uniform hn (t.run ops) h c (by rw [hfr.cls]; exact hf.cls.mpr h1)
      (by rw [hfr.flatCounts]; exact hf.flatCounts)
      ⟨by rw [hrow, hfr.numBins, hf.numBins], by rw [hcol, hfr.numBins, hf.numBins]⟩ hnb k lo hi hlt
      (by rw [hfr.range, hf.range, hr]) x u d hu hd
  constructor
  · intro H
    by_contra hne
    -- an interior edge that differs
    have hl2 : (linspace lo hi (n + 1)).length = n + 1 := linspace_length _ _ _
    obtain ⟨j, hj, hjne⟩ : ∃ j, ∃ hj : j < n + 1, edges[j] ≠ (linspace lo hi (n + 1))[j] := by
      by_contra hall
      push Not at hall
      exact hne (List.ext_getElem (hlen.trans hl2.symm) fun i hi1 _ => hall i (by omega))
    have hlin : ∀ i (hi' : i < n + 1), (linspace lo hi (n + 1))[i] = lo + (i : ℝ) * ((hi - lo) / n) := by
      intro i hi'
      simp [linspace]
    have hnpos : (0 : ℝ) < n := by exact_mod_cast hn
    have hE0 : edges[0]'(by omega) = lo := by
      rw [List.getElem?_eq_getElem (by omega)] at hlo; simpa using hlo
    have hEn : edges[n]'(by omega) = hi := by
      rw [List.getElem?_eq_getElem (by omega)] at hhi; simpa using hhi
    have hj0 : j ≠ 0 := by
      rintro rfl; rw [hE0, hlin 0 hj] at hjne; simp at hjne
    have hjn : j ≠ n := by
      rintro rfl; rw [hEn, hlin _ hj] at hjne
      apply hjne; field_simp; ring
    have hj' : j < n := by omega
    have hinc : ∀ a b (ha : a < edges.length) (hb : b < edges.length), a < b → edges[a] < edges[b] :=
      fun a b ha hb hab => List.pairwise_iff_getElem.mp hg.incr a b ha hb hab
    have hinc2 : ∀ a b (ha : a < (linspace lo hi (n + 1)).length) (hb : b < (linspace lo hi (n + 1)).length),
        a < b → (linspace lo hi (n + 1))[a] < (linspace lo hi (n + 1))[b] :=
      fun a b ha hb hab => List.pairwise_iff_getElem.mp (linspace_pairwise hlt n hn) a b ha hb hab
    -- events at a point `p` that lies in bin `j` of exactly one of the two binnings cannot be treated alike
    have key : ∀ p : ℝ, InBin edges j (.fin p) ↔ InBin (linspace lo hi (n + 1)) j (.fin p) := by
      intro p
      set a : ℝ := 2 * |c ⟨j, hj'⟩| + 1 with ha
      have hU1 := fun i : Fin n => weightIn_one edges i p a
      have hU2 := fun i : Fin n => weightIn_one (linspace lo hi (n + 1)) i p a
      obtain ⟨m, hm, hreal⟩ := H [.fin p] [.fin a] [.fin a] rfl rfl _ _ hU1 hU1
      obtain ⟨m', hm', hreal'⟩ := huni [.fin p] [.fin a] [.fin a] rfl rfl _ _ hU2 hU2
      rw [hm] at hm'
      have hmm : m = m' := by simpa using hm'
      subst hmm
      have e := (hreal.2.2 ⟨j, hj'⟩ ⟨j, hj'⟩).symm.trans (hreal'.2.2 ⟨j, hj'⟩ ⟨j, hj'⟩)
      rw [Fl.fin_inj] at e
      simp only [Matrix.vecMulVec_apply, shift, lt_irrefl, if_false, one_mul, add_self_div_two] at e
      rw [← sq, ← sq, sq_abs, sq_abs] at e
      have hneq : (a - c ⟨j, hj'⟩) ^ 2 ≠ (0 - c ⟨j, hj'⟩) ^ 2 := by
        intro h2
        have h3 : a * (a - 2 * c ⟨j, hj'⟩) = 0 := by linear_combination h2
        have h4 := le_abs_self (c ⟨j, hj'⟩)
        have h5 := abs_nonneg (c ⟨j, hj'⟩)
        rcases mul_eq_zero.mp h3 with h6 | h6 <;> linarith
      by_cases b1 : InBin edges j (.fin p) <;>
        by_cases b2 : InBin (linspace lo hi (n + 1)) j (.fin p)
      · exact iff_of_true b1 b2
      · rw [if_pos b1, if_neg b2] at e; exact absurd e hneq
      · rw [if_neg b1, if_pos b2] at e; exact absurd e.symm hneq
      · exact iff_of_false b1 b2
    have hgl1 : edges.getLastD 0 = hi := by
      rw [List.getLastD_eq_getLast?, List.getLast?_eq_getElem?, hlen]; simp [hhi]
    have hgl2 : (linspace lo hi (n + 1)).getLastD 0 = hi := by
      rw [List.getLastD_eq_getLast?, List.getLast?_eq_getElem?, hl2,
        List.getElem?_eq_getElem (by omega)]
      simp only [Nat.add_sub_cancel, Option.getD_some]
      rw [hlin n (by omega)]; field_simp; ring
    have hL : (linspace lo hi (n + 1))[j] < hi := by
      have := hinc2 j n (by omega) (by omega) hj'
      rwa [hlin n (by omega), show lo + (n : ℝ) * ((hi - lo) / n) = hi by field_simp; ring] at this
    have hE : edges[j] < hi := by
      have := hinc j n (by omega) (by omega) hj'
      rwa [hEn] at this
    rcases lt_or_gt_of_ne hjne with hcase | hcase
    · -- own edge to the left
      have := (key edges[j]).mp (Or.inl ⟨edges[j], edges[j + 1], List.getElem?_eq_getElem _,
        List.getElem?_eq_getElem _, le_refl _, hinc j (j + 1) (by omega) (by omega) (by omega)⟩)
      rcases this with ⟨a, b, ha, hb, hle, -⟩ | ⟨-, hle, -⟩
      · rw [List.getElem?_eq_getElem (by omega)] at ha
        have := Option.some.inj ha
        linarith
      · rw [hgl2] at hle; linarith
    · have := (key (linspace lo hi (n + 1))[j]).mpr (Or.inl ⟨(linspace lo hi (n + 1))[j],
        (linspace lo hi (n + 1))[j + 1], List.getElem?_eq_getElem _,
        List.getElem?_eq_getElem _, le_refl _, hinc2 j (j + 1) (by omega) (by omega) (by omega)⟩)
      rcases this with ⟨a, b, ha, hb, hle, -⟩ | ⟨-, hle, -⟩
      · rw [List.getElem?_eq_getElem (by omega)] at ha
        have := Option.some.inj ha
        linarith
      · rw [hgl1] at hle; linarith
  · intro he x u d hu hd
    rw [he]; exact huni x u d hu hd

/-- non-vacuity of `C29_iff`: a template with unequal bins `[0, 1), [1, 3]` over its range meets all hypotheses,
and its edges are not the equal-width ones -/
example : HistIs exHistB (![1, 1] : Fin 2 → ℝ) ![1, 1] ∧ Good1 exHistB [0, 1, 3] ∧
    exHistB.range = .d1 .tuple 0 3 ∧ ([0, 1, 3] : List ℝ)[0]? = some 0 ∧ ([0, 1, 3] : List ℝ)[2]? = some 3 ∧
    (∃ t, newTemplate "t" 0 exHistB = .ok t) ∧ ([0, 1, 3] : List ℝ) ≠ linspace 0 3 (2 + 1) := by
  obtain ⟨t, ht, hf⟩ := newTemplate_fresh "t" 0 exHistB _ _ exHistB_is
  refine ⟨exHistB_is, ⟨rfl, rfl, by simp, by norm_num, rfl, rfl, rfl, rfl⟩, rfl, rfl, rfl, ⟨t, ht⟩, ?_⟩
  rw [linspace_ex]
  intro h
  simp at h
  norm_num at h

end

end TF.Props
