import Verif.Lemmas.TmplRunLemmas
import Verif.Props.TemplateProps

set_option linter.unusedSimpArgs false

/-! invariants of the covariance bookkeeping of templates, used by `Props/TemplateProps2` -/

namespace TF

open Classical Spec Props

noncomputable section

/-! ### shape invariant and sum of matrices -/

/-- the total covariance is the sum of the listed matrices -/
structure CovSum (t : Template) : Prop where
  len : t.flatCounts.length = t.numBins
  rows : t.cov.rows = t.numBins
  cols : t.cov.cols = t.numBins
  sum : ∀ i < t.numBins, ∀ j < t.numBins, t.cov.e i j = (t.covMats.map fun M => M.e i j).sum

theorem addCov_cov (t : Template) (m : Mat) (hr : m.rows = t.cov.rows) (hc : m.cols = t.cov.cols) :
    (t.addCov m).2.cov = t.cov.add m ∧ (t.addCov m).2.covMats = t.covMats ++ [m] := by
  unfold Template.addCov
  simp only [hr, hc, and_self, if_true]
  split <;> exact ⟨rfl, rfl⟩

theorem covSum_addCov {t : Template} (h : CovSum t) (m : Mat) (hr : m.rows = t.numBins)
    (hc : m.cols = t.numBins) : CovSum (t.addCov m).2 := by
  obtain ⟨hf, -⟩ := addCov_frame t m
  obtain ⟨h1, h2⟩ := addCov_cov t m (by rw [hr, h.rows]) (by rw [hc, h.cols])
  refine ⟨by rw [hf.flatCounts, hf.numBins, h.len], by rw [h1, hf.numBins]; exact h.rows,
    by rw [h1, hf.numBins]; exact h.cols, ?_⟩
  intro i hi j hj
  rw [hf.numBins] at hi hj
  rw [h1, h2]
  simp [Mat.add, h.sum i hi j hj]

/-- ops that do not touch the covariance information -/
theorem apply_params_only (t : Template) (o : TOp) :
    (∃ p, (t.apply o).2 = { t with params := p }) ∨
    (∃ m, m.rows = t.numBins ∧ m.cols = t.numBins ∧ o = .addCovMat m ∧ t.apply o = t.addCov m) ∨
    (∃ h x y up down m, o = .addVariation h x y up down ∧ variationMat t h x up down = .ok m ∧
      t.apply o = t.addCov m) := by
  cases o with
  | setYield v =>
    left
    simp only [Template.apply]
    cases v with
    | float r => exact ⟨_, rfl⟩
    | int i => exact ⟨_, rfl⟩
    | other => exact ⟨t.params, rfl⟩
    | arr v =>
      match v with
      | [] => exact ⟨t.params, rfl⟩
      | [r] => exact ⟨_, rfl⟩
      | _ :: _ :: _ => exact ⟨t.params, rfl⟩
  | setNui v =>
    left
    simp only [Template.apply, Template.setNui]
    split
    · exact ⟨t.params, rfl⟩
    · exact ⟨_, rfl⟩
  | setParams v =>
    left
    simp only [Template.apply, Template.setParams]
    split
    · exact ⟨t.params, rfl⟩
    · exact ⟨_, rfl⟩
  | reset h => left; exact ⟨_, rfl⟩
  | addCovMat m =>
    simp only [Template.apply]
    rcases addCovMat_cases t m with ⟨h, _⟩ | ⟨h, hr, hc⟩
    · left; exact ⟨t.params, h⟩
    · right; left; exact ⟨m, hr, hc, rfl, h⟩
  | addVariation h x y up down =>
    simp only [Template.apply]
    rcases addVariation_cases t h x y up down with ⟨h, _⟩ | ⟨m, hm, h⟩
    · left; exact ⟨t.params, h⟩
    · right; right; exact ⟨_, _, _, _, _, m, rfl, hm, h⟩

theorem covSum_apply {t : Template} (h : CovSum t) (o : TOp) : CovSum (t.apply o).2 := by
  rcases apply_params_only t o with ⟨p, hp⟩ | ⟨m, hr, hc, _, hm⟩ | ⟨_, _, _, _, _, m, _, hv, hm⟩
  · rw [hp]; exact ⟨h.len, h.rows, h.cols, h.sum⟩
  · rw [hm]; exact covSum_addCov h m hr hc
  · rw [hm]
    obtain ⟨hr, hc⟩ := variationMat_shape t _ _ _ _ m hv
    exact covSum_addCov h m (by rw [hr, h.len]) (by rw [hc, h.len])

theorem covMats_head_apply {t : Template} {M : Mat} (h : t.covMats.head? = some M) (o : TOp)
    (hs : CovSum t) : (t.apply o).2.covMats.head? = some M := by
  have key : ∀ m : Mat, m.rows = t.numBins → m.cols = t.numBins →
      (t.addCov m).2.covMats.head? = some M := by
    intro m hr hc
    rw [(addCov_cov t m (by rw [hr, hs.rows]) (by rw [hc, hs.cols])).2]
    cases hl : t.covMats with
    | nil => rw [hl] at h; simp at h
    | cons a l => rw [hl] at h; simpa using h
  rcases apply_params_only t o with ⟨p, hp⟩ | ⟨m, hr, hc, _, hm⟩ | ⟨_, _, _, _, _, m, _, hv, hm⟩
  · rw [hp]; exact h
  · rw [hm]; exact key m hr hc
  · rw [hm]
    obtain ⟨hr, hc⟩ := variationMat_shape t _ _ _ _ m hv
    exact key m (by rw [hr, hs.len]) (by rw [hc, hs.len])

theorem build_covSum {cls : TmplCls} {name : String} {hid : ℕ} {h : Hist} {n : ℕ} {t : Template}
    (ht : Template.build cls name hid h n = .ok t) : CovSum t ∧
      t.covMats.head? = some (Mat.diagOf (statErrSq h.errSq.data)) ∧
      t.relErr = relErrs t.cov t.flatCounts ∧ t.flatCounts = h.counts.data ∧
      t.params.length = t.numBins + 1 ∧ t.hist = hid ∧ t.numBins = n ∧ t.bins = h.shape ∧
      t.params = initParams n h := by
  unfold Template.build at ht
  split at ht
  · rename_i hl
    have := Except.ok.inj ht
    subst this
    refine ⟨⟨hl.1, ?_, ?_, ?_⟩, rfl, rfl, rfl, by simp [initParams], rfl, rfl, rfl, rfl⟩
    · simp [Mat.diagOf, statErrSq, hl.2]
    · simp [Mat.diagOf, statErrSq, hl.2]
    · intro i _ j _; simp
  · simp at ht

theorem newTemplate_build {name : String} {hid : ℕ} {h : Hist} {t : Template}
    (ht : newTemplate name hid h = .ok t) : ∃ cls n, Template.build cls name hid h n = .ok t ∧
      n = h.numBins.prod ∨ (∃ cls n, Template.build cls name hid h n = .ok t ∧ n = h.numBins.getD 0 0) := by
  unfold newTemplate at ht
  split at ht <;> rename_i hc
  · refine ⟨.t1, 0, Or.inr ⟨.t1, _, ?_, rfl⟩⟩
    simpa [Template1d.new, hc] using ht
  · refine ⟨.t2, _, Or.inl ⟨?_, rfl⟩⟩
    simpa [Template2d.new, hc] using ht

/-- everything the constructors establish -/
theorem newTemplate_covSum {name : String} {hid : ℕ} {h : Hist} {t : Template}
    (ht : newTemplate name hid h = .ok t) : CovSum t ∧
      t.covMats.head? = some (Mat.diagOf (statErrSq h.errSq.data)) ∧
      t.relErr = relErrs t.cov t.flatCounts ∧ t.flatCounts = h.counts.data ∧
      t.params.length = t.numBins + 1 ∧ t.hist = hid ∧ t.bins = h.shape ∧
      t.params = initParams t.numBins h := by
  obtain ⟨cls, n, h1 | ⟨cls', n', h1, _⟩⟩ := newTemplate_build ht
  · obtain ⟨a, b, c, d, e, f, g, i, j⟩ := build_covSum h1.1
    exact ⟨a, b, c, d, e, f, i, by rw [g]; exact j⟩
  · obtain ⟨a, b, c, d, e, f, g, i, j⟩ := build_covSum h1
    exact ⟨a, b, c, d, e, f, i, by rw [g]; exact j⟩

/-! ### relative errors -/

theorem addCov_relErr (t : Template) (m : Mat) (hr : m.rows = t.cov.rows) (hc : m.cols = t.cov.cols)
    (hne : (t.addCov m).1 ≠ .error .linAlgError) :
    (t.addCov m).2.relErr = relErrs (t.addCov m).2.cov (t.addCov m).2.flatCounts := by
  unfold Template.addCov at hne ⊢
  simp only [hr, hc, and_self, if_true] at hne ⊢
  cases hi : npInv (cov2corr (t.cov.add m)) with
  | ok inv => simp
  | error e =>
    rw [hi] at hne
    exfalso
    unfold npInv at hi
    split at hi
    · simp at hi; subst hi; simp at hne
    · split at hi
      · split at hi
        · simp at hi; subst hi; simp at hne
        · simp at hi
      · simp at hi

theorem relErr_apply {t : Template} (hs : CovSum t) (h : t.relErr = relErrs t.cov t.flatCounts) (o : TOp)
    (hne : (t.apply o).1 ≠ .error .linAlgError) :
    (t.apply o).2.relErr = relErrs (t.apply o).2.cov (t.apply o).2.flatCounts := by
  rcases apply_params_only t o with ⟨p, hp⟩ | ⟨m, hr, hc, _, hm⟩ | ⟨_, _, _, _, _, m, _, hv, hm⟩
  · rw [hp]; exact h
  · rw [hm] at hne ⊢; exact addCov_relErr t m (by rw [hr, hs.rows]) (by rw [hc, hs.cols]) hne
  · rw [hm] at hne ⊢
    obtain ⟨hr, hc⟩ := variationMat_shape t _ _ _ _ m hv
    exact addCov_relErr t m (by rw [hr, hs.len, hs.rows]) (by rw [hc, hs.len, hs.cols]) hne

/-! ### positive definiteness -/

theorem allFin_vec : ∀ {n : ℕ} {v : Vec}, v.length = n → (∀ x ∈ v, x.isFin) →
    ∃ f : Fin n → ℝ, v = vec f := by
  intro n v hl hf
  refine ⟨fun i => (v.getD i 0).toReal, ?_⟩
  unfold vec
  apply List.ext_getElem?
  intro i
  by_cases hi : i < n
  · have hv : i < v.length := by omega
    simp only [List.getElem?_ofFn, hi, dif_pos, List.getD_eq_getElem?_getD,
      List.getElem?_eq_getElem hv, Option.getD_some]
    congr 1
    have := hf _ (List.getElem_mem hv)
    cases hx : v[i] with
    | fin r => rfl
    | _ => rw [hx] at this; simp [Fl.isFin] at this
  · rw [List.getElem?_eq_none (by omega), List.getElem?_eq_none (by simp; omega)]

/-- all weights of a `weights` argument are finite numbers -/
def Weights.Finite : Weights → Prop
  | .none => True
  | .list w | .array w | .tuple w => ∀ x ∈ w, x.isFin

theorem values_finite {W : Weights} (h : W.Finite) (n : ℕ) : ∀ x ∈ W.values n, x.isFin := by
  cases W with
  | none => intro x hx; simp [Weights.values] at hx; rw [hx.2]; exact trivial
  | list w => exact h
  | array w => exact h
  | tuple w => exact h

theorem sum_isFin : ∀ {l : Vec}, (∀ x ∈ l, x.isFin) → l.sum.isFin
  | [], _ => trivial
  | a :: l, h => by
    have h1 := h a (by simp)
    have h2 := sum_isFin (l := l) fun x hx => h x (by simp [hx])
    rw [List.sum_cons]
    cases a <;> cases hl : l.sum <;> simp_all [Fl.isFin]

theorem binnedSum_finite {e : List ℝ} {d v : Vec} {a : NdArr} (h : binnedSum e d v = .ok a)
    (hv : ∀ x ∈ v, x.isFin) : ∀ x ∈ a.data, x.isFin := by
  unfold binnedSum at h
  split at h
  · simp at h
  · split at h
    · have := Except.ok.inj h
      subst this
      intro x hx
      simp only [List.mem_map] at hx
      obtain ⟨i, _, rfl⟩ := hx
      apply sum_isFin
      intro x hx
      simp only [List.mem_map, List.mem_filter] at hx
      obtain ⟨p, ⟨hp, _⟩, rfl⟩ := hx
      exact hv _ (List.of_mem_zip hp).2
    · simp at h

theorem add_isFin {a b : Fl} (ha : a.isFin) (hb : b.isFin) : (a + b).isFin := by
  cases a <;> cases b <;> simp_all [Fl.isFin]

theorem accumulate_finite {h h' : Hist} {s s2 : Except Err NdArr} {b : Bool} {u : Unit}
    (hg : h.accumulate s s2 b = (.ok u, h')) (hh : ∀ x ∈ h.counts.data, x.isFin)
    (hs : ∀ a, s = .ok a → ∀ x ∈ a.data, x.isFin) : ∀ x ∈ h'.counts.data, x.isFin := by
  unfold Hist.accumulate at hg
  cases s with
  | error e => simp at hg
  | ok a =>
    have ha := hs a rfl
    cases hi : h.counts.iadd a with
    | error e => simp [hi] at hg
    | ok c =>
      have hc : ∀ x ∈ c.data, x.isFin := by
        unfold NdArr.iadd at hi
        split at hi
        · have := Except.ok.inj hi
          subst this
          intro x hx
          rw [List.mem_iff_getElem] at hx
          obtain ⟨i, hi', rfl⟩ := hx
          rw [List.getElem_zipWith]
          exact add_isFin (hh _ (List.getElem_mem _)) (ha _ (List.getElem_mem _))
        · simp at hi
      simp only [hi] at hg
      split at hg
      · simp at hg
      · split at hg
        · simp at hg
        · split at hg
          · simp at hg
          · simp only [Prod.mk.injEq] at hg
            rw [← hg.2]; exact hc

theorem hist1_new_finite {n : ℕ} {r : PyRange} {d : Vec} {W : Weights} {h : Hist}
    (hn : Hist1d.new (.int n) (some r) (some d) W = .ok h) (hW : W.Finite) :
    ∀ x ∈ h.counts.data, x.isFin := by
  cases r with
  | d2 => simp [Hist1d.new, Hist1d.init, uniform1] at hn
  | d1 k lo hi =>
    have hb : ¬ ((n : ℤ) < 0) := by omega
    simp only [Hist1d.new, Hist1d.init, uniform1, if_neg hb] at hn
    generalize hg : Hist1d.fill _ d W = g at hn
    obtain ⟨res, h'⟩ := g
    cases res with
    | error e => simp at hn
    | ok u =>
      have := Except.ok.inj hn
      subst this
      unfold Hist1d.fill at hg
      refine accumulate_finite hg ?_ fun a ha => binnedSum_finite ha (values_finite hW _)
      intro x hx
      simp [Hist.blank, NdArr.zeros] at hx
      rw [hx.2]; exact trivial

theorem variationMat_psd {n : ℕ} {t : Template} {c : Fin n → ℝ} (hc : t.flatCounts = vec c) {h : Hist}
    {x : Vec} {up down : Weights} {m : Mat} (hm : variationMat t h x up down = .ok m)
    (hu : up.Finite) (hd : down.Finite) :
    ∃ A : Matrix (Fin n) (Fin n) ℝ, IsReal m A ∧ A.PosSemidef := by
  unfold variationMat at hm
  cases h1 : Hist1d.new (.int (h.numBins.getD 0 0)) (some t.range) (some x) up with
  | error e => rw [h1] at hm; simp [bind, Except.bind] at hm
  | ok a =>
    cases h2 : Hist1d.new (.int (h.numBins.getD 0 0)) (some t.range) (some x) down with
    | error e => rw [h1, h2] at hm; simp [bind, Except.bind] at hm
    | ok b =>
      rw [h1, h2] at hm
      simp only [bind, Except.bind] at hm
      have hl : t.flatCounts.length = a.counts.data.length ∧ a.counts.data.length = b.counts.data.length := by
        unfold getSystematicCovMat at hm
        split at hm
        · assumption
        · simp at hm
      rw [hc, vec_length] at hl
      obtain ⟨f, hf⟩ := allFin_vec hl.1.symm (hist1_new_finite h1 hu)
      obtain ⟨g, hg⟩ := allFin_vec (hl.2.symm.trans hl.1.symm) (hist1_new_finite h2 hd)
      rw [hc, hf, hg] at hm
      obtain ⟨M, S, hM, hS, _, hP, _⟩ := C14_systematic_cov c f g
      rw [hM] at hm
      have := Except.ok.inj hm
      subst this
      exact ⟨S, hS, hP⟩

/-- the covariance invariant: positive definite, correlation and its inverse in step -/
structure CovInv (t : Template) {n : ℕ} (c : Fin n → ℝ) (C : Matrix (Fin n) (Fin n) ℝ) : Prop where
  bins : t.numBins = n
  counts : t.flatCounts = vec c
  pos : C.PosDef
  cov : IsReal t.cov C
  corr : IsReal t.corr (corrOf C)
  inv : IsReal t.invCorr (corrOf C)⁻¹
  rel : t.relErr = vec fun i => relOf (C i i) (c i)

theorem addCov_inv {t : Template} {n : ℕ} {c : Fin n → ℝ} {C A : Matrix (Fin n) (Fin n) ℝ}
    (h : CovInv t c C) {m : Mat} (hm : IsReal m A) (hA : A.PosSemidef) :
    (t.addCov m).1 = .ok () ∧ CovInv (t.addCov m).2 c (C + A) := by
  have hP : (C + A).PosDef := h.pos.add_posSemidef hA
  have hadd : IsReal (t.cov.add m) (C + A) := h.cov.add hm
  have hd : ∀ i, 0 < (C + A) i i := fun i => hP.diag_pos
  have hcor : IsReal (cov2corr (t.cov.add m)) (corrOf (C + A)) :=
    cov2corr_isReal hadd (fun i => (hd i).le) (fun i j hz => by
      rcases hz with hz | hz
      · exact absurd hz (hd i).ne'
      · exact absurd hz (hd j).ne')
  obtain ⟨N, hN, hNr⟩ := npInv_isReal hcor ((Matrix.isUnit_iff_isUnit_det _).mp (Matrix.PosDef.isUnit (corrOf_posDef hP))).ne_zero
  have hsh : m.rows = t.cov.rows ∧ m.cols = t.cov.cols :=
    ⟨by rw [hm.1, h.cov.1], by rw [hm.2.1, h.cov.2.1]⟩
  have e : t.addCov m = (.ok (), { t with covMats := t.covMats ++ [m], cov := t.cov.add m
                                          corr := cov2corr (t.cov.add m), invCorr := N
                                          relErr := relErrs (t.cov.add m) t.flatCounts }) := by
    unfold Template.addCov
    simp only [hsh, and_self, if_true, hN]
  rw [e]
  refine ⟨rfl, h.bins, h.counts, hP, hadd, hcor, hNr, ?_⟩
  show relErrs (t.cov.add m) t.flatCounts = _
  rw [h.counts]
  exact relErrs_vec hadd (fun i => (hd i).le) c

/-- a call with usable systematic input: covariance matrices handed in are (if of the right
shape) symmetric positive semi-definite real matrices, variation weights are finite -/
def GoodOp (n : ℕ) : TOp → Prop
  | .addCovMat m => m.rows = n → m.cols = n →
      ∃ A : Matrix (Fin n) (Fin n) ℝ, IsReal m A ∧ A.PosSemidef
  | .addVariation _ _ _ up down => up.Finite ∧ down.Finite
  | _ => True

theorem apply_inv {t : Template} {n : ℕ} {c : Fin n → ℝ} {C : Matrix (Fin n) (Fin n) ℝ}
    (h : CovInv t c C) (o : TOp) (ho : GoodOp n o) :
    (t.apply o).1 ≠ .error .linAlgError ∧ ∃ C', CovInv (t.apply o).2 c C' := by
  cases o with
  | setYield v =>
    refine ⟨?_, ?_⟩
    · simp only [Template.apply]
      cases v with
      | arr v => match v with
        | [] => simp [Template.setYield, keepOnError]
        | [r] => simp [Template.setYield, keepOnError]
        | _ :: _ :: _ => simp [Template.setYield, keepOnError]
      | _ => simp [Template.setYield, keepOnError]
    · rcases apply_params_only t (.setYield v) with ⟨p, hp⟩ | ⟨_, _, _, h', _⟩ | ⟨_, _, _, _, _, _, h', _⟩
      · rw [hp]; exact ⟨C, h.bins, h.counts, h.pos, h.cov, h.corr, h.inv, h.rel⟩
      · simp at h'
      · simp at h'
  | setNui v =>
    refine ⟨?_, ?_⟩
    · simp only [Template.apply, Template.setNui]
      split <;> simp [keepOnError]
    · rcases apply_params_only t (.setNui v) with ⟨p, hp⟩ | ⟨_, _, _, h', _⟩ | ⟨_, _, _, _, _, _, h', _⟩
      · rw [hp]; exact ⟨C, h.bins, h.counts, h.pos, h.cov, h.corr, h.inv, h.rel⟩
      · simp at h'
      · simp at h'
  | setParams v =>
    refine ⟨?_, ?_⟩
    · simp only [Template.apply, Template.setParams]
      split <;> simp [keepOnError]
    · rcases apply_params_only t (.setParams v) with ⟨p, hp⟩ | ⟨_, _, _, h', _⟩ | ⟨_, _, _, _, _, _, h', _⟩
      · rw [hp]; exact ⟨C, h.bins, h.counts, h.pos, h.cov, h.corr, h.inv, h.rel⟩
      · simp at h'
      · simp at h'
  | reset hh => exact ⟨by simp [Template.apply], C, h.bins, h.counts, h.pos, h.cov, h.corr, h.inv, h.rel⟩
  | addCovMat m =>
    simp only [Template.apply]
    rcases addCovMat_cases t m with ⟨he, e, h1, h2⟩ | ⟨he, hr, hc⟩
    · rw [he, h1]; exact ⟨by simpa using h2, C, h⟩
    · obtain ⟨A, hA, hP⟩ := ho (by rw [hr, h.bins]) (by rw [hc, h.bins])
      obtain ⟨h3, h4⟩ := addCov_inv h hA hP
      rw [he, h3]; exact ⟨by simp, _, h4⟩
  | addVariation hh x y up down =>
    simp only [Template.apply]
    rcases addVariation_cases t hh x y up down with ⟨he, h1, _⟩ | ⟨m, hm, he⟩
    · rw [he]; exact ⟨h1, C, h⟩
    · obtain ⟨A, hA, hP⟩ := variationMat_psd h.counts hm ho.1 ho.2
      obtain ⟨h3, h4⟩ := addCov_inv h hA hP
      rw [he, h3]; exact ⟨by simp, _, h4⟩

theorem corrOf_diag_one {n : ℕ} {C : Matrix (Fin n) (Fin n) ℝ} (h : ∀ i, 0 < C i i) (i : Fin n) :
    corrOf C i i = 1 := by
  simp only [corrOf, Matrix.of_apply, (h i).ne', or_self, if_false]
  rw [Real.mul_self_sqrt (h i).le, div_self (h i).ne']

theorem fresh_inv {t : Template} {h : Hist} {n : ℕ} {c s : Fin n → ℝ} (hh : HistIs h c s)
    (hf : FreshIs t h c s) : CovInv t c (Matrix.diagonal fun i => statVar (s i)) := by
  have hpos : ∀ i, 0 < statVar (s i) := fun i => statVar_pos (hh.nonneg i)
  have hP : (Matrix.diagonal fun i => statVar (s i)).PosDef := Matrix.posDef_diagonal_iff.mpr hpos
  have h1 : corrOf (Matrix.diagonal fun i => statVar (s i)) = (1 : Matrix (Fin n) (Fin n) ℝ) := by
    ext i j
    by_cases hij : i = j
    · subst hij
      rw [corrOf_diag_one (by intro i; simpa using hpos i)]; simp
    · simp [corrOf, hij, (hpos _).ne']
  have hone : IsReal (Mat.diagOf (List.replicate n 1)) (1 : Matrix (Fin n) (Fin n) ℝ) := by
    rw [replicate_one_vec, ← Matrix.diagonal_one]; exact isReal_diagOf _
  refine ⟨hf.numBins, hf.flatCounts, hP, by rw [hf.cov]; exact isReal_diagOf _, ?_, ?_, ?_⟩
  · rw [h1, hf.corr]; exact hone
  · rw [h1, hf.invCorr, inv_one]; exact hone
  · rw [hf.relErr]; simp

theorem run_covInv {t : Template} {n : ℕ} {c : Fin n → ℝ} {C : Matrix (Fin n) (Fin n) ℝ}
    (h : CovInv t c C) (ops : List TOp) (ho : ∀ o ∈ ops, GoodOp n o) :
    ∃ C', CovInv (t.run ops) c C' :=
  run_inv (fun t => ∃ C', CovInv t c C') (GoodOp n) t ops ⟨C, h⟩
    (fun _ o ⟨_, hC⟩ hq => (apply_inv hC o hq).2) ho

end

end TF
