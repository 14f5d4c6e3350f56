import Verif.Props.HistProps
import Verif.Props.UtilityProps
import Verif.Props.TemplateProps2
import Verif.Props.LegacySysProps7
import Verif.Model.Plot

set_option linter.unusedSimpArgs false

/-!
# Sharper forms of C06, C10, C27 and C115

* `C06_hist1d`, `C06_hist2d`: widths and centres through the histogram's own attributes, after any fills;
* `C10_any`: the exact result of `cov2corr` for *every* matrix whose zero-variance rows vanish, also with negative variances;
* `C27_history`: `reset` as one more call of a history;
* `C115_mids`: centres of the bins of a legacy `Hist1d`.
-/

namespace TF.Props

open Classical Spec
open scoped Matrix

noncomputable section

/-! ## C06 -/

theorem linspace_geometry (n : ℕ) (lo hi : ℝ) (hn : 1 ≤ n) (hlt : lo < hi) :
    TF.binWidths ⟨true, linspace lo hi (n + 1)⟩ = .ok (List.replicate n ((hi - lo) / n)) ∧
    ∃ ms, TF.binMids ⟨true, linspace lo hi (n + 1)⟩ = .ok ms ∧ ms.length = n ∧
        ∀ i < n, ms[i]? = some (lo + (i + 1 / 2) * ((hi - lo) / n)) := by
  obtain ⟨H, e, h1, h2, -, -, -, -, -, -, -, -, ⟨ws, h3, h4, -⟩, h5⟩ := C06_equal_width n .tuple lo hi hn hlt
  have hE : H = Hist.blank .h1 [⟨true, linspace lo hi (n + 1)⟩] [n] (.d1 .tuple lo hi) := by
    simp only [Hist1d.new, Hist1d.init, uniform1, Int.toNat_natCast] at h1
    rw [if_neg (by omega)] at h1
    exact (Except.ok.inj h1).symm
  have he : e = ⟨true, linspace lo hi (n + 1)⟩ := by
    rw [hE] at h2
    simp only [Hist.blank, List.cons.injEq, and_true] at h2
    exact h2.symm
  subst he
  exact ⟨by rw [h3, h4], h5⟩

theorem accumulate_edges (h : Hist) (c e : Except Err NdArr) (b : Bool) : (h.accumulate c e b).2.edges = h.edges ∧
    (h.accumulate c e b).2.numBins = h.numBins := by
  unfold Hist.accumulate
  simp only
  repeat' split
  all_goals exact ⟨rfl, rfl⟩

theorem fill1_edges (l : List (Vec × Weights)) : ∀ h : Hist,
    (l.foldl (fun h d => (Hist1d.fill h d.1 d.2).2) h).edges = h.edges ∧
    (l.foldl (fun h d => (Hist1d.fill h d.1 d.2).2) h).numBins = h.numBins := by
  induction l with
  | nil => intro h; exact ⟨rfl, rfl⟩
  | cons d l ih =>
    intro h
    rw [List.foldl_cons]
    exact ⟨(ih _).1.trans (accumulate_edges _ _ _ _).1, (ih _).2.trans (accumulate_edges _ _ _ _).2⟩

theorem fill2_edges (l : List (Vec × Vec × Weights)) : ∀ h : Hist,
    (l.foldl (fun h d => (Hist2d.fill h d.1 d.2.1 d.2.2).2) h).edges = h.edges ∧
    (l.foldl (fun h d => (Hist2d.fill h d.1 d.2.1 d.2.2).2) h).numBins = h.numBins := by
  induction l with
  | nil => intro h; exact ⟨rfl, rfl⟩
  | cons d l ih =>
    intro h
    rw [List.foldl_cons]
    exact ⟨(ih _).1.trans (accumulate_edges _ _ _ _).1, (ih _).2.trans (accumulate_edges _ _ _ _).2⟩

/-- **C06, `Hist1d`.** Whatever was filled (successfully or not), the attributes `bin_widths` and `bin_mids` of an equal-width histogram are
the widths and the centres of its `n` bins. -/
theorem C06_hist1d (n : ℕ) (k : SeqKind) (lo hi : ℝ) (hn : 1 ≤ n) (hlt : lo < hi) (fills : List (Vec × Weights)) :
    ∃ H, Hist1d.new (.int n) (some (.d1 k lo hi)) none .none = .ok H ∧
    ∀ H', H' = fills.foldl (fun h d => (Hist1d.fill h d.1 d.2).2) H →
      H'.numBins = [n] ∧ Hist1d.binWidths H' = .ok (List.replicate n ((hi - lo) / n)) ∧
      ∃ ms, Hist1d.binMids H' = .ok ms ∧ ms.length = n ∧
        ∀ i < n, ms[i]? = some (lo + (i + 1 / 2) * ((hi - lo) / n)) := by
  refine ⟨Hist.blank .h1 [⟨true, linspace lo hi (n + 1)⟩] [n] (.d1 k lo hi), ?_, ?_⟩
  · simp only [Hist1d.new, Hist1d.init, uniform1, Int.toNat_natCast]
    rw [if_neg (by omega)]
  rintro _ rfl
  have he := fill1_edges fills (Hist.blank .h1 [⟨true, linspace lo hi (n + 1)⟩] [n] (.d1 k lo hi))
  obtain ⟨g1, g2⟩ := linspace_geometry n lo hi hn hlt
  refine ⟨he.2, ?_, ?_⟩
  · unfold Hist1d.binWidths Hist.axisEdges; rw [he.1]; exact g1
  · unfold Hist1d.binMids Hist.axisEdges; rw [he.1]; exact g2

/-- **C06, `Hist2d`.** The same per axis: `bin_widths` and `bin_mids` list, for the x and then for the y axis, the widths and the centres of
the bins. -/
theorem C06_hist2d (nx ny : ℕ) (k kx ky : SeqKind) (xlo xhi ylo yhi : ℝ) (hx : 1 ≤ nx) (hy : 1 ≤ ny) (hxl : xlo < xhi)
    (hyl : ylo < yhi) (fills : List (Vec × Vec × Weights)) :
    ∃ H, Hist2d.new (.ints nx ny) (some (.d2 k kx ky xlo xhi ylo yhi)) none .none = .ok H ∧
    ∀ H', H' = fills.foldl (fun h d => (Hist2d.fill h d.1 d.2.1 d.2.2).2) H →
      H'.numBins = [nx, ny] ∧
      Hist2d.binWidths H' = .ok [List.replicate nx ((xhi - xlo) / nx), List.replicate ny ((yhi - ylo) / ny)] ∧
      ∃ mx my, Hist2d.binMids H' = .ok [mx, my] ∧ mx.length = nx ∧ my.length = ny ∧
        (∀ i < nx, mx[i]? = some (xlo + (i + 1 / 2) * ((xhi - xlo) / nx))) ∧
        (∀ i < ny, my[i]? = some (ylo + (i + 1 / 2) * ((yhi - ylo) / ny))) := by
  refine ⟨Hist.blank .h2 [⟨true, linspace xlo xhi (nx + 1)⟩, ⟨true, linspace ylo yhi (ny + 1)⟩] [nx, ny]
    (.d2 k kx ky xlo xhi ylo yhi), ?_, ?_⟩
  · simp only [Hist2d.new, Hist2d.init, Int.toNat_natCast]
    rw [if_neg (by omega)]
  rintro _ rfl
  have he := fill2_edges fills (Hist.blank .h2 [⟨true, linspace xlo xhi (nx + 1)⟩, ⟨true, linspace ylo yhi (ny + 1)⟩] [nx, ny]
    (.d2 k kx ky xlo xhi ylo yhi))
  obtain ⟨g1, mx, g2, g3, g4⟩ := linspace_geometry nx xlo xhi hx hxl
  obtain ⟨q1, my, q2, q3, q4⟩ := linspace_geometry ny ylo yhi hy hyl
  refine ⟨he.2, ?_, mx, my, ?_, g3, q3, g4, q4⟩
  · unfold Hist2d.binWidths; rw [he.1]; simp only [Hist.blank, mapE, g1, q1]
  · unfold Hist2d.binMids; rw [he.1]; simp only [Hist.blank, mapE, g2, q2]

/-- non-vacuity of `C06_hist2d`: 2 × 4 bins -/
example : ∃ H, Hist2d.new (.ints 2 4) (some (.d2 .tuple .tuple .tuple 0 1 (-1) 1)) none .none = .ok H ∧
    Hist2d.binWidths (Hist2d.fill H [.fin 0, .nan] [.fin 1, .fin 0] .none).2 =
      .ok [[1 / 2, 1 / 2], [1 / 2, 1 / 2, 1 / 2, 1 / 2]] := by
  obtain ⟨H, h1, h2⟩ := C06_hist2d 2 4 .tuple .tuple .tuple 0 1 (-1) 1 (by norm_num) (by norm_num) (by norm_num) (by norm_num)
    [([.fin 0, .nan], [.fin 1, .fin 0], .none)]
  refine ⟨H, h1, ?_⟩
  rw [(h2 (Hist2d.fill H [.fin 0, .nan] [.fin 1, .fin 0] .none).2 rfl).2.1]
  norm_num [List.replicate]

/-! ## C10 -/

theorem nanToNum_inv_neg {v : ℝ} (h : v < 0) : Fl.nanToNum ((1 : Fl) / Fl.sqrt (.fin v)) = .fin 0 := by
  have : Fl.sqrt (.fin v) = .nan := by
    show (if v < 0 then Fl.nan else .fin (Real.sqrt v)) = .nan
    rw [if_pos h]
  rw [this]; rfl

/-- **C10, every matrix.** If the rows and columns of vanishing variance are zero, then `cov2corr` returns `C i j / sqrt (C i i * C j j)` where
both variances are positive and 0 everywhere else: in particular rows and columns of *negative* variance give zeros, never NaN. -/
theorem C10_any {n : ℕ} (M : Mat) (C : Matrix (Fin n) (Fin n) ℝ) (hM : IsReal M C)
    (hz : ∀ i j, C i i = 0 ∨ C j j = 0 → C i j = 0) :
    IsReal (cov2corr M) (Matrix.of fun i j =>
      if 0 < C i i ∧ 0 < C j j then C i j / Real.sqrt (C i i * C j j) else 0) := by
  have hd : IsReal (invStdDiag M) (Matrix.diagonal fun i =>
      if C i i < 0 then 0 else if C i i = 0 then Fl.maxFloat else 1 / Real.sqrt (C i i)) := by
    unfold invStdDiag
    rw [isReal_diag hM]
    refine ⟨by simp [Mat.map, Mat.diagOf, vec_length], by simp [Mat.map, Mat.diagOf, vec_length], fun i j => ?_⟩
    simp only [Mat.map, Mat.diagOf, Matrix.diagonal_apply, Fin.val_inj]
    split
    · have : (List.map (fun v => (1:Fl) / v.sqrt) (vec fun i => C i i)).getD i 0
          = (1:Fl) / (Fl.fin (C i i)).sqrt := by simp [vec, List.getD]
      rw [this]
      by_cases hv : C i i < 0
      · rw [nanToNum_inv_neg hv, if_pos hv]
      · rw [sqrt_div_fin (not_lt.mp hv), if_neg hv]
    · rfl
  have := hd.mul (hM.mul hd)
  unfold cov2corr
  convert this using 1
  ext i j
  rw [Matrix.diagonal_mul, Matrix.mul_diagonal]
  simp only [Matrix.of_apply]
  rcases lt_trichotomy (C i i) 0 with hi | hi | hi
  · rw [if_neg (by intro h; linarith [h.1]), if_pos hi]; ring
  · rw [if_neg (by intro h; linarith [h.1]), hz i j (Or.inl hi)]; ring
  rcases lt_trichotomy (C j j) 0 with hj | hj | hj
  · rw [if_neg (by intro h; linarith [h.2]), if_pos hj]; ring
  · rw [if_neg (by intro h; linarith [h.2]), hz i j (Or.inr hj)]; ring
  rw [if_pos ⟨hi, hj⟩, if_neg hi.not_gt, if_neg hi.ne', if_neg hj.not_gt, if_neg hj.ne', Real.sqrt_mul hi.le]
  field_simp

/-- non-vacuity of `C10_any`: variances 4, −1 and 0 with a covariance between the first two -/
example : ∀ i j, (!![4, 1, 0; 1, -1, 0; 0, 0, 0] : Matrix (Fin 3) (Fin 3) ℝ) i i = 0 ∨
    (!![4, 1, 0; 1, -1, 0; 0, 0, 0] : Matrix (Fin 3) (Fin 3) ℝ) j j = 0 →
    (!![4, 1, 0; 1, -1, 0; 0, 0, 0] : Matrix (Fin 3) (Fin 3) ℝ) i j = 0 := by
  intro i j
  fin_cases i <;> fin_cases j <;> simp

/-! ## C27 -/

/-- **C27, history.** `reset()` as the last call of any history succeeds and leaves the template as the history left it, except that the
parameters are those of the new template; anything may follow, and a later `reset()` does the same again. -/
theorem C27_history (name : String) (hid : ℕ) (h : Hist) (t0 : Template)
    (h0 : newTemplate name hid h = .ok t0) (ops : List TOp) :
    (t0.run ops).apply (.reset h) = (.ok (), { t0.run ops with params := t0.params }) ∧
    t0.run (ops ++ [.reset h]) = { t0.run ops with params := t0.params } ∧
    t0.run (ops ++ [.reset h, .reset h]) = t0.run (ops ++ [.reset h]) := by
  have key := fun l => (C27_reset name hid h t0 h0 l).2.2.2
  have h1 : ∀ l, (t0.run l).apply (.reset h) = (.ok (), { t0.run l with params := t0.params }) := by
    intro l
    show (Except.ok (), (t0.run l).reset h) = _
    rw [key]
  have h2 : ∀ l, t0.run (l ++ [.reset h]) = { t0.run l with params := t0.params } := by
    intro l
    unfold Template.run
    rw [List.foldl_append, List.foldl_cons, List.foldl_nil]
    exact congrArg Prod.snd (h1 l)
  refine ⟨h1 ops, h2 ops, ?_⟩
  have := h2 (ops ++ [.reset h])
  rw [List.append_assoc] at this
  rw [List.cons_append, List.nil_append] at this
  rw [this, h2 ops]

/-! ## C115 -/

/-- **C115, `Hist1d.bin_mids`.** Whatever was filled, `bin_mids` of an equal-width legacy `Hist1d` are the centres of its bins. -/
theorem C115_mids {n : ℕ} (lo hi : ℝ) (hn : 1 ≤ n) (hlt : lo < hi) (h : LH1)
    (hm : LH1.init (.int n) (some (lo, hi)) = .ok h) (data : List (Vec × Weights)) (h' : LH1)
    (hh : h' = data.foldl (fun h d => (h.fill d.1 d.2).2) h) :
    ∃ ms, h'.binMids = .ok ms ∧ ms.length = n ∧ ∀ i < n, ms[i]? = some (lo + (i + 1 / 2) * ((hi - lo) / n)) := by
  have hf : ∀ (l : List (Vec × Weights)) (g : LH1), (l.foldl (fun h d => (h.fill d.1 d.2).2) g).edges = g.edges := by
    intro l
    induction l with
    | nil => intro g; rfl
    | cons d l ih =>
      intro g
      rw [List.foldl_cons, ih]
      unfold LH1.fill
      simp only
      repeat' split
      all_goals rfl
  have hE : h'.edges = ⟨true, linspace lo hi (n + 1)⟩ := by
    rw [hh, hf]
    unfold LH1.init at hm
    simp only at hm
    rw [if_neg (by omega)] at hm
    rw [← Except.ok.inj hm]
    simp
  unfold LH1.binMids
  rw [hE]
  exact (linspace_geometry n lo hi hn hlt).2

/-- non-vacuity of `C115_mids` -/
example : ∃ h, LH1.init (.int 4) (some (0, 2)) = .ok h ∧ ∃ ms, (h.fill [.fin 1, .nan] .none).2.binMids = .ok ms ∧ ms[1]? = some (3 / 4) := by
  refine ⟨_, rfl, ?_⟩
  obtain ⟨ms, h1, -, h2⟩ := C115_mids (n := 4) 0 2 (by norm_num) (by norm_num) _ rfl [([.fin 1, .nan], .none)] _ rfl
  refine ⟨ms, h1, ?_⟩
  rw [h2 1 (by norm_num)]
  norm_num

end

end TF.Props
