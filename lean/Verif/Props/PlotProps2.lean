import Verif.Props.PlotProps

set_option linter.unusedSimpArgs false

/-!
# Plots, continued (C90): templates with other inner bin edges, single templates, projections, examples
-/

namespace TF.Props

open Classical Spec

noncomputable section

namespace Ex

/-- a three-bin histogram over (0, 3) with inner edges `a`, `b`, contents 1, 2, 3 and errors 1 -/
def h3 (a b : ℝ) : Hist :=
  (Hist.blank .h1 [⟨true, [0, a, b, 3]⟩] [3] (.d1 .tuple 0 3)).setBinned ⟨[3], vec ![1, 2, 3]⟩ (some ⟨[3], vec ![1, 1, 1]⟩)

theorem h3_eq (a b : ℝ) :
    Hist1d.fromBinned ⟨[3], vec ![1, 2, 3]⟩ ⟨true, [0, a, b, 3]⟩ (some ⟨[3], vec ![1, 1, 1]⟩) = .ok (h3 a b) := rfl

def t3 (name : String) (hid : ℕ) (a b : ℝ) : Template :=
  { cls := .t1, name := name, hist := hid
    flatCounts := vec ![1, 2, 3], flatErrSq := (vec ![1, 1, 1]).map Fl.sq
    bins := [3], numBins := 3, range := .d1 .tuple 0 3
    params := initParams 3 (h3 a b)
    cov := Mat.diagOf (statErrSq ((vec ![1, 1, 1]).map Fl.sq))
    covMats := [Mat.diagOf (statErrSq ((vec ![1, 1, 1]).map Fl.sq))]
    corr := Mat.diagOf (List.replicate 3 1), invCorr := Mat.diagOf (List.replicate 3 1)
    relErr := relErrs (Mat.diagOf (statErrSq ((vec ![1, 1, 1]).map Fl.sq))) (vec ![1, 2, 3]) }

theorem t3_eq (name : String) (hid : ℕ) (a b : ℝ) : Template1d.new name hid (h3 a b) = .ok (t3 name hid a b) := by
  unfold Template1d.new
  show Template.build .t1 name hid (h3 a b) 3 = _
  unfold Template.build
  rw [if_pos ⟨by simp [h3, Hist.setBinned, vec_length], by
    simp [h3, Hist.setBinned, NdArr.map, vec_length]⟩]
  rfl

theorem t3_shape (name : String) (hid : ℕ) (a b : ℝ) :
    HasShape (t3 name hid a b) (![1, 2, 3] : Fin 3 → ℝ) (fun i => (![1, 1, 1] : Fin 3 → ℝ) i / (![1, 2, 3] : Fin 3 → ℝ) i) := by
  refine ⟨rfl, rfl, ?_, rfl⟩
  show relErrs (Mat.diagOf (statErrSq ((vec ![1, 1, 1]).map Fl.sq))) (vec ![1, 2, 3]) = _
  rw [map_vec ![1, 1, 1] Fl.sq (fun i => (![1, 1, 1] : Fin 3 → ℝ) i ^ 2) (fun i => Fl.sq_fin _), statErrSq_vec,
    relErrs_vec (isReal_diagOf _) (fun i => by
      rw [Matrix.diagonal_apply_eq]; exact (statVar_pos (sq_nonneg _)).le)]
  congr 1
  funext i
  rw [Matrix.diagonal_apply_eq]
  fin_cases i <;> norm_num [relOf, statVar]

theorem t3_params (name : String) (hid : ℕ) (a b : ℝ) : HasParams (t3 name hid a b) 6 (fun _ : Fin 3 => (0 : ℝ)) := by
  unfold HasParams
  simp [t3, initParams, h3, Hist.setBinned, npSum, vec, List.ofFn_succ, Fl.zero_def, List.replicate]
  norm_num [Fl.fin_add]

/-- two templates with three bins over (0, 3), the second with other inner edges, in one channel -/
def ops3 : List Op :=
  [.binned1 ⟨[3], vec ![1, 2, 3]⟩ ⟨true, [0, 1, 2, 3]⟩ (some ⟨[3], vec ![1, 1, 1]⟩),
   .binned1 ⟨[3], vec ![1, 2, 3]⟩ ⟨true, [0, 1/4, 1/2, 3]⟩ (some ⟨[3], vec ![1, 1, 1]⟩),
   .newTmpl1 "s" 0, .newTmpl1 "b" 1,
   .defineChannel "a" (.int 3) (.d1 .tuple 0 3), .defineProcess "sig", .defineProcess "bkg",
   .addTemplate "a" "sig" 0 (.fin 1), .addTemplate "a" "bkg" 1 (.fin 1)]

def ch3 : Channel :=
  ⟨"a", [3], .d1 .tuple 0 3, ["sig", "bkg"], [("sig", 0), ("bkg", 1)],
   [("sig", .fin 1), ("bkg", .fin 1)], none, some 1, some .t1, some .h1⟩

def w3 : World :=
  { World.init with
    hists := Function.update (Function.update (fun _ => dummyHist) 0 (h3 1 2)) 1 (h3 (1/4) (1/2))
    nHists := 2
    tmpls := Function.update (Function.update (fun _ => dummyTmpl) 0 (t3 "s" 0 1 2)) 1 (t3 "b" 1 (1/4) (1/2))
    nTmpls := 2
    chans := Function.update (fun _ => dummyChan) 0 ch3
    nChans := 1 }

def sys3 : Sys := ⟨w3, ⟨[("a", 0)], ["sig", "bkg"], [], [], []⟩⟩

theorem run3 : Sys.init.run ops3 = sys3 := by
  simp only [ops3, Sys.run, List.foldl_cons, List.foldl_nil, Sys.step, h3_eq, Sys.allocHist, World.newHist,
    Sys.init, World.init, Sys.allocTmpl, World.newTmpl]
  simp [t3_eq, Sys.allocTmpl, World.newTmpl, Function.update_apply]
  simp [Mct.defineChannel, Mct.defineProcess,
    Mct.addTemplate, World.addTemplate, Mct.empty, World.newChan, dictSet, dictGet, Mct.addData, World.addData,
    World.setChan, Channel.new, Channel.addTemplate, Channel.checkTemplate, Channel.procs, t3, h3,
    Hist.setBinned, Hist.blank, ChanBins.toTuple, Channel.addData, Channel.checkHist, sys3, w3, ch3,
    World.init, Function.update_apply]

theorem sys3_reachable : sys3.Reachable := ⟨_, run3⟩

/-- the bin edges of the two histograms -/
def e3 : Fin 2 → Fin 4 → ℝ := ![![0, 1, 2, 3], ![0, 1/4, 1/2, 3]]

/-- what the stacked plot of this channel draws -/
theorem plot3 : ∃ bar, sys3.w.plotStackedOn 0 = (.ok (), [
    .hist (List.ofFn fun k => List.ofFn (mid (e3 k))) (List.ofFn fun _ : Fin 2 => vec (![1, 2, 3] : Fin 3 → ℝ))
      (List.ofFn (e3 0)) ["s", "b"], bar]) := by
  have hpl : sys3.w.plotData 0 = (.ok (), []) := C90_no_data _ _ (by simp [sys3, w3, ch3])
  have h := C90_pre_fit (K := 1) (n := 3) sys3 sys3_reachable "a" 0 (by simp [sys3]) (by simp [sys3, w3, ch3])
    ![t3 "s" 0 1 2, t3 "b" 1 (1/4) (1/2)] (by simp [World.chanTmpls, sys3, w3, ch3]) e3
    (by intro k; fin_cases k <;> simp [sys3, w3, t3, h3, e3, Hist.setBinned, Hist.blank, List.ofFn_succ])
    (fun _ => ![1, 2, 3]) (fun _ i => (![1, 1, 1] : Fin 3 → ℝ) i / (![1, 2, 3] : Fin 3 → ℝ) i) (fun _ => 6) (fun _ _ => 0)
    (by intro k; fin_cases k; exacts [t3_shape _ _ _ _, t3_shape _ _ _ _])
    (by intro k; fin_cases k; exacts [t3_params _ _ _ _, t3_params _ _ _ _])
    (by intro k; simp [Fin.sum_univ_three]; norm_num)
  simp only [hpl] at h
  have hv : binValue (![1, 2, 3] : Fin 3 → ℝ) (fun i => (![1, 1, 1] : Fin 3 → ℝ) i / (![1, 2, 3] : Fin 3 → ℝ) i) 6 (fun _ => 0) = ![1, 2, 3] := by
    have hs : ∑ j : Fin 3, (![1, 2, 3] : Fin 3 → ℝ) j * (1 + 0 * ((![1, 1, 1] : Fin 3 → ℝ) j / (![1, 2, 3] : Fin 3 → ℝ) j)) = 6 := by
      simp [Fin.sum_univ_succ]; norm_num
    funext i
    unfold binValue
    rw [hs]
    fin_cases i <;> norm_num
  simp only [hv] at h
  exact ⟨_, h⟩

end Ex

/-- **C90 is false for templates with other inner bin edges.** A reachable channel holds a template whose first bin
contains 1 event; the stacked plot shows 3 events in the first bin for it. (The bins are those of the first template,
and the contents are drawn wherever the centres of the template's own bins fall.) -/
theorem C90_edges_refuted : ∃ (s : Sys) (c : ℕ), s.Reachable ∧ ("a", c) ∈ s.m.channels ∧
    ∃ (x0 x1 : List ℝ) (w0 w1 : Vec) (edges : List ℝ) (bar : Draw),
      s.w.plotStackedOn c = (.ok (), [.hist [x0, x1] [w0, w1] edges ["s", "b"], bar]) ∧
      (∃ t ∈ s.w.chanTmpls c, t.name = "b" ∧ ∃ sh, t.values = .ok ⟨sh, [.fin 1, .fin 2, .fin 3]⟩) ∧
      drawnHeight x0 w0 edges 0 = .fin 1 ∧ drawnHeight x1 w1 edges 0 = .fin 3 := by
  obtain ⟨bar, h⟩ := Ex.plot3
  refine ⟨Ex.sys3, 0, Ex.sys3_reachable, by simp [Ex.sys3], List.ofFn (mid (Ex.e3 0)), List.ofFn (mid (Ex.e3 1)),
    vec ![1, 2, 3], vec ![1, 2, 3], List.ofFn (Ex.e3 0), bar, ?_, ?_, ?_, ?_⟩
  · rw [h]; rfl
  · refine ⟨Ex.t3 "b" 1 (1/4) (1/2), by simp [World.chanTmpls, Ex.sys3, Ex.w3, Ex.ch3], rfl, [3], ?_⟩
    · rw [values_vec (Ex.t3_shape _ _ _ _) (Ex.t3_params _ _ _ _) (by simp [varied, Fin.sum_univ_succ]; norm_num)]
      show Except.ok (NdArr.mk [3] _) = _
      congr 2
      simp [vec, List.ofFn_succ, frac, varied, Fin.sum_univ_three]
      norm_num
  · have he : StrictMono (Ex.e3 0) := by
      intro i j hij
      (fin_cases i <;> fin_cases j <;> simp_all [Ex.e3]); norm_num
    exact drawn_at_mids he _ 0
  · unfold drawnHeight
    have h0 : DrawnIn (List.ofFn (Ex.e3 0)) 0 (1/8) := ⟨0, 1, by simp [Ex.e3, List.ofFn_succ], by simp [Ex.e3, List.ofFn_succ], by norm_num, Or.inl (by norm_num)⟩
    have h1 : DrawnIn (List.ofFn (Ex.e3 0)) 0 (3/8) := ⟨0, 1, by simp [Ex.e3, List.ofFn_succ], by simp [Ex.e3, List.ofFn_succ], by norm_num, Or.inl (by norm_num)⟩
    have h2 : ¬ DrawnIn (List.ofFn (Ex.e3 0)) 0 (7/4) := by
      rintro ⟨a, b, -, hb, -, hc⟩
      simp [Ex.e3, List.ofFn_succ] at hb
      subst hb
      rcases hc with hc | ⟨hc, -⟩ <;> norm_num at hc
    have hm : List.ofFn (mid (Ex.e3 1)) = [1/8, 3/8, 7/4] := by
      simp [List.ofFn_succ, mid, Ex.e3]
      norm_num [Fin.castSucc, Fin.castAdd, Fin.castLE]
    rw [hm, filter_sum]
    have hw : vec (![1, 2, 3] : Fin 3 → ℝ) = [.fin 1, .fin 2, .fin 3] := by simp [vec, List.ofFn_succ]
    rw [hw]
    simp only [List.zip_cons_cons, List.zip_nil_right, List.map_cons, List.map_nil,
      if_pos h0, if_pos h1, if_neg h2, List.sum_cons, List.sum_nil]
    simp [Fl.zero_def]
    norm_num

/-! ### Single templates -/

/-- **C90, one-dimensional template.** `Template1d.plot_on` draws the current bin values in their bins, and a band of
half height ε_i · value_i around them. -/
theorem C90_template1d {n : ℕ} (t : Template) (h : Hist) (e : Fin (n + 1) → ℝ) (he : h.edges = [⟨true, List.ofFn e⟩])
    (c ε : Fin n → ℝ) (y : ℝ) (θ : Fin n → ℝ) (hsh : HasShape t c ε) (hp : HasParams t y θ)
    (hS : ∑ j, c j * (1 + θ j * ε j) ≠ 0) :
    let v := binValue c ε y θ
    Template1d.plotOn t h = (.ok (), [.hist [List.ofFn (mid e)] [vec v] (List.ofFn e) [t.name],
      .bar (List.ofFn (mid e)) (vec fun i => 2 * (ε i * v i)) (List.ofFn (width e)) (vec fun i => v i - ε i * v i)]) ∧
    (StrictMono e → ∀ i : Fin n, drawnHeight (List.ofFn (mid e)) (vec v) (List.ofFn e) i = .fin (v i)) := by
  intro v
  have hE : h.axisEdges 0 = ⟨true, List.ofFn e⟩ := by unfold Hist.axisEdges; rw [he]; rfl
  refine ⟨?_, fun hm i => drawn_at_mids hm v i⟩
  have hm : Hist1d.binMids h = .ok (List.ofFn (mid e)) := by unfold Hist1d.binMids; rw [hE, binMids_ofFn]
  have hw : Hist1d.binWidths h = .ok (List.ofFn (width e)) := by unfold Hist1d.binWidths; rw [hE, binWidths_ofFn]
  have hv : t.values = .ok ⟨t.bins, vec v⟩ := values_vec hsh hp hS
  have hr : t.errors = .ok ⟨t.bins, vec fun i => ε i * v i⟩ := errors_vec hsh hp hS
  unfold Template1d.plotOn plotProjection
  rw [hm, hv, hr, hw]
  simp only [Except.map]
  rw [barOf_vec, hE]

end

end TF.Props

namespace TF.Spec

noncomputable section

open Classical

/-- position of cell `(i, j)` of an `nx` × `ny` array in the flattened array -/
def cell {nx ny : ℕ} (i : Fin nx) (j : Fin ny) : Fin (nx * ny) :=
  ⟨i * ny + j, calc i * ny + j < (i + 1) * ny := by rw [Nat.succ_mul]; omega
    _ ≤ nx * ny := Nat.mul_le_mul_right ny i.isLt⟩

/-- what `ax.hist2d(x, y, weights=w, bins=[ex, ey])` shows in cell `(i, j)` -/
def drawnCell (x y : List ℝ) (w : List Fl) (ex ey : List ℝ) (i j : ℕ) : Fl :=
  ((((x.zip y).zip w).filter fun p => decide (DrawnIn ex i p.1.1 ∧ DrawnIn ey j p.1.2)).map (·.2)).sum

end

end TF.Spec

namespace TF.Props

open Classical Spec

noncomputable section

theorem cell_inj {nx ny : ℕ} (i i' : Fin nx) (j j' : Fin ny) (h : cell i j = cell i' j') : i = i' ∧ j = j' := by
  have h' : (i : ℕ) * ny + j = i' * ny + j' := congrArg Fin.val h
  have hj := j.isLt
  have hj' := j'.isLt
  have h1 : ((i : ℕ) * ny + j) / ny = i := by
    rw [mul_comm, Nat.mul_add_div (by omega), Nat.div_eq_of_lt hj]; simp
  have h2 : ((i' : ℕ) * ny + j') / ny = i' := by
    rw [mul_comm, Nat.mul_add_div (by omega), Nat.div_eq_of_lt hj']; simp
  rw [h', h2] at h1
  refine ⟨Fin.ext h1.symm, Fin.ext ?_⟩
  rw [h1] at h'
  omega

theorem cell_surj {nx ny : ℕ} (k : Fin (nx * ny)) : ∃ i j, k = cell (nx := nx) (ny := ny) i j := by
  refine ⟨k.divNat, k.modNat, Fin.ext ?_⟩
  show (k : ℕ) = (k : ℕ) / ny * ny + k % ny
  have := Nat.div_add_mod (k : ℕ) ny
  rw [mul_comm] at this
  exact this.symm

theorem sum_cell {nx ny : ℕ} (f : Fin (nx * ny) → ℝ) : ∑ k, f k = ∑ i, ∑ j, f (cell i j) := by
  rw [← Fintype.sum_prod_type']
  exact (Fintype.sum_bijective (fun p : Fin nx × Fin ny => cell p.1 p.2)
    ⟨fun p q h => Prod.ext (cell_inj _ _ _ _ h).1 (cell_inj _ _ _ _ h).2, fun k => by
      obtain ⟨i, j, rfl⟩ := cell_surj k; exact ⟨(i, j), rfl⟩⟩ _ _ (fun _ => rfl)).symm

theorem at2_vec {nx ny : ℕ} (f : Fin (nx * ny) → ℝ) (i : Fin nx) (j : Fin ny) :
    (NdArr.mk [nx, ny] (vec f)).at2 i j = .fin (f (cell i j)) := by
  unfold NdArr.at2
  show (vec f).getD (i * ny + j) 0 = _
  rw [List.getD_eq_getElem?_getD]
  show ((vec f)[(cell i j : ℕ)]?).getD 0 = _
  rw [vec_getElem? f (cell i j)]
  rfl

theorem range_map_vec {n : ℕ} (g : ℕ → Fl) (f : Fin n → ℝ) (h : ∀ i : Fin n, g i = .fin (f i)) :
    (List.range n).map g = vec f := by
  apply List.ext_getElem
  · simp [vec]
  · intro i h1 h2
    simp at h1
    simpa [vec] using h ⟨i, h1⟩

theorem sumAxis1_vec {nx ny : ℕ} (f : Fin (nx * ny) → ℝ) :
    (NdArr.mk [nx, ny] (vec f)).sumAxis1 = ⟨[nx], vec fun i => ∑ j, f (cell i j)⟩ := by
  unfold NdArr.sumAxis1
  show NdArr.mk [nx] _ = _
  congr 1
  refine range_map_vec _ _ fun i => ?_
  show ((List.range ny).map fun j => (NdArr.mk [nx, ny] (vec f)).at2 i j).sum = _
  rw [range_map_vec _ (fun j => f (cell i j)) (fun j => at2_vec f i j), vec_sum]

theorem sumAxis0_vec {nx ny : ℕ} (f : Fin (nx * ny) → ℝ) :
    (NdArr.mk [nx, ny] (vec f)).sumAxis0 = ⟨[ny], vec fun j => ∑ i, f (cell i j)⟩ := by
  unfold NdArr.sumAxis0
  show NdArr.mk [ny] _ = _
  congr 1
  refine range_map_vec _ _ fun j => ?_
  show ((List.range nx).map fun i => (NdArr.mk [nx, ny] (vec f)).at2 i j).sum = _
  rw [range_map_vec _ (fun i => f (cell i j)) (fun i => at2_vec f i j), vec_sum]

theorem pairs_ofFn {nx ny : ℕ} (a : Fin nx → ℝ) (b : Fin ny → ℝ) :
    ((List.ofFn a).flatMap fun x => (List.ofFn b).map fun y => (x, y)) =
      List.ofFn fun k : Fin (nx * ny) => (a k.divNat, b k.modNat) := by
  have : (fun x : ℝ => (List.ofFn b).map fun y => (x, y)) = fun x => List.ofFn fun j => (x, b j) := by
    funext x; rw [List.map_ofFn]; rfl
  rw [this, List.ofFn_mul, List.flatMap_def, List.map_ofFn]
  congr 2
  funext i
  show List.ofFn (fun j => (a i, b j)) = _
  congr 1
  funext j
  have h := cell_surj (cell i j)
  have e1 : (cell i j).divNat = i := by
    obtain ⟨i', j', hh⟩ := h
    apply Fin.ext
    show ((i : ℕ) * ny + j) / ny = i
    rw [mul_comm, Nat.mul_add_div (by have := j.isLt; omega), Nat.div_eq_of_lt j.isLt]; simp
  have e2 : (cell i j).modNat = j := by
    apply Fin.ext
    show ((i : ℕ) * ny + j) % ny = j
    rw [mul_comm, Nat.mul_add_mod, Nat.mod_eq_of_lt j.isLt]
  have e3 : (⟨i * ny + j, by exact (cell i j).isLt⟩ : Fin (nx * ny)) = cell i j := rfl
  show _ = (a (Fin.divNat ⟨i * ny + j, _⟩), b (Fin.modNat ⟨i * ny + j, _⟩))
  rw [e3, e1, e2]

/-- **C90, two-dimensional template.** `Template2d.plot_on` shows the current value of every cell in that cell. -/
theorem C90_template2d {nx ny : ℕ} (t : Template) (h : Hist) (ex : Fin (nx + 1) → ℝ) (ey : Fin (ny + 1) → ℝ)
    (he : h.edges = [⟨true, List.ofFn ex⟩, ⟨true, List.ofFn ey⟩]) (c ε : Fin (nx * ny) → ℝ) (y : ℝ) (θ : Fin (nx * ny) → ℝ)
    (hsh : HasShape t c ε) (hp : HasParams t y θ) (hS : ∑ j, c j * (1 + θ j * ε j) ≠ 0) :
    ∃ xs ys, Template2d.plotOn t h =
      (.ok (), [.hist2d xs ys (vec (binValue c ε y θ)) (List.ofFn ex) (List.ofFn ey) t.name]) ∧
    (StrictMono ex → StrictMono ey → ∀ (i : Fin nx) (j : Fin ny),
      drawnCell xs ys (vec (binValue c ε y θ)) (List.ofFn ex) (List.ofFn ey) i j = .fin (binValue c ε y θ (cell i j))) := by
  set v := binValue c ε y θ with hvdef
  have hv : t.values = .ok ⟨t.bins, vec v⟩ := values_vec hsh hp hS
  refine ⟨List.ofFn fun k : Fin (nx * ny) => mid ex k.divNat, List.ofFn fun k : Fin (nx * ny) => mid ey k.modNat, ?_, ?_⟩
  · unfold Template2d.plotOn Hist2d.binMids Hist.axisEdges
    rw [he, hv]
    simp only [mapE, binMids_ofFn]
    simp only [List.getD_cons_zero, List.getD_cons_succ]
    rw [pairs_ofFn, List.map_ofFn, List.map_ofFn]
    rfl
  · intro mx my i j
    unfold drawnCell vec
    rw [zip_ofFn, zip_ofFn, filter_sum, List.map_ofFn]
    have : ((fun a : (ℝ × ℝ) × Fl => if DrawnIn (List.ofFn ex) i a.1.1 ∧ DrawnIn (List.ofFn ey) j a.1.2 then a.2 else 0) ∘
        fun k : Fin (nx * ny) => ((mid ex k.divNat, mid ey k.modNat), Fl.fin (v k))) =
        fun k => Fl.fin (if k = cell i j then v k else 0) := by
      funext k
      obtain ⟨i', j', rfl⟩ := cell_surj k
      have e1 : (cell i' j').divNat = i' := by
        apply Fin.ext
        show ((i' : ℕ) * ny + j') / ny = i'
        rw [mul_comm, Nat.mul_add_div (by have := j'.isLt; omega), Nat.div_eq_of_lt j'.isLt]; simp
      have e2 : (cell i' j').modNat = j' := by
        apply Fin.ext
        show ((i' : ℕ) * ny + j') % ny = j'
        rw [mul_comm, Nat.mul_add_mod, Nat.mod_eq_of_lt j'.isLt]
      simp only [Function.comp, e1, e2, mid_drawn mx, mid_drawn my]
      by_cases hh : i' = i ∧ j' = j
      · obtain ⟨rfl, rfl⟩ := hh
        simp
      · rw [if_neg hh, if_neg (fun h' => hh (cell_inj _ _ _ _ h'))]; rfl
    rw [this]
    have := vec_sum fun k : Fin (nx * ny) => if k = cell i j then v k else 0
    unfold vec at this
    rw [this]
    simp

theorem map_sq_nd {n : ℕ} (sh : List ℕ) (f : Fin n → ℝ) :
    (NdArr.mk sh (vec f)).map Fl.sq = ⟨sh, vec fun i => f i ^ 2⟩ := by
  unfold NdArr.map
  rw [map_vec f Fl.sq (fun i => f i ^ 2) (fun i => Fl.sq_fin _)]

theorem map_sqrt_nd {n : ℕ} (sh : List ℕ) (f : Fin n → ℝ) (h : ∀ i, 0 ≤ f i) :
    (NdArr.mk sh (vec f)).map Fl.sqrt = ⟨sh, vec fun i => Real.sqrt (f i)⟩ := by
  unfold NdArr.map
  rw [map_vec f Fl.sqrt (fun i => Real.sqrt (f i)) (fun i => Fl.sqrt_fin (h i))]

theorem plotProjection_vec {n : ℕ} (name : String) (v u : Fin n → ℝ) (p : Hist) (e : Fin (n + 1) → ℝ)
    (he : p.edges = [⟨true, List.ofFn e⟩]) :
    plotProjection name (vec v) (.ok (vec u)) p = (.ok (), [.hist [List.ofFn (mid e)] [vec v] (List.ofFn e) [name],
      .bar (List.ofFn (mid e)) (vec fun i => 2 * u i) (List.ofFn (width e)) (vec fun i => v i - u i)]) := by
  have hE : p.axisEdges 0 = ⟨true, List.ofFn e⟩ := by unfold Hist.axisEdges; rw [he]; rfl
  have hm : Hist1d.binMids p = .ok (List.ofFn (mid e)) := by unfold Hist1d.binMids; rw [hE, binMids_ofFn]
  have hw : Hist1d.binWidths p = .ok (List.ofFn (width e)) := by unfold Hist1d.binWidths; rw [hE, binWidths_ofFn]
  unfold plotProjection
  rw [hm, hw, hE]
  simp only
  rw [barOf_vec]

theorem fromBinned_edges {n : ℕ} (counts : NdArr) (e : Fin (n + 1) → ℝ) (er : Option NdArr) :
    ∃ p, Hist1d.fromBinned counts ⟨true, List.ofFn e⟩ er = .ok p ∧ p.edges = [⟨true, List.ofFn e⟩] := by
  unfold Hist1d.fromBinned Hist1d.init getBinRange
  simp only [List.ofFn_succ]
  exact ⟨_, rfl, rfl⟩

/-- **C90, projections of a two-dimensional template.** `plot_x_projection_on` shows in bin i the sum of the
current values of the cells (i, ·), with a band whose half height is the quadratic sum of their errors;
`plot_y_projection_on` does the same for columns. -/
theorem C90_projections {nx ny : ℕ} (t : Template) (h : Hist) (ex : Fin (nx + 1) → ℝ) (ey : Fin (ny + 1) → ℝ)
    (he : h.edges = [⟨true, List.ofFn ex⟩, ⟨true, List.ofFn ey⟩]) (hb : t.bins = [nx, ny])
    (c ε : Fin (nx * ny) → ℝ) (y : ℝ) (θ : Fin (nx * ny) → ℝ)
    (hsh : HasShape t c ε) (hp : HasParams t y θ) (hS : ∑ j, c j * (1 + θ j * ε j) ≠ 0) :
    let v := binValue c ε y θ
    let vx := fun i : Fin nx => ∑ j : Fin ny, v (cell i j)
    let ux := fun i : Fin nx => Real.sqrt (∑ j : Fin ny, (ε (cell i j) * v (cell i j)) ^ 2)
    let vy := fun j : Fin ny => ∑ i : Fin nx, v (cell i j)
    let uy := fun j : Fin ny => Real.sqrt (∑ i : Fin nx, (ε (cell i j) * v (cell i j)) ^ 2)
    Template2d.plotXProjectionOn t h = (.ok (), [.hist [List.ofFn (mid ex)] [vec vx] (List.ofFn ex) [t.name],
      .bar (List.ofFn (mid ex)) (vec fun i => 2 * ux i) (List.ofFn (width ex)) (vec fun i => vx i - ux i)]) ∧
    Template2d.plotYProjectionOn t h = (.ok (), [.hist [List.ofFn (mid ey)] [vec vy] (List.ofFn ey) [t.name],
      .bar (List.ofFn (mid ey)) (vec fun i => 2 * uy i) (List.ofFn (width ey)) (vec fun i => vy i - uy i)]) ∧
    (StrictMono ex → ∀ i : Fin nx, drawnHeight (List.ofFn (mid ex)) (vec vx) (List.ofFn ex) i = .fin (vx i)) ∧
    (StrictMono ey → ∀ j : Fin ny, drawnHeight (List.ofFn (mid ey)) (vec vy) (List.ofFn ey) j = .fin (vy j)) := by
  intro v vx ux vy uy
  have hv : t.values = .ok ⟨[nx, ny], vec v⟩ := by rw [← hb]; exact values_vec hsh hp hS
  have hr : t.errors = .ok ⟨[nx, ny], vec fun k => ε k * v k⟩ := by rw [← hb]; exact errors_vec hsh hp hS
  refine ⟨?_, ?_, fun hm i => drawn_at_mids hm vx i, fun hm i => drawn_at_mids hm vy i⟩
  · obtain ⟨p, hp1, hp2⟩ := fromBinned_edges h.counts.sumAxis1 ex (some (h.errSq.sumAxis1.map Fl.sqrt))
    unfold Template2d.plotXProjectionOn Hist2d.xProjection
    rw [hv, hr, he]
    simp only [List.getD_cons_zero]
    rw [hp1]
    simp only
    rw [sumAxis1_vec, map_sq_nd, sumAxis1_vec, map_sqrt_nd _ _ (fun i => Finset.sum_nonneg fun j _ => sq_nonneg _)]
    exact plotProjection_vec t.name vx ux p ex hp2
  · obtain ⟨p, hp1, hp2⟩ := fromBinned_edges h.counts.sumAxis0 ey (some (h.errSq.sumAxis0.map Fl.sqrt))
    unfold Template2d.plotYProjectionOn Hist2d.yProjection
    rw [hv, hr, he]
    simp only [List.getD_cons_zero, List.getD_cons_succ]
    rw [hp1]
    simp only
    rw [sumAxis0_vec, map_sq_nd, sumAxis0_vec, map_sqrt_nd _ _ (fun i => Finset.sum_nonneg fun j _ => sq_nonneg _)]
    exact plotProjection_vec t.name vy uy p ey hp2

/-- `_get_projection`: "x" sums over the second axis, "y" over the first, anything else is a KeyError -/
theorem C90_get_projection {nx ny : ℕ} (f : Fin (nx * ny) → ℝ) :
    getProjection "x" ⟨[nx, ny], vec f⟩ = .ok ⟨[nx], vec fun i => ∑ j, f (cell i j)⟩ ∧
    getProjection "y" ⟨[nx, ny], vec f⟩ = .ok ⟨[ny], vec fun j => ∑ i, f (cell i j)⟩ ∧
    ∀ ax, ax ≠ "x" → ax ≠ "y" → getProjection ax ⟨[nx, ny], vec f⟩ = .error .keyError := by
  refine ⟨?_, ?_, ?_⟩
  · unfold getProjection; rw [if_pos rfl, sumAxis1_vec]
  · unfold getProjection; rw [if_neg (by decide), if_pos rfl, sumAxis0_vec]
  · intro ax h1 h2
    unfold getProjection; rw [if_neg h1, if_neg h2]

/-! ### The hypotheses are met -/

namespace Ex

/-- "scale" in the one-channel example: errors of two yields and two times three nuisance parameters -/
example : ∃ d, sys3.w.plotPostFitOn 0 (.scale (vec ![1, 1] ++ nuiVec (fun (_ : Fin 2) (_ : Fin 3) => (1 : ℝ)))) = (.ok (), d) ∧
    d.length = 2 := by
  have hpl : sys3.w.plotData 0 = (.ok (), []) := C90_no_data _ _ (by simp [sys3, w3, ch3])
  have h := C90_post_fit (K := 1) (n := 3) sys3 sys3_reachable "a" 0 (by simp [sys3]) (by simp [sys3, w3, ch3])
    ![t3 "s" 0 1 2, t3 "b" 1 (1/4) (1/2)] (by simp [World.chanTmpls, sys3, w3, ch3]) e3
    (by intro k; fin_cases k <;> simp [sys3, w3, t3, h3, e3, Hist.setBinned, Hist.blank, List.ofFn_succ])
    (fun _ => ![1, 2, 3]) (fun _ i => (![1, 1, 1] : Fin 3 → ℝ) i / (![1, 2, 3] : Fin 3 → ℝ) i) (fun _ => 6) (fun _ _ => 0)
    (by intro k; fin_cases k; exacts [t3_shape _ _ _ _, t3_shape _ _ _ _])
    (by intro k; fin_cases k; exacts [t3_params _ _ _ _, t3_params _ _ _ _])
    (by intro k; simp [Fin.sum_univ_three]; norm_num) (.scale (vec ![1, 1] ++ nuiVec (fun (_ : Fin 2) (_ : Fin 3) => (1 : ℝ)))) _
    (Or.inr ⟨![1, 1], fun _ _ => 1, rfl, fun i => rfl⟩)
  simp only [hpl] at h
  exact ⟨_, h, rfl⟩

/-- "scale" with the errors of a fit that has further channels -/
example : ∃ d, sys3.w.plotPostFitOn 0 (.scale (List.replicate 14 1)) = (.error .valueError, d) := by
  have hd := stackData_eq (K := 1) (n := 3) (w := sys3.w) (c := 0) (by simp [sys3, w3, ch3])
    ![t3 "s" 0 1 2, t3 "b" 1 (1/4) (1/2)] (by simp [World.chanTmpls, sys3, w3, ch3]) e3
    (by intro k; fin_cases k <;> simp [sys3, w3, t3, h3, e3, Hist.setBinned, Hist.blank, List.ofFn_succ])
    (fun _ i => 6 * frac ![1, 2, 3] (fun i => (![1, 1, 1] : Fin 3 → ℝ) i / (![1, 2, 3] : Fin 3 → ℝ) i) (fun _ => 0) i)
    (by
      have hS : ∑ j, varied ![1, 2, 3] (fun i => (![1, 1, 1] : Fin 3 → ℝ) i / (![1, 2, 3] : Fin 3 → ℝ) i) (fun _ => 0) j ≠ 0 := by
        simp [varied, Fin.sum_univ_succ]; norm_num
      intro k; fin_cases k
      · exact ⟨_, values_vec (t3_shape _ _ _ _) (t3_params _ _ _ _) hS⟩
      · exact ⟨_, values_vec (t3_shape _ _ _ _) (t3_params _ _ _ _) hS⟩)
  exact ⟨_, C90_scale_refuted (K := 1) (n := 3) sys3.w 0 ![t3 "s" 0 1 2, t3 "b" 1 (1/4) (1/2)]
    (by simp [World.chanTmpls, sys3, w3, ch3])
    (fun _ => ![1, 2, 3]) (fun _ i => (![1, 1, 1] : Fin 3 → ℝ) i / (![1, 2, 3] : Fin 3 → ℝ) i) (fun _ => 6) (fun _ _ => 0)
    (by intro k; fin_cases k; exacts [t3_shape _ _ _ _, t3_shape _ _ _ _])
    (by intro k; fin_cases k; exacts [t3_params _ _ _ _, t3_params _ _ _ _])
    (by intro k; simp [Fin.sum_univ_three]; norm_num) _ hd _ (by simp) (by simp) (by norm_num)⟩

/-- the data points of channel `a` of the two-channel example -/
example : ∃ d, sys1.w.plotData 0 = (.ok (), [d]) :=
  ⟨_, C90_data (n := 2) sys1.w 0 2 (by simp [sys1, w1, chA]) ![0, 1, 2]
    (by simp [sys1, w1, w0, bh, Hist.setBinned, Hist.blank, List.ofFn_succ]) ![10, 5] (fun i => (![3, 2] : Fin 2 → ℝ) i ^ 2)
    (by simpa [sys1, w1, w0] using (bh_is ![10, 5] ![3, 2]).counts) (by simpa [sys1, w1, w0] using (bh_is ![10, 5] ![3, 2]).errSq)
    (fun i => sq_nonneg _)⟩

/-- a 2 × 2 histogram -/
def h22 : Hist := (Hist.blank .h2 [⟨true, [0, 1, 2]⟩, ⟨true, [0, 1, 3]⟩] [2, 2] (.d2 .tuple .tuple .tuple 0 2 0 3)).setBinned
  ⟨[2, 2], vec ![1, 2, 3, 4]⟩ (some ⟨[2, 2], vec ![1, 1, 1, 1]⟩)

theorem h22_is : HistIs (n := 4) h22 ![1, 2, 3, 4] (fun i => (![1, 1, 1, 1] : Fin 4 → ℝ) i ^ 2) :=
  ⟨rfl, map_vec _ _ _ (fun i => Fl.sq_fin _), fun i => sq_nonneg _, by simp [h22, Hist.setBinned, Hist.blank],
    by simp [h22, Hist.setBinned, Hist.blank], Or.inr (by simp [h22, Hist.setBinned, Hist.blank])⟩

/-- the projections of a template made from it -/
example : ∃ t d, Template2d.new "t" 0 h22 = .ok t ∧ Template2d.plotXProjectionOn t h22 = (.ok (), d) := by
  obtain ⟨t, h1, h2⟩ := newTemplate_fresh "t" 0 h22 _ _ h22_is
  refine ⟨t, ?_⟩
  have hsh : HasShape t _ _ := ⟨h2.numBins, h2.flatCounts, h2.relErr, by rw [h2.bins]; exact h22_is.shape⟩
  have hp : HasParams t (∑ i, (![1, 2, 3, 4] : Fin 4 → ℝ) i) (fun _ : Fin 4 => (0 : ℝ)) := by
    unfold HasParams
    rw [h2.params, replicate_zero_vec]
  have := C90_projections (nx := 2) (ny := 2) t h22 ![0, 1, 2] ![0, 1, 3]
    (by simp [h22, Hist.setBinned, Hist.blank, List.ofFn_succ]) (by rw [h2.bins]; simp [h22, Hist.setBinned, Hist.blank])
    _ _ _ _ hsh hp (by simp [Fin.sum_univ_succ]; norm_num)
  exact ⟨_, h1, this.1⟩

end Ex

end

end TF.Props
