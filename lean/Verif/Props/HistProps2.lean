import Verif.Props.HistProps

set_option linter.unusedSimpArgs false

/-!
# Properties of `Hist2d` that mirror the 1-d ones (C03, C05, C09)
-/

namespace TF.Props

open Classical Spec

noncomputable section

theorem weightIn2_append (ex ey : List ℝ) (i j : ℕ) (x1 y1 w1 x2 y2 w2 : Vec)
    (h : x1.length = y1.length) (h' : x1.length = w1.length) :
    weightIn2 ex ey i j (x1 ++ x2) (y1 ++ y2) (w1 ++ w2) =
      weightIn2 ex ey i j x1 y1 w1 + weightIn2 ex ey i j x2 y2 w2 := by
  unfold weightIn2
  rw [List.zip_append h, List.zip_append (by simp [← h, h']), List.filter_append, List.map_append,
    List.sum_append]

theorem weightSqIn2_append (ex ey : List ℝ) (i j : ℕ) (x1 y1 w1 x2 y2 w2 : Vec)
    (h : x1.length = y1.length) (h' : x1.length = w1.length) :
    weightSqIn2 ex ey i j (x1 ++ x2) (y1 ++ y2) (w1 ++ w2) =
      weightSqIn2 ex ey i j x1 y1 w1 + weightSqIn2 ex ey i j x2 y2 w2 := by
  unfold weightSqIn2
  rw [List.zip_append h, List.zip_append (by simp [← h, h']), List.filter_append, List.map_append,
    List.sum_append]

theorem fill2_good {h : Hist} {ex ey : List ℝ} (hg : Good2 h ex ey) {x y w : Vec} {W : Weights}
    (hW : Usable W x w) (hxy : x.length = y.length) (hxw : x.length = w.length) (hne : x ≠ []) :
    Good2 (Hist2d.fill h x y W).2 ex ey := by
  obtain ⟨h', e, g, _⟩ := C08_fill2 h ex ey hg x y w W hW hxy hxw hne
  rw [e]; exact g

/-- **C03**, 2-d: two (non-empty) fills one after the other equal one fill with the concatenation. -/
theorem C03_fill2_append (h : Hist) (ex ey : List ℝ) (hg : Good2 h ex ey)
    (x1 y1 w1 x2 y2 w2 : Vec) (W1 W2 W : Weights) (h1 : Usable W1 x1 w1) (h2 : Usable W2 x2 w2)
    (h12 : Usable W (x1 ++ x2) (w1 ++ w2)) (l1 : x1.length = y1.length) (m1 : x1.length = w1.length)
    (l2 : x2.length = y2.length) (m2 : x2.length = w2.length) (n1 : x1 ≠ []) (n2 : x2 ≠ []) :
    Hist2d.fill (Hist2d.fill h x1 y1 W1).2 x2 y2 W2 =
      Hist2d.fill h (x1 ++ x2) (y1 ++ y2) W := by
  have g1 := fill2_good hg h1 l1 m1 n1
  rw [fill2_eq g1 h2 l2 m2 n2, fill2_eq hg h1 l1 m1 n1,
    fill2_eq hg h12 (by simp [l1, l2]) (by simp [m1, m2]) (by simp [n1])]
  simp only [zipWith_add_assoc, zipWith_add_map_range, weightIn2_append _ _ _ _ _ _ _ _ _ _ l1 m1,
    weightSqIn2_append _ _ _ _ _ _ _ _ _ _ l1 m1]

/-- **C03**, 2-d: permuting the events changes nothing. -/
theorem C03_fill2_perm (h : Hist) (ex ey : List ℝ) (hg : Good2 h ex ey) (x y w x' y' w' : Vec)
    (W W' : Weights) (hW : Usable W x w) (hW' : Usable W' x' w') (l : x.length = y.length)
    (m : x.length = w.length) (l' : x'.length = y'.length) (m' : x'.length = w'.length)
    (hp : ((x.zip y).zip w).Perm ((x'.zip y').zip w')) :
    Hist2d.fill h x y W = Hist2d.fill h x' y' W' := by
  have hlen := hp.length_eq
  simp only [List.length_zip, ← l, ← m, ← l', ← m', min_self] at hlen
  by_cases hne : x = []
  · subst hne
    have hx' : x' = [] := by simpa using hlen.symm
    subst hx'
    have hw : w = [] := by simpa using m.symm
    have hw' : w' = [] := by simpa using m'.symm
    have hy : y = [] := by simpa using l.symm
    have hy' : y' = [] := by simpa using l'.symm
    subst hw hw' hy hy'
    simp [Hist2d.fill, binnedSum2, Hist.accumulate, (usable_values hW).1, (usable_values hW').1]
  · have hne' : x' ≠ [] := by
      intro h0; subst h0; simp at hlen; exact hne hlen
    rw [fill2_eq hg hW l m hne, fill2_eq hg hW' l' m' hne']
    simp only [weightIn2, weightSqIn2, filter_map_sum_perm hp]

/-- non-vacuity of the 2-d C03 -/
example : Hist2d.fill exHist2 [.fin 0, .fin 5] [.fin 1, .fin 0] (.array [.fin 3, .fin 4]) =
    Hist2d.fill exHist2 [.fin 5, .fin 0] [.fin 0, .fin 1] (.list [.fin 4, .fin 3]) :=
  C03_fill2_perm exHist2 _ _ exHist2_good _ _ [.fin 3, .fin 4] _ _ [.fin 4, .fin 3] _ _
    (Or.inr (Or.inr rfl)) (Or.inr (Or.inl rfl)) rfl rfl rfl rfl (List.Perm.swap _ _ _)

/-- **C05 (partial)**, 2-d: same statement as `C05_rejected_fill_partial` for `Hist2d.fill`. -/
theorem C05_rejected_fill2_partial (h : Hist) (hs : h.counts.shape = h.errSq.shape)
    (hl : h.counts.data.length = h.errSq.data.length) (x y : Vec) (W : Weights)
    (hW : ∀ w, W ≠ .tuple w) (e : Err) (he : (Hist2d.fill h x y W).1 = .error e) :
    (Hist2d.fill h x y W).2 = h := by
  have hnp : W.noPow = false := by cases W with
    | tuple w => exact absurd rfl (hW w)
    | _ => rfl
  simp only [Hist2d.fill, hnp] at *
  generalize (h.edges.getD 0 ⟨true, []⟩).vals = ex at *
  generalize (h.edges.getD 1 ⟨true, []⟩).vals = ey at *
  generalize W.values x.length = w at *
  have hcase : (∃ s s2, binnedSum2 ex ey x y w = .ok s ∧ binnedSum2 ex ey x y (w.map Fl.sq) = .ok s2 ∧
      s.shape = s2.shape ∧ s.data.length = s2.data.length) ∨
      ∃ a, binnedSum2 ex ey x y w = .error a := by
    unfold binnedSum2
    split
    · right; exact ⟨_, rfl⟩
    · split
      · right; exact ⟨_, rfl⟩
      · split
        · left
          rename_i h1 h2 h3
          rw [if_neg (by simpa using h1)]
          exact ⟨_, _, rfl, rfl, rfl, by simp⟩
        · right; exact ⟨_, rfl⟩
  rcases hcase with ⟨s, s2, e1, e2, hss, hsl⟩ | ⟨a, ea⟩
  · rw [e1, e2] at he ⊢
    simp only [Hist.accumulate, Bool.false_eq_true, if_false] at he ⊢
    by_cases hc : h.counts.shape = s.shape ∧ h.counts.data.length = s.data.length
    · rw [iadd_ok hc.1 hc.2] at he
      simp only at he
      rw [iadd_ok (by rw [← hs, hc.1, hss]) (by rw [← hl, hc.2, hsl])] at he
      simp at he
    · simp [NdArr.iadd, hc]
  · rw [ea]; rfl

/-- **C09**, the y projection commutes with filling in the same way. -/
theorem C09_yprojection_commutes (h : Hist) (ex ey : List ℝ) (hg : Good2 h ex ey) (x y w : Vec)
    (W : Weights) (hW : Usable W x w) (hxy : x.length = y.length) (hxw : x.length = w.length)
    (hne : x ≠ []) (p p' : Hist) (hp : Hist2d.yProjection h = .ok p)
    (hp' : Hist2d.yProjection (Hist2d.fill h x y W).2 = .ok p') :
    let kept := ((x.zip y).zip w).filter fun q => decide (∃ i, InBin ex i q.1.1)
    p'.counts.data =
      (Hist1d.fill p (kept.map fun q => q.1.2) (.array (kept.map (·.2)))).2.counts.data := by
  intro kept
  obtain ⟨h', e1, g', _, hcell⟩ := C08_fill2 h ex ey hg x y w W hW hxy hxw hne
  rw [e1] at hp'
  obtain ⟨q, hq, gq, cq, _, _⟩ := C09_yprojection h ex ey hg
  obtain ⟨q', hq', gq', cq', _, _⟩ := C09_yprojection h' ex ey g'
  rw [hp] at hq; obtain rfl : p = q := by injection hq
  simp only at hp'
  rw [hp'] at hq'; obtain rfl : p' = q' := by injection hq'
  rw [fill1_eq gq (Or.inr (Or.inr rfl)) (by simp)]
  apply List.ext_getElem?
  intro j
  by_cases hj : j < ey.length - 1
  · rw [cq' j hj, List.getElem?_zipWith, cq j hj]
    simp only [List.getElem?_map, List.getElem?_range hj, Option.map_some, Option.some.injEq]
    have hsum : ((List.range (ex.length - 1)).map fun i =>
        h'.counts.data.getD (i * (ey.length - 1) + j) 0) =
        (List.range (ex.length - 1)).map fun i =>
          h.counts.data.getD (i * (ey.length - 1) + j) 0 + weightIn2 ex ey i j x y w := by
      apply List.map_congr_left
      intro i hi
      have hi' : i < ex.length - 1 := by simpa using hi
      have := (hcell i hi' j hj).1
      have hb : i * (ey.length - 1) + j < h.counts.data.length := by
        rw [hg.counts_len]
        calc i * (ey.length - 1) + j < i * (ey.length - 1) + (ey.length - 1) := by omega
          _ = (i + 1) * (ey.length - 1) := by ring
          _ ≤ _ := Nat.mul_le_mul_right _ (by omega)
      rw [List.getD_eq_getElem?_getD, this]
      simp [hb]
    rw [hsum, List.sum_map_add]
    congr 1
    unfold weightIn2 weightIn
    have hzip : (List.map (fun q => q.1.2) kept).zip (List.map (fun q => q.2) kept) =
        kept.map fun q => (q.1.2, q.2) := by
      rw [List.zip_map', ]
    rw [hzip, List.filter_map, List.map_map]
    have hs := sum_cells ((x.zip y).zip w) (·.2) (fun q => InBin ey j q.1.2)
      (fun i q => InBin ex i q.1.1) (ex.length - 1)
      (fun i q hi => by have := inBin_lt hi; omega)
      (fun i k q hi hk => inBin_unique hg.xincr hg.xtwo hi hk)
    simp only [and_comm (a := InBin ex _ _)]
    rw [hs, List.filter_filter]
    simp [Function.comp_def, Bool.and_comm]
  · have h1 : p'.counts.data.length ≤ j := by rw [gq'.counts_len]; omega
    rw [List.getElem?_eq_none h1, List.getElem?_eq_none]
    simp; right; omega

end

end TF.Props
