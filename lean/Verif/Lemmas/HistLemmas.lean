import Verif.Lemmas.Binning

set_option linter.unusedSimpArgs false

namespace TF

open Classical Spec

noncomputable section

theorem usable_values {W : Weights} {data w : Vec} (h : Usable W data w) :
    W.values data.length = w ∧ W.noPow = false := by
  rcases h with ⟨rfl, rfl⟩ | rfl | rfl
  · refine ⟨?_, rfl⟩
    simp [Weights.values]
  · exact ⟨rfl, rfl⟩
  · exact ⟨rfl, rfl⟩

theorem good1_edges {h : Hist} {edges : List ℝ} (hg : Good1 h edges) :
    (h.edges.getD 0 ⟨true, []⟩).vals = edges := by
  have := hg.edges_eq
  cases hh : h.edges with
  | nil => simp [hh] at this
  | cons e es => simp [hh] at this ⊢; exact this.1

/-- closed form of a successful 1-d fill -/
theorem fill1_eq {h : Hist} {edges : List ℝ} (hg : Good1 h edges) {data w : Vec} {W : Weights}
    (hW : Usable W data w) (hl : data.length = w.length) :
    Hist1d.fill h data W = (.ok (), { h with
      counts := ⟨h.counts.shape, List.zipWith (· + ·) h.counts.data
        ((List.range (edges.length - 1)).map fun i => weightIn edges i data w)⟩
      errSq := ⟨h.errSq.shape, List.zipWith (· + ·) h.errSq.data
        ((List.range (edges.length - 1)).map fun i => weightSqIn edges i data w)⟩
      isEmpty := false }) := by
  obtain ⟨hv, hp⟩ := usable_values hW
  simp only [Hist1d.fill, hv, hp, good1_edges hg]
  rw [binnedSum_eq hg.incr hg.two data w hl,
    binnedSum_eq hg.incr hg.two data (w.map Fl.sq) (by simpa using hl)]
  simp only [Hist.accumulate, weightIn_map_sq]
  rw [iadd_ok hg.counts_shape (by simp [hg.counts_len])]
  simp only [Bool.false_eq_true, if_false]
  rw [iadd_ok hg.err_shape (by simp [hg.err_len])]

theorem fill1_good {h : Hist} {edges : List ℝ} (hg : Good1 h edges) {data w : Vec} {W : Weights}
    (hW : Usable W data w) (hl : data.length = w.length) :
    Good1 (Hist1d.fill h data W).2 edges := by
  rw [fill1_eq hg hW hl]
  exact ⟨hg.cls, hg.edges_eq, hg.two, hg.incr, hg.counts_shape, by simp [hg.counts_len],
    hg.err_shape, by simp [hg.err_len]⟩

theorem linspace_length (lo hi : ℝ) (n : ℕ) : (linspace lo hi n).length = n := by simp [linspace]

theorem linspace_getElem? (lo hi : ℝ) (n i : ℕ) (h : i < n) :
    (linspace lo hi n)[i]? = some (lo + i * ((hi - lo) / (n - 1 : ℝ))) := by
  simp [linspace, h]

theorem linspace_pairwise {lo hi : ℝ} (h : lo < hi) (n : ℕ) (hn : 1 ≤ n) :
    (linspace lo hi (n + 1)).Pairwise (· < ·) := by
  unfold linspace
  rw [List.pairwise_map]
  apply List.Pairwise.imp (R := (· < ·)) _ List.pairwise_lt_range
  intro a b hab
  have h1 : (0:ℝ) < (hi - lo) / ((n + 1 : ℕ) - 1 : ℝ) := by
    apply div_pos (by linarith)
    push_cast
    have : (1:ℝ) ≤ n := by exact_mod_cast hn
    linarith
  have h2 : (a:ℝ) < b := by exact_mod_cast hab
  nlinarith

theorem blank_good1 {e : Edges} {nb : ℕ} {r : PyRange} (h2 : 2 ≤ e.vals.length)
    (hp : e.vals.Pairwise (· < ·)) (hn : nb = e.vals.length - 1) :
    Good1 (Hist.blank .h1 [e] [nb] r) e.vals := by
  subst hn
  exact ⟨rfl, rfl, h2, hp, by simp [Hist.blank, NdArr.zeros], by simp [Hist.blank, NdArr.zeros],
    by simp [Hist.blank, NdArr.zeros], by simp [Hist.blank, NdArr.zeros]⟩

theorem blank_good2 {ex ey : Edges} {nx ny : ℕ} {r : PyRange} (h2 : 2 ≤ ex.vals.length)
    (h2y : 2 ≤ ey.vals.length)
    (hp : ex.vals.Pairwise (· < ·)) (hpy : ey.vals.Pairwise (· < ·))
    (hn : nx = ex.vals.length - 1) (hny : ny = ey.vals.length - 1) :
    Good2 (Hist.blank .h2 [ex, ey] [nx, ny] r) ex.vals ey.vals := by
  subst hn; subst hny
  exact ⟨rfl, rfl, h2, h2y, hp, hpy, by simp [Hist.blank, NdArr.zeros],
    by simp [Hist.blank, NdArr.zeros],
    by simp [Hist.blank, NdArr.zeros], by simp [Hist.blank, NdArr.zeros]⟩

theorem good2_edges {h : Hist} {ex ey : List ℝ} (hg : Good2 h ex ey) :
    (h.edges.getD 0 ⟨true, []⟩).vals = ex ∧ (h.edges.getD 1 ⟨true, []⟩).vals = ey := by
  have := hg.edges_eq
  cases hh : h.edges with
  | nil => simp [hh] at this
  | cons e es =>
    cases es with
    | nil => simp [hh] at this
    | cons e' es => simp [hh] at this ⊢; exact ⟨this.1, this.2.1⟩

theorem binnedSum2_eq {ex ey : List ℝ} (hx : ex.Pairwise (· < ·)) (hx2 : 2 ≤ ex.length)
    (hy : ey.Pairwise (· < ·)) (hy2 : 2 ≤ ey.length)
    (x y w : Vec) (hxy : x.length = y.length) (hxw : x.length = w.length) (hne : x ≠ []) :
    binnedSum2 ex ey x y w =
      .ok ⟨[ex.length - 1, ey.length - 1],
        (List.range ((ex.length - 1) * (ey.length - 1))).map
        fun k => weightIn2 ex ey (k / (ey.length - 1)) (k % (ey.length - 1)) x y w⟩ := by
  have hv : validEdges ex ∧ validEdges ey := ⟨⟨hx2, hx⟩, ⟨hy2, hy⟩⟩
  have h0 : ¬ (x.length ≠ y.length ∨ x.length ≠ w.length) := by simp [← hxy, ← hxw]
  have h1 : ¬ x.length = 0 := by simpa using hne
  simp only [binnedSum2, if_neg h0, if_neg h1, if_pos hv]
  congr 2
  apply List.map_congr_left
  intro i _
  simp only [weightIn2]
  congr 2
  apply List.filter_congr
  intro p _
  simp only [binIndex_iff hx hx2, binIndex_iff hy hy2]

theorem weightIn2_map_sq (ex ey : List ℝ) (i j : ℕ) (x y w : Vec) :
    weightIn2 ex ey i j x y (w.map Fl.sq) = weightSqIn2 ex ey i j x y w := by
  unfold weightIn2 weightSqIn2
  rw [List.zip_map_right, List.filter_map, List.map_map]
  rfl

/-- closed form of a successful 2-d fill -/
theorem fill2_eq {h : Hist} {ex ey : List ℝ} (hg : Good2 h ex ey) {x y w : Vec} {W : Weights}
    (hW : Usable W x w) (hxy : x.length = y.length) (hxw : x.length = w.length) (hne : x ≠ []) :
    Hist2d.fill h x y W = (.ok (), { h with
      counts := ⟨h.counts.shape, List.zipWith (· + ·) h.counts.data
        ((List.range ((ex.length - 1) * (ey.length - 1))).map
          fun k => weightIn2 ex ey (k / (ey.length - 1)) (k % (ey.length - 1)) x y w)⟩
      errSq := ⟨h.errSq.shape, List.zipWith (· + ·) h.errSq.data
        ((List.range ((ex.length - 1) * (ey.length - 1))).map
          fun k => weightSqIn2 ex ey (k / (ey.length - 1)) (k % (ey.length - 1)) x y w)⟩
      isEmpty := false }) := by
  obtain ⟨hv, hp⟩ := usable_values hW
  obtain ⟨he1, he2⟩ := good2_edges hg
  simp only [Hist2d.fill, hv, hp, he1, he2]
  rw [binnedSum2_eq hg.xincr hg.xtwo hg.yincr hg.ytwo x y w hxy hxw hne,
    binnedSum2_eq hg.xincr hg.xtwo hg.yincr hg.ytwo x y (w.map Fl.sq) hxy (by simpa using hxw) hne]
  simp only [Hist.accumulate, weightIn2_map_sq]
  rw [iadd_ok hg.counts_shape (by simp [hg.counts_len])]
  simp only [Bool.false_eq_true, if_false]
  rw [iadd_ok hg.err_shape (by simp [hg.err_len])]

end

end TF

namespace TF

open Classical Spec

noncomputable section

theorem sum_cells {α : Type} (l : List α) (f : α → Fl) (Q : α → Prop) (P : ℕ → α → Prop) (n : ℕ)
    (hlt : ∀ i a, P i a → i < n) (huniq : ∀ i j a, P i a → P j a → i = j) :
    ((List.range n).map fun j => ((l.filter fun a => decide (Q a ∧ P j a)).map f).sum).sum
      = ((l.filter fun a => decide (Q a ∧ ∃ j, P j a)).map f).sum := by
  induction l with
  | nil => simp
  | cons p l ih =>
    have key : ∀ j, ((((p :: l).filter fun a => decide (Q a ∧ P j a)).map f).sum : Fl)
        = (if Q p ∧ P j p then f p else 0)
          + (((l.filter fun a => decide (Q a ∧ P j a)).map f).sum : Fl) := by
      intro j
      by_cases hj : Q p ∧ P j p <;> simp [List.filter_cons, hj]
    simp only [key]
    rw [List.sum_map_add, ih]
    have h1 : ((List.range n).map fun j => if Q p ∧ P j p then f p else 0).sum
        = (if Q p ∧ ∃ j, P j p then f p else 0) := by
      by_cases hex : Q p ∧ ∃ j, P j p
      · obtain ⟨hq, k, hk⟩ := hex
        rw [if_pos ⟨hq, k, hk⟩]
        have hfun : (fun j => if Q p ∧ P j p then f p else (0 : Fl)) =
            fun j => if j = k then f p else 0 := by
          funext j
          by_cases hjk : j = k
          · subst hjk; simp [hk, hq]
          · have : ¬ (Q p ∧ P j p) := fun hj => hjk (huniq _ _ _ hj.2 hk)
            simp [hjk, this]
        rw [hfun, list_range_sum, Finset.sum_ite_eq' (Finset.range _) k (fun _ => f p)]
        rw [if_pos (by simpa using hlt _ _ hk)]
      · rw [if_neg hex]
        apply List.sum_eq_zero
        intro x hx
        simp only [List.mem_map] at hx
        obtain ⟨j, _, rfl⟩ := hx
        rw [if_neg (fun hj => hex ⟨hj.1, j, hj.2⟩)]
    rw [h1]
    by_cases hex : Q p ∧ ∃ j, P j p
    · simp only [List.filter_cons, hex, decide_true, if_true, List.map_cons, List.sum_cons]
      simp
    · simp only [List.filter_cons, hex, decide_false, if_false, zero_add]
      simp

theorem sum_zipWith_add : ∀ {l1 l2 : Vec}, l1.length = l2.length →
    (List.zipWith (· + ·) l1 l2).sum = l1.sum + l2.sum
  | [], [], _ => by simp
  | a :: l1, b :: l2, h => by
    simp only [List.zipWith_cons_cons, List.sum_cons]
    rw [sum_zipWith_add (by simpa using h)]
    rw [add_add_add_comm]
  | [], _ :: _, h => by simp at h
  | _ :: _, [], h => by simp at h

theorem zipWith_add_assoc : ∀ (l1 l2 l3 : Vec),
    List.zipWith (· + ·) (List.zipWith (· + ·) l1 l2) l3
      = List.zipWith (· + ·) l1 (List.zipWith (· + ·) l2 l3)
  | [], _, _ => by simp
  | _ :: _, [], _ => by simp
  | _ :: _, _ :: _, [] => by simp
  | a :: l1, b :: l2, c :: l3 => by
    simp only [List.zipWith_cons_cons, zipWith_add_assoc l1 l2 l3, add_assoc]

theorem zipWith_add_map_range (n : ℕ) (f g : ℕ → Fl) :
    List.zipWith (· + ·) ((List.range n).map f) ((List.range n).map g)
      = (List.range n).map fun i => f i + g i := by
  rw [List.zipWith_map, List.zipWith_self]

theorem Fl.sqrt_sq (x : Fl) : Fl.sqrt (Fl.sq x) = Fl.abs x := by
  cases x with
  | fin r => rw [Fl.sq_fin, Fl.sqrt_fin (by positivity), Real.sqrt_sq_eq_abs]; rfl
  | _ => rfl

theorem Fl.abs_sqrt (x : Fl) : Fl.abs (Fl.sqrt x) = Fl.sqrt x := by
  cases x with
  | fin r =>
    by_cases h : r < 0
    · simp [Fl.sqrt_neg h, Fl.abs]
    · rw [Fl.sqrt_fin (not_lt.mp h), Fl.abs_fin, abs_of_nonneg (Real.sqrt_nonneg r)]
  | _ => rfl

theorem Fl.sq_sqrt {r : ℝ} (h : 0 ≤ r) : Fl.sq (Fl.sqrt (Fl.fin r)) = Fl.fin r := by
  rw [Fl.sqrt_fin h, Fl.sq_fin, Real.sq_sqrt h]

end

end TF
