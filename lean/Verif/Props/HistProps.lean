import Verif.Lemmas.HistLemmas
import Mathlib.Tactic.NormNum
import Mathlib.Tactic.FieldSimp

set_option linter.unusedSimpArgs false

/-!
# Properties of `Hist1d` / `Hist2d` (C01–C09)
-/

namespace TF.Props

open Classical Spec

noncomputable section

/-! ## Which histograms are `Good1` / `Good2` -/

/-- `Hist1d(bins=n, range=(lo, hi))` with at least one bin and `lo < hi` is `Good1`. -/
theorem new1_int_good (n : ℕ) (k : SeqKind) (lo hi : ℝ) (W : Weights) (hn : 1 ≤ n) (h : lo < hi) :
    ∃ H, Hist1d.new (.int n) (some (.d1 k lo hi)) none W = .ok H ∧
      Good1 H (linspace lo hi (n + 1)) := by
  refine ⟨_, rfl, ?_⟩
  have := blank_good1 (e := ⟨true, linspace lo hi (n + 1)⟩) (nb := n) (r := .d1 k lo hi)
    (by simp [linspace_length]; omega) (linspace_pairwise h n hn) (by simp [linspace_length])
  simpa using this

/-- `Hist1d(bins=edges)` with at least two strictly increasing edges is `Good1`. -/
theorem new1_edges_good (e : Edges) (r : Option PyRange) (W : Weights) (h2 : 2 ≤ e.vals.length)
    (hp : e.vals.Pairwise (· < ·)) :
    ∃ H, Hist1d.new (.edges e) r none W = .ok H ∧ Good1 H e.vals := by
  obtain ⟨a, v⟩ := e
  cases v with
  | nil => simp at h2
  | cons x l => exact ⟨_, rfl, blank_good1 h2 hp rfl⟩

/-- the same for `Hist2d(bins=(ex, ey))` -/
theorem new2_edges_good (ex ey : Edges) (r : Option PyRange) (W : Weights) (h2 : 2 ≤ ex.vals.length)
    (hp : ex.vals.Pairwise (· < ·)) (h2y : 2 ≤ ey.vals.length) (hpy : ey.vals.Pairwise (· < ·)) :
    ∃ H, Hist2d.new (.edges ex ey) r none W = .ok H ∧ Good2 H ex.vals ey.vals := by
  obtain ⟨a, v⟩ := ex
  obtain ⟨b, u⟩ := ey
  cases v with
  | nil => simp at h2
  | cons x l =>
    cases u with
    | nil => simp at h2y
    | cons y m => exact ⟨_, rfl, blank_good2 h2 h2y hp hpy rfl rfl⟩

/-- `from_binned_data` with arrays of the right size and increasing edges is `Good1`. -/
theorem binned1_good (counts errors : Vec) (e : Edges) (h2 : 2 ≤ e.vals.length)
    (hp : e.vals.Pairwise (· < ·)) (hc : counts.length = e.vals.length - 1)
    (he : errors.length = e.vals.length - 1) :
    ∃ H, Hist1d.fromBinned ⟨[counts.length], counts⟩ e (some ⟨[errors.length], errors⟩) = .ok H ∧
      Good1 H e.vals := by
  obtain ⟨a, v⟩ := e
  cases v with
  | nil => simp at h2
  | cons x l =>
    refine ⟨_, rfl, ⟨rfl, rfl, h2, hp, ?_, hc, ?_, ?_⟩⟩
    · simp [Hist.setBinned, hc]
    · simp [Hist.setBinned, NdArr.map, he]
    · simpa [Hist.setBinned, NdArr.map] using he

/-- a one-bin example histogram with the single bin `[0, 1]` -/
def exHist : Hist := Hist.blank .h1 [⟨true, [0, 1]⟩] [1] (.d1 .tuple 0 1)

theorem exHist_good : Good1 exHist [0, 1] := blank_good1 (e := ⟨true, [0, 1]⟩) (by simp) (by simp) rfl

/-- an example with three bins of different width -/
def exHist3 : Hist := Hist.blank .h1 [⟨true, [0, 1, 3, 7]⟩] [3] (.d1 .tuple 0 7)

theorem exHist3_good : Good1 exHist3 [0, 1, 3, 7] :=
  blank_good1 (e := ⟨true, [0, 1, 3, 7]⟩) (by simp) (by simp; norm_num) rfl

/-! ## C01, C02 -/

/-- **C01.** A fill with usable weights of matching length succeeds and adds to every bin exactly
the weight of the events in that bin; edges, shape and all other attributes are kept. -/
theorem C01_fill_counts (h : Hist) (edges : List ℝ) (hg : Good1 h edges) (data w : Vec) (W : Weights)
    (hW : Usable W data w) (hl : data.length = w.length) :
    ∃ h', Hist1d.fill h data W = (.ok (), h') ∧ Good1 h' edges ∧ h'.isEmpty = false ∧
      h'.edges = h.edges ∧ h'.range = h.range ∧
      ∀ i < edges.length - 1,
        h'.counts.data[i]? = (h.counts.data[i]?).map fun c => c + weightIn edges i data w := by
  refine ⟨_, fill1_eq hg hW hl, ?_, rfl, rfl, rfl, ?_⟩
  · have := fill1_good hg hW hl; rwa [fill1_eq hg hW hl] at this
  · intro i hi
    have hc : i < h.counts.data.length := by rw [hg.counts_len]; exact hi
    simp [List.getElem?_zipWith, hi, hc]

/-- **C01**, the bins are disjoint: an event is counted at most once. -/
theorem C01_bins_disjoint (edges : List ℝ) (hp : edges.Pairwise (· < ·)) (h2 : 2 ≤ edges.length)
    (x : Fl) (i j : ℕ) (hi : InBin edges i x) (hj : InBin edges j x) : i = j :=
  inBin_unique hp h2 hi hj

/-- **C01**, the last bin owns its right edge. -/
theorem C01_right_edge (edges : List ℝ) : AtRightEdge edges (edges.getLastD 0) := ⟨le_refl _, rfl⟩

theorem foldr_min_le (l : List ℝ) (x a : ℝ) (ha : a ∈ l) : l.foldr min x ≤ a := by
  induction l with
  | nil => simp at ha
  | cons b l ih =>
    rcases List.mem_cons.mp ha with rfl | ha
    · exact min_le_left _ _
    · exact (min_le_right _ _).trans (ih ha)

theorem foldr_min_pos (l : List ℝ) (x : ℝ) (hx : 0 < x) (h : ∀ a ∈ l, 0 < a) : 0 < l.foldr min x := by
  induction l with
  | nil => simpa
  | cons b l ih =>
    exact lt_min (h b (by simp)) (ih fun a ha => h a (by simp [ha]))

theorem rint_dist (a b : ℝ) (h : Fl.rintR a = Fl.rintR b) : |a - b| ≤ 1 := by
  have key : ∀ r : ℝ, |r - Fl.rintR r| ≤ 1 / 2 := by
    intro r
    have h1 := Int.floor_le r
    have h2 := Int.lt_floor_add_one r
    unfold Fl.rintR
    rw [abs_le]
    split
    · constructor <;> linarith
    · split
      · constructor <;> linarith
      · split
        · constructor <;> linarith
        · constructor <;> linarith
  have h1 := key a
  have h2 := key b
  rw [h] at h1
  have : a - b = (a - Fl.rintR b) - (b - Fl.rintR b) := by ring
  rw [this]
  calc _ ≤ |a - Fl.rintR b| + |b - Fl.rintR b| := abs_sub _ _
    _ ≤ 1 := by linarith

/-- **C01**, the tolerance beyond the last edge is at most `1e-5` of the smallest bin width: no
event further out is ever counted. -/
theorem C01_right_edge_tolerance (edges : List ℝ) (hp : edges.Pairwise (· < ·))
    (h2 : 2 ≤ edges.length) (x : ℝ) (hx : AtRightEdge edges x) (a b : ℝ) (i : ℕ)
    (ha : edges[i]? = some a) (hb : edges[i + 1]? = some b) :
    0 ≤ x - edges.getLastD 0 ∧ x - edges.getLastD 0 ≤ (b - a) / 10 ^ 5 := by
  obtain ⟨h1, hr⟩ := hx
  refine ⟨by linarith, ?_⟩
  set L := edges.getLastD 0 with hL
  set m := minWidth edges with hm
  have hmem : b - a ∈ List.zipWith (fun a b => b - a) edges edges.tail := by
    rw [List.mem_iff_getElem?]
    exact ⟨i, by simp [List.getElem?_zipWith, ha, hb]⟩
  have hmle : m ≤ b - a := foldr_min_le _ _ _ hmem
  have hmpos : 0 < m := by
    apply foldr_min_pos
    · cases edges with
      | nil => simp at h2
      | cons e es =>
        cases es with
        | nil => simp at h2
        | cons f fs =>
          have : e < (f :: fs).getLastD 0 := by
            apply (List.pairwise_cons.mp hp).1
            have hh := getLast_getElem? (edges := f :: fs) (by simp)
            exact List.mem_of_getElem? hh
          simp only [List.headD_cons]
          have e1 : (e :: f :: fs).getLastD 0 = (f :: fs).getLastD 0 := by
            simp [List.getLastD_eq_getLast?]
          rw [e1]; linarith
    · intro c hc
      rw [List.mem_iff_getElem?] at hc
      obtain ⟨k, hk⟩ := hc
      rw [List.getElem?_zipWith] at hk
      cases h3 : edges[k]? with
      | none => simp [h3] at hk
      | some u =>
        cases h4 : edges.tail[k]? with
        | none => simp [h3, h4] at hk
        | some v =>
          simp [h3, h4] at hk
          rw [List.getElem?_tail] at h4
          have hlt := (List.pairwise_iff_getElem.mp hp) k (k + 1)
            (List.getElem?_eq_some_iff.mp h3).1 (List.getElem?_eq_some_iff.mp h4).1 (by omega)
          rw [(List.getElem?_eq_some_iff.mp h3).2, (List.getElem?_eq_some_iff.mp h4).2] at hlt
          linarith
  set d := edgeDecimals edges with hd
  have hpow : (0:ℝ) < (10:ℝ) ^ d := by positivity
  have hrr : Fl.rintR (x * 10 ^ d) = Fl.rintR (L * 10 ^ d) := by
    unfold around at hr
    field_simp at hr
    rw [mul_comm L]; exact hr
  have hdist := rint_dist _ _ hrr
  have hx' : (x - L) * 10 ^ d ≤ 1 := by
    have := (abs_le.mp hdist).2
    nlinarith
  -- 10 ^ d * m ≥ 10 ^ 5
  have hkey : (10:ℝ) ^ 5 ≤ 10 ^ d * m := by
    have hlog : m = (10:ℝ) ^ (Real.logb 10 m) := (Real.rpow_logb (by norm_num) (by norm_num) hmpos).symm
    have hdge : (5:ℝ) - Real.logb 10 m ≤ (d:ℝ) := by
      rw [hd]; unfold edgeDecimals
      rw [← hm]
      push_cast
      split
      · have := Int.lt_floor_add_one (-(Real.logb 10 m)); linarith
      · have := Int.le_ceil (-(Real.logb 10 m)); linarith
    calc (10:ℝ) ^ 5 = (10:ℝ) ^ (5:ℝ) := by
          have := Real.rpow_natCast (10:ℝ) 5
          rw [← this]; congr 1
      _ = (10:ℝ) ^ ((5 - Real.logb 10 m) + Real.logb 10 m) := by rw [sub_add_cancel]
      _ = (10:ℝ) ^ (5 - Real.logb 10 m) * m := by
          rw [Real.rpow_add (by norm_num), ← hlog]
      _ ≤ (10:ℝ) ^ (d:ℝ) * m := by
          apply mul_le_mul_of_nonneg_right _ hmpos.le
          exact Real.rpow_le_rpow_of_exponent_le (by norm_num) hdge
      _ = 10 ^ d * m := by rw [Real.rpow_intCast]
  have h0 : 0 ≤ x - L := by linarith
  rw [le_div_iff₀ (by norm_num)]
  calc (x - L) * 10 ^ 5 ≤ (x - L) * (10 ^ d * m) := mul_le_mul_of_nonneg_left hkey h0
    _ = ((x - L) * 10 ^ d) * m := by ring
    _ ≤ 1 * m := mul_le_mul_of_nonneg_right hx' hmpos.le
    _ ≤ b - a := by linarith

/-- non-vacuity of C01: an event inside, one on the last edge, one outside, one NaN -/
example : InBin [0, 1, 3, 7] 1 (.fin 2) ∧ InBin [0, 1, 3, 7] 2 (.fin 7) ∧
    (∀ i, ¬ InBin [0, 1, 3, 7] i (.fin (-1))) ∧ (∀ i, ¬ InBin [0, 1, 3, 7] i .nan) := by
  refine ⟨Or.inl ⟨1, 3, rfl, rfl, by norm_num, by norm_num⟩, Or.inr ⟨rfl, C01_right_edge _⟩, ?_, ?_⟩
  · rintro i (⟨a, b, ha, hb, hab, _⟩ | ⟨_, h1, _⟩)
    · have : a ∈ ([0, 1, 3, 7] : List ℝ) := List.mem_of_getElem? ha
      simp at this
      rcases this with rfl | rfl | rfl | rfl <;> linarith
    · simp at h1; norm_num at h1
  · intro i h; exact h

/-- non-vacuity of C01: the theorem applies to a three-bin histogram and weighted data -/
example : ∃ h', Hist1d.fill exHist3 [.fin 2, .fin 100] (.array [.fin 5, .nan]) = (.ok (), h') ∧
    Good1 h' [0, 1, 3, 7] := by
  obtain ⟨h', e, hg, _⟩ := C01_fill_counts exHist3 _ exHist3_good [.fin 2, .fin 100] [.fin 5, .nan]
    (.array [.fin 5, .nan]) (Or.inr (Or.inr rfl)) rfl
  exact ⟨h', e, hg⟩

/-- **C02.** Every squared bin error grows by the sum of the squared weights in the bin. -/
theorem C02_fill_errors (h : Hist) (edges : List ℝ) (hg : Good1 h edges) (data w : Vec) (W : Weights)
    (hW : Usable W data w) (hl : data.length = w.length) (i : ℕ) (hi : i < edges.length - 1) :
    (Hist1d.fill h data W).2.errSq.data[i]? =
      (h.errSq.data[i]?).map fun c => c + weightSqIn edges i data w := by
  rw [fill1_eq hg hW hl]
  have hc : i < h.errSq.data.length := by rw [hg.err_len]; exact hi
  simp [List.getElem?_zipWith, hi, hc]

theorem weightSqIn_ones (edges : List ℝ) (i : ℕ) (data : Vec) :
    weightSqIn edges i data (data.map fun _ => (1 : Fl)) =
      weightIn edges i data (data.map fun _ => (1 : Fl)) := by
  unfold weightSqIn weightIn
  congr 1
  apply List.map_congr_left
  intro p hp
  have := (List.mem_filter.mp hp).1
  have h1 : p.2 = 1 := by
    have := (List.of_mem_zip (a := p.1) (b := p.2) this).2
    simp at this; exact this.2
  rw [h1]
  show Fl.fin 1 * Fl.fin 1 = Fl.fin 1
  simp

/-- **C02**, unweighted histories: after any sequence of unweighted fills of a fresh histogram the
squared errors equal the counts, so `bin_errors` is the square root of the counts. -/
theorem C02_unweighted (n : ℕ) (k : SeqKind) (lo hi : ℝ) (hn : 1 ≤ n) (hlt : lo < hi) (H : Hist)
    (hH : Hist1d.new (.int n) (some (.d1 k lo hi)) none .none = .ok H) (batches : List Vec) :
    let H' := batches.foldl (fun h d => (Hist1d.fill h d .none).2) H
    H'.errSq = H'.counts ∧ H'.binErrors = H'.counts.map Fl.sqrt := by
  obtain ⟨H0, e0, g0⟩ := new1_int_good n k lo hi .none hn hlt
  rw [hH] at e0
  obtain rfl : H = H0 := by injection e0
  have h0 : H.errSq = H.counts := by
    obtain rfl := Except.ok.inj (hH : Except.ok _ = Except.ok H)
    rfl
  have hkey : ∀ (bs : List Vec) (h : Hist), Good1 h (linspace lo hi (n + 1)) → h.errSq = h.counts →
      (bs.foldl (fun h d => (Hist1d.fill h d .none).2) h).errSq =
      (bs.foldl (fun h d => (Hist1d.fill h d .none).2) h).counts := by
    intro bs
    induction bs with
    | nil => intro h _ he; exact he
    | cons d bs ih =>
      intro h hg he
      have hU : Usable .none d (d.map fun _ => (1 : Fl)) := Or.inl ⟨rfl, rfl⟩
      have hl : d.length = (d.map fun _ => (1 : Fl)).length := by simp
      apply ih _ (fill1_good hg hU hl)
      rw [fill1_eq hg hU hl]
      simp only [weightSqIn_ones, he]
  have h1 := hkey batches H g0 h0
  refine ⟨h1, ?_⟩
  unfold Hist.binErrors
  rw [h1]

/-- non-vacuity of C02: a fresh histogram exists and can be filled -/
example : ∃ H, Hist1d.new (.int 3) (some (.d1 .tuple 0 3)) none .none = .ok H :=
  (new1_int_good 3 .tuple 0 3 .none (by norm_num) (by norm_num)).imp fun _ h => h.1

/-! ## C03 -/

/-- **C03.** Two fills one after the other equal one fill with the concatenated batch. -/
theorem C03_fill_append (h : Hist) (edges : List ℝ) (hg : Good1 h edges) (d1 w1 d2 w2 : Vec)
    (W1 W2 W : Weights) (h1 : Usable W1 d1 w1) (h2 : Usable W2 d2 w2)
    (h12 : Usable W (d1 ++ d2) (w1 ++ w2)) (l1 : d1.length = w1.length) (l2 : d2.length = w2.length) :
    (Hist1d.fill (Hist1d.fill h d1 W1).2 d2 W2) = Hist1d.fill h (d1 ++ d2) W := by
  have g1 := fill1_good hg h1 l1
  rw [fill1_eq g1 h2 l2, fill1_eq hg h1 l1, fill1_eq hg h12 (by simp [l1, l2])]
  simp only [zipWith_add_assoc, zipWith_add_map_range, weightIn_append _ _ _ _ _ _ l1,
    weightSqIn_append _ _ _ _ _ _ l1]

/-- **C03**, permuting the (event, weight) pairs of a batch changes nothing. -/
theorem C03_fill_perm (h : Hist) (edges : List ℝ) (hg : Good1 h edges) (d w d' w' : Vec)
    (W W' : Weights) (hW : Usable W d w) (hW' : Usable W' d' w')
    (l : d.length = w.length) (l' : d'.length = w'.length) (hp : (d.zip w).Perm (d'.zip w')) :
    Hist1d.fill h d W = Hist1d.fill h d' W' := by
  rw [fill1_eq hg hW l, fill1_eq hg hW' l']
  simp only [weightIn, weightSqIn, filter_map_sum_perm hp]

/-- non-vacuity of C03 -/
example : Hist1d.fill exHist3 [.fin 2, .fin 5] (.array [.fin 3, .fin 4]) =
    Hist1d.fill exHist3 [.fin 5, .fin 2] (.list [.fin 4, .fin 3]) :=
  C03_fill_perm exHist3 _ exHist3_good _ [.fin 3, .fin 4] _ [.fin 4, .fin 3] _ _
    (Or.inr (Or.inr rfl)) (Or.inr (Or.inl rfl)) rfl rfl (List.Perm.swap _ _ _)

/-! ## C04 -/

/-- **C04.** After any sequence of fills of a fresh histogram the summed bin counts equal the
summed weight of all events inside the range, fill by fill. -/
theorem C04_total_content (e : Edges) (r : Option PyRange) (W0 : Weights) (H : Hist)
    (h2 : 2 ≤ e.vals.length) (hp : e.vals.Pairwise (· < ·))
    (hH : Hist1d.new (.edges e) r none W0 = .ok H)
    (fills : List (Vec × Vec × Weights))
    (hf : ∀ f ∈ fills, Usable f.2.2 f.1 f.2.1 ∧ f.1.length = f.2.1.length) :
    (fills.foldl (fun h f => (Hist1d.fill h f.1 f.2.2).2) H).counts.data.sum =
      (fills.map fun f => weightInRange e.vals f.1 f.2.1).sum := by
  obtain ⟨H0, e0, g0⟩ := new1_edges_good e r W0 h2 hp
  rw [hH] at e0
  obtain rfl : H = H0 := by injection e0
  have hz : H.counts.data.sum = 0 := by
    obtain ⟨a, v⟩ := e
    cases v with
    | nil => simp at h2
    | cons x l =>
      simp [Hist1d.new, Hist1d.init, getBinRange] at hH
      rw [← hH]
      simp [Hist.blank, NdArr.zeros]
  have hkey : ∀ (fs : List (Vec × Vec × Weights)) (h : Hist), Good1 h e.vals →
      (∀ f ∈ fs, Usable f.2.2 f.1 f.2.1 ∧ f.1.length = f.2.1.length) →
      (fs.foldl (fun h f => (Hist1d.fill h f.1 f.2.2).2) h).counts.data.sum =
        h.counts.data.sum + (fs.map fun f => weightInRange e.vals f.1 f.2.1).sum := by
    intro fs
    induction fs with
    | nil => intro h _ _; simp
    | cons f fs ih =>
      intro h hg hfs
      obtain ⟨hu, hl⟩ := hfs f (by simp)
      simp only [List.foldl_cons, List.map_cons, List.sum_cons]
      rw [ih _ (fill1_good hg hu hl) (fun f hf => hfs f (by simp [hf])), fill1_eq hg hu hl]
      simp only
      rw [sum_zipWith_add (by simp [hg.counts_len]), sum_weightIn _ hg.incr hg.two, add_assoc]
  rw [hkey fills H g0 hf, hz, zero_add]

/-- non-vacuity of C04: two fills, one of them with an event outside -/
example : ∀ f ∈ ([([.fin 2], [.fin 5], .array [.fin 5]), ([.fin (-9)], [1], .none)] :
    List (Vec × Vec × Weights)), Usable f.2.2 f.1 f.2.1 ∧ f.1.length = f.2.1.length := by
  intro f hf
  simp at hf
  rcases hf with rfl | rfl
  · exact ⟨Or.inr (Or.inr rfl), rfl⟩
  · exact ⟨Or.inl ⟨rfl, rfl⟩, rfl⟩

/-! ## C05 -/

/-- **C05 is false of the code.** With a tuple as `weights` the counts are already updated when
`weights ** 2` raises `TypeError`: the fill is rejected but the histogram has changed. -/
theorem C05_refuted : ∃ (h : Hist) (edges : List ℝ) (data : Vec) (W : Weights), Good1 h edges ∧
    (Hist1d.fill h data W).1 = .error .typeError ∧
    (Hist1d.fill h data W).2.counts.data ≠ h.counts.data := by
  refine ⟨exHist, [0, 1], [.fin (1 / 2)], .tuple [1], exHist_good, ?_⟩
  have hw : weightIn [0, 1] 0 [.fin (1 / 2)] [1] = Fl.fin 1 := by
    have : InBin [0, 1] 0 (.fin (1 / 2)) := Or.inl ⟨0, 1, rfl, rfl, by norm_num, by norm_num⟩
    simp only [weightIn, List.zip_cons_cons, List.zip_nil_right, List.filter_cons, this, decide_true,
      if_true, List.filter_nil, List.map_cons, List.map_nil, List.sum_cons, List.sum_nil, add_zero]
    rfl
  have hb := binnedSum_eq exHist_good.incr exHist_good.two [.fin (1 / 2)] [1] rfl
  simp only [Hist1d.fill, good1_edges exHist_good, Weights.values, hb, Hist.accumulate]
  rw [iadd_ok (by simp [exHist, Hist.blank, NdArr.zeros]) (by simp [exHist, Hist.blank, NdArr.zeros])]
  constructor
  · rfl
  · simp only [Weights.noPow, exHist, Hist.blank, NdArr.zeros, if_true]
    simp only [List.length_cons, List.length_nil, Nat.reduceAdd, Nat.reduceSub, List.range_one,
      List.map_cons, List.map_nil, hw, List.prod_cons, List.prod_nil, mul_one, List.replicate_one,
      List.zipWith_cons_cons, List.zipWith_nil_right, ne_eq, List.cons.injEq, and_true]
    show ¬ (Fl.fin 0 + Fl.fin 1 = Fl.fin 0)
    simp

/-- **C05 (partial).** For lists, arrays or absent weights, and a histogram whose two content arrays
have the same shape, a rejected fill leaves the histogram unchanged. (Missing: tuples as weights,
see `C05_refuted`, and error arrays of the wrong shape handed to `from_binned_data`.) -/
theorem C05_rejected_fill_partial (h : Hist) (hs : h.counts.shape = h.errSq.shape)
    (hl : h.counts.data.length = h.errSq.data.length) (data : Vec) (W : Weights)
    (hW : ∀ w, W ≠ .tuple w) (e : Err) (he : (Hist1d.fill h data W).1 = .error e) :
    (Hist1d.fill h data W).2 = h := by
  have hnp : W.noPow = false := by cases W with
    | tuple w => exact absurd rfl (hW w)
    | _ => rfl
  simp only [Hist1d.fill, hnp] at *
  generalize (h.edges.getD 0 ⟨true, []⟩).vals = edges at *
  generalize W.values data.length = w at *
  have hcase : (∃ s s2, binnedSum edges data w = .ok s ∧ binnedSum edges data (w.map Fl.sq) = .ok s2 ∧
      s.shape = s2.shape ∧ s.data.length = s2.data.length) ∨
      ∃ x, binnedSum edges data w = .error x := by
    unfold binnedSum
    split
    · right; exact ⟨_, rfl⟩
    · split
      · left
        rename_i h1 h2
        rw [if_neg (by simpa using h1)]
        exact ⟨_, _, rfl, rfl, rfl, by simp⟩
      · right; exact ⟨_, rfl⟩
  rcases hcase with ⟨s, s2, e1, e2, hss, hsl⟩ | ⟨x, ex⟩
  · rw [e1, e2] at he ⊢
    simp only [Hist.accumulate, Bool.false_eq_true, if_false] at he ⊢
    by_cases hc : h.counts.shape = s.shape ∧ h.counts.data.length = s.data.length
    · rw [iadd_ok hc.1 hc.2] at he
      simp only at he
      rw [iadd_ok (by rw [← hs, hc.1, hss]) (by rw [← hl, hc.2, hsl])] at he
      simp at he
    · simp [NdArr.iadd, hc]
  · rw [ex]; rfl

/-- non-vacuity of the partial C05: a fill with too few weights is rejected -/
example : (Hist1d.fill exHist [.fin (1 / 2)] (.array [])).1 = .error .valueError := by
  simp [Hist1d.fill, Weights.values, binnedSum, Hist.accumulate]

/-! ## C06 -/

/-- **C06.** Equal-width binning: number of edges, end points, monotonicity, widths, midpoints. -/
theorem C06_equal_width (n : ℕ) (k : SeqKind) (lo hi : ℝ) (hn : 1 ≤ n) (hlt : lo < hi) :
    ∃ H e, Hist1d.new (.int n) (some (.d1 k lo hi)) none .none = .ok H ∧ H.edges = [e] ∧
      H.numBins = [n] ∧ H.range = .d1 k lo hi ∧ H.isEmpty = true ∧
      H.counts.data = List.replicate n 0 ∧
      e.vals.length = n + 1 ∧ e.vals.head? = some lo ∧ e.vals.getLast? = some hi ∧
      e.vals.Pairwise (· < ·) ∧
      (∃ ws, binWidths e = .ok ws ∧ ws = List.replicate n ((hi - lo) / n) ∧ ws.sum = hi - lo) ∧
      (∃ ms, binMids e = .ok ms ∧ ms.length = n ∧
        ∀ i < n, ms[i]? = some (lo + (i + 1 / 2) * ((hi - lo) / n))) := by
  have hn0 : (0:ℝ) < n := by exact_mod_cast hn
  refine ⟨_, ⟨true, linspace lo hi (n + 1)⟩, rfl, rfl, rfl, rfl, rfl, ?_, ?_, ?_, ?_, ?_, ?_, ?_⟩
  · simp [Hist.blank, NdArr.zeros]
  · simp [linspace_length]
  · rw [List.head?_eq_getElem?, linspace_getElem? _ _ _ _ (by omega)]; simp
  · rw [List.getLast?_eq_getElem?, linspace_length, linspace_getElem? _ _ _ _ (by omega)]
    congr 1
    push_cast
    have : ((n:ℝ) + 1 - 1) = n := by ring
    simp only [this, Nat.add_sub_cancel]
    field_simp
    ring
  · exact linspace_pairwise hlt n hn
  · have hw : List.zipWith (fun a b => b - a) (linspace lo hi (n + 1)) (linspace lo hi (n + 1)).tail
        = List.replicate n ((hi - lo) / n) := by
      apply List.ext_getElem?
      intro i
      rw [List.getElem?_zipWith, List.getElem?_tail]
      by_cases hi' : i < n
      · rw [linspace_getElem? _ _ _ _ (by omega), linspace_getElem? _ _ _ _ (by omega)]
        simp only [List.getElem?_replicate, hi', if_true, Option.some.injEq]
        push_cast
        have : ((n:ℝ) + 1 - 1) = n := by ring
        rw [this]; ring
      · have : (linspace lo hi (n + 1))[i + 1]? = none := by
          simp [linspace_length]; omega
        rw [this]
        simp [List.getElem?_replicate, hi']
    refine ⟨_, by simp [binWidths], hw, ?_⟩
    rw [hw]; simp; field_simp
  · refine ⟨_, if_pos rfl, by simp [linspace_length], ?_⟩
    intro i hi'
    rw [List.getElem?_zipWith, List.getElem?_tail, linspace_getElem? _ _ _ _ (by omega),
      linspace_getElem? _ _ _ _ (by omega)]
    simp only [Option.some.injEq]
    push_cast
    have : ((n:ℝ) + 1 - 1) = n := by ring
    rw [this]; ring

/-- **C06**, consequence for users: no bins or a negative number of bins never yields a histogram
with edges out of order — zero bins give the single edge, negative numbers raise. -/
theorem C06_negative (n : ℤ) (k : SeqKind) (lo hi : ℝ) (hn : n < 0) (d : Option Vec) (W : Weights) :
    Hist1d.new (.int n) (some (.d1 k lo hi)) d W = .error .valueError := by
  simp [Hist1d.new, Hist1d.init, uniform1, hn]

/-! ## C07 -/

/-- **C07.** `from_binned_data` with explicit errors reports counts, edges, range and `|errors|`. -/
theorem C07_roundtrip (counts errors : NdArr) (e : Edges) (a b : ℝ) (hne : e.vals.head? = some a)
    (hl : e.vals.getLast? = some b) :
    ∃ H, Hist1d.fromBinned counts e (some errors) = .ok H ∧ H.counts = counts ∧ H.edges = [e] ∧
      H.range = .d1 .tuple a b ∧ H.isEmpty = false ∧ H.numBins = [e.vals.length - 1] ∧
      H.binErrors.data = errors.data.map Fl.abs := by
  obtain ⟨arr, v⟩ := e
  cases v with
  | nil => simp at hne
  | cons x l =>
    simp at hne; subst hne
    refine ⟨_, rfl, rfl, rfl, ?_, rfl, rfl, ?_⟩
    · simp only [Hist.setBinned, Hist.blank]
      congr 1
      rw [List.getLastD_eq_getLast?, hl]; rfl
    · simp [Hist.setBinned, Hist.binErrors, NdArr.map, Function.comp_def, Fl.sqrt_sq]

/-- **C07**, errors omitted: squared errors are the counts where these are non-negative reals,
NaN where they are negative. -/
theorem C07_default_errors (counts : NdArr) (e : Edges) (a : ℝ) (hne : e.vals.head? = some a) :
    ∃ H, Hist1d.fromBinned counts e none = .ok H ∧ H.counts = counts ∧
      H.errSq.data.length = counts.data.length ∧
      (∀ (i : ℕ) (c : ℝ), counts.data[i]? = some (.fin c) → 0 ≤ c → H.errSq.data[i]? = some (.fin c)) ∧
      (∀ (i : ℕ) (c : ℝ), counts.data[i]? = some (.fin c) → c < 0 → H.errSq.data[i]? = some .nan) := by
  obtain ⟨arr, v⟩ := e
  cases v with
  | nil => simp at hne
  | cons x l =>
    refine ⟨_, rfl, rfl, by simp [Hist.setBinned, NdArr.map], ?_, ?_⟩
    · intro i c hi hc
      simp [Hist.setBinned, NdArr.map, hi, Fl.sq_sqrt hc]
    · intro i c hi hc
      simp [Hist.setBinned, NdArr.map, hi, Fl.sqrt_neg hc]
      rfl

/-- non-vacuity of C07 -/
example : ∃ H, Hist1d.fromBinned ⟨[2], [.fin 3, .fin (-1)]⟩ ⟨true, [0, 1, 5]⟩
    (some ⟨[2], [.fin 2, .fin (-4)]⟩) = .ok H ∧ H.binErrors.data = [.fin |2|, .fin |-4|] := by
  obtain ⟨H, h1, _, _, _, _, _, h2⟩ := C07_roundtrip ⟨[2], [.fin 3, .fin (-1)]⟩
    ⟨[2], [.fin 2, .fin (-4)]⟩ ⟨true, [0, 1, 5]⟩ 0 5 rfl rfl
  exact ⟨H, h1, h2⟩

/-! ## C08, C09 -/

/-- **C08.** A 2-d fill adds to cell `(i, j)` the weights of exactly the events in that cell, and
their squared weights to the squared error. -/
theorem C08_fill2 (h : Hist) (ex ey : List ℝ) (hg : Good2 h ex ey) (x y w : Vec) (W : Weights)
    (hW : Usable W x w) (hxy : x.length = y.length) (hxw : x.length = w.length) (hne : x ≠ []) :
    ∃ h', Hist2d.fill h x y W = (.ok (), h') ∧ Good2 h' ex ey ∧ h'.isEmpty = false ∧
      ∀ i < ex.length - 1, ∀ j < ey.length - 1,
        h'.counts.data[i * (ey.length - 1) + j]? =
          (h.counts.data[i * (ey.length - 1) + j]?).map (fun c => c + weightIn2 ex ey i j x y w) ∧
        h'.errSq.data[i * (ey.length - 1) + j]? =
          (h.errSq.data[i * (ey.length - 1) + j]?).map (fun c => c + weightSqIn2 ex ey i j x y w) := by
  refine ⟨_, fill2_eq hg hW hxy hxw hne, ?_, rfl, ?_⟩
  · exact ⟨hg.cls, hg.edges_eq, hg.xtwo, hg.ytwo, hg.xincr, hg.yincr, hg.counts_shape,
      by simp [hg.counts_len], hg.err_shape, by simp [hg.err_len]⟩
  · intro i hi j hj
    have hb : i * (ey.length - 1) + j < (ex.length - 1) * (ey.length - 1) := by
      calc i * (ey.length - 1) + j < i * (ey.length - 1) + (ey.length - 1) := by omega
        _ = (i + 1) * (ey.length - 1) := by ring
        _ ≤ _ := Nat.mul_le_mul_right _ (by omega)
    have hc : i * (ey.length - 1) + j < h.counts.data.length := by rw [hg.counts_len]; exact hb
    have he : i * (ey.length - 1) + j < h.errSq.data.length := by rw [hg.err_len]; exact hb
    have hpos : 0 < ey.length - 1 := by omega
    have hd : (i * (ey.length - 1) + j) / (ey.length - 1) = i := by
      rw [mul_comm, Nat.mul_add_div hpos]; simp [Nat.div_eq_of_lt hj]
    have hm : (i * (ey.length - 1) + j) % (ey.length - 1) = j := by
      rw [mul_comm, Nat.mul_add_mod]; exact Nat.mod_eq_of_lt hj
    simp [List.getElem?_zipWith, hb, hc, he, hd, hm]

/-- an example 2-d histogram -/
def exHist2 : Hist := Hist.blank .h2 [⟨true, [0, 1]⟩, ⟨true, [0, 1, 2]⟩] [1, 2]
  (.d2 .tuple .tuple .tuple 0 1 0 2)

theorem exHist2_good : Good2 exHist2 [0, 1] [0, 1, 2] :=
  blank_good2 (ex := ⟨true, [0, 1]⟩) (ey := ⟨true, [0, 1, 2]⟩) (by simp) (by simp) (by simp)
    (by simp) rfl rfl

/-- non-vacuity of C08 -/
example : ∃ h', Hist2d.fill exHist2 [.fin 0] [.fin 1] .none = (.ok (), h') := by
  obtain ⟨h', e, _⟩ := C08_fill2 exHist2 _ _ exHist2_good [.fin 0] [.fin 1] [1] .none
    (Or.inl ⟨rfl, rfl⟩) rfl rfl (by simp)
  exact ⟨h', e⟩

theorem sum_range_mul (a b : ℕ) (f : ℕ → Fl) :
    ((List.range (a * b)).map f).sum =
      ((List.range a).map fun i => ((List.range b).map fun j => f (i * b + j)).sum).sum := by
  induction a with
  | zero => simp
  | succ a ih =>
    rw [Nat.succ_mul, List.range_add, List.map_append, List.sum_append, ih, List.range_succ,
      List.map_append, List.sum_append]
    simp [List.map_map, Function.comp_def]

theorem map_getD_range {l : Vec} {n : ℕ} (h : l.length = n) :
    (List.range n).map (fun i => l.getD i 0) = l := by
  subst h
  apply List.ext_getElem?
  intro i
  by_cases hi : i < l.length
  · simp [hi]
  · simp [hi]

theorem good2_total {h : Hist} {ex ey : List ℝ} (hg : Good2 h ex ey) :
    h.counts.data.sum = ((List.range (ex.length - 1)).map fun i =>
      ((List.range (ey.length - 1)).map fun j => h.counts.data.getD (i * (ey.length - 1) + j) 0).sum).sum := by
  rw [← sum_range_mul (ex.length - 1) (ey.length - 1) (fun k => h.counts.data.getD k 0),
    map_getD_range hg.counts_len]

/-- **C09.** The x projection of a 2-d histogram: counts are the sums over y, errors the roots of
the summed squared errors, the total content is preserved. -/
theorem C09_xprojection (h : Hist) (ex ey : List ℝ) (hg : Good2 h ex ey) :
    ∃ p, Hist2d.xProjection h = .ok p ∧ Good1 p ex ∧
      (∀ i < ex.length - 1, p.counts.data[i]? = some
        (((List.range (ey.length - 1)).map fun j => h.counts.data.getD (i * (ey.length - 1) + j) 0).sum)) ∧
      (∀ i < ex.length - 1, p.binErrors.data[i]? = some (Fl.sqrt
        (((List.range (ey.length - 1)).map fun j => h.errSq.data.getD (i * (ey.length - 1) + j) 0).sum))) ∧
      p.counts.data.sum = h.counts.data.sum := by
  obtain ⟨e, e', he⟩ : ∃ e e', h.edges = [e, e'] := by
    have := hg.edges_eq
    match hh : h.edges, this with
    | [e, e'], _ => exact ⟨e, e', rfl⟩
    | [], h0 => simp at h0
    | [_], h0 => simp at h0
    | _ :: _ :: _ :: _, h0 => simp at h0
  have hev : e.vals = ex := by have := hg.edges_eq; simp [he] at this; exact this.1
  have hx2 := hg.xtwo
  have hne : ∃ a l, e.vals = a :: l := by
    cases hv : e.vals with
    | nil => rw [hev] at hv; simp [hv] at hx2
    | cons a l => exact ⟨a, l, rfl⟩
  obtain ⟨a, l, hv⟩ := hne
  have hinit : Hist1d.init (.edges e) none =
      .ok (Hist.blank .h1 [e] [e.vals.length - 1] (.d1 .tuple a ((a :: l).getLastD 0))) := by
    simp [Hist1d.init, getBinRange, hv]
  refine ⟨_, by simp [Hist2d.xProjection, he, Hist1d.fromBinned, hinit]; rfl, ?_, ?_, ?_, ?_⟩
  · refine ⟨rfl, by simp [Hist.setBinned, Hist.blank, hev], hx2, hg.xincr, ?_, ?_, ?_, ?_⟩
    · simp [Hist.setBinned, NdArr.sumAxis1, hg.counts_shape]
    · simp [Hist.setBinned, NdArr.sumAxis1, hg.counts_shape]
    · simp [Hist.setBinned, NdArr.sumAxis1, NdArr.map, hg.err_shape]
    · simp [Hist.setBinned, NdArr.sumAxis1, NdArr.map, hg.err_shape]
  · intro i hi
    simp [Hist.setBinned, NdArr.sumAxis1, hg.counts_shape, hi, NdArr.at2]
  · intro i hi
    simp [Hist.setBinned, Hist.binErrors, NdArr.sumAxis1, NdArr.map, hg.err_shape, hi, NdArr.at2,
      Fl.sqrt_sq, Fl.abs_sqrt]
  · rw [good2_total hg]
    simp [Hist.setBinned, NdArr.sumAxis1, hg.counts_shape, NdArr.at2]

/-- **C09**, the y projection. -/
theorem C09_yprojection (h : Hist) (ex ey : List ℝ) (hg : Good2 h ex ey) :
    ∃ p, Hist2d.yProjection h = .ok p ∧ Good1 p ey ∧
      (∀ j < ey.length - 1, p.counts.data[j]? = some
        (((List.range (ex.length - 1)).map fun i => h.counts.data.getD (i * (ey.length - 1) + j) 0).sum)) ∧
      (∀ j < ey.length - 1, p.binErrors.data[j]? = some (Fl.sqrt
        (((List.range (ex.length - 1)).map fun i => h.errSq.data.getD (i * (ey.length - 1) + j) 0).sum))) ∧
      p.counts.data.sum = h.counts.data.sum := by
  obtain ⟨e', e, he⟩ : ∃ e' e, h.edges = [e', e] := by
    have := hg.edges_eq
    match hh : h.edges, this with
    | [e, e'], _ => exact ⟨e, e', rfl⟩
    | [], h0 => simp at h0
    | [_], h0 => simp at h0
    | _ :: _ :: _ :: _, h0 => simp at h0
  have hev : e.vals = ey := by have := hg.edges_eq; simp [he] at this; exact this.2
  have hx2 := hg.ytwo
  have hne : ∃ a l, e.vals = a :: l := by
    cases hv : e.vals with
    | nil => rw [hev] at hv; simp [hv] at hx2
    | cons a l => exact ⟨a, l, rfl⟩
  obtain ⟨a, l, hv⟩ := hne
  have hinit : Hist1d.init (.edges e) none =
      .ok (Hist.blank .h1 [e] [e.vals.length - 1] (.d1 .tuple a ((a :: l).getLastD 0))) := by
    simp [Hist1d.init, getBinRange, hv]
  refine ⟨_, by simp [Hist2d.yProjection, he, Hist1d.fromBinned, hinit]; rfl, ?_, ?_, ?_, ?_⟩
  · refine ⟨rfl, by simp [Hist.setBinned, Hist.blank, hev], hx2, hg.yincr, ?_, ?_, ?_, ?_⟩
    · simp [Hist.setBinned, NdArr.sumAxis0, hg.counts_shape]
    · simp [Hist.setBinned, NdArr.sumAxis0, hg.counts_shape]
    · simp [Hist.setBinned, NdArr.sumAxis0, NdArr.map, hg.err_shape]
    · simp [Hist.setBinned, NdArr.sumAxis0, NdArr.map, hg.err_shape]
  · intro i hi
    simp [Hist.setBinned, NdArr.sumAxis0, hg.counts_shape, hi, NdArr.at2]
  · intro i hi
    simp [Hist.setBinned, Hist.binErrors, NdArr.sumAxis0, NdArr.map, hg.err_shape, hi, NdArr.at2,
      Fl.sqrt_sq, Fl.abs_sqrt]
  · rw [good2_total hg]
    simp only [Hist.setBinned, NdArr.sumAxis0, hg.counts_shape, NdArr.at2, List.getD_cons_zero,
      List.getD_cons_succ]
    simp only [list_range_sum]
    rw [Finset.sum_comm]

/-- **C09**, projecting commutes with filling: the x projection after a 2-d fill equals filling the
earlier x projection, as a 1-d histogram, with the x values (and weights) of exactly those events
whose y lies in the y range. By iteration this holds for every history of fills. -/
theorem C09_projection_commutes (h : Hist) (ex ey : List ℝ) (hg : Good2 h ex ey) (x y w : Vec)
    (W : Weights) (hW : Usable W x w) (hxy : x.length = y.length) (hxw : x.length = w.length)
    (hne : x ≠ []) (p p' : Hist) (hp : Hist2d.xProjection h = .ok p)
    (hp' : Hist2d.xProjection (Hist2d.fill h x y W).2 = .ok p') :
    let kept := ((x.zip y).zip w).filter fun q => decide (∃ j, InBin ey j q.1.2)
    p'.counts.data =
      (Hist1d.fill p (kept.map fun q => q.1.1) (.array (kept.map (·.2)))).2.counts.data := by
  intro kept
  obtain ⟨h', e1, g', _, hcell⟩ := C08_fill2 h ex ey hg x y w W hW hxy hxw hne
  rw [e1] at hp'
  obtain ⟨q, hq, gq, cq, _, _⟩ := C09_xprojection h ex ey hg
  obtain ⟨q', hq', gq', cq', _, _⟩ := C09_xprojection h' ex ey g'
  rw [hp] at hq; obtain rfl : p = q := by injection hq
  simp only at hp'
  rw [hp'] at hq'; obtain rfl : p' = q' := by injection hq'
  rw [fill1_eq gq (Or.inr (Or.inr rfl)) (by simp)]
  apply List.ext_getElem?
  intro i
  by_cases hi : i < ex.length - 1
  · rw [cq' i hi, List.getElem?_zipWith, cq i hi]
    simp only [List.getElem?_map, List.getElem?_range hi, Option.map_some, Option.some.injEq]
    have hsum : ((List.range (ey.length - 1)).map fun j =>
        h'.counts.data.getD (i * (ey.length - 1) + j) 0) =
        (List.range (ey.length - 1)).map fun j =>
          h.counts.data.getD (i * (ey.length - 1) + j) 0 + weightIn2 ex ey i j x y w := by
      apply List.map_congr_left
      intro j hj
      have hj' : j < ey.length - 1 := by simpa using hj
      have := (hcell i hi j hj').1
      have hb : i * (ey.length - 1) + j < h.counts.data.length := by
        rw [hg.counts_len]
        calc i * (ey.length - 1) + j < i * (ey.length - 1) + (ey.length - 1) := by omega
          _ = (i + 1) * (ey.length - 1) := by ring
          _ ≤ _ := Nat.mul_le_mul_right _ (by omega)
      rw [List.getD_eq_getElem?_getD, this]
      simp [hb]
    rw [hsum, List.sum_map_add]
    congr 1
    unfold weightIn2 weightIn
    have hzip : (List.map (fun q => q.1.1) kept).zip (List.map (fun q => q.2) kept) =
        kept.map fun q => (q.1.1, q.2) := by
      rw [List.zip_map', ]
    rw [hzip, List.filter_map, List.map_map]
    have hs := sum_cells ((x.zip y).zip w) (·.2) (fun q => InBin ex i q.1.1)
      (fun j q => InBin ey j q.1.2) (ey.length - 1)
      (fun j q hj => by have := inBin_lt hj; omega)
      (fun j k q hj hk => inBin_unique hg.yincr hg.ytwo hj hk)
    rw [hs, List.filter_filter]
    simp [Function.comp_def, Bool.and_comm]
  · have h1 : p'.counts.data.length ≤ i := by rw [gq'.counts_len]; omega
    rw [List.getElem?_eq_none h1, List.getElem?_eq_none]
    simp; right; omega

/-- non-vacuity of C09 -/
example : ∃ p, Hist2d.xProjection exHist2 = .ok p ∧ Good1 p [0, 1] :=
  (C09_xprojection exHist2 _ _ exHist2_good).imp fun _ h => ⟨h.1, h.2.1⟩

end

end TF.Props
