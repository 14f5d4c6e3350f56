import Verif.Props.HistProps2

set_option linter.unusedSimpArgs false

/-!
# Histograms from construction to observation (C85)

The theorems of `HistProps` speak about one call; here the object is followed from the constructor through any
number of fills to the attributes a user reads (`bin_counts`, `bin_errors`, `is_empty`).
-/

namespace TF.Spec

open Classical

noncomputable section

/-- `l` are `n + 1` equally spaced edges from `lo` to `hi` -/
def EquallySpaced (lo hi : ℝ) (n : ℕ) (l : List ℝ) : Prop :=
  1 ≤ n ∧ lo < hi ∧ l.length = n + 1 ∧ ∀ i ≤ n, l[i]? = some (lo + i * ((hi - lo) / n))

/-- explicit edges are usable: at least two, strictly increasing -/
def Increasing (e : Edges) : Prop := 2 ≤ e.vals.length ∧ e.vals.Pairwise (· < ·)

/-- the accepted forms of the `bins`/`range` arguments of `Hist1d` and the edges they stand for -/
def Binning1 (bins : Bins1) (range : Option PyRange) (edges : List ℝ) : Prop :=
  (∃ (n : ℕ) (k : SeqKind) (lo hi : ℝ), (bins = .int n ∨ ∃ rest, bins = .tuple (n :: rest)) ∧
    range = some (.d1 k lo hi) ∧ EquallySpaced lo hi n edges) ∨
  ∃ e, bins = .edges e ∧ Increasing e ∧ edges = e.vals

/-- the same for `Hist2d` -/
def Binning2 (bins : Bins2) (range : Option PyRange) (ex ey : List ℝ) : Prop :=
  (∃ (nx ny : ℕ) (k kx ky : SeqKind) (xlo xhi ylo yhi : ℝ), bins = .ints nx ny ∧
    range = some (.d2 k kx ky xlo xhi ylo yhi) ∧ EquallySpaced xlo xhi nx ex ∧ EquallySpaced ylo yhi ny ey) ∨
  ∃ e1 e2, bins = .edges e1 e2 ∧ Increasing e1 ∧ Increasing e2 ∧ ex = e1.vals ∧ ey = e2.vals

/-- one batch of 1-d events with its weights: values, weight values, the `weights` argument -/
structure Batch1 where
  data : Vec
  w : Vec
  arg : Weights

/-- the `weights` argument is usable and has one weight per event -/
def Batch1.Ok (b : Batch1) : Prop := Usable b.arg b.data b.w ∧ b.data.length = b.w.length

/-- one batch of 2-d events -/
structure Batch2 where
  x : Vec
  y : Vec
  w : Vec
  arg : Weights

/-- usable weights, one per event, and at least one event -/
def Batch2.Ok (b : Batch2) : Prop :=
  Usable b.arg b.x b.w ∧ b.x.length = b.y.length ∧ b.x.length = b.w.length ∧ b.x ≠ []

/-- the histogram attributes a user reads say: bin `i` holds the weight of the events of `data` in bin `i`, its
error is the root of the sum of the squared weights -/
def Shows1 (h : Hist) (edges : List ℝ) (data w : Vec) : Prop :=
  h.counts.data.length = edges.length - 1 ∧ h.binErrors.data.length = edges.length - 1 ∧
  h.edges.map (·.vals) = [edges] ∧ h.shape = [edges.length - 1] ∧ h.numBins = [edges.length - 1] ∧
  ∀ i < edges.length - 1, h.counts.data[i]? = some (weightIn edges i data w) ∧
    h.binErrors.data[i]? = some (weightSqIn edges i data w).sqrt

/-- the same for cells `(i, j)`, stored row by row -/
def Shows2 (h : Hist) (ex ey : List ℝ) (x y w : Vec) : Prop :=
  h.edges.map (·.vals) = [ex, ey] ∧ h.shape = [ex.length - 1, ey.length - 1] ∧
  h.numBins = [ex.length - 1, ey.length - 1] ∧ h.counts.data.length = (ex.length - 1) * (ey.length - 1) ∧
  ∀ i < ex.length - 1, ∀ j < ey.length - 1,
    h.counts.data[i * (ey.length - 1) + j]? = some (weightIn2 ex ey i j x y w) ∧
    h.binErrors.data[i * (ey.length - 1) + j]? = some (weightSqIn2 ex ey i j x y w).sqrt

end

end TF.Spec

namespace TF.Props

open Classical Spec

noncomputable section

theorem equallySpaced_linspace {lo hi : ℝ} {n : ℕ} {l : List ℝ} (h : EquallySpaced lo hi n l) :
    l = linspace lo hi (n + 1) := by
  obtain ⟨hn, -, hl, he⟩ := h
  apply List.ext_getElem?
  intro i
  by_cases hi' : i ≤ n
  · rw [he i hi', linspace_getElem? _ _ _ _ (by omega)]
    congr 1
    have : (n + 1 - 1 : ℕ) = n := by omega
    simp
    try ring
  · rw [List.getElem?_eq_none (by omega), List.getElem?_eq_none (by rw [linspace_length]; omega)]

/-- what the constructor without data leaves -/
theorem init1_shows {bins : Bins1} {range : Option PyRange} {edges : List ℝ} (h : Binning1 bins range edges) :
    ∃ H, Hist1d.init bins range = .ok H ∧ Good1 H edges ∧ H.isEmpty = true ∧
      H.counts = NdArr.zeros [edges.length - 1] ∧ H.errSq = NdArr.zeros [edges.length - 1] ∧
      H.shape = [edges.length - 1] ∧ H.numBins = [edges.length - 1] := by
  rcases h with ⟨n, k, lo, hi, hb, rfl, he⟩ | ⟨e, rfl, ⟨h2, hp⟩, rfl⟩
  · have hl : edges.length - 1 = n := by rw [he.2.2.1]; rfl
    have hu : uniform1 n (some (.d1 k lo hi)) =
        .ok (Hist.blank .h1 [⟨true, linspace lo hi (n + 1)⟩] [n] (.d1 k lo hi)) := by
      simp [uniform1]
    have hg := blank_good1 (e := ⟨true, linspace lo hi (n + 1)⟩) (nb := n) (r := .d1 k lo hi)
      (by simp [linspace_length]; exact he.1) (linspace_pairwise he.2.1 n he.1) (by simp [linspace_length])
    rw [equallySpaced_linspace he]
    have hl' : (linspace lo hi (n + 1)).length - 1 = n := by simp [linspace_length]
    refine ⟨_, ?_, hg, rfl, ?_, ?_, ?_, ?_⟩
    · rcases hb with rfl | ⟨rest, rfl⟩ <;> exact hu
    all_goals simp only [hl', Hist.blank]
  · obtain ⟨a, v⟩ := e
    cases v with
    | nil => simp at h2
    | cons x l => exact ⟨_, rfl, blank_good1 h2 hp rfl, rfl, rfl, rfl, rfl, rfl⟩

theorem init2_shows {bins : Bins2} {range : Option PyRange} {ex ey : List ℝ} (h : Binning2 bins range ex ey) :
    ∃ H, Hist2d.init bins range = .ok H ∧ Good2 H ex ey ∧ H.isEmpty = true ∧
      H.counts = NdArr.zeros [ex.length - 1, ey.length - 1] ∧
      H.errSq = NdArr.zeros [ex.length - 1, ey.length - 1] ∧
      H.shape = [ex.length - 1, ey.length - 1] ∧ H.numBins = [ex.length - 1, ey.length - 1] := by
  rcases h with ⟨nx, ny, k, kx, ky, xlo, xhi, ylo, yhi, rfl, rfl, hx, hy⟩ | ⟨e1, e2, rfl, ⟨h2, hp⟩, ⟨h2', hp'⟩, rfl, rfl⟩
  · rw [equallySpaced_linspace hx, equallySpaced_linspace hy]
    have hg := blank_good2 (ex := ⟨true, linspace xlo xhi (nx + 1)⟩) (ey := ⟨true, linspace ylo yhi (ny + 1)⟩)
      (nx := nx) (ny := ny) (r := .d2 k kx ky xlo xhi ylo yhi)
      (by simp [linspace_length]; exact hx.1) (by simp [linspace_length]; exact hy.1)
      (linspace_pairwise hx.2.1 nx hx.1) (linspace_pairwise hy.2.1 ny hy.1)
      (by simp [linspace_length]) (by simp [linspace_length])
    have l1 : (linspace xlo xhi (nx + 1)).length - 1 = nx := by simp [linspace_length]
    have l2 : (linspace ylo yhi (ny + 1)).length - 1 = ny := by simp [linspace_length]
    refine ⟨_, by simp [Hist2d.init], hg, rfl, ?_, ?_, ?_, ?_⟩
    all_goals simp only [l1, l2, Hist.blank, Int.toNat_natCast]
  · obtain ⟨a, v⟩ := e1
    obtain ⟨b, u⟩ := e2
    cases v with
    | nil => simp at h2
    | cons x l =>
      cases u with
      | nil => simp at h2'
      | cons y m => exact ⟨_, rfl, blank_good2 h2 h2' hp hp' rfl rfl, rfl, rfl, rfl, rfl, rfl⟩

/-- counts and squared errors are those of the events so far -/
structure Acc1 (h : Hist) (edges : List ℝ) (data w : Vec) : Prop where
  good : Good1 h edges
  shape : h.shape = [edges.length - 1]
  num : h.numBins = [edges.length - 1]
  cnt : ∀ i < edges.length - 1, h.counts.data[i]? = some (weightIn edges i data w)
  err : ∀ i < edges.length - 1, h.errSq.data[i]? = some (weightSqIn edges i data w)

theorem Acc1.shows {h : Hist} {edges : List ℝ} {data w : Vec} (a : Acc1 h edges data w) :
    Shows1 h edges data w := by
  refine ⟨a.good.counts_len, by simp [Hist.binErrors, NdArr.map, a.good.err_len], a.good.edges_eq, a.shape, a.num, ?_⟩
  intro i hi
  exact ⟨a.cnt i hi, by simp [Hist.binErrors, NdArr.map, a.err i hi]⟩

theorem zeros_get {l : List ℕ} {i : ℕ} (h : i < l.prod) : (NdArr.zeros l).data[i]? = some 0 := by
  simp [NdArr.zeros, h]

theorem acc1_init {bins : Bins1} {range : Option PyRange} {edges : List ℝ} (h : Binning1 bins range edges) :
    ∃ H, Hist1d.init bins range = .ok H ∧ Acc1 H edges [] [] ∧ H.isEmpty = true := by
  obtain ⟨H, h1, h2, h3, h4, h5, h6, h7⟩ := init1_shows h
  refine ⟨H, h1, ⟨h2, h6, h7, ?_, ?_⟩, h3⟩
  · intro i hi; rw [h4, zeros_get (by simpa using hi)]; simp [weightIn]
  · intro i hi; rw [h5, zeros_get (by simpa using hi)]; simp [weightSqIn]

theorem Acc1.fill {h : Hist} {edges : List ℝ} {data w : Vec} (a : Acc1 h edges data w)
    (hl : data.length = w.length) (b : Batch1) (hb : b.Ok) :
    (Hist1d.fill h b.data b.arg).1 = .ok () ∧
      Acc1 (Hist1d.fill h b.data b.arg).2 edges (data ++ b.data) (w ++ b.w) ∧
      (Hist1d.fill h b.data b.arg).2.isEmpty = false := by
  have hf := fill1_eq a.good hb.1 hb.2
  obtain ⟨h', e, g, em, -, -, cc⟩ := C01_fill_counts h edges a.good b.data b.w b.arg hb.1 hb.2
  have ce := C02_fill_errors h edges a.good b.data b.w b.arg hb.1 hb.2
  rw [e] at ce ⊢
  refine ⟨rfl, ⟨g, ?_, ?_, ?_, ?_⟩, em⟩
  · have := congrArg (fun r => r.2.shape) (e.symm.trans hf); simp only at this; rw [this]; exact a.shape
  · have := congrArg (fun r => r.2.numBins) (e.symm.trans hf); simp only at this; rw [this]; exact a.num
  · intro i hi
    rw [cc i hi, a.cnt i hi, weightIn_append _ _ _ _ _ _ hl]; rfl
  · intro i hi
    rw [ce i hi, a.err i hi, weightSqIn_append _ _ _ _ _ _ hl]; rfl

theorem acc1_run {edges : List ℝ} (bs : List Batch1) : ∀ {h : Hist} {data w : Vec}, Acc1 h edges data w →
    data.length = w.length → (∀ b ∈ bs, b.Ok) →
    Acc1 (bs.foldl (fun h b => (Hist1d.fill h b.data b.arg).2) h) edges
      (data ++ (bs.map (·.data)).flatten) (w ++ (bs.map (·.w)).flatten) ∧
    (bs.foldl (fun h b => (Hist1d.fill h b.data b.arg).2) h).isEmpty = (h.isEmpty && bs.isEmpty) := by
  induction bs with
  | nil => intro h data w a _ _; simpa using a
  | cons b bs ih =>
    intro h data w a hl hb
    obtain ⟨-, f2, f3⟩ := a.fill hl b (hb b (by simp))
    obtain ⟨g1, g2⟩ := ih f2 (by simp [hl, (hb b (by simp)).2]) fun b' hb' => hb b' (by simp [hb'])
    refine ⟨?_, ?_⟩
    · simpa [List.append_assoc] using g1
    · simp only [List.foldl_cons, g2, f3]; simp

/-- **C85, 1-d.** Every accepted form of the constructor call, without or with a first batch of events, succeeds;
after any number of further fills every bin shows exactly the events given to the object, and `is_empty` tells
whether any were given. -/
theorem C85_hist1 (bins : Bins1) (range : Option PyRange) (edges : List ℝ) (hb : Binning1 bins range edges)
    (first : Option Batch1) (hf : ∀ b ∈ first, b.Ok) (bs : List Batch1) (hbs : ∀ b ∈ bs, b.Ok) :
    ∃ H, Hist1d.new bins range (first.map (·.data)) ((first.map (·.arg)).getD .none) = .ok H ∧
      H.isEmpty = first.isNone ∧
      (∀ b : Batch1, b.Ok → (Hist1d.fill (bs.foldl (fun h b => (Hist1d.fill h b.data b.arg).2) H) b.data b.arg).1 = .ok ()) ∧
      (bs.foldl (fun h b => (Hist1d.fill h b.data b.arg).2) H).isEmpty = (first.toList ++ bs).isEmpty ∧
      Shows1 (bs.foldl (fun h b => (Hist1d.fill h b.data b.arg).2) H) edges
        ((first.toList ++ bs).map (·.data)).flatten ((first.toList ++ bs).map (·.w)).flatten := by
  obtain ⟨H0, h1, h2, h3⟩ := acc1_init hb
  have hlen : ∀ l : List Batch1, (∀ b ∈ l, b.Ok) → (l.map (·.data)).flatten.length = (l.map (·.w)).flatten.length := by
    intro l hl
    induction l with
    | nil => rfl
    | cons b l ih => simp [(hl b (by simp)).2, ih fun b' hb' => hl b' (by simp [hb'])]
  cases first with
  | none =>
    obtain ⟨g1, g2⟩ := acc1_run bs h2 rfl hbs
    refine ⟨H0, by simp [Hist1d.new, h1], by simpa using h3, ?_, by rw [g2, h3]; simp, by simpa using g1.shows⟩
    intro b hb'
    exact (g1.fill (by simpa using hlen bs hbs) b hb').1
  | some b0 =>
    have hb0 := hf b0 rfl
    obtain ⟨f1, f2, f3⟩ := h2.fill rfl b0 hb0
    obtain ⟨g1, g2⟩ := acc1_run bs f2 (by simp [hb0.2]) hbs
    refine ⟨(Hist1d.fill H0 b0.data b0.arg).2, ?_, by simpa using f3, ?_, ?_, by simpa using g1.shows⟩
    · simp only [Hist1d.new, h1, Option.map_some, Option.getD_some]
      generalize hr : Hist1d.fill H0 b0.data b0.arg = r at f1
      obtain ⟨r1, r2⟩ := r
      simp at f1; subst f1; rfl
    · intro b hb'
      exact (g1.fill (by simp [hb0.2, hlen bs hbs]) b hb').1
    · rw [g2, f3]; simp

/-- the 2-d counterpart of `Acc1` -/
structure Acc2 (h : Hist) (ex ey : List ℝ) (x y w : Vec) : Prop where
  good : Good2 h ex ey
  shape : h.shape = [ex.length - 1, ey.length - 1]
  num : h.numBins = [ex.length - 1, ey.length - 1]
  cnt : ∀ i < ex.length - 1, ∀ j < ey.length - 1,
    h.counts.data[i * (ey.length - 1) + j]? = some (weightIn2 ex ey i j x y w)
  err : ∀ i < ex.length - 1, ∀ j < ey.length - 1,
    h.errSq.data[i * (ey.length - 1) + j]? = some (weightSqIn2 ex ey i j x y w)

theorem Acc2.shows {h : Hist} {ex ey : List ℝ} {x y w : Vec} (a : Acc2 h ex ey x y w) : Shows2 h ex ey x y w := by
  refine ⟨a.good.edges_eq, a.shape, a.num, a.good.counts_len, ?_⟩
  intro i hi j hj
  exact ⟨a.cnt i hi j hj, by simp [Hist.binErrors, NdArr.map, a.err i hi j hj]⟩

theorem cell_lt {a b i j : ℕ} (hi : i < a) (hj : j < b) : i * b + j < a * b := by
  calc i * b + j < i * b + b := by omega
    _ = (i + 1) * b := by ring
    _ ≤ a * b := Nat.mul_le_mul_right _ hi

theorem acc2_init {bins : Bins2} {range : Option PyRange} {ex ey : List ℝ} (h : Binning2 bins range ex ey) :
    ∃ H, Hist2d.init bins range = .ok H ∧ Acc2 H ex ey [] [] [] ∧ H.isEmpty = true := by
  obtain ⟨H, h1, h2, h3, h4, h5, h6, h7⟩ := init2_shows h
  refine ⟨H, h1, ⟨h2, h6, h7, ?_, ?_⟩, h3⟩
  · intro i hi j hj; rw [h4, zeros_get (by simpa using cell_lt hi hj)]; simp [weightIn2]
  · intro i hi j hj; rw [h5, zeros_get (by simpa using cell_lt hi hj)]; simp [weightSqIn2]

theorem Acc2.fill {h : Hist} {ex ey : List ℝ} {x y w : Vec} (a : Acc2 h ex ey x y w)
    (hl : x.length = y.length) (hl' : x.length = w.length) (b : Batch2) (hb : b.Ok) :
    (Hist2d.fill h b.x b.y b.arg).1 = .ok () ∧
      Acc2 (Hist2d.fill h b.x b.y b.arg).2 ex ey (x ++ b.x) (y ++ b.y) (w ++ b.w) ∧
      (Hist2d.fill h b.x b.y b.arg).2.isEmpty = false := by
  obtain ⟨u1, u2, u3, u4⟩ := hb
  have hf := fill2_eq a.good u1 u2 u3 u4
  obtain ⟨h', e, g, em, cc⟩ := C08_fill2 h ex ey a.good b.x b.y b.w b.arg u1 u2 u3 u4
  rw [e]
  refine ⟨rfl, ⟨g, ?_, ?_, ?_, ?_⟩, em⟩
  · have := congrArg (fun r => r.2.shape) (e.symm.trans hf); simp only at this; rw [this]; exact a.shape
  · have := congrArg (fun r => r.2.numBins) (e.symm.trans hf); simp only at this; rw [this]; exact a.num
  · intro i hi j hj
    rw [(cc i hi j hj).1, a.cnt i hi j hj, weightIn2_append _ _ _ _ _ _ _ _ _ _ hl hl']; rfl
  · intro i hi j hj
    rw [(cc i hi j hj).2, a.err i hi j hj, weightSqIn2_append _ _ _ _ _ _ _ _ _ _ hl hl']; rfl

theorem acc2_run {ex ey : List ℝ} (bs : List Batch2) : ∀ {h : Hist} {x y w : Vec}, Acc2 h ex ey x y w →
    x.length = y.length → x.length = w.length → (∀ b ∈ bs, b.Ok) →
    Acc2 (bs.foldl (fun h b => (Hist2d.fill h b.x b.y b.arg).2) h) ex ey
      (x ++ (bs.map (·.x)).flatten) (y ++ (bs.map (·.y)).flatten) (w ++ (bs.map (·.w)).flatten) ∧
    (bs.foldl (fun h b => (Hist2d.fill h b.x b.y b.arg).2) h).isEmpty = (h.isEmpty && bs.isEmpty) := by
  induction bs with
  | nil => intro h x y w a _ _ _; simpa using a
  | cons b bs ih =>
    intro h x y w a hl hl' hb
    have hb0 := hb b (by simp)
    obtain ⟨-, f2, f3⟩ := a.fill hl hl' b hb0
    obtain ⟨g1, g2⟩ := ih f2 (by simp [hl, hb0.2.1]) (by simp [hl', hb0.2.2.1]) fun b' hb' => hb b' (by simp [hb'])
    refine ⟨?_, ?_⟩
    · simpa [List.append_assoc] using g1
    · simp only [List.foldl_cons, g2, f3]; simp

/-- **C85, 2-d.** The same for `Hist2d` (every batch holds at least one event). -/
theorem C85_hist2 (bins : Bins2) (range : Option PyRange) (ex ey : List ℝ) (hb : Binning2 bins range ex ey)
    (first : Option Batch2) (hf : ∀ b ∈ first, b.Ok) (bs : List Batch2) (hbs : ∀ b ∈ bs, b.Ok) :
    ∃ H, Hist2d.new bins range (first.map fun b => (b.x, b.y)) ((first.map (·.arg)).getD .none) = .ok H ∧
      H.isEmpty = first.isNone ∧
      (bs.foldl (fun h b => (Hist2d.fill h b.x b.y b.arg).2) H).isEmpty = (first.toList ++ bs).isEmpty ∧
      Shows2 (bs.foldl (fun h b => (Hist2d.fill h b.x b.y b.arg).2) H) ex ey
        ((first.toList ++ bs).map (·.x)).flatten ((first.toList ++ bs).map (·.y)).flatten
        ((first.toList ++ bs).map (·.w)).flatten := by
  obtain ⟨H0, h1, h2, h3⟩ := acc2_init hb
  cases first with
  | none =>
    obtain ⟨g1, g2⟩ := acc2_run bs h2 rfl rfl hbs
    exact ⟨H0, by simp [Hist2d.new, h1], by simpa using h3, by rw [g2, h3]; simp, by simpa using g1.shows⟩
  | some b0 =>
    have hb0 := hf b0 rfl
    obtain ⟨f1, f2, f3⟩ := h2.fill rfl rfl b0 hb0
    obtain ⟨g1, g2⟩ := acc2_run bs f2 (by simp [hb0.2.1]) (by simp [hb0.2.2.1]) hbs
    refine ⟨(Hist2d.fill H0 b0.x b0.y b0.arg).2, ?_, by simpa using f3, ?_, by simpa using g1.shows⟩
    · simp only [Hist2d.new, h1, Option.map_some, Option.getD_some]
      generalize hr : Hist2d.fill H0 b0.x b0.y b0.arg = r at f1
      obtain ⟨r1, r2⟩ := r
      simp at f1; subst f1; rfl
    · rw [g2, f3]; simp

/-- non-vacuity of C85: three equal bins, one weighted and one unweighted batch; two bins by one bin -/
example : Binning1 (.int 3) (some (.d1 .tuple 0 3)) [0, 1, 2, 3] ∧
    (⟨[.fin (1/2), .fin 3], [.fin 2, .fin 5], .array [.fin 2, .fin 5]⟩ : Batch1).Ok ∧
    (⟨[.fin 7], [1], .none⟩ : Batch1).Ok ∧
    Binning2 (.ints 2 1) (some (.d2 .tuple .tuple .tuple 0 2 0 1)) [0, 1, 2] [0, 1] ∧
    (⟨[.fin 1], [.fin 0], [.fin 4], .list [.fin 4]⟩ : Batch2).Ok := by
  refine ⟨Or.inl ⟨3, .tuple, 0, 3, Or.inl rfl, rfl, by norm_num, by norm_num, rfl, ?_⟩,
    ⟨Or.inr (Or.inr rfl), rfl⟩, ⟨Or.inl ⟨rfl, rfl⟩, rfl⟩,
    Or.inl ⟨2, 1, .tuple, .tuple, .tuple, 0, 2, 0, 1, rfl, rfl, ⟨by norm_num, by norm_num, rfl, ?_⟩,
      ⟨by norm_num, by norm_num, rfl, ?_⟩⟩, ⟨Or.inr (Or.inl rfl), rfl, rfl, by simp⟩⟩
  all_goals
    intro i hi
    interval_cases i <;> simp

end

end TF.Props
