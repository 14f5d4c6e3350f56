import Verif.Props.HistProps3

set_option linter.unusedSimpArgs false

/-!
# Remaining histogram cases: all binnings for C02, empty 2-d batches for C03, 2-d `from_binned_data` for C07
-/

namespace TF.Props

open Classical Spec

noncomputable section

/-- **C02**, unweighted histories for every accepted form of the constructor (numbers of bins, tuples, explicit
edges), with or without data handed to the constructor. -/
theorem C02_unweighted_any (bins : Bins1) (range : Option PyRange) (edges : List ℝ) (hb : Binning1 bins range edges)
    (first : Option Vec) (H : Hist) (hH : Hist1d.new bins range first .none = .ok H) (batches : List Vec) :
    let H' := batches.foldl (fun h d => (Hist1d.fill h d .none).2) H
    H'.errSq = H'.counts ∧ H'.binErrors = H'.counts.map Fl.sqrt := by
  have hkey : ∀ (bs : List Vec) (h : Hist), Good1 h edges → h.errSq = h.counts →
      (bs.foldl (fun h d => (Hist1d.fill h d .none).2) h).errSq =
      (bs.foldl (fun h d => (Hist1d.fill h d .none).2) h).counts := by
    intro bs
    induction bs with
    | nil => intro h _ he; exact he
    | cons d bs ih =>
      intro h hg he
      have hU : Usable .none d (d.map fun _ => (1 : Fl)) := Or.inl ⟨rfl, rfl⟩
      have hl : d.length = (d.map fun _ => (1 : Fl)).length := by simp
      apply ih _ (fill1_good hg hU hl)
      rw [fill1_eq hg hU hl]
      simp only [weightSqIn_ones, he]
  obtain ⟨H0, hi, hg, -, hc, hq, -, -⟩ := init1_shows hb
  have h0 : H0.errSq = H0.counts := by rw [hc, hq]
  have hall : (batches.foldl (fun h d => (Hist1d.fill h d .none).2) H).errSq =
      (batches.foldl (fun h d => (Hist1d.fill h d .none).2) H).counts := by
    cases first with
    | none =>
      have : H = H0 := by simpa [Hist1d.new, hi] using hH.symm
      rw [this]; exact hkey _ _ hg h0
    | some d =>
      have hU : Usable .none d (d.map fun _ => (1 : Fl)) := Or.inl ⟨rfl, rfl⟩
      have hl : d.length = (d.map fun _ => (1 : Fl)).length := by simp
      have : H = (Hist1d.fill H0 d .none).2 := by
        have e := fill1_eq hg hU hl
        simp only [Hist1d.new, hi, e] at hH
        rw [e]; exact (Except.ok.inj hH).symm
      rw [this]
      exact hkey (d :: batches) _ hg h0
  exact ⟨hall, by simp only [Hist.binErrors, hall]⟩

/-- an empty batch is refused by a 2-d histogram and changes nothing -/
theorem fill2_empty (h : Hist) (W : Weights) : (Hist2d.fill h [] [] W).2 = h ∧ (Hist2d.fill h [] [] W).1 = .error .valueError := by
  have hb : ∀ ex ey v, binnedSum2 ex ey [] [] v = .error .valueError := by
    intro ex ey v
    unfold binnedSum2
    split_ifs with h1 h2
    · rfl
    · rfl
    · exact absurd rfl h2
    · exact absurd rfl h2
  simp [Hist2d.fill, hb, Hist.accumulate]

/-- **C03**, 2-d, all batches: also with empty batches (which the code refuses with ValueError) the histogram after
two fills is the histogram after one fill with the concatenation. -/
theorem C03_fill2_state (h : Hist) (ex ey : List ℝ) (hg : Good2 h ex ey)
    (x1 y1 w1 x2 y2 w2 : Vec) (W1 W2 W : Weights) (h1 : Usable W1 x1 w1) (h2 : Usable W2 x2 w2)
    (h12 : Usable W (x1 ++ x2) (w1 ++ w2)) (l1 : x1.length = y1.length) (m1 : x1.length = w1.length)
    (l2 : x2.length = y2.length) (m2 : x2.length = w2.length) :
    (Hist2d.fill (Hist2d.fill h x1 y1 W1).2 x2 y2 W2).2 = (Hist2d.fill h (x1 ++ x2) (y1 ++ y2) W).2 ∧
    (x1 = [] → (Hist2d.fill h x1 y1 W1).1 = .error .valueError) := by
  refine ⟨?_, ?_⟩
  · by_cases n1 : x1 = []
    · subst n1
      obtain rfl : y1 = [] := by simpa using l1.symm
      obtain rfl : w1 = [] := by simpa using m1.symm
      rw [(fill2_empty h W1).1]
      simp only [List.nil_append] at h12 ⊢
      rw [C03_fill2_perm h ex ey hg x2 y2 w2 x2 y2 w2 W2 W h2 h12 l2 m2 l2 m2 (List.Perm.refl _)]
    · by_cases n2 : x2 = []
      · subst n2
        obtain rfl : y2 = [] := by simpa using l2.symm
        obtain rfl : w2 = [] := by simpa using m2.symm
        rw [(fill2_empty _ W2).1]
        simp only [List.append_nil] at h12 ⊢
        rw [C03_fill2_perm h ex ey hg x1 y1 w1 x1 y1 w1 W1 W h1 h12 l1 m1 l1 m1 (List.Perm.refl _)]
      · rw [C03_fill2_append h ex ey hg x1 y1 w1 x2 y2 w2 W1 W2 W h1 h2 h12 l1 m1 l2 m2 n1 n2]
  · rintro rfl
    obtain rfl : y1 = [] := by simpa using l1.symm
    exact (fill2_empty h W1).2

/-- **C07** for `Hist2d.from_binned_data`. -/
theorem C07_roundtrip2 (counts errors : NdArr) (ex ey : Edges) (a b c d : ℝ) (hx : ex.vals.head? = some a)
    (hx' : ex.vals.getLast? = some b) (hy : ey.vals.head? = some c) (hy' : ey.vals.getLast? = some d) :
    ∃ H, Hist2d.fromBinned counts ex ey (some errors) = .ok H ∧ H.counts = counts ∧ H.edges = [ex, ey] ∧
      H.range = .d2 .tuple .tuple .tuple a b c d ∧ H.isEmpty = false ∧
      H.numBins = [ex.vals.length - 1, ey.vals.length - 1] ∧ H.binErrors.data = errors.data.map Fl.abs := by
  obtain ⟨arr, v⟩ := ex
  obtain ⟨arr', v'⟩ := ey
  cases v with
  | nil => simp at hx
  | cons x l =>
    cases v' with
    | nil => simp at hy
    | cons x' l' =>
      simp at hx hy; subst hx hy
      refine ⟨_, rfl, rfl, rfl, ?_, rfl, rfl, ?_⟩
      · simp only [Hist.setBinned, Hist.blank]
        rw [List.getLastD_eq_getLast?, List.getLastD_eq_getLast?, hx', hy']
        rfl
      · simp [Hist.setBinned, Hist.binErrors, NdArr.map, Function.comp_def, Fl.sqrt_sq]

/-- **C07** for `Hist2d.from_binned_data` without errors. -/
theorem C07_default_errors2 (counts : NdArr) (ex ey : Edges) (hx : ex.vals ≠ []) (hy : ey.vals ≠ []) :
    ∃ H, Hist2d.fromBinned counts ex ey none = .ok H ∧ H.counts = counts ∧ H.isEmpty = false ∧
      H.errSq.data.length = counts.data.length ∧
      (∀ (i : ℕ) (c : ℝ), counts.data[i]? = some (.fin c) → 0 ≤ c → H.errSq.data[i]? = some (.fin c)) ∧
      (∀ (i : ℕ) (c : ℝ), counts.data[i]? = some (.fin c) → c < 0 → H.errSq.data[i]? = some .nan) := by
  obtain ⟨arr, v⟩ := ex
  obtain ⟨arr', v'⟩ := ey
  cases v with
  | nil => simp at hx
  | cons x l =>
    cases v' with
    | nil => simp at hy
    | cons x' l' =>
      refine ⟨_, rfl, rfl, rfl, by simp [Hist.setBinned, NdArr.map], ?_, ?_⟩
      · intro i c hi hc
        simp [Hist.setBinned, NdArr.map, hi, Fl.sq_sqrt hc]
      · intro i c hi hc
        simp [Hist.setBinned, NdArr.map, hi, Fl.sqrt_neg hc]
        rfl

/-! ### the hypotheses are met -/

/-- a histogram with unequal bins and a first batch -/
example : ∃ H, Hist1d.new (.edges ⟨true, [0, 1, 5]⟩) none (some [.fin 2, .fin 7]) .none = .ok H ∧
    (Hist1d.fill H [.fin 1] .none).2.errSq = (Hist1d.fill H [.fin 1] .none).2.counts := by
  have hb : Binning1 (.edges ⟨true, [0, 1, 5]⟩) none [0, 1, 5] :=
    Or.inr ⟨_, rfl, ⟨by simp, by norm_num⟩, rfl⟩
  obtain ⟨H, hH, -⟩ := C85_hist1 _ _ _ hb (some ⟨[.fin 2, .fin 7], [1, 1], .none⟩)
    (by intro b hb; obtain rfl : _ = b := by simpa using hb
        exact ⟨Or.inl ⟨rfl, rfl⟩, rfl⟩) [] (by simp)
  exact ⟨H, hH, (C02_unweighted_any _ _ _ hb _ H hH [[.fin 1]]).1⟩

example : ∃ H, Hist2d.fromBinned ⟨[1, 2], [.fin 3, .fin 4]⟩ ⟨true, [0, 1]⟩ ⟨true, [0, 2, 7]⟩
    (some ⟨[1, 2], [.fin 2, .fin (-4)]⟩) = .ok H ∧ H.binErrors.data = [.fin |2|, .fin |-4|] := by
  obtain ⟨H, h1, _, _, _, _, _, h2⟩ := C07_roundtrip2 ⟨[1, 2], [.fin 3, .fin 4]⟩
    ⟨[1, 2], [.fin 2, .fin (-4)]⟩ ⟨true, [0, 1]⟩ ⟨true, [0, 2, 7]⟩ 0 1 0 7 rfl rfl rfl rfl
  exact ⟨H, h1, h2⟩

end

end TF.Props
