import Verif.Props.LegacyProps
import Verif.Props.HistProps

set_option linter.unusedSimpArgs false

/-!
# Legacy histograms (C79, C80)
-/

namespace TF.Spec

open Classical

noncomputable section

/-- The events a call puts into object `i`: those of a `fill` of that object whose columns and weights have the same length. -/
def eventsOf (i : ℕ) : LOp2 → List ((Fl × Fl) × Fl)
  | .fill j x y W =>
    if j = i ∧ x.length = y.length ∧ x.length = (W.values x.length).length then
      (x.zip y).zip (W.values x.length) else []
  | _ => []

/-- all events filled into object `i` by a history of calls -/
def events (i : ℕ) (ops : List LOp2) : List ((Fl × Fl) × Fl) := (ops.map (eventsOf i)).flatten

/-- sum of `f` over the events in x-bin `a` (and in some y-bin) -/
def inX (ex ey : List ℝ) (f : Fl → Fl) (a : ℕ) (l : List ((Fl × Fl) × Fl)) : Fl :=
  ((l.filter fun p => decide (InBin ex a p.1.1 ∧ ∃ b, InBin ey b p.1.2)).map fun p => f p.2).sum

/-- sum of `f` over the events in y-bin `b` (and in some x-bin) -/
def inY (ex ey : List ℝ) (f : Fl → Fl) (b : ℕ) (l : List ((Fl × Fl) × Fl)) : Fl :=
  ((l.filter fun p => decide (InBin ey b p.1.2 ∧ ∃ a, InBin ex a p.1.1)).map fun p => f p.2).sum

end

end TF.Spec

namespace TF.Props

open Classical Spec

noncomputable section

/-- sum of `f` over the events of cell `(a, b)` -/
def inCell (ex ey : List ℝ) (f : Fl → Fl) (a b : ℕ) (l : List ((Fl × Fl) × Fl)) : Fl :=
  ((l.filter fun p => decide (InBin ex a p.1.1 ∧ InBin ey b p.1.2)).map fun p => f p.2).sum

/-- content array of a histogram holding the events `l` -/
def cells (ex ey : List ℝ) (f : Fl → Fl) (l : List ((Fl × Fl) × Fl)) : NdArr :=
  ⟨[ex.length - 1, ey.length - 1],
    (List.range ((ex.length - 1) * (ey.length - 1))).map fun k =>
      inCell ex ey f (k / (ey.length - 1)) (k % (ey.length - 1)) l⟩

theorem binnedSum2Range_eq {ex ey : List ℝ} (hx : validEdges ex) (hy : validEdges ey)
    (x y w : Vec) (hxy : x.length = y.length) (hxw : x.length = w.length) :
    binnedSum2Range ex ey x y w = .ok (cells ex ey id ((x.zip y).zip w)) := by
  have hv : validEdges ex ∧ validEdges ey := ⟨hx, hy⟩
  have h0 : ¬ (x.length ≠ y.length ∨ x.length ≠ w.length) := by simp [← hxy, ← hxw]
  simp only [binnedSum2Range, if_neg h0, if_pos hv]
  unfold cells
  congr 2
  apply List.map_congr_left
  intro i _
  simp only [inCell]
  congr 2
  apply List.filter_congr
  intro p _
  simp only [binIndex_iff hx.2 hx.1, binIndex_iff hy.2 hy.1]

theorem cells_sq (ex ey : List ℝ) (x y w : Vec) :
    cells ex ey id ((x.zip y).zip (w.map Fl.sq)) = cells ex ey Fl.sq ((x.zip y).zip w) := by
  unfold cells
  congr 1
  apply List.map_congr_left
  intro k _
  unfold inCell
  rw [List.zip_map_right, List.filter_map, List.map_map]
  rfl

theorem cells_iadd (ex ey : List ℝ) (f : Fl → Fl) (l m : List ((Fl × Fl) × Fl)) :
    (cells ex ey f l).iadd (cells ex ey f m) = .ok (cells ex ey f (l ++ m)) := by
  unfold NdArr.iadd
  rw [if_pos ⟨rfl, by simp [cells]⟩]
  unfold cells
  simp only
  rw [zipWith_add_map_range]
  congr 2
  apply List.map_congr_left
  intro k _
  simp [inCell]

theorem cells_nil (ex ey : List ℝ) (f : Fl → Fl) :
    cells ex ey f [] = NdArr.zeros [ex.length - 1, ey.length - 1] := by
  unfold cells NdArr.zeros
  congr 1
  simp [inCell, List.map_const']

theorem cells_at2 {ex ey : List ℝ} (f : Fl → Fl) (l : List ((Fl × Fl) × Fl)) {a b : ℕ} (ha : a < ex.length - 1)
    (hb : b < ey.length - 1) : (cells ex ey f l).at2 a b = inCell ex ey f a b l := by
  unfold NdArr.at2 cells
  have h1 : a * (ey.length - 1) + b < (ex.length - 1) * (ey.length - 1) := by
    calc a * (ey.length - 1) + b < a * (ey.length - 1) + (ey.length - 1) := by omega
      _ = (a + 1) * (ey.length - 1) := by ring
      _ ≤ _ := Nat.mul_le_mul_right _ (by omega)
  have h2 : (a * (ey.length - 1) + b) / (ey.length - 1) = a := by
    rw [mul_comm, Nat.mul_add_div (by omega), Nat.div_eq_of_lt hb, add_zero]
  have h3 : (a * (ey.length - 1) + b) % (ey.length - 1) = b := by
    rw [mul_comm, Nat.mul_add_mod, Nat.mod_eq_of_lt hb]
  simp [List.getD_eq_getElem?_getD, h1, h2, h3]

theorem cells_axis1 {ex ey : List ℝ} (hy : validEdges ey) (f : Fl → Fl) (l : List ((Fl × Fl) × Fl)) :
    (cells ex ey f l).sumAxis1 = ⟨[ex.length - 1], (List.range (ex.length - 1)).map fun a => inX ex ey f a l⟩ := by
  unfold NdArr.sumAxis1
  have e0 : (cells ex ey f l).shape.getD 0 0 = ex.length - 1 := rfl
  have e1 : (cells ex ey f l).shape.getD 1 0 = ey.length - 1 := rfl
  rw [e0, e1]
  congr 1
  apply List.map_congr_left
  intro a ha
  have ha' : a < ex.length - 1 := by simpa using ha
  have : ((List.range (ey.length - 1)).map fun b => (cells ex ey f l).at2 a b) =
      (List.range (ey.length - 1)).map fun b => inCell ex ey f a b l := by
    apply List.map_congr_left
    intro b hb
    exact cells_at2 f l ha' (by simpa using hb)
  rw [this]
  exact sum_cells l (fun p => f p.2) (fun p => InBin ex a p.1.1) (fun b p => InBin ey b p.1.2) (ey.length - 1)
    (fun i p hi => by have := inBin_lt hi; omega) (fun i k p hi hk => inBin_unique hy.2 hy.1 hi hk)

theorem cells_axis0 {ex ey : List ℝ} (hx : validEdges ex) (f : Fl → Fl) (l : List ((Fl × Fl) × Fl)) :
    (cells ex ey f l).sumAxis0 = ⟨[ey.length - 1], (List.range (ey.length - 1)).map fun b => inY ex ey f b l⟩ := by
  unfold NdArr.sumAxis0
  have e0 : (cells ex ey f l).shape.getD 0 0 = ex.length - 1 := rfl
  have e1 : (cells ex ey f l).shape.getD 1 0 = ey.length - 1 := rfl
  rw [e0, e1]
  congr 1
  apply List.map_congr_left
  intro b hb
  have hb' : b < ey.length - 1 := by simpa using hb
  have : ((List.range (ex.length - 1)).map fun a => (cells ex ey f l).at2 a b) =
      (List.range (ex.length - 1)).map fun a =>
        ((l.filter fun p => decide (InBin ey b p.1.2 ∧ InBin ex a p.1.1)).map fun p => f p.2).sum := by
    apply List.map_congr_left
    intro a ha
    rw [cells_at2 f l (by simpa using ha) hb']
    unfold inCell
    congr 2
    apply List.filter_congr
    intro p _
    simp only [and_comm]
  rw [this]
  exact sum_cells l (fun p => f p.2) (fun p => InBin ey b p.1.2) (fun a p => InBin ex a p.1.1) (ex.length - 1)
    (fun i p hi => by have := inBin_lt hi; omega) (fun i k p hi hk => inBin_unique hx.2 hx.1 hi hk)

/-- the histograms hold the given events and the caches hold current projections -/
structure LCoh (ex ey : ℕ → List ℝ) (E : ℕ → List ((Fl × Fl) × Fl)) (w : LWorld) : Prop where
  hist : ∀ i, w.hists i = ⟨ex i, ey i, cells (ex i) (ey i) id (E i), cells (ex i) (ey i) Fl.sq (E i)⟩
  xc : ∀ p ∈ w.xCache.items, p.2 = (w.hists p.1).xProj
  yc : ∀ p ∈ w.yCache.items, p.2 = (w.hists p.1).yProj

theorem lcoh_step {ex ey : ℕ → List ℝ} (hx : ∀ i, validEdges (ex i)) (hy : ∀ i, validEdges (ey i))
    {E : ℕ → List ((Fl × Fl) × Fl)} {w : LWorld} (h : LCoh ex ey E w) (op : LOp2)
    (hop : ∀ i x y v, op ≠ .fill i x y (.tuple v)) :
    LCoh ex ey (fun i => E i ++ eventsOf i op) (w.step op) := by
  cases op with
  | projX i =>
    refine ⟨fun j => by simp [eventsOf]; exact h.hist j, ?_, h.yc⟩
    intro p hp
    rcases lru_call_mem w.xCache i (.ok (w.hists i).xProj) p hp with h1 | ⟨rfl, h2⟩
    · exact h.xc p h1
    · exact (Except.ok.inj h2).symm
  | projY i =>
    refine ⟨fun j => by simp [eventsOf]; exact h.hist j, h.xc, ?_⟩
    intro p hp
    rcases lru_call_mem w.yCache i (.ok (w.hists i).yProj) p hp with h1 | ⟨rfl, h2⟩
    · exact h.yc p h1
    · exact (Except.ok.inj h2).symm
  | fill i x y W =>
    have hnp : W.noPow = false := by
      cases W with
      | tuple v => exact absurd rfl (hop i x y v)
      | _ => rfl
    simp only [LWorld.step]
    by_cases hl : x.length = y.length ∧ x.length = (W.values x.length).length
    · obtain ⟨h1, h2⟩ := hl
      have e1 := binnedSum2Range_eq (hx i) (hy i) x y (W.values x.length) h1 h2
      have e2 := binnedSum2Range_eq (hx i) (hy i) x y ((W.values x.length).map Fl.sq) h1 (by simpa using h2)
      rw [cells_sq] at e2
      have e : w.fill i x y W = (.ok (), ⟨Function.update w.hists i
          ⟨ex i, ey i, cells (ex i) (ey i) id (E i ++ (x.zip y).zip (W.values x.length)),
            cells (ex i) (ey i) Fl.sq (E i ++ (x.zip y).zip (W.values x.length))⟩, ⟨[]⟩, ⟨[]⟩⟩) := by
        unfold LWorld.fill
        simp only [h.hist i, e1, cells_iadd, hnp, Bool.false_eq_true, if_false, e2]
      rw [e]
      refine ⟨fun j => ?_, fun p hp => by simp at hp, fun p hp => by simp at hp⟩
      by_cases hj : j = i
      · subst hj
        have hev : eventsOf j (.fill j x y W) = (x.zip y).zip (W.values x.length) := by
          simp only [eventsOf]; rw [if_pos ⟨trivial, h1, h2⟩]
        simp only [Function.update_self, hev]
      · have : i ≠ j := fun h => hj h.symm
        simp [eventsOf, this, hj, h.hist j]
    · have e : w.fill i x y W = (.error .valueError, w) := by
        have : x.length ≠ y.length ∨ x.length ≠ (W.values x.length).length := by
          by_contra hc
          push Not at hc
          exact hl hc
        unfold LWorld.fill
        simp only [h.hist i, binnedSum2Range, if_pos this]
      rw [e]
      refine ⟨fun j => ?_, h.xc, h.yc⟩
      have : ¬ (i = j ∧ x.length = y.length ∧ x.length = (W.values x.length).length) := fun hh => hl hh.2
      simp only [eventsOf, if_neg this, List.append_nil]
      exact h.hist j

theorem lcoh_run {ex ey : ℕ → List ℝ} (hx : ∀ i, validEdges (ex i)) (hy : ∀ i, validEdges (ey i)) (ops : List LOp2) :
    ∀ {E : ℕ → List ((Fl × Fl) × Fl)} {w : LWorld}, LCoh ex ey E w →
      (∀ op ∈ ops, ∀ i x y v, op ≠ .fill i x y (.tuple v)) →
      LCoh ex ey (fun i => E i ++ events i ops) (w.run ops) := by
  induction ops with
  | nil => intro E w h _; simpa [events, LWorld.run] using h
  | cons op ops ih =>
    intro E w h hops
    have := ih (lcoh_step hx hy h op (hops op (by simp))) (fun o ho => hops o (by simp [ho]))
    simp only [events, List.map_cons, List.flatten_cons, List.append_assoc] at this ⊢
    exact this

theorem lcoh_start (ex ey : ℕ → List ℝ) : LCoh ex ey (fun _ => []) (LWorld.start ex ey) := by
  refine ⟨fun i => ?_, fun p hp => by simp [LWorld.start] at hp, fun p hp => by simp [LWorld.start] at hp⟩
  simp only [LWorld.start, LHist2.new, cells_nil]

/-- **C79, the part that holds.** Any number of legacy 2-d histograms with usable edges, any interleaving of fills (with or without
weights, accepted or rejected) and projections of all of them: the x and y projections of object `i`, cached or not, are the
sums of the weights of all events filled into object `i` so far, and the errors the roots of the sums of squares.
Missing for the full property: fills whose weights are a tuple, see `C79_refuted`. -/
theorem C79_projections_partial (ex ey : ℕ → List ℝ) (hx : ∀ i, 2 ≤ (ex i).length ∧ (ex i).Pairwise (· < ·))
    (hy : ∀ i, 2 ≤ (ey i).length ∧ (ey i).Pairwise (· < ·)) (ops : List LOp2)
    (hops : ∀ op ∈ ops, ∀ i x y v, op ≠ .fill i x y (.tuple v)) (i : ℕ) :
    (((LWorld.start ex ey).run ops).xProjection i).1 = .ok
      (⟨[(ex i).length - 1], (List.range ((ex i).length - 1)).map fun a => inX (ex i) (ey i) id a (events i ops)⟩,
       ⟨[(ex i).length - 1], (List.range ((ex i).length - 1)).map fun a =>
          Fl.sqrt (inX (ex i) (ey i) Fl.sq a (events i ops))⟩) ∧
    (((LWorld.start ex ey).run ops).yProjection i).1 = .ok
      (⟨[(ey i).length - 1], (List.range ((ey i).length - 1)).map fun b => inY (ex i) (ey i) id b (events i ops)⟩,
       ⟨[(ey i).length - 1], (List.range ((ey i).length - 1)).map fun b =>
          Fl.sqrt (inY (ex i) (ey i) Fl.sq b (events i ops))⟩) := by
  have h := lcoh_run hx hy ops (lcoh_start ex ey) hops
  simp only [List.nil_append] at h
  constructor
  · unfold LWorld.xProjection
    simp only
    rw [lru_call_val _ _ _ (fun p hp hk => by rw [h.xc p hp, hk])]
    unfold LHist2.xProj
    rw [h.hist i]
    simp only [cells_axis1 (hy i), NdArr.map, List.map_map]
    rfl
  · unfold LWorld.yProjection
    simp only
    rw [lru_call_val _ _ _ (fun p hp hk => by rw [h.yc p hp, hk])]
    unfold LHist2.yProj
    rw [h.hist i]
    simp only [cells_axis0 (hx i), NdArr.map, List.map_map]
    rfl

/-- **C79 is false.** For every fresh histogram with usable edges and every event inside it: project, then fill the event with a tuple
of weights (a unit weight). The fill raises `TypeError` after the bin counts have been updated and the cache is not cleared: the
x projection still shows the old content while the bin counts do not. -/
theorem C79_refuted (ex ey : ℕ → List ℝ) (hx : ∀ i, 2 ≤ (ex i).length ∧ (ex i).Pairwise (· < ·))
    (hy : ∀ i, 2 ≤ (ey i).length ∧ (ey i).Pairwise (· < ·)) (i a b : ℕ) (x y : Fl) (ha : InBin (ex i) a x)
    (hb : InBin (ey i) b y) :
    ∃ w : LWorld, w = (LWorld.start ex ey).run [.projX i, .fill i [x] [y] (.tuple [1])] ∧
      ((((LWorld.start ex ey).step (.projX i)).fill i [x] [y] (.tuple [1])).1 = .error .typeError) ∧
      (∃ P Q : NdArr, (w.xProjection i).1 = .ok (P, Q) ∧ P.data[a]? = some 0 ∧
        (w.hists i).counts.sumAxis1.data[a]? = some 1) := by
  have h := lcoh_step hx hy (lcoh_start ex ey) (.projX i) (by intro _ _ _ _ h; cases h)
  have hi : ((LWorld.start ex ey).step (.projX i)).hists i =
      ⟨ex i, ey i, cells (ex i) (ey i) id [], cells (ex i) (ey i) Fl.sq []⟩ := by
    rw [h.hist i]; rfl
  have e1 := binnedSum2Range_eq (hx i) (hy i) [x] [y] [1] rfl rfl
  have e : ((LWorld.start ex ey).step (.projX i)).fill i [x] [y] (.tuple [1]) =
      (.error .typeError,
        ⟨Function.update ((LWorld.start ex ey).step (.projX i)).hists i
          ⟨ex i, ey i, cells (ex i) (ey i) id [((x, y), 1)], cells (ex i) (ey i) Fl.sq []⟩,
         ((LWorld.start ex ey).step (.projX i)).xCache, ((LWorld.start ex ey).step (.projX i)).yCache⟩) := by
    unfold LWorld.fill
    simp only [hi, Weights.values, Weights.noPow, e1, cells_iadd, if_true]
    rfl
  have hc : ((LWorld.start ex ey).step (.projX i)).xCache.items =
      [(i, (cells (ex i) (ey i) id []).sumAxis1, ((cells (ex i) (ey i) Fl.sq []).sumAxis1).map Fl.sqrt)] := by
    simp [LWorld.step, LWorld.xProjection, Lru.call, LWorld.start, dictGet, LHist2.xProj, LHist2.new, cells_nil]
  have ha' : a < (ex i).length - 1 := by have := inBin_lt ha; omega
  refine ⟨_, rfl, by rw [e], (cells (ex i) (ey i) id []).sumAxis1,
    ((cells (ex i) (ey i) Fl.sq []).sumAxis1).map Fl.sqrt, ?_, ?_, ?_⟩
  · simp only [LWorld.run, List.foldl_cons, List.foldl_nil]
    rw [show ∀ w : LWorld, w.step (.fill i [x] [y] (.tuple [1])) = (w.fill i [x] [y] (.tuple [1])).2 from fun _ => rfl, e]
    unfold LWorld.xProjection
    simp only
    unfold Lru.call
    rw [hc]
    simp [dictGet]
  · rw [cells_axis1 (hy i)]
    simp [ha', inX]
  · simp only [LWorld.run, List.foldl_cons, List.foldl_nil]
    rw [show ∀ w : LWorld, w.step (.fill i [x] [y] (.tuple [1])) = (w.fill i [x] [y] (.tuple [1])).2 from fun _ => rfl, e]
    simp only [Function.update_self]
    rw [cells_axis1 (hy i)]
    have : ∃ b, InBin (ey i) b y := ⟨b, hb⟩
    simp [ha', inX, ha, this]

/-- non-trivial history for C79: two objects, an accepted weighted fill, a projection (cached), a rejected fill, another fill; and an event
for the refutation -/
example : (∀ op ∈ [LOp2.fill 0 [.fin (1/2)] [.fin (1/2)] (.list [.fin 3]), .projX 0, .fill 0 [.fin (1/2)] [.fin (1/2)] (.array []),
      .fill 1 [.fin (1/2)] [.fin (1/2)] .none, .projY 1], ∀ i x y v, op ≠ .fill i x y (.tuple v)) ∧
    events 0 [LOp2.fill 0 [.fin (1/2)] [.fin (1/2)] (.list [.fin 3]), .projX 0, .fill 0 [.fin (1/2)] [.fin (1/2)] (.array []),
      .fill 1 [.fin (1/2)] [.fin (1/2)] .none, .projY 1] = [((.fin (1/2), .fin (1/2)), .fin 3)] ∧
    (2 ≤ ([0, 1] : List ℝ).length ∧ ([0, 1] : List ℝ).Pairwise (· < ·)) ∧ InBin [0, 1] 0 (.fin (1/2)) := by
  refine ⟨?_, ?_, ⟨by simp, by simp⟩, Or.inl ⟨0, 1, rfl, rfl, by norm_num, by norm_num⟩⟩
  · intro op hop
    simp only [List.mem_cons, List.not_mem_nil, or_false] at hop
    rcases hop with rfl | rfl | rfl | rfl | rfl <;> intro i x y v h <;> cases h
  · simp [events, eventsOf, Weights.values]

/-! ### C80 -/

end

end TF.Props

namespace TF.Spec

open Classical

noncomputable section

/-- A legacy `Histogram` as the interface makes it: constructed with at least one bin over a proper interval, then any calls of `fill`
(with finite weights; accepted or not) and `scale` (by a finite number). -/
inductive LHist.Made : LHist → Prop
  | new (nb : ℕ) (lo hi : ℝ) (h1 : 1 ≤ nb) (h2 : lo < hi) : LHist.Made (LHist.new nb lo hi)
  | fill (h : LHist) (data : Vec) (W : Weights) (hW : ∀ x ∈ W.values data.length, ∃ r : ℝ, x = .fin r) :
      LHist.Made h → LHist.Made (h.fill data W).2
  | scale (h : LHist) (c : ℝ) : LHist.Made h → LHist.Made (h.scale (.fin c))

end

end TF.Spec

namespace TF.Props

open Classical Spec

noncomputable section

/-- all numbers finite, shapes fitting, squared errors not negative -/
structure LHInv (h : LHist) (n : ℕ) (c e s : Fin n → ℝ) : Prop where
  edges : h.edges.length = n + 1
  valid : validEdges h.edges
  counts : h.counts = ⟨[n], vec c⟩
  entries : h.entries = ⟨[n], vec e⟩
  errSq : h.errSq = ⟨[n], vec s⟩
  nonneg : ∀ i, 0 ≤ s i

/-- real weights: sum of those falling into bin `i` -/
def binR (edges : List ℝ) (data : Vec) (r : List ℝ) (i : ℕ) : ℝ :=
  (((data.zip r).filter fun p => decide (binIndex edges p.1 = some i)).map (·.2)).sum

theorem binnedSum_real {edges : List ℝ} {n : ℕ} (hn : edges.length = n + 1) (hv : validEdges edges) (data : Vec) (r : List ℝ)
    (hl : data.length = r.length) :
    binnedSum edges data (r.map Fl.fin) = .ok ⟨[n], vec fun i : Fin n => binR edges data r i⟩ := by
  unfold binnedSum
  rw [if_neg (by simp [hl]), if_pos hv]
  have h1 : edges.length - 1 = n := by omega
  rw [h1]
  congr 2
  apply List.ext_getElem
  · simp [vec_length]
  · intro i h1 h2
    simp only [List.getElem_map, List.getElem_range, vec, List.getElem_ofFn, binR]
    rw [← Fl.list_sum_fin, List.zip_map_right, List.filter_map, List.map_map, List.map_map]
    rfl

theorem iadd_vec {n : ℕ} (a b : Fin n → ℝ) : NdArr.iadd ⟨[n], vec a⟩ ⟨[n], vec b⟩ = .ok ⟨[n], vec fun i => a i + b i⟩ := by
  unfold NdArr.iadd
  rw [if_pos ⟨rfl, by simp [vec_length]⟩, zipWith_vec _ _ _ _ (fun i => rfl)]

theorem finite_list {v : Vec} (h : ∀ x ∈ v, ∃ r : ℝ, x = .fin r) : ∃ r : List ℝ, v = r.map Fl.fin := by
  induction v with
  | nil => exact ⟨[], rfl⟩
  | cons a v ih =>
    obtain ⟨r, rfl⟩ := ih (fun x hx => h x (by simp [hx]))
    obtain ⟨q, rfl⟩ := h a (by simp)
    exact ⟨q :: r, rfl⟩

/-- closed form of a fill with finite weights -/
theorem lfill_eq {h : LHist} {n : ℕ} {c e s : Fin n → ℝ} (hi : LHInv h n c e s) (data : Vec) (W : Weights) (r : List ℝ)
    (hW : W.values data.length = r.map Fl.fin) (hl : data.length = r.length) (hne : data ≠ []) :
    h.fill data W = (if W.noPow then .error .typeError else .ok (),
      ⟨h.edges, ⟨[n], vec fun i => c i + binR h.edges data r i⟩,
        ⟨[n], vec fun i => e i + binR h.edges data (r.map fun _ => 1) i⟩,
        if W.noPow then h.errSq else ⟨[n], vec fun i => s i + binR h.edges data (r.map fun x => x ^ 2) i⟩⟩) := by
  unfold LHist.fill
  simp only [hW]
  rw [if_neg (by simp [hl]), if_neg hne, binnedSum_real hi.edges hi.valid data r hl, hi.counts]
  simp only
  rw [iadd_vec]
  simp only
  have h1 : (r.map Fl.fin).map (fun _ => (1 : Fl)) = (r.map fun _ => (1:ℝ)).map Fl.fin := by
    rw [List.map_map, List.map_map]; rfl
  have h2 : (r.map Fl.fin).map Fl.sq = (r.map fun x => x ^ 2).map Fl.fin := by
    rw [List.map_map, List.map_map]
    apply List.map_congr_left
    intro x _
    simp
  rw [h1, binnedSum_real hi.edges hi.valid data _ (by simpa using hl), hi.entries]
  simp only
  rw [iadd_vec]
  simp only
  by_cases hp : W.noPow = true
  · simp [hp]
  · simp only [hp, Bool.false_eq_true, if_false]
    rw [h2, binnedSum_real hi.edges hi.valid data _ (by simpa using hl), hi.errSq]
    simp only
    rw [iadd_vec]

theorem lfill_nil (h : LHist) (W : Weights) : h.fill [] W = (.error .valueError, h) := by
  unfold LHist.fill
  simp only
  split <;> simp

theorem binR_sq_nonneg (edges : List ℝ) (data : Vec) (r : List ℝ) (i : ℕ) :
    0 ≤ binR edges data (r.map fun x => x ^ 2) i := by
  unfold binR
  apply List.sum_nonneg
  intro x hx
  obtain ⟨p, hp, rfl⟩ := List.mem_map.mp hx
  have h1 := (List.mem_filter.mp hp).1
  have h2 := (List.of_mem_zip h1).2
  obtain ⟨q, -, hq⟩ := List.mem_map.mp h2
  rw [← hq]
  exact sq_nonneg q

theorem lscale_eq {h : LHist} {n : ℕ} {c e s : Fin n → ℝ} (hi : LHInv h n c e s) (k : ℝ) :
    h.scale (.fin k) = ⟨h.edges, ⟨[n], vec fun i => c i * k⟩, h.entries, ⟨[n], vec fun i => s i * k ^ 2⟩⟩ := by
  unfold LHist.scale NdArr.map
  rw [hi.counts, hi.errSq]
  simp only
  rw [map_vec _ _ (fun i => c i * k) (fun i => rfl), map_vec _ _ (fun i => s i * k ^ 2) (fun i => by simp)]

theorem lmade_inv {h : LHist} (hm : LHist.Made h) : ∃ (n : ℕ) (c e s : Fin n → ℝ), LHInv h n c e s := by
  induction hm with
  | new nb lo hi h1 h2 =>
    have hz : NdArr.zeros [nb] = ⟨[nb], vec fun _ : Fin nb => 0⟩ := by
      unfold NdArr.zeros vec
      rw [List.ofFn_const]
      simp [Fl.zero_def]
    refine ⟨nb, fun _ => 0, fun _ => 0, fun _ => 0, by simp [LHist.new, linspace_length], ⟨?_, ?_⟩, hz, hz, hz, fun _ => le_refl _⟩
    · simp [LHist.new, linspace_length]; omega
    · exact linspace_pairwise h2 _ (by omega)
  | fill h data W hW _ ih =>
    obtain ⟨n, c, e, s, hi⟩ := ih
    obtain ⟨r, hr⟩ := finite_list hW
    by_cases hne : data = []
    · rw [hne, lfill_nil]; exact ⟨n, c, e, s, hi⟩
    by_cases hl : data.length = r.length
    · rw [lfill_eq hi data W r hr hl hne]
      by_cases hp : W.noPow = true
      · exact ⟨n, _, _, s, hi.edges, hi.valid, rfl, rfl, by simp [hp, hi.errSq], hi.nonneg⟩
      · refine ⟨n, _, _, fun i => s i + binR h.edges data (r.map fun x => x ^ 2) i, hi.edges, hi.valid, rfl, rfl,
          by simp only [hp, Bool.false_eq_true, if_false], fun i => ?_⟩
        exact add_nonneg (hi.nonneg i) (binR_sq_nonneg _ _ _ _)
    · have : h.fill data W = (.error .valueError, h) := by
        unfold LHist.fill
        simp only [hr]
        rw [if_pos (by simpa using hl)]
      rw [this]
      exact ⟨n, c, e, s, hi⟩
  | scale h k _ ih =>
    obtain ⟨n, c, e, s, hi⟩ := ih
    rw [lscale_eq hi k]
    exact ⟨n, _, e, _, hi.edges, hi.valid, rfl, hi.entries, rfl, fun i => mul_nonneg (hi.nonneg i) (sq_nonneg k)⟩

theorem binR_scale (edges : List ℝ) (data : Vec) (r : List ℝ) (i : ℕ) (f : ℝ → ℝ) (k : ℝ) (hf : ∀ x, f x = x * k) :
    binR edges data (r.map f) i = binR edges data r i * k := by
  unfold binR
  rw [List.zip_map_right, List.filter_map, List.map_map, ← List.sum_map_mul_right]
  have : ((fun x : Fl × ℝ => x.2) ∘ Prod.map id f) = fun p => p.2 * k := by
    funext p; simp [hf]
  rw [this]
  rfl

/-- **C80 (scale).** Scaling multiplies every bin count by `k` and every bin error by `|k|`; entries and edges stay. -/
theorem C80_scale (h : LHist) (hm : LHist.Made h) (k : ℝ) :
    (∀ (i : ℕ) (v : ℝ), h.counts.data[i]? = some (.fin v) → (h.scale (.fin k)).counts.data[i]? = some (.fin (k * v))) ∧
    (∀ (i : ℕ) (v : ℝ), h.binErrors.data[i]? = some (.fin v) → (h.scale (.fin k)).binErrors.data[i]? = some (.fin (|k| * v))) ∧
    (h.scale (.fin k)).counts.data.length = h.counts.data.length ∧
    (h.scale (.fin k)).binErrors.data.length = h.binErrors.data.length ∧
    (∀ x ∈ h.counts.data ++ h.binErrors.data, ∃ v : ℝ, x = .fin v) ∧
    (h.scale (.fin k)).entries = h.entries ∧ (h.scale (.fin k)).edges = h.edges := by
  obtain ⟨n, c, e, s, hi⟩ := lmade_inv hm
  have hb : h.binErrors.data = vec fun i => Real.sqrt (s i) := by
    unfold LHist.binErrors NdArr.map
    rw [hi.errSq]
    exact map_vec _ _ _ (fun i => Fl.sqrt_fin (hi.nonneg i))
  have hbk : (h.scale (.fin k)).binErrors.data = vec fun i => |k| * Real.sqrt (s i) := by
    rw [lscale_eq hi k]
    unfold LHist.binErrors NdArr.map
    apply map_vec
    intro i
    rw [Fl.sqrt_fin (mul_nonneg (hi.nonneg i) (sq_nonneg k)), mul_comm, Real.sqrt_mul (sq_nonneg k), Real.sqrt_sq_eq_abs]
  refine ⟨?_, ?_, ?_, ?_, ?_, rfl, rfl⟩
  · intro i v hv
    rw [hi.counts] at hv
    rw [lscale_eq hi k]
    simp only at hv ⊢
    have hin : i < n := by
      by_contra hc
      rw [List.getElem?_eq_none (by rw [vec_length]; omega)] at hv
      simp at hv
    rw [vec_getElem? _ ⟨i, hin⟩] at hv ⊢
    simp only [Option.some.injEq, Fl.fin_inj] at hv ⊢
    rw [hv]; ring
  · intro i v hv
    rw [hb] at hv
    rw [hbk]
    have hin : i < n := by
      by_contra hc
      rw [List.getElem?_eq_none (by rw [vec_length]; omega)] at hv
      simp at hv
    rw [vec_getElem? _ ⟨i, hin⟩] at hv ⊢
    simp only [Option.some.injEq, Fl.fin_inj] at hv ⊢
    rw [hv]
  · rw [lscale_eq hi k, hi.counts]; simp [vec_length]
  · rw [hbk, hb]; simp [vec_length]
  · intro x hx
    rw [hb, hi.counts] at hx
    rcases List.mem_append.mp hx with h | h <;> obtain ⟨i, rfl⟩ := List.mem_ofFn.mp h <;> exact ⟨_, rfl⟩

/-- **C80 (commutation).** For a legacy histogram `h`, data and as many finite weights `w` (a list, an array, or none for unit weights):
filling and then scaling by `k` gives the same histogram as scaling first and then filling with the weights `k * w`; both fills
are accepted, unless the sample is empty: then both raise `ValueError`. -/
theorem C80_commute (h : LHist) (hm : LHist.Made h) (data w : Vec) (W : Weights) (hW : Usable W data w)
    (hl : data.length = w.length) (hfin : ∀ x ∈ w, ∃ r : ℝ, x = .fin r) (k : ℝ) :
    (h.fill data W).1 = (if data = [] then .error .valueError else .ok ()) ∧
    (h.scale (.fin k)).fill data (.array (w.map (.fin k * ·))) = ((h.fill data W).1, (h.fill data W).2.scale (.fin k)) := by
  by_cases hne : data = []
  · rw [hne, lfill_nil, lfill_nil]; exact ⟨by simp, rfl⟩
  rw [if_neg hne]
  obtain ⟨n, c, e, s, hi⟩ := lmade_inv hm
  obtain ⟨r, rfl⟩ := finite_list hfin
  obtain ⟨hv, hp⟩ := usable_values hW
  have hlr : data.length = r.length := by simpa using hl
  rw [lfill_eq hi data W r hv hlr hne]
  have hi2 : LHInv (h.scale (.fin k)) n (fun i => c i * k) e (fun i => s i * k ^ 2) := by
    rw [lscale_eq hi k]
    exact ⟨hi.edges, hi.valid, rfl, hi.entries, rfl, fun i => mul_nonneg (hi.nonneg i) (sq_nonneg k)⟩
  have hw' : (Weights.array ((r.map Fl.fin).map (.fin k * ·))).values data.length = (r.map (fun x => k * x)).map Fl.fin := by
    simp only [Weights.values, List.map_map]; rfl
  refine ⟨by simp [hp], ?_⟩
  rw [lfill_eq hi2 data _ _ hw' (by simpa using hlr) hne]
  have hi3 : LHInv ⟨h.edges, ⟨[n], vec fun i => c i + binR h.edges data r i⟩,
      ⟨[n], vec fun i => e i + binR h.edges data (r.map fun _ => 1) i⟩,
      ⟨[n], vec fun i => s i + binR h.edges data (r.map fun x => x ^ 2) i⟩⟩ n _ _ _ :=
    ⟨hi.edges, hi.valid, rfl, rfl, rfl, fun i => add_nonneg (hi.nonneg i) (binR_sq_nonneg _ _ _ _)⟩
  have he : (h.scale (.fin k)).edges = h.edges := rfl
  have hp2 : (Weights.array ((r.map Fl.fin).map (.fin k * ·))).noPow = false := rfl
  simp only [hp, hp2, Bool.false_eq_true, if_false]
  rw [lscale_eq hi3 k, he]
  have e1 : ∀ i : ℕ, binR h.edges data (r.map fun x => k * x) i = binR h.edges data r i * k :=
    fun i => binR_scale _ _ _ _ _ _ (fun x => mul_comm _ _)
  have e2 : ∀ i : ℕ, binR h.edges data ((r.map fun x => k * x).map fun x => x ^ 2) i =
      binR h.edges data (r.map fun x => x ^ 2) i * k ^ 2 := by
    intro i
    have : (r.map fun x => k * x).map (fun x => x ^ 2) = (r.map fun x => x ^ 2).map (fun x => x * k ^ 2) := by
      rw [List.map_map, List.map_map]
      apply List.map_congr_left
      intro x _
      simp; ring
    rw [this, binR_scale _ _ _ _ _ (k ^ 2) (fun x => rfl)]
  have e3 : (r.map fun x => k * x).map (fun _ => (1 : ℝ)) = r.map fun _ => 1 := by rw [List.map_map]; rfl
  simp only [e1, e2, e3, ← add_mul]

/-- **C80**, from a new histogram: filling the weights and scaling equals filling the scaled weights. -/
theorem C80_fresh (nb : ℕ) (lo hi : ℝ) (h1 : 1 ≤ nb) (h2 : lo < hi) (data w : Vec) (W : Weights) (hW : Usable W data w)
    (hl : data.length = w.length) (hfin : ∀ x ∈ w, ∃ r : ℝ, x = .fin r) (k : ℝ) :
    ((LHist.new nb lo hi).fill data W).2.scale (.fin k) =
      ((LHist.new nb lo hi).fill data (.array (w.map (.fin k * ·)))).2 := by
  have hs : (LHist.new nb lo hi).scale (.fin k) = LHist.new nb lo hi := by
    simp [LHist.scale, LHist.new, NdArr.map, NdArr.zeros, Fl.zero_def]
  have := (C80_commute _ (LHist.Made.new nb lo hi h1 h2) data w W hW hl hfin k).2
  rw [hs] at this
  rw [this]

/-- a histogram that was filled with weights, scaled by -2 and refused a tuple meets the hypotheses of C80 -/
example : LHist.Made ((((LHist.new 3 0 1).fill [.fin (1/2), .nan] (.list [.fin 3, .fin 1])).2.scale (.fin (-2))).fill [.fin 0]
      (.tuple [.fin 1])).2 ∧
    Usable (.list [.fin 3, .fin 1]) [.fin (1/2), .nan] [.fin 3, .fin 1] := by
  refine ⟨.fill _ _ _ ?_ (.scale _ _ (.fill _ _ _ ?_ (.new 3 0 1 (by norm_num) (by norm_num)))), Or.inr (Or.inl rfl)⟩
  · intro x hx; simp [Weights.values] at hx; exact ⟨1, hx⟩
  · intro x hx; simp [Weights.values] at hx; rcases hx with h | h <;> exact ⟨_, h⟩

end

end TF.Props
