import Verif.Props.LegacySysProps6
import Verif.Props.AliasProps

set_option linter.unusedSimpArgs false

/-!
# Legacy histograms: geometry and assignments (C115); what a legacy stack accepts (C92); integer parameter arrays (C89)
-/

namespace TF.Spec

open Classical

noncomputable section

/-- everything one can do to a legacy `Histogram` object: fill it (successfully or not), scale it, assign contents or errors -/
inductive LHistOp where
  | fill (data : Vec) (w : Weights)
  | scale (c : Fl)
  | setCounts (v : NdArr)
  | setErrors (v : NdArr)

def LHistOp.apply (h : LHist) : LHistOp → LHist
  | .fill d w => (h.fill d w).2
  | .scale c => h.scale c
  | .setCounts v => h.setCounts v
  | .setErrors v => h.setErrors v

/-- the integer one gets from `r` by dropping the fraction -/
def TowardZero (r : ℝ) (z : ℤ) : Prop := |(z : ℝ)| ≤ |r| ∧ |r| < |(z : ℝ)| + 1 ∧ 0 ≤ z * r

end

end TF.Spec

namespace TF.Props

open Classical Spec
open scoped Matrix

noncomputable section

/-! ### C115 -/

theorem lfill_edges (h : LHist) (d : Vec) (w : Weights) : (h.fill d w).2.edges = h.edges := by
  unfold LHist.fill
  simp only
  repeat' split
  all_goals rfl

theorem lops_edges (ops : List LHistOp) : ∀ h : LHist, (ops.foldl LHistOp.apply h).edges = h.edges := by
  induction ops with
  | nil => intro h; rfl
  | cons o ops ih =>
    intro h
    rw [List.foldl_cons, ih]
    cases o with
    | fill d w => exact lfill_edges h d w
    | scale | setCounts | setErrors => rfl

/-- **C115, geometry.** Whatever was done to a legacy `Histogram(nbins, limits)`: its `nbins + 1` edges are equally spaced, `bin_width` is the
width of every bin, and `bin_mids` are the centres of the bins. -/
theorem C115_geometry (nb : ℕ) (lo hi : ℝ) (h1 : 1 ≤ nb) (ops : List LHistOp) (h : LHist)
    (hh : h = ops.foldl LHistOp.apply (LHist.new nb lo hi)) :
    h.edges.length = nb + 1 ∧ h.binMids.length = nb ∧ h.binWidth = .ok ((hi - lo) / nb) ∧
    h.edges[0]? = some lo ∧ h.edges[nb]? = some hi ∧
    ∀ i < nb, ∃ a b : ℝ, h.edges[i]? = some a ∧ h.edges[i + 1]? = some b ∧ b - a = (hi - lo) / nb ∧
      h.binMids[i]? = some ((a + b) / 2) := by
  have he : h.edges = linspace lo hi (nb + 1) := by rw [hh, lops_edges]; rfl
  have hn : (nb : ℝ) ≠ 0 := by exact_mod_cast (by omega : nb ≠ 0)
  have hg : ∀ i ≤ nb, h.edges[i]? = some (lo + i * ((hi - lo) / nb)) := by
    intro i hi'
    rw [he, linspace_getElem? _ _ _ _ (by omega)]
    congr 4
    push_cast; ring
  have hl : h.edges.length = nb + 1 := by rw [he, linspace_length]
  refine ⟨hl, ?_, ?_, ?_, ?_, fun i hi' => ?_⟩
  · unfold LHist.binMids; simp [hl]
  · have h0 := hg 0 (by omega)
    have h1' := hg 1 h1
    unfold LHist.binWidth
    match hE : h.edges with
    | [] => rw [hE] at h0; simp at h0
    | [_] => rw [hE] at h1'; simp at h1'
    | a :: b :: _ =>
      rw [hE] at h0 h1'
      simp only [List.getElem?_cons_zero, List.getElem?_cons_succ, Option.some.injEq] at h0 h1'
      simp only
      rw [h0, h1']
      congr 1
      push_cast; ring
  · rw [hg 0 (by omega)]; simp
  · rw [hg nb le_rfl]; congr 1; field_simp; ring
  · refine ⟨_, _, hg i (by omega), hg (i + 1) (by omega), by push_cast; ring, ?_⟩
    unfold LHist.binMids
    rw [List.getElem?_zipWith, List.getElem?_tail, hg i (by omega), hg (i + 1) (by omega)]

/-- **C115, `Hist1d`.** `bin_width` of a legacy `Hist1d` is the width of its first bin, so it is the width of every bin exactly if the bins
are equally wide; with fewer than two edges it raises IndexError. -/
theorem C115_width (h : LH1) :
    (∀ a b l, h.edges.vals = a :: b :: l → h.binWidth = .ok (b - a)) ∧
    (h.edges.vals.length < 2 → h.binWidth = .error .indexError) := by
  constructor
  · intro a b l hl; unfold LH1.binWidth; rw [hl]
  · intro hl
    unfold LH1.binWidth
    match hE : h.edges.vals with
    | [] => rfl
    | [_] => rfl
    | _ :: _ :: _ => rw [hE] at hl; simp at hl

theorem C115_width_equal {n : ℕ} (lo hi : ℝ) (hn : 1 ≤ n) (h : LH1)
    (hm : LH1.init (.int n) (some (lo, hi)) = .ok h) (data : List (Vec × Weights)) (h' : LH1)
    (hh : h' = data.foldl (fun h d => (h.fill d.1 d.2).2) h) :
    h'.binWidth = .ok ((hi - lo) / n) ∧
    ∀ i < n, ∃ a b : ℝ, h'.edges.vals[i]? = some a ∧ h'.edges.vals[i + 1]? = some b ∧ b - a = (hi - lo) / n := by
  have hf : ∀ (l : List (Vec × Weights)) (g : LH1), (l.foldl (fun h d => (h.fill d.1 d.2).2) g).edges = g.edges := by
    intro l
    induction l with
    | nil => intro g; rfl
    | cons d l ih =>
      intro g
      rw [List.foldl_cons, ih]
      unfold LH1.fill
      simp only
      repeat' split
      all_goals rfl
  have hE : h'.edges.vals = linspace lo hi (n + 1) := by
    rw [hh, hf]
    unfold LH1.init at hm
    simp only at hm
    rw [if_neg (by omega)] at hm
    rw [← Except.ok.inj hm]
    simp
  have hg : ∀ i ≤ n, h'.edges.vals[i]? = some (lo + i * ((hi - lo) / n)) := by
    intro i hi'
    rw [hE, linspace_getElem? _ _ _ _ (by omega)]
    congr 4
    push_cast; ring
  constructor
  · have h0 := hg 0 (by omega)
    have h1' := hg 1 hn
    unfold LH1.binWidth
    match hE : h'.edges.vals with
    | [] => rw [hE] at h0; simp at h0
    | [_] => rw [hE] at h1'; simp at h1'
    | a :: b :: _ =>
      rw [hE] at h0 h1'
      simp only [List.getElem?_cons_zero, List.getElem?_cons_succ, Option.some.injEq] at h0 h1'
      simp only
      rw [h0, h1']
      congr 1
      push_cast; ring
  · intro i hi'
    exact ⟨_, _, hg i (by omega), hg (i + 1) (by omega), by push_cast; ring⟩

/-- non-vacuity of `C115_geometry` and `C115_width_equal` -/
example : ((LHist.new 4 0 2).fill [.fin 1, .nan] .none).2.binWidth = .ok (1 / 2) := by
  have := (C115_geometry 4 0 2 (by norm_num) [.fill [.fin 1, .nan] .none] _ rfl).2.2.1
  norm_num at this
  exact this

example : ∃ h, LH1.init (.int 4) (some (0, 2)) = .ok h ∧ h.binWidth = .ok (1 / 2) := by
  refine ⟨_, rfl, ?_⟩
  have := (C115_width_equal (n := 4) 0 2 (by norm_num) _ rfl [] _ rfl).1
  norm_num at this
  exact this

/-- **C115, assignments.** Assigning `bin_counts` makes exactly the assigned numbers the contents and touches nothing else; assigning
`bin_errors` makes their absolute values the errors and touches nothing else. -/
theorem C115_assign {n : ℕ} (h : LHist) (v e : Fin n → ℝ) :
    ((h.setCounts ⟨[n], vec v⟩).counts = ⟨[n], vec v⟩ ∧ (h.setCounts ⟨[n], vec v⟩).binErrors = h.binErrors ∧
      (h.setCounts ⟨[n], vec v⟩).entries = h.entries ∧ (h.setCounts ⟨[n], vec v⟩).edges = h.edges) ∧
    ((h.setErrors ⟨[n], vec e⟩).binErrors = ⟨[n], vec fun i => |e i|⟩ ∧ (h.setErrors ⟨[n], vec e⟩).counts = h.counts ∧
      (h.setErrors ⟨[n], vec e⟩).entries = h.entries ∧ (h.setErrors ⟨[n], vec e⟩).edges = h.edges) := by
  refine ⟨⟨rfl, rfl, rfl, rfl⟩, ?_, rfl, rfl, rfl⟩
  unfold LHist.setErrors LHist.binErrors NdArr.map
  simp only
  rw [map_vec e Fl.sq (fun i => e i ^ 2) (fun i => by simp)]
  rw [map_vec _ Fl.sqrt (fun i => |e i|) (fun i => by rw [Fl.sqrt_fin (sq_nonneg _), Real.sqrt_sq_eq_abs])]

/-- **C115, filling after an assignment.** A fill adds the same amounts to assigned contents as it would have added to the old ones. -/
theorem C115_then_fill (h : LHist) (hm : LHist.Made h) (data : Vec) (W : Weights) (hne : data ≠ [])
    (hW : ∀ x ∈ W.values data.length, ∃ r : ℝ, x = .fin r) (hl : (W.values data.length).length = data.length)
    {n : ℕ} (hn : h.edges.length = n + 1) (v : Fin n → ℝ) :
    ∃ old new : Fin n → ℝ, h.counts = ⟨[n], vec old⟩ ∧ (h.fill data W).2.counts = ⟨[n], vec new⟩ ∧
      ((h.setCounts ⟨[n], vec v⟩).fill data W).2.counts = ⟨[n], vec fun i => v i + (new i - old i)⟩ ∧
      ((h.setCounts ⟨[n], vec v⟩).fill data W).1 = (h.fill data W).1 ∧
      ((h.setCounts ⟨[n], vec v⟩).fill data W).2.binErrors = (h.fill data W).2.binErrors ∧
      ((h.setCounts ⟨[n], vec v⟩).fill data W).2.entries = (h.fill data W).2.entries := by
  obtain ⟨m, c, e, s, hi⟩ := lmade_inv hm
  obtain rfl : m = n := by have := hi.edges; omega
  obtain ⟨r, hr⟩ := finite_list hW
  have hlr : data.length = r.length := by rw [hr] at hl; simpa using hl.symm
  have hi2 : LHInv (h.setCounts ⟨[m], vec v⟩) m v e s := ⟨hi.edges, hi.valid, rfl, hi.entries, hi.errSq, hi.nonneg⟩
  refine ⟨c, fun i => c i + binR h.edges data r i, hi.counts, ?_, ?_, ?_, ?_, ?_⟩
  · rw [lfill_eq hi data W r hr hlr hne]
  · rw [lfill_eq hi2 data W r hr hlr hne]
    simp only [add_sub_cancel_left]
    rfl
  · rw [lfill_eq hi data W r hr hlr hne, lfill_eq hi2 data W r hr hlr hne]
  · rw [lfill_eq hi data W r hr hlr hne, lfill_eq hi2 data W r hr hlr hne]; rfl
  · rw [lfill_eq hi data W r hr hlr hne, lfill_eq hi2 data W r hr hlr hne]; rfl

/-- non-vacuity of `C115_then_fill` -/
example : ∃ old new : Fin 3 → ℝ, (LHist.new 3 0 1).counts = ⟨[3], vec old⟩ ∧
    ((LHist.new 3 0 1).fill [.fin (1/2)] .none).2.counts = ⟨[3], vec new⟩ ∧
    (((LHist.new 3 0 1).setCounts ⟨[3], vec fun _ : Fin 3 => 7⟩).fill [.fin (1/2)] .none).2.counts =
      ⟨[3], vec fun i : Fin 3 => 7 + (new i - old i)⟩ := by
  obtain ⟨a, b, h1, h2, h3, -⟩ := C115_then_fill (LHist.new 3 0 1) (.new 3 0 1 (by norm_num) (by norm_num)) [.fin (1/2)] .none (by simp)
    (by intro x hx; simp [Weights.values] at hx; exact ⟨1, hx⟩) (by simp [Weights.values]) (n := 3) (by simp [LHist.new, linspace_length])
    (fun _ => 7)
  exact ⟨a, b, h1, h2, h3⟩

/-! ### C92: what a stack accepts -/

/-- **C92 (add_template).** A stack takes exactly the templates with its variable, its number of bins and its limits; the template is then
listed under the given id and nothing else changes. Any other template raises ValueError and changes nothing. -/
theorem C92_add (s : LSys) (S t : ℕ) (K : LStack) (T : LTemplate) (hK : s.stks[S]? = some K) (hT : s.tmpls[t]? = some T) (tid : String) :
    ((s.step (.addTemplate S tid t)).1 = .ok () ↔
      (T.variable_ = K.variable_ ∧ T.numBins = K.numBins ∧ T.lo = K.lo ∧ T.hi = K.hi)) ∧
    ((s.step (.addTemplate S tid t)).1 ≠ .ok () → s.step (.addTemplate S tid t) = (.error .valueError, s)) ∧
    ((s.step (.addTemplate S tid t)).1 = .ok () →
      (s.step (.addTemplate S tid t)).2.tmpls = s.tmpls ∧ (s.step (.addTemplate S tid t)).2.hists = s.hists ∧
      (s.step (.addTemplate S tid t)).2.nlls = s.nlls ∧
      (∀ S', S' ≠ S → (s.step (.addTemplate S tid t)).2.stks[S']? = s.stks[S']?) ∧
      ∃ K', (s.step (.addTemplate S tid t)).2.stks[S]? = some K' ∧ dictGet K'.templates tid = some t ∧
        ∀ tid', tid' ≠ tid → dictGet K'.templates tid' = dictGet K.templates tid') := by
  have hs : s.step (.addTemplate S tid t) =
      if K.accepts T then (.ok (), { s with stks := s.stks.set S { K with templates := dictSet K.templates tid t } })
      else (.error .valueError, s) := by simp only [LSys.step, hK, hT]
  have ha : K.accepts T ↔ (T.variable_ = K.variable_ ∧ T.numBins = K.numBins ∧ T.lo = K.lo ∧ T.hi = K.hi) := by
    unfold LStack.accepts
    exact ⟨fun ⟨a, b, c, d⟩ => ⟨a.symm, b.symm, c.symm, d.symm⟩, fun ⟨a, b, c, d⟩ => ⟨a.symm, b.symm, c.symm, d.symm⟩⟩
  rw [hs]
  by_cases h : K.accepts T
  · rw [if_pos h]
    refine ⟨by simp [← ha, h], by simp, fun _ => ⟨rfl, rfl, rfl, fun S' hS' => by simp [List.getElem?_set, Ne.symm hS'],
      { K with templates := dictSet K.templates tid t }, ?_, ?_, ?_⟩⟩
    · have := (List.getElem?_eq_some_iff.mp hK).1
      simp [List.getElem?_set, this]
    · exact dictGet_set _ _ _
    · intro tid' hne
      exact dictGet_set_ne _ _ _ _ hne
  · rw [if_neg h]
    exact ⟨by simp [← ha, h], fun _ => rfl, by simp⟩

/-- non-vacuity of `C92_add`: the stack of `Ex.cmdsAB` accepts its template "p" once more under another id -/
example : ((LSys.empty.run Ex.cmdsAB).step (.addTemplate 0 "again" 0)).1 = .ok () := by
  rw [Ex.cmdsAB_run]
  exact (C92_add _ 0 0 _ _ rfl rfl "again").1.mpr ⟨rfl, rfl, rfl, rfl⟩

/-! ### C89: integer parameter arrays -/

theorem trunc_towardZero (r : ℝ) : ∃ z : ℤ, TowardZero r z ∧ Fl.trunc (.fin r) = .fin z := by
  unfold Fl.trunc TowardZero
  by_cases h : 0 ≤ r
  · refine ⟨⌊r⌋, ?_, by simp [h]⟩
    have h0 : (0 : ℝ) ≤ ⌊r⌋ := by exact_mod_cast Int.floor_nonneg.mpr h
    rw [abs_of_nonneg h0, abs_of_nonneg h]
    exact ⟨Int.floor_le r, Int.lt_floor_add_one r, mul_nonneg h0 h⟩
  · refine ⟨⌈r⌉, ?_, by simp [h]⟩
    push Not at h
    have h0 : (⌈r⌉ : ℝ) ≤ 0 := by exact_mod_cast Int.ceil_le.mpr (by simpa using h.le)
    rw [abs_of_nonpos h0, abs_of_neg h]
    have := Int.le_ceil r
    have := Int.ceil_lt_add_one r
    exact ⟨by linarith, by linarith, mul_nonneg_of_nonpos_of_nonpos h0 h.le⟩

/-- **C89 (integers).** If the parameter array of a template holds integers, setting its yield to `r` stores `r` without its fraction. -/
theorem C89_integer (a : AState) (t : ℕ) (r : ℝ) (ht : t < a.s.w.nTmpls) (hi : a.isInt (a.pref t) = true) :
    ∃ z : ℤ, TowardZero r z ∧
      ((a.api (.setTmplYield t (.float (.fin r)))).view.w.tmpls t).params.headD 0 = .fin z := by
  obtain ⟨z, h1, h2⟩ := trunc_towardZero r
  refine ⟨z, h1, ?_⟩
  have := (C89_yield_frame a t r ht).2.2 t ht rfl
  rw [hi, if_pos rfl, h2] at this
  exact this

/-- **C89 (integers), not a number.** Assigning NaN or an infinity as yield of a template whose parameter array holds integers raises: no
array and no object changes. In an array of floats it is stored. -/
theorem C89_nonfinite (a : AState) (t : ℕ) (r : Fl) (ht : t < a.s.w.nTmpls) (hr : r = .nan ∨ r = .pinf ∨ r = .ninf) :
    (a.isInt (a.pref t) = true → a.api (.setTmplYield t (.float r)) = a ∧ a.api (.setTmplYield t (.arr [r])) = a) ∧
    (a.isInt (a.pref t) = false → ((a.api (.setTmplYield t (.float r))).view.w.tmpls t).params.headD 0 = r) := by
  have hf : ¬ r.isFin := by rcases hr with rfl | rfl | rfl <;> exact id
  constructor
  · intro hi
    simp [AState.api, Op.kind, Op.badForInt, hi, hf]
  · intro hi
    have hn : (a.view.step (.setTmplYield t (.float r))).w.nTmpls = a.s.w.nTmpls := by
      simp only [Sys.step]
      split
      · rfl
      · rfl
    have ht' : t < a.view.w.nTmpls := ht
    simp [AState.api, Op.kind, hi, ht, AState.view, storeIn, Sys.step, ht', Sys.storeTmpl, Template.setYield, World.setTmpl, NdArr.of1d]

/-- The situation of `C89_integer` arises whenever an integer array is assigned to `template.params`: setting the yield afterwards cuts it. -/
theorem C89_integer_assigned (a : AState) (t i : ℕ) (r : ℝ) (ht : t < a.s.w.nTmpls) (hi : i < a.nArr) (hint : a.isInt i = true)
    (h1 : (a.arr i).shape = [(a.arr i).data.length]) (h2 : (a.arr i).data.length = (a.arr (a.pref t)).data.length) :
    ∃ z : ℤ, TowardZero r z ∧
      (((a.step (.paramsRef t i)).api (.setTmplYield t (.float (.fin r)))).view.w.tmpls t).params.headD 0 = .fin z := by
  have e : a.step (.paramsRef t i) =
      { a with s := a.view.step (.setTmplParams t (a.arr i).data), pref := Function.update a.pref t i } := by
    simp only [AState.step]; rw [if_pos ⟨ht, hi, h1, h2⟩]
  have hn : (a.step (.paramsRef t i)).s.w.nTmpls = a.s.w.nTmpls := by
    rw [e]
    simp only [Sys.step]
    split
    · unfold Sys.storeTmpl
      split <;> rfl
    · rfl
  exact C89_integer _ t r (by rw [hn]; exact ht) (by rw [e]; simpa using hint)

example : TowardZero (-7/2) (-3) ∧ ¬ TowardZero (-7/2) (-4) := by
  unfold TowardZero
  constructor
  · norm_num [abs_of_neg]
  · norm_num [abs_of_neg]

end

end TF.Props
