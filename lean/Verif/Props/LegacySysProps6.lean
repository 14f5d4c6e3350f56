import Verif.Props.LegacySysProps5

set_option linter.unusedSimpArgs false

/-!
# Legacy plots and relative errors (C96, C97)
-/

namespace TF.Spec

open Classical

noncomputable section

/-- legacy `Histogram` objects made by the constructor, fills with finite weights in a list or array, and scalings -/
inductive LHist.MadeArr : LHist → Prop
  | new (nb : ℕ) (lo hi : ℝ) (h1 : 1 ≤ nb) (h2 : lo < hi) : LHist.MadeArr (LHist.new nb lo hi)
  | fill (h : LHist) (data : Vec) (W : Weights) (hW : ∀ x ∈ W.values data.length, ∃ r : ℝ, x = .fin r)
      (hp : ∀ l, W ≠ .tuple l) : LHist.MadeArr h → LHist.MadeArr (h.fill data W).2
  | scale (h : LHist) (c : ℝ) : LHist.MadeArr h → LHist.MadeArr (h.scale (.fin c))

end

end TF.Spec

namespace TF.Props

open Classical Spec
open scoped Matrix

noncomputable section

/-! ### C96 -/

/-- every template has proper limits -/
theorem limits_step {s : LSys} (h : ∀ (t : ℕ) (T : LTemplate), s.tmpls[t]? = some T → T.lo < T.hi) (c : LCmd) :
    ∀ (t : ℕ) (T : LTemplate), (s.step c).2.tmpls[t]? = some T → T.lo < T.hi := by
  intro t T hT
  cases hs : s.tmpls[t]? with
  | none =>
    obtain ⟨name, var, nb, lo, hi, rows, h0, -⟩ := step_new' s c t T hs hT
    have h1 := (make_arguments h0).2
    unfold LTemplate.make at h0
    split at h0
    · cases h0
    · obtain rfl := Except.ok.inj h0; exact h1
  | some T0 =>
    obtain ⟨T', h1, h2, -⟩ := step_tmpls s c t T0 hs
    rw [h1] at hT
    obtain rfl := Option.some.inj hT
    rw [h2.2.2.1, h2.2.2.2.1]
    exact h t T0 hs

theorem limits_run (cmds : List LCmd) : ∀ {s : LSys}, (∀ (t : ℕ) (T : LTemplate), s.tmpls[t]? = some T → T.lo < T.hi) →
    ∀ (t : ℕ) (T : LTemplate), (s.run cmds).tmpls[t]? = some T → T.lo < T.hi := by
  induction cmds with
  | nil => intro s h; exact h
  | cons c cs ih => intro s h; exact ih (limits_step h c)

theorem grid_strictMono {lo hi : ℝ} (h : lo < hi) {n : ℕ} (hn : 1 ≤ n) :
    StrictMono fun i : Fin (n + 1) => lo + (i : ℝ) * ((hi - lo) / n) := by
  intro i j hij
  have h1 : (0 : ℝ) < (hi - lo) / n := div_pos (by linarith) (by exact_mod_cast hn)
  have h2 : ((i : ℕ) : ℝ) < ((j : ℕ) : ℝ) := by exact_mod_cast hij
  simp only
  nlinarith

theorem edges_two {n : ℕ} (hn : 1 ≤ n) (lo hi : ℝ) : ∃ rest, grid lo hi n = lo :: (lo + (hi - lo) / n) :: rest := by
  obtain ⟨k, rfl⟩ : ∃ k, n = k + 1 := ⟨n - 1, by omega⟩
  have h1 : (grid lo hi (k + 1))[0]? = some lo := by
    unfold grid; rw [List.getElem?_ofFn]; simp
  have h2 : (grid lo hi (k + 1))[1]? = some (lo + (hi - lo) / (k + 1 : ℕ)) := by
    unfold grid; rw [List.getElem?_ofFn]; simp
  match h : grid lo hi (k + 1) with
  | [] => rw [h] at h1; cases h1
  | [a] => rw [h] at h2; cases h2
  | a :: b :: rest =>
    rw [h] at h1 h2
    simp only [List.getElem?_cons_zero, List.getElem?_cons_succ, Option.some.injEq] at h1 h2
    exact ⟨rest, by rw [h1, h2]⟩

/-- **C96 (stack).** In every reachable state: for a stack with at least one template whose template values are `v` and errors `e`, `plot_on`
returns; it draws a stacked histogram that shows in each bin the value of each template (with the template's name as label), and bars over
the bins centred at the total `Σ v` with half height `√(Σ e²)`. -/
theorem C96_stack (cmds : List LCmd) (S : ℕ) (st : Stacked) (hst : (LSys.empty.run cmds).stack S = some st) {m : ℕ} (hm : 0 < m)
    (T : Fin m → LTemplate) (hT : st.list = List.ofFn T) (v e : Fin m → Fin st.numBins → ℝ)
    (hv : ∀ k, (T k).values = .ok (vec (v k))) (he : ∀ k, (T k).errors = .ok (vec (e k))) :
    ∃ x w edges labels mids height width bottom, st.plotOn = (.ok (), [.hist x w edges labels, .bar mids height width bottom]) ∧
      edges = grid st.lo st.hi st.numBins ∧ labels = List.ofFn (fun k => (T k).name) ∧ x.length = m ∧ w.length = m ∧
      (∀ (k : Fin m) (i : Fin st.numBins), ∃ xk wk, x[(k : ℕ)]? = some xk ∧ w[(k : ℕ)]? = some wk ∧ drawnHeight xk wk edges i = .fin (v k i)) ∧
      width = [(st.hi - st.lo) / st.numBins] ∧
      mids = List.ofFn (fun i : Fin st.numBins => st.lo + ((i : ℝ) + 1 / 2) * ((st.hi - st.lo) / st.numBins)) ∧
      height = vec (fun i => 2 * Real.sqrt (∑ k, e k i ^ 2)) ∧
      bottom = vec (fun i => (∑ k, v k i) - Real.sqrt (∑ k, e k i ^ 2)) := by
  obtain ⟨K, hK, hst'⟩ := stack_some hst
  have hw := lwf_run cmds lwf_empty
  have hlim := limits_run cmds (s := LSys.empty) (fun t T h => by simp [LSys.empty] at h)
  have hn : 1 ≤ st.numBins := by rw [hst']; exact (hw.tmpl S K hK).1
  have hlo : st.lo < st.hi := by
    have hlen : st.list.length = m := by rw [hT]; simp
    rw [hst', look_list, List.length_map] at hlen
    obtain ⟨p, hp⟩ := List.exists_mem_of_length_pos (l := K.templates) (by omega)
    obtain ⟨T0, h1, h2⟩ := (hw.tmpl S K hK).2.2 p hp
    have := hlim p.2 T0 h1
    rw [hst']
    show K.lo < K.hi
    rw [h2.2.2.1, h2.2.2.2]; exact this
  have hedges : st.edges = ⟨true, List.ofFn fun i : Fin (st.numBins + 1) => st.lo + (i : ℝ) * ((st.hi - st.lo) / st.numBins)⟩ := by
    unfold Stacked.edges; rw [grid_eq]; rfl
  have hmono := grid_strictMono hlo hn
  set ed : Fin (st.numBins + 1) → ℝ := fun i => st.lo + (i : ℝ) * ((st.hi - st.lo) / st.numBins) with hed
  have hvs := mapE_ofFn LTemplate.values T (fun k => vec (v k)) hv
  have hes := mapE_ofFn LTemplate.errors T (fun k => vec (e k)) he
  have hq : st.errors = .ok (vec fun i => Real.sqrt (∑ k, e k i ^ 2)) := (C92_sums hm st T hT v e hv he).2
  obtain ⟨rest, hrest⟩ := edges_two hn st.lo st.hi
  have hgrid : (List.ofFn ed) = st.lo :: (st.lo + (st.hi - st.lo) / st.numBins) :: rest := hrest
  have hcons : ∃ t ts, st.list = t :: ts := by
    obtain ⟨k, rfl⟩ : ∃ k, m = k + 1 := ⟨m - 1, by omega⟩
    exact ⟨_, _, by rw [hT, List.ofFn_succ]⟩
  refine ⟨List.ofFn (fun _ : Fin m => List.ofFn (mid ed)), List.ofFn (fun k => vec (v k)), List.ofFn ed, List.ofFn (fun k => (T k).name),
    List.ofFn (mid ed), vec (fun i => 2 * Real.sqrt (∑ k, e k i ^ 2)), [st.lo + (st.hi - st.lo) / st.numBins - st.lo],
    vec (fun i => (∑ k, v k i) - Real.sqrt (∑ k, e k i ^ 2)), ?_, rfl, rfl, by simp, by simp, ?_, ?_, ?_, rfl, rfl⟩
  · unfold Stacked.plotOn
    rw [hq, hedges, binMids_ofFn]
    simp only
    obtain ⟨t, ts, hcons⟩ := hcons
    have hx : (st.list.map fun _ => List.ofFn (mid ed)) = List.ofFn (fun _ : Fin m => List.ofFn (mid ed)) := by
      rw [hT, List.map_ofFn]; rfl
    have hl : st.list.map (·.name) = List.ofFn (fun k => (T k).name) := by rw [hT, List.map_ofFn]; rfl
    rw [hx, hl, show mapE LTemplate.values st.list = .ok (List.ofFn fun k => vec (v k)) by rw [hT]; exact hvs]
    simp only
    rw [sumRows_ofFn hm v]
    simp only
    rw [hcons]
    simp only
    rw [hgrid]
    simp only
    rw [barOf_vec]
  · intro k i
    refine ⟨List.ofFn (mid ed), vec (v k), by rw [List.getElem?_ofFn]; simp, by rw [List.getElem?_ofFn]; simp, ?_⟩
    exact drawn_at_mids hmono (v k) i
  · congr 1; ring
  · congr 1
    funext i
    simp only [mid, hed, Fin.val_castSucc, Fin.val_succ]
    push_cast
    ring

/-- **C96 is false for a single template.** Whatever the template, `Template.plot_on` never returns normally. -/
theorem C96_template_refuted (t : LTemplate) : ∃ e, t.plotOn.1 = .error e := by
  unfold LTemplate.plotOn
  split
  · exact ⟨_, rfl⟩
  · split
    · exact ⟨_, rfl⟩
    · simp only
      split <;> exact ⟨_, rfl⟩

/-- **C96 (template, partial).** For every template object of a reachable state with values `v`: the failing `Template.plot_on` has at that
point drawn the values in their bins and nothing else, and the exception is `TypeError`. Missing: the error bars. -/
theorem C96_template_partial (cmds : List LCmd) (t : ℕ) (T : LTemplate) (hT : (LSys.empty.run cmds).tmpls[t]? = some T)
    (v e : Fin T.numBins → ℝ) (hv : T.values = .ok (vec v)) (he : T.errors = .ok (vec e)) :
    ∃ x edges, T.plotOn = (.error .typeError, [.hist [x] [vec v] edges []]) ∧ edges = grid T.lo T.hi T.numBins ∧
      ∀ i : Fin T.numBins, drawnHeight x (vec v) edges i = .fin (v i) := by
  have hlo := limits_run cmds (s := LSys.empty) (fun t T h => by simp [LSys.empty] at h) t T hT
  have hn := ((lwf_run cmds lwf_empty).dim t T hT).pos
  have hedges : T.edges = ⟨true, List.ofFn fun i : Fin (T.numBins + 1) => T.lo + (i : ℝ) * ((T.hi - T.lo) / T.numBins)⟩ := by
    unfold LTemplate.edges; rw [grid_eq]; rfl
  refine ⟨List.ofFn (mid fun i : Fin (T.numBins + 1) => T.lo + (i : ℝ) * ((T.hi - T.lo) / T.numBins)), _, ?_, rfl, fun i =>
    drawn_at_mids (grid_strictMono hlo hn) v i⟩
  unfold LTemplate.plotOn
  rw [hedges, binMids_ofFn, hv, he]
  rfl

/-- **C96 (no templates).** Plotting a stack without templates raises `IndexError`. -/
theorem C96_empty (st : Stacked) (h : st.templates = []) : st.plotOn.1 = .error .indexError := by
  have hl : st.list = [] := by unfold Stacked.list; rw [h]; rfl
  unfold Stacked.plotOn Stacked.errors Stacked.edges TF.binMids
  rw [hl]
  simp [mapE, quadSum, sumRows, stackRows]

/-- the stack of two templates meets the hypotheses of C96 -/
example : ∃ st, (LSys.empty.run Ex.cmdsAB).stack 0 = some st ∧ st.list = List.ofFn ![Ex.tmplN "p", Ex.tmplN "q"] ∧
    (∀ k, ((![Ex.tmplN "p", Ex.tmplN "q"] : Fin 2 → LTemplate) k).values = .ok (vec ![3, 0])) ∧
    (∀ k, ((![Ex.tmplN "p", Ex.tmplN "q"] : Fin 2 → LTemplate) k).errors = .ok (vec ![3, 0])) := by
  refine ⟨⟨"x", 2, 0, 1, [("p", Ex.tmplN "p"), ("q", Ex.tmplN "q")]⟩, by rw [Ex.cmdsAB_run]; rfl, by simp [Stacked.list, List.ofFn_succ], ?_, ?_⟩
  · intro k; fin_cases k <;> exact (Ex.tmplN_values _).1
  · intro k; fin_cases k <;> exact (Ex.tmplN_values _).2

/-! ### C97 -/

/-- the quotient, and the guard applied to it, for real content and error -/
theorem rel_entry (v w : ℝ) (hw : 0 ≤ w) : (if (Fl.fin w / Fl.fin v) = 0 then Fl.fin 1e-7 else Fl.fin w / Fl.fin v) =
    if v = 0 then (if w = 0 then .nan else .pinf) else if w = 0 then .fin 1e-7 else .fin (w / v) := by
  by_cases hv : v = 0
  · subst hv
    rw [if_pos rfl]
    by_cases h0 : w = 0
    · subst h0
      rw [if_pos rfl, Fl.fin_div_zero]
      simp [Fl.zero_def]
    · rw [if_neg h0, Fl.fin_pos_div_zero w (lt_of_le_of_ne hw (Ne.symm h0))]
      simp [Fl.zero_def]
  · rw [if_neg hv, Fl.fin_div _ _ hv]
    by_cases h0 : w = 0
    · subst h0
      simp [Fl.zero_def]
    · rw [if_neg h0, if_neg]
      rw [Fl.zero_def]
      intro h
      exact (div_ne_zero h0 hv) (Fl.fin.inj h)

theorem rel_vec {n : ℕ} {h : LHist} {c e s : Fin n → ℝ} (hi : LHInv h n c e s) :
    h.binRelErrors = .ok (List.ofFn fun i => if c i = 0 then (if Real.sqrt (s i) = 0 then .nan else .pinf)
      else if Real.sqrt (s i) = 0 then .fin 1e-7 else .fin (Real.sqrt (s i) / c i)) := by
  unfold LHist.binRelErrors
  rw [hi.counts, hi.errSq]
  simp only
  rw [map_vec s Fl.sqrt (fun i => Real.sqrt (s i)) (fun i => Fl.sqrt_fin (hi.nonneg i))]
  unfold bop
  rw [if_pos (by simp [vec_length])]
  simp only [bind, Except.bind, pure, Except.pure]
  congr 1
  apply List.ext_getElem
  · simp [vec]
  · intro i h1 h2
    simp only [List.getElem_map, List.getElem_zipWith, vec, List.getElem_ofFn]
    exact rel_entry _ _ (Real.sqrt_nonneg _)

/-- **C97 (exact).** For every legacy histogram reached by fills with finite weights and scalings, refused fills included: `bin_rel_errors` is
error over content in every bin with content and error; a bin with content and zero error shows 1e-7; a bin with zero content shows NaN if its
error is zero too and an infinity otherwise. -/
theorem C97_exact_partial (h : LHist) (hm : LHist.Made h) : ∃ r, h.binRelErrors = .ok r ∧ r.length = h.counts.data.length ∧
    ∀ (i : ℕ) (v w : ℝ), h.counts.data[i]? = some (.fin v) → h.binErrors.data[i]? = some (.fin w) →
      (v ≠ 0 → w ≠ 0 → r[i]? = some (.fin (w / v))) ∧
      (v ≠ 0 → w = 0 → r[i]? = some (.fin 1e-7)) ∧
      (v = 0 → w = 0 → r[i]? = some .nan) ∧
      (v = 0 → w ≠ 0 → r[i]? = some .pinf ∨ r[i]? = some .ninf) := by
  obtain ⟨n, c, e, s, hi⟩ := lmade_inv hm
  refine ⟨_, rel_vec hi, by rw [hi.counts]; simp [vec], ?_⟩
  intro i v w h1 h2
  have hb : h.binErrors.data = vec fun i => Real.sqrt (s i) := by
    unfold LHist.binErrors NdArr.map
    rw [hi.errSq]
    exact map_vec s Fl.sqrt _ (fun i => Fl.sqrt_fin (hi.nonneg i))
  rw [hi.counts] at h1
  rw [hb] at h2
  have hin : i < n := by
    have := (List.getElem?_eq_some_iff.mp h1).1
    simpa [vec] using this
  have e1 : v = c ⟨i, hin⟩ := by
    simp only [vec, List.getElem?_ofFn, hin, dite_true, Option.some.injEq, Fl.fin.injEq] at h1; exact h1.symm
  have e2 : w = Real.sqrt (s ⟨i, hin⟩) := by
    simp only [vec, List.getElem?_ofFn, hin, dite_true, Option.some.injEq, Fl.fin.injEq] at h2; exact h2.symm
  subst e1 e2
  simp only [List.getElem?_ofFn, hin, dite_true, Option.some.injEq]
  refine ⟨fun a b => by rw [if_neg a, if_neg b], fun a b => by rw [if_neg a, if_pos b], fun a b => by rw [if_pos a, if_pos b],
    fun a b => Or.inl (by rw [if_pos a, if_neg b])⟩

theorem noPow_iff (W : Weights) : (W.noPow = true) ↔ ∃ l, W = .tuple l := by
  cases W <;> simp [Weights.noPow]

theorem sum_sq_zero (l : List ℝ) (h : (l.map fun x => x ^ 2).sum = 0) : ∀ x ∈ l, x = 0 := by
  induction l with
  | nil => simp
  | cons a l ih =>
    have hn : 0 ≤ (l.map fun x => x ^ 2).sum := List.sum_nonneg (by
      intro x hx
      obtain ⟨p, -, rfl⟩ := List.mem_map.mp hx
      exact sq_nonneg p)
    rw [List.map_cons, List.sum_cons] at h
    have h2 := (add_eq_zero_iff_of_nonneg (sq_nonneg a) hn).mp h
    intro x hx
    rcases List.mem_cons.mp hx with rfl | hx
    · exact pow_eq_zero_iff (by norm_num) |>.mp h2.1
    · exact ih h2.2 x hx

theorem binR_zero {edges : List ℝ} {data : Vec} {r : List ℝ} {i : ℕ} (h : binR edges data (r.map fun x => x ^ 2) i = 0) :
    binR edges data r i = 0 := by
  unfold binR at h ⊢
  rw [List.zip_map_right, List.filter_map, List.map_map] at h
  have e : ((fun x : Fl × ℝ => x.2) ∘ Prod.map id fun x => x ^ 2) = (fun x => x ^ 2) ∘ fun x : Fl × ℝ => x.2 := by
    funext p; rfl
  rw [e, ← List.map_map] at h
  apply List.sum_eq_zero
  exact sum_sq_zero _ h

theorem madeArr_made {h : LHist} (hm : LHist.MadeArr h) : LHist.Made h := by
  induction hm with
  | new nb lo hi h1 h2 => exact .new nb lo hi h1 h2
  | fill h data W hW hp _ ih => exact .fill h data W hW ih
  | scale h c _ ih => exact .scale h c ih

theorem madeArr_inv {h : LHist} (hm : LHist.MadeArr h) : ∃ (n : ℕ) (c e s : Fin n → ℝ), LHInv h n c e s ∧ ∀ i, s i = 0 → c i = 0 := by
  induction hm with
  | new nb lo hi h1 h2 =>
    obtain ⟨n, c, e, s, hi'⟩ := lmade_inv (LHist.Made.new nb lo hi h1 h2)
    have hz : NdArr.zeros [nb] = ⟨[nb], vec fun _ : Fin nb => 0⟩ := by
      unfold NdArr.zeros vec
      rw [List.ofFn_const]
      simp [Fl.zero_def]
    refine ⟨nb, fun _ => 0, fun _ => 0, fun _ => 0, ⟨by simp [LHist.new, linspace_length], hi'.valid, hz, hz, hz, fun _ => le_refl _⟩,
      fun _ _ => rfl⟩
  | fill h data W hW hp _ ih =>
    obtain ⟨n, c, e, s, hi, hcs⟩ := ih
    obtain ⟨r, hr⟩ := finite_list hW
    by_cases hne : data = []
    · rw [hne, lfill_nil]; exact ⟨n, c, e, s, hi, hcs⟩
    by_cases hl : data.length = r.length
    · rw [lfill_eq hi data W r hr hl hne]
      have hp' : ¬ W.noPow = true := fun h => by
        obtain ⟨l, rfl⟩ := (noPow_iff W).mp h
        exact hp l rfl
      refine ⟨n, _, _, fun i => s i + binR h.edges data (r.map fun x => x ^ 2) i, ⟨hi.edges, hi.valid, rfl, rfl,
          by simp only [hp', Bool.false_eq_true, if_false], fun i => ?_⟩, fun i h0 => ?_⟩
      · exact add_nonneg (hi.nonneg i) (binR_sq_nonneg _ _ _ _)
      · have h1 := (add_eq_zero_iff_of_nonneg (hi.nonneg i) (binR_sq_nonneg _ _ _ _)).mp h0
        rw [hcs i h1.1, binR_zero h1.2, add_zero]
    · have : h.fill data W = (.error .valueError, h) := by
        unfold LHist.fill
        simp only [hr]
        rw [if_pos (by simpa using hl)]
      rw [this]
      exact ⟨n, c, e, s, hi, hcs⟩
  | scale h k _ ih =>
    obtain ⟨n, c, e, s, hi, hcs⟩ := ih
    rw [lscale_eq hi k]
    refine ⟨n, _, e, _, ⟨hi.edges, hi.valid, rfl, hi.entries, rfl, fun i => mul_nonneg (hi.nonneg i) (sq_nonneg k)⟩, fun i h0 => ?_⟩
    rcases mul_eq_zero.mp h0 with h1 | h1
    · rw [hcs i h1, zero_mul]
    · rw [pow_eq_zero_iff (by norm_num) |>.mp h1, mul_zero]

/-- **C97 (filled bins).** Without tuple weights a bin with non-zero content has a non-zero error, so its relative error is error over
content. -/
theorem C97_filled (h : LHist) (hm : LHist.MadeArr h) : ∃ r, h.binRelErrors = .ok r ∧
    ∀ (i : ℕ) (v w : ℝ), h.counts.data[i]? = some (.fin v) → h.binErrors.data[i]? = some (.fin w) → v ≠ 0 →
      0 < w ∧ r[i]? = some (.fin (w / v)) := by
  obtain ⟨r, h1, -, h2⟩ := C97_exact_partial h (madeArr_made hm)
  refine ⟨r, h1, fun i v w hv hw hne => ?_⟩
  obtain ⟨n, c, e, s, hi, hcs⟩ := madeArr_inv hm
  have hb : h.binErrors.data = vec fun i => Real.sqrt (s i) := by
    unfold LHist.binErrors NdArr.map
    rw [hi.errSq]
    exact map_vec s Fl.sqrt _ (fun i => Fl.sqrt_fin (hi.nonneg i))
  have hv' := hv
  have hw' := hw
  rw [hi.counts] at hv'
  rw [hb] at hw'
  have hin : i < n := by
    have := (List.getElem?_eq_some_iff.mp hv').1
    simpa [vec] using this
  simp only [vec, List.getElem?_ofFn, hin, dite_true, Option.some.injEq, Fl.fin.injEq] at hv' hw'
  have hpos : 0 < w := by
    rw [← hw']
    apply Real.sqrt_pos.mpr
    refine lt_of_le_of_ne (hi.nonneg _) fun h0 => hne ?_
    rw [← hv']
    exact hcs _ h0.symm
  exact ⟨hpos, (h2 i v w hv hw).1 hne hpos.ne'⟩

/-- **C97 is false for empty bins.** For every binning, all relative errors of an empty histogram are NaN, not 1e-7. -/
theorem C97_empty_refuted (nb : ℕ) (lo hi : ℝ) (h1 : 1 ≤ nb) (h2 : lo < hi) :
    (LHist.new nb lo hi).binRelErrors = .ok (List.replicate nb .nan) := by
  have hz : NdArr.zeros [nb] = ⟨[nb], vec fun _ : Fin nb => 0⟩ := by
    unfold NdArr.zeros vec
    rw [List.ofFn_const]
    simp [Fl.zero_def]
  obtain ⟨n, c, e, s, hi'⟩ := lmade_inv (LHist.Made.new nb lo hi h1 h2)
  have hI : LHInv (LHist.new nb lo hi) nb (fun _ => 0) (fun _ => 0) (fun _ => 0) :=
    ⟨by simp [LHist.new, linspace_length], hi'.valid, hz, hz, hz, fun _ => le_refl _⟩
  rw [rel_vec hI]
  simp

/-- **C97 (entries).** An accepted or refused fill that gets as far as counting adds to `bin_entries` of each bin the number of values that fall
into it, whatever their weights: every fill with as many finite weights as values. -/
theorem C97_entries (h : LHist) (hm : LHist.Made h) (data : Vec) (W : Weights) (hne : data ≠ [])
    (hW : ∀ x ∈ W.values data.length, ∃ r : ℝ, x = .fin r) (hl : (W.values data.length).length = data.length) :
    ∀ (i : ℕ) (v : ℝ), h.entries.data[i]? = some (.fin v) →
      (h.fill data W).2.entries.data[i]? = some (.fin (v + (data.filter fun x => decide (InBin h.edges i x)).length)) := by
  obtain ⟨n, c, e, s, hi⟩ := lmade_inv hm
  obtain ⟨r, hr⟩ := finite_list hW
  have hlr : data.length = r.length := by rw [hr] at hl; simpa using hl.symm
  intro i v hv
  rw [lfill_eq hi data W r hr hlr hne]
  rw [hi.entries] at hv
  have hin : i < n := by
    have := (List.getElem?_eq_some_iff.mp hv).1
    simpa [vec] using this
  simp only [vec, List.getElem?_ofFn, hin, dite_true, Option.some.injEq, Fl.fin.injEq] at hv ⊢
  rw [hv]
  congr 1
  unfold binR
  have hbi : ∀ x, (binIndex h.edges x = some i) = InBin h.edges i x := fun x =>
    propext (binIndex_iff hi.valid.2 hi.valid.1 x i)
  simp only [hbi]
  clear hv hW hl hr hne
  induction data generalizing r with
  | nil => simp
  | cons x xs ih =>
    cases r with
    | nil => simp at hlr
    | cons a as =>
      have := ih as (by simpa using hlr)
      simp only [List.map_cons, List.zip_cons_cons, List.filter_cons]
      by_cases hx : InBin h.edges i x
      · simp only [hx, decide_true, if_true, List.map_cons, List.sum_cons, List.length_cons, Nat.cast_add, Nat.cast_one]
        rw [this]; ring
      · simp only [hx, decide_false, Bool.false_eq_true, if_false]
        exact this

/-- C97: a histogram with one event of weight 2 is among those covered -/
example : LHist.MadeArr (((LHist.new 2 0 1).fill [.fin (1 / 4)] (.list [.fin 2])).2) ∧
    (LHist.new 2 0 1).entries.data[0]? = some (.fin 0) := by
  refine ⟨.fill _ _ _ ?_ (by simp) (.new 2 0 1 (by norm_num) (by norm_num)), ?_⟩
  · intro x hx; simp [Weights.values] at hx; exact ⟨2, hx⟩
  · simp [LHist.new, NdArr.zeros, Fl.zero_def]

end

end TF.Props
