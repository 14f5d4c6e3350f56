import Verif.Model.LegacySys
import Verif.Props.LegacyProps2
import Verif.Props.PlotProps

set_option linter.unusedSimpArgs false

/-!
# Legacy templates over histories of calls (C91)
-/

namespace TF.Spec

open Classical
open scoped Matrix

noncomputable section

/-- `n + 1` equally spaced numbers from `lo` to `hi` -/
def grid (lo hi : ℝ) (n : ℕ) : List ℝ := List.ofFn fun i : Fin (n + 1) => lo + (i : ℝ) * ((hi - lo) / n)

/-- sum of `f w` over the rows (value, weight) whose value belongs to bin `i` -/
def rowSum (edges : List ℝ) (rows : List (Fl × ℝ)) (f : ℝ → ℝ) (i : ℕ) : ℝ :=
  ((rows.filter fun p => decide (InBin edges i p.1)).map fun p => f p.2).sum

/-- a data frame with finite weights -/
def frame (rows : List (Fl × ℝ)) : List (Fl × Fl) := rows.map fun p => (p.1, .fin p.2)

/-- the matrices given to `add_covariance_matrix` of template object `t` by a history of calls -/
def covArgs (t : ℕ) (cmds : List LCmd) : List Mat :=
  (cmds.map fun c => match c with
    | .addCov t' m => if t' = t then [m] else []
    | _ => []).flatten

/-- sum of the `n × n` matrices among them -/
def covSum (n : ℕ) (ms : List Mat) : Matrix (Fin n) (Fin n) ℝ :=
  ((ms.filter fun m => decide (m.rows = n ∧ m.cols = n)).map fun m => m.toMatrix n).sum

/-- total covariance matrix of a template made from `rows`: statistical variances on the diagonal (1e-14 where the sum of squared weights
vanishes) plus the added matrices -/
def legacyCov (lo hi : ℝ) (n : ℕ) (rows : List (Fl × ℝ)) (ms : List Mat) : Matrix (Fin n) (Fin n) ℝ :=
  Matrix.diagonal (fun i : Fin n =>
    if rowSum (grid lo hi n) rows (fun w => w ^ 2) i = 0 then 1e-14 else rowSum (grid lo hi n) rows (fun w => w ^ 2) i) +
  covSum n ms

/-- relative error of a bin with content `c` and variance `v`; 1e-7 for an empty bin -/
def legacyRel (v c : ℝ) : ℝ := if c = 0 then 1e-7 else Real.sqrt v / c

end

end TF.Spec

namespace TF.Props

open Classical Spec
open scoped Matrix

noncomputable section

theorem grid_eq (lo hi : ℝ) (n : ℕ) : linspace lo hi (n + 1) = grid lo hi n := by
  unfold linspace grid
  apply List.ext_getElem
  · simp
  · intro i h1 h2
    simp only [List.getElem_map, List.getElem_range, List.getElem_ofFn]
    push_cast
    rw [add_sub_cancel_right]

theorem grid_length (lo hi : ℝ) (n : ℕ) : (grid lo hi n).length = n + 1 := by simp [grid]

theorem grid_valid {lo hi : ℝ} {n : ℕ} (hn : 1 ≤ n) (h : lo < hi) : validEdges (grid lo hi n) := by
  rw [← grid_eq]
  exact ⟨by rw [linspace_length]; omega, linspace_pairwise h _ (by omega)⟩

theorem rowSum_sq_nonneg (edges : List ℝ) (rows : List (Fl × ℝ)) (i : ℕ) : 0 ≤ rowSum edges rows (fun w => w ^ 2) i := by
  unfold rowSum
  apply List.sum_nonneg
  intro x hx
  obtain ⟨p, -, rfl⟩ := List.mem_map.mp hx
  exact sq_nonneg _

theorem binnedSum_rows {edges : List ℝ} {n : ℕ} (hn : edges.length = n + 1) (hv : validEdges edges) (rows : List (Fl × ℝ))
    (f : ℝ → ℝ) : binnedSum edges (rows.map (·.1)) (rows.map fun p => Fl.fin (f p.2)) =
      .ok ⟨[n], vec fun i : Fin n => rowSum edges rows f i⟩ := by
  have : (rows.map fun p => Fl.fin (f p.2)) = (rows.map fun p => f p.2).map Fl.fin := by rw [List.map_map]; rfl
  rw [this, binnedSum_real hn hv _ _ (by simp)]
  congr 2
  congr 1
  funext i
  unfold binR rowSum
  have : (rows.map (·.1)).zip (rows.map fun p => f p.2) = rows.map fun p => (p.1, f p.2) := by
    rw [List.zip_map']
  rw [this, List.filter_map, List.map_map]
  congr 2
  apply List.filter_congr
  intro p _
  simp only [Function.comp, binIndex_iff hv.2 hv.1]

theorem zeros_vec (n : ℕ) : NdArr.zeros [n] = ⟨[n], vec fun _ : Fin n => 0⟩ := by
  unfold NdArr.zeros vec
  rw [List.ofFn_const]
  simp [Fl.zero_def]

/-- a legacy 1-d histogram with `n` bins holding finite numbers -/
structure H1Is (h : LH1) (n : ℕ) (edges : List ℝ) (c s : Fin n → ℝ) : Prop where
  edges : h.edges.vals = edges
  counts : h.counts = ⟨[n], vec c⟩
  errSq : h.errSq = ⟨[n], vec s⟩

theorem h1fill_rows {h : LH1} {n : ℕ} {edges : List ℝ} {c s : Fin n → ℝ} (hh : H1Is h n edges c s)
    (hn : edges.length = n + 1) (hv : validEdges edges) (rows : List (Fl × ℝ)) (W : Weights)
    (hW : W.values rows.length = rows.map fun p => Fl.fin p.2) (hp : W.noPow = false) :
    ∃ h', h.fill (rows.map (·.1)) W = (.ok (), h') ∧ h'.edges = h.edges ∧
      H1Is h' n edges (fun i => c i + rowSum edges rows id i) (fun i => s i + rowSum edges rows (fun w => w ^ 2) i) := by
  have e1 := binnedSum_rows hn hv rows id
  have e2 := binnedSum_rows hn hv rows (fun w => w ^ 2)
  simp only [id] at e1
  have hsq : (rows.map fun p => Fl.fin p.2).map Fl.sq = rows.map fun p => Fl.fin (p.2 ^ 2) := by
    rw [List.map_map]
    apply List.map_congr_left
    intro p _
    simp
  refine ⟨⟨h.edges, ⟨[n], vec fun i => c i + rowSum edges rows id i⟩,
    ⟨[n], vec fun i => s i + rowSum edges rows (fun w => w ^ 2) i⟩⟩, ?_, rfl, hh.edges, rfl, rfl⟩
  unfold LH1.fill
  simp only [List.length_map, hW, hh.edges, hsq, hp, Bool.false_eq_true, if_false]
  rw [e1, hh.counts]
  simp only
  rw [iadd_vec]
  simp only
  rw [e2, hh.errSq]
  simp only
  rw [iadd_vec]

/-- construction of a template from a data frame with finite weights -/
theorem make_eq (name var : String) {n : ℕ} (hn : 1 ≤ n) {lo hi : ℝ} (hlt : lo < hi) (rows : List (Fl × ℝ)) :
    LTemplate.make name var n lo hi (frame rows) =
      .ok (LTemplate.new name var n lo hi (vec fun i : Fin n => rowSum (grid lo hi n) rows id i)
        (vec fun i : Fin n => rowSum (grid lo hi n) rows (fun w => w ^ 2) i)) := by
  have h0 : H1Is ⟨⟨true, grid lo hi n⟩, NdArr.zeros [n], NdArr.zeros [n]⟩ n (grid lo hi n) (fun _ => 0) (fun _ => 0) :=
    ⟨rfl, zeros_vec n, zeros_vec n⟩
  obtain ⟨h', e, -, hh⟩ := h1fill_rows h0 (grid_length _ _ _) (grid_valid hn hlt) rows
    (.array (rows.map fun p => Fl.fin p.2)) rfl rfl
  unfold LTemplate.make LH1.new LH1.init
  simp only [Int.toNat_natCast, grid_eq, frame, List.map_map]
  rw [if_neg (by omega)]
  simp only
  have e' : LH1.fill ⟨⟨true, grid lo hi n⟩, NdArr.zeros [n], NdArr.zeros [n]⟩
      (rows.map ((fun x => x.1) ∘ fun p : Fl × ℝ => (p.1, Fl.fin p.2)))
      (.array (rows.map ((fun x => x.2) ∘ fun p : Fl × ℝ => (p.1, Fl.fin p.2)))) = (.ok (), h') := e
  rw [e']
  simp only [hh.counts, hh.errSq, zero_add]

/-! ### what a call can do to a template object -/

/-- `T'` is `T` with other current parameter values and errors -/
def ParamOf (T T' : LTemplate) : Prop := ∃ y e v f, T' =
  { T with
    yieldP := { T.yieldP with value := y, error := e }
    nuiP := { T.nuiP with value := v, error := f } }

theorem ParamOf.refl (T : LTemplate) : ParamOf T T := ⟨_, _, _, _, rfl⟩

theorem ParamOf.trans {A B C : LTemplate} (h1 : ParamOf A B) (h2 : ParamOf B C) : ParamOf A C := by
  obtain ⟨_, _, _, _, rfl⟩ := h1
  obtain ⟨_, _, _, _, rfl⟩ := h2
  exact ⟨_, _, _, _, rfl⟩

theorem paramOf_setYield (T : LTemplate) (v : Fl) : ParamOf T (T.setYield v) := ⟨_, _, _, _, rfl⟩
theorem paramOf_setYieldErr (T : LTemplate) (v : Fl) : ParamOf T (T.setYieldErr v) := ⟨_, _, _, _, rfl⟩
theorem paramOf_setNui (T : LTemplate) (v : Vec) : ParamOf T (T.setNui v) := ⟨_, _, _, _, rfl⟩
theorem paramOf_setNuiErr (T : LTemplate) (v : Vec) : ParamOf T (T.setNuiErr v) := ⟨_, _, _, _, rfl⟩
theorem paramOf_reset (T : LTemplate) : ParamOf T T.reset := ⟨_, _, _, _, rfl⟩

/-- every object of the first list is, up to parameter values, the one of the second, which may be longer -/
def HeapParam (a b : List LTemplate) : Prop :=
  ∀ (t : ℕ) (T : LTemplate), a[t]? = some T → ∃ T', b[t]? = some T' ∧ ParamOf T T'

theorem HeapParam.refl (a : List LTemplate) : HeapParam a a := fun _ T h => ⟨T, h, ParamOf.refl T⟩

theorem HeapParam.trans {a b c : List LTemplate} (h1 : HeapParam a b) (h2 : HeapParam b c) : HeapParam a c := by
  intro t T h
  obtain ⟨T', h', p⟩ := h1 t T h
  obtain ⟨T'', h'', q⟩ := h2 t T' h'
  exact ⟨T'', h'', p.trans q⟩

theorem heapParam_modify (ts : List LTemplate) (i : ℕ) (g : LTemplate → LTemplate) (hg : ∀ T, ParamOf T (g T)) :
    HeapParam ts (ts.modify i g) := by
  intro t T h
  rw [List.getElem?_modify]
  by_cases hi : i = t
  · exact ⟨g T, by simp [hi, h], hg T⟩
  · exact ⟨T, by simp [hi, h], ParamOf.refl T⟩

theorem heapParam_set (ts : List LTemplate) (i : ℕ) (T0 T1 : LTemplate) (h0 : ts[i]? = some T0) (hp : ParamOf T0 T1) :
    HeapParam ts (ts.set i T1) := by
  intro t T h
  by_cases hi : i = t
  · subst hi
    rw [h0] at h
    obtain rfl := Option.some.inj h
    have : i < ts.length := (List.getElem?_eq_some_iff.mp h0).1
    exact ⟨T1, by simp [List.getElem?_set, this], hp⟩
  · exact ⟨T, by simp [List.getElem?_set, hi, h], ParamOf.refl T⟩

theorem heapParam_append (ts us : List LTemplate) : HeapParam ts (ts ++ us) := by
  intro t T h
  have : t < ts.length := (List.getElem?_eq_some_iff.mp h).1
  exact ⟨T, by rw [List.getElem?_append_left this, h], ParamOf.refl T⟩

theorem heapParam_setAll {α : Type} (f : LTemplate → α → LTemplate) (hf : ∀ T v, ParamOf T (f T v)) :
    ∀ (ids : List ℕ) (vs : List α) (ts : List LTemplate), HeapParam ts (setAll f ids vs ts) := by
  intro ids
  induction ids with
  | nil => intro vs ts; simp [setAll]; exact HeapParam.refl _
  | cons i is ih =>
    intro vs ts
    cases vs with
    | nil => simp [setAll]; exact HeapParam.refl _
    | cons v vs =>
      simp only [setAll]
      exact (heapParam_modify ts i _ (fun T => hf T v)).trans (ih vs _)

theorem heapParam_update (ids : List ℕ) (x err : Vec) (ts : List LTemplate) : HeapParam ts (updateObjs ids x err ts).2 := by
  unfold updateObjs
  have h1 := heapParam_setAll _ paramOf_setYield ids (x.take ids.length) ts
  simp only
  split
  · exact h1
  · rename_i ns _
    have h3 := (h1.trans (heapParam_setAll _ paramOf_setNui ids ns _)).trans
      (heapParam_setAll _ paramOf_setYieldErr ids (err.take ids.length) _)
    split
    · exact h3
    · exact h3.trans (heapParam_setAll _ paramOf_setNuiErr ids _ _)

theorem heapParam_reset (ids : List ℕ) : ∀ ts : List LTemplate, HeapParam ts (resetObjs ids ts) := by
  induction ids with
  | nil => intro ts; exact HeapParam.refl _
  | cons i is ih =>
    intro ts
    exact (heapParam_modify ts i _ paramOf_reset).trans (ih _)

theorem addHist_tmpls (s : LSys) (r : Except Err LH1) : (s.addHist r).2.tmpls = s.tmpls := by
  unfold LSys.addHist
  cases r <;> rfl

theorem onTmpl_param (s : LSys) (t : ℕ) (f : LTemplate → Except Err Unit × LTemplate) (hf : ∀ T, ParamOf T (f T).2) :
    HeapParam s.tmpls (s.onTmpl t f).2.tmpls := by
  unfold LSys.onTmpl
  cases h : s.tmpls[t]? with
  | none => exact HeapParam.refl _
  | some T => exact heapParam_set _ _ T _ h (hf T)

/-- no call other than `add_covariance_matrix` changes more than current parameter values of existing templates -/
theorem step_param (s : LSys) (c : LCmd) (hc : ∀ t m, c ≠ .addCov t m) : HeapParam s.tmpls (s.step c).2.tmpls := by
  cases c with
  | addCov t m => exact absurd rfl (hc t m)
  | newHist | fromBinned => simp only [LSys.step, addHist_tmpls]; exact HeapParam.refl _
  | fill h data w =>
    simp only [LSys.step]
    cases s.hists[h]? <;> exact HeapParam.refl _
  | newTemplate name var nb lo hi rows =>
    simp only [LSys.step]
    cases LTemplate.make name var nb lo hi rows with
    | error e => exact HeapParam.refl _
    | ok T => exact heapParam_append _ _
  | setYield t v => exact onTmpl_param _ _ _ (fun T => paramOf_setYield T v)
  | setYieldErr t v => exact onTmpl_param _ _ _ (fun T => paramOf_setYieldErr T v)
  | setNui t v => exact onTmpl_param _ _ _ (fun T => paramOf_setNui T v)
  | setNuiErr t v => exact onTmpl_param _ _ _ (fun T => paramOf_setNuiErr T v)
  | resetTemplate t => exact onTmpl_param _ _ _ (fun T => paramOf_reset T)
  | templateAsimov t i =>
    simp only [LSys.step]
    cases s.tmpls[t]? <;> simp only [addHist_tmpls] <;> exact HeapParam.refl _
  | templateToy t d =>
    simp only [LSys.step]
    cases s.tmpls[t]? <;> simp only [addHist_tmpls] <;> exact HeapParam.refl _
  | newStack name var nb lo hi =>
    simp only [LSys.step]
    cases LStack.new name var nb lo hi <;> exact HeapParam.refl _
  | addTemplate S tid t =>
    simp only [LSys.step]
    split
    · split <;> exact HeapParam.refl _
    · exact HeapParam.refl _
  | createTemplate S tid rows =>
    simp only [LSys.step]
    split
    · exact HeapParam.refl _
    · split
      · exact HeapParam.refl _
      · exact heapParam_append _ _
  | update S x err =>
    simp only [LSys.step]
    split
    · exact HeapParam.refl _
    · exact heapParam_update _ _ _ _
  | resetStack S =>
    simp only [LSys.step]
    split
    · exact HeapParam.refl _
    · exact heapParam_reset _ _
  | stackAsimov S i =>
    simp only [LSys.step]
    split <;> simp only [addHist_tmpls] <;> exact HeapParam.refl _
  | stackToy S i =>
    simp only [LSys.step]
    split <;> simp only [addHist_tmpls] <;> exact HeapParam.refl _
  | createNll S h =>
    simp only [LSys.step]
    split <;> exact HeapParam.refl _

theorem step_addCov_self (s : LSys) (t : ℕ) (m : Mat) (T : LTemplate) (h : s.tmpls[t]? = some T) :
    (s.step (.addCov t m)).2.tmpls[t]? = some (T.addCov m).2 := by
  simp only [LSys.step, LSys.onTmpl, h]
  have : t < s.tmpls.length := (List.getElem?_eq_some_iff.mp h).1
  simp [List.getElem?_set, this]

theorem step_addCov_other (s : LSys) (t t' : ℕ) (m : Mat) (hne : t' ≠ t) :
    (s.step (.addCov t' m)).2.tmpls[t]? = s.tmpls[t]? := by
  simp only [LSys.step, LSys.onTmpl]
  split
  · rfl
  · simp [List.getElem?_set, hne]

/-- the derived numbers of a template, its nominal contents and the parameters that `reset_parameters` restores -/
structure TIs (T : LTemplate) {n : ℕ} (c : Fin n → ℝ) (C : Matrix (Fin n) (Fin n) ℝ) (y0 e0 : ℝ) : Prop where
  inv : LInv T c C
  yv : T.yieldP.origValue = .fin y0
  ye : T.yieldP.origError = .fin e0
  nv : T.nuiP.origValue = vec fun _ : Fin n => 0
  ne : T.nuiP.origError = vec fun _ : Fin n => 1

theorem tIs_param {T T' : LTemplate} {n : ℕ} {c : Fin n → ℝ} {C : Matrix (Fin n) (Fin n) ℝ} {y0 e0 : ℝ}
    (h : TIs T c C y0 e0) (hp : ParamOf T T') : TIs T' c C y0 e0 := by
  obtain ⟨_, _, _, _, rfl⟩ := hp
  exact ⟨h.inv, h.yv, h.ye, h.nv, h.ne⟩

theorem isReal_toMatrix {n : ℕ} {m : Mat} {A : Matrix (Fin n) (Fin n) ℝ} (h : IsReal m A) : m.toMatrix n = A := by
  ext i j
  simp [Mat.toMatrix, h.2.2 i j, Fl.toReal]

theorem addCov_tIs {T : LTemplate} {n : ℕ} {c : Fin n → ℝ} {C : Matrix (Fin n) (Fin n) ℝ} {y0 e0 : ℝ}
    (h : TIs T c C y0 e0) (m : Mat) (A : Matrix (Fin n) (Fin n) ℝ) (hm : IsReal m A) (hA : A.PosSemidef) :
    (T.addCov m).1 = .ok () ∧ TIs (T.addCov m).2 c (C + A) y0 e0 := by
  obtain ⟨h1, h2, h3, h4, h5, h6, h7⟩ := h.inv
  have hC : (C + A).PosDef := h4.add_posSemidef hA
  have hr : IsReal (T.cov.add m) (C + A) := h3.add hm
  have hcorr : IsReal (cov2corr (T.cov.add m)) (corrOf (C + A)) :=
    cov2corr_isReal hr (fun i => (posSemidef_diag_nonneg hC.posSemidef i))
      (fun i j => posSemidef_zero hC.posSemidef i j)
  have hdet : (corrOf (C + A)).det ≠ 0 :=
    ((Matrix.isUnit_iff_isUnit_det _).mp (Matrix.PosDef.isUnit (corrOf_posDef hC))).ne_zero
  obtain ⟨inv, hi, hir⟩ := npInv_isReal hcorr hdet
  have e : T.addCov m = (.ok (),
      { T with
        cov := T.cov.add m
        corr := cov2corr (T.cov.add m)
        invCorr := inv
        relErr := relErrs (T.cov.add m) T.counts }) := by
    unfold LTemplate.addCov
    rw [if_pos ⟨by rw [hm.1, h3.1], by rw [hm.2.1, h3.2.1]⟩]
    simp only
    rw [hi]
  rw [e]
  refine ⟨rfl, ⟨h1, h2, hr, hC, hcorr, hir, ?_⟩, h.yv, h.ye, h.nv, h.ne⟩
  show relErrs _ T.counts = _
  rw [h2]
  exact relErrs_vec hr (fun i => posSemidef_diag_nonneg hC.posSemidef i) c

theorem addCov_mismatch {T : LTemplate} {n : ℕ} {c : Fin n → ℝ} {C : Matrix (Fin n) (Fin n) ℝ}
    (h : LInv T c C) (m : Mat) (hm : ¬ (m.rows = n ∧ m.cols = n)) : T.addCov m = (.error .valueError, T) := by
  unfold LTemplate.addCov
  rw [if_neg]
  rw [h.2.2.1.1, h.2.2.1.2.1]
  exact hm

theorem new_tIs (name var : String) {n : ℕ} (lo hi : ℝ) (c s : Fin n → ℝ) (hs : ∀ i, 0 ≤ s i) :
    TIs (LTemplate.new name var n lo hi (vec c) (vec s)) c (Matrix.diagonal fun i => statVar (s i)) (∑ i, c i)
      (Real.sqrt (∑ i, s i)) := by
  have hd : IsReal (Mat.diagOf (statErrSq (vec s))) (Matrix.diagonal fun i => statVar (s i)) := by
    rw [statErrSq_vec]; exact isReal_diagOf _
  have hp : ∀ i, 0 < statVar (s i) := fun i => statVar_pos (hs i)
  have hrep : ∀ (a : ℝ), List.replicate n (Fl.fin a) = vec fun _ : Fin n => a := by
    intro a; unfold vec; rw [List.ofFn_const]
  refine ⟨⟨rfl, rfl, hd, Matrix.PosDef.diagonal hp, ?_, ?_, ?_⟩, ?_, ?_, ?_, ?_⟩
  · rw [corrOf_diagonal _ hp]; exact isReal_ones
  · rw [corrOf_diagonal _ hp, inv_one]; exact isReal_ones
  · exact relErrs_vec hd (fun i => by rw [Matrix.diagonal_apply_eq]; exact (hp i).le) c
  · show npSum (vec c) = _
    unfold npSum; rw [vec_sum]
  · show Fl.sqrt (npSum (vec s)) = _
    unfold npSum; rw [vec_sum, Fl.sqrt_fin (Finset.sum_nonneg fun i _ => hs i)]
  · exact hrep 0
  · exact hrep 1

theorem covSum_cons (n : ℕ) (m : Mat) (ms : List Mat) :
    covSum n (m :: ms) = (if m.rows = n ∧ m.cols = n then m.toMatrix n else 0) + covSum n ms := by
  unfold covSum
  by_cases h : m.rows = n ∧ m.cols = n
  · simp [h]
  · simp [h]

theorem run_tIs {n : ℕ} {c : Fin n → ℝ} {y0 e0 : ℝ} (t : ℕ) (cmds : List LCmd) :
    ∀ (s : LSys) (T : LTemplate) (C : Matrix (Fin n) (Fin n) ℝ), s.tmpls[t]? = some T → TIs T c C y0 e0 →
      (∀ m ∈ covArgs t cmds, m.rows = n → m.cols = n → ∃ A : Matrix (Fin n) (Fin n) ℝ, IsReal m A ∧ A.PosSemidef) →
      ∃ T', (s.run cmds).tmpls[t]? = some T' ∧ TIs T' c (C + covSum n (covArgs t cmds)) y0 e0 := by
  induction cmds with
  | nil =>
    intro s T C h1 h2 _
    exact ⟨T, h1, by simpa [covArgs, covSum] using h2⟩
  | cons cmd cmds ih =>
    intro s T C h1 h2 h3
    have hrun : s.run (cmd :: cmds) = ((s.step cmd).2).run cmds := rfl
    rw [hrun]
    by_cases hc : ∃ t' m, cmd = .addCov t' m
    · obtain ⟨t', m, rfl⟩ := hc
      by_cases ht : t' = t
      · subst ht
        have hargs : covArgs t' (.addCov t' m :: cmds) = m :: covArgs t' cmds := by simp [covArgs]
        rw [hargs] at h3 ⊢
        have h4 := step_addCov_self s t' m T h1
        by_cases hm : m.rows = n ∧ m.cols = n
        · obtain ⟨A, hA, hpsd⟩ := h3 m (by simp) hm.1 hm.2
          have h5 := (addCov_tIs h2 m A hA hpsd).2
          obtain ⟨T', h6, h7⟩ := ih _ _ _ h4 h5 (fun m' hm' => h3 m' (by simp [hm']))
          refine ⟨T', h6, ?_⟩
          rw [covSum_cons, if_pos hm, isReal_toMatrix hA, ← add_assoc]
          exact h7
        · rw [addCov_mismatch h2.inv m hm] at h4
          obtain ⟨T', h6, h7⟩ := ih _ _ _ h4 h2 (fun m' hm' => h3 m' (by simp [hm']))
          refine ⟨T', h6, ?_⟩
          rw [covSum_cons, if_neg hm, zero_add]
          exact h7
      · have hargs : covArgs t (.addCov t' m :: cmds) = covArgs t cmds := by simp [covArgs, ht]
        rw [hargs] at h3 ⊢
        exact ih _ T C (by rw [step_addCov_other s t t' m ht, h1]) h2 h3
    · have hc' : ∀ t' m, cmd ≠ .addCov t' m := fun t' m h => hc ⟨t', m, h⟩
      have hargs : covArgs t (cmd :: cmds) = covArgs t cmds := by
        simp only [covArgs, List.map_cons, List.flatten_cons]
        cases cmd <;> rfl
      rw [hargs] at h3 ⊢
      obtain ⟨T', h4, h5⟩ := step_param s cmd hc' t T h1
      exact ih _ T' C h4 (tIs_param h2 h5) h3

theorem lvalues_eq {T : LTemplate} {n : ℕ} {c ε : Fin n → ℝ} (hc : T.counts = vec c) (hε : T.relErr = vec ε) {y : ℝ}
    {θ : Fin n → ℝ} (hy : T.yieldP.value = .fin y) (hθ : T.nuiP.value = vec θ) (hT : ∑ j, c j * (1 + θ j * ε j) ≠ 0) :
    T.values = .ok (vec fun i => y * frac c ε θ i) := by
  unfold LTemplate.values
  rw [hθ, legacy_fractions hc hε θ hT, hy]
  simp only [bind, Except.bind, pure, Except.pure]
  rw [map_vec _ _ (fun i => y * frac c ε θ i) (fun i => rfl)]

theorem lerrors_eq {T : LTemplate} {n : ℕ} {ε v : Fin n → ℝ} (hε : T.relErr = vec ε) (hv : T.values = .ok (vec v)) :
    T.errors = .ok (vec fun i => ε i * v i) := by
  unfold LTemplate.errors
  rw [hv, hε]
  simp only [bind, Except.bind]
  rw [bop_vec _ _ _ _ (fun i => rfl)]

theorem frac_zero {n : ℕ} (c ε : Fin n → ℝ) (i : Fin n) : frac c ε (fun _ => 0) i = c i / ∑ j, c j := by
  simp [frac, varied]

theorem sum_frac {n : ℕ} (c ε θ : Fin n → ℝ) (hT : ∑ j, c j * (1 + θ j * ε j) ≠ 0) : ∑ i, frac c ε θ i = 1 := by
  simp only [frac_eq]
  rw [← Finset.sum_div, div_self hT]

theorem reset_values {T : LTemplate} {n : ℕ} {c : Fin n → ℝ} {C : Matrix (Fin n) (Fin n) ℝ} {e0 : ℝ}
    (h : TIs T c C (∑ i, c i) e0) (hs : ∑ i, c i ≠ 0) : T.reset.values = .ok (vec c) := by
  obtain ⟨-, h2, -, -, -, -, h7⟩ := h.inv
  have := lvalues_eq (T := T.reset) (c := c) (ε := fun i => relOf (C i i) (c i)) (y := ∑ i, c i) (θ := fun _ => 0) h2 h7 h.yv h.nv
    (by simpa using hs)
  rw [this]
  congr 2
  funext i
  rw [frac_zero, mul_div_cancel₀ _ hs]

/-- **C91.** A template is made from a data frame with finite weights (at least one bin, a proper interval); then any history of calls
follows, on this and all other objects, accepted or rejected, in which the matrices added to this template are positive semidefinite
(those of another shape are rejected). The template's contents are the sums of weights per bin; its covariance matrix is the sum of the
statistical and the added ones; the stored inverse is that of the correlation matrix; whenever its parameters are `y` and
`θ`, its values are `y` times the fractions, they sum to `y`, and its errors are the relative errors times the values;
and `reset_parameters` brings back the sum of weights with its error, and the contents as values. -/
theorem C91_template (s : LSys) (name var : String) (n : ℕ) (hn : 1 ≤ n) (lo hi : ℝ) (hlt : lo < hi)
    (rows : List (Fl × ℝ)) (cmds : List LCmd) (c : Fin n → ℝ) (hc : c = fun i : Fin n => rowSum (grid lo hi n) rows id i)
    (hpsd : ∀ m ∈ covArgs s.tmpls.length cmds, m.rows = n → m.cols = n →
      ∃ A : Matrix (Fin n) (Fin n) ℝ, IsReal m A ∧ A.PosSemidef)
    (C : Matrix (Fin n) (Fin n) ℝ) (hC : C = legacyCov lo hi n rows (covArgs s.tmpls.length cmds))
    (ε : Fin n → ℝ) (hε : ε = fun i => legacyRel (C i i) (c i)) :
    (s.step (.newTemplate name var n lo hi (frame rows))).1 = .ok () ∧
    ∃ T, (((s.step (.newTemplate name var n lo hi (frame rows))).2.run cmds).tmpls)[s.tmpls.length]? = some T ∧
      T.counts = vec c ∧ IsReal T.cov C ∧ IsReal T.invCorr (corrOf C)⁻¹ ∧ (corrOf C).PosDef ∧ T.relErr = vec ε ∧
      (∀ (y : ℝ) (θ : Fin n → ℝ), T.yieldP.value = .fin y → T.nuiP.value = vec θ → ∑ j, c j * (1 + θ j * ε j) ≠ 0 →
        ∃ v : Fin n → ℝ, T.values = .ok (vec v) ∧ T.errors = .ok (vec fun i => ε i * v i) ∧ ∑ i, v i = y ∧
          ∀ i, v i = y * (c i * (1 + θ i * ε i) / ∑ j, c j * (1 + θ j * ε j))) ∧
      T.reset.yieldP.value = .fin (∑ i, c i) ∧
      T.reset.yieldP.error = .fin (Real.sqrt (∑ i : Fin n, rowSum (grid lo hi n) rows (fun w => w ^ 2) i)) ∧
      T.reset.nuiP.value = vec (fun _ : Fin n => 0) ∧ T.reset.nuiP.error = vec (fun _ : Fin n => 1) ∧
      (∑ i, c i ≠ 0 → T.reset.values = .ok (vec c)) := by
  have e := make_eq name var hn hlt rows
  set T0 := LTemplate.new name var n lo hi (vec fun i : Fin n => rowSum (grid lo hi n) rows id i)
    (vec fun i : Fin n => rowSum (grid lo hi n) rows (fun w => w ^ 2) i) with hT0
  have hstep : s.step (.newTemplate name var n lo hi (frame rows)) = (.ok (), { s with tmpls := s.tmpls ++ [T0] }) := by
    simp only [LSys.step]
    rw [e]
  have h0 := new_tIs name var lo hi (fun i : Fin n => rowSum (grid lo hi n) rows id i)
    (fun i : Fin n => rowSum (grid lo hi n) rows (fun w => w ^ 2) i) (fun i => rowSum_sq_nonneg _ _ _)
  rw [← hT0, ← hc] at h0
  obtain ⟨T, h1, h2⟩ := run_tIs s.tmpls.length cmds { s with tmpls := s.tmpls ++ [T0] } T0 _ (by simp) h0 hpsd
  have hC' : (Matrix.diagonal fun i : Fin n => statVar (rowSum (grid lo hi n) rows (fun w => w ^ 2) i)) +
      covSum n (covArgs s.tmpls.length cmds) = C := by rw [hC]; rfl
  rw [hC'] at h2
  rw [hstep]
  obtain ⟨-, i2, i3, i4, i5, i6, i7⟩ := h2.inv
  have i7' : T.relErr = vec ε := by rw [i7, hε]; rfl
  have h2' : TIs T c C (∑ i, c i) (Real.sqrt (∑ i : Fin n, rowSum (grid lo hi n) rows (fun w => w ^ 2) i)) := by
    rw [hc] at h2 ⊢; exact h2
  refine ⟨rfl, T, h1, i2, i3, i6, corrOf_posDef i4, i7', ?_, h2'.yv, h2'.ye, h2'.nv, h2'.ne, fun h => reset_values h2' h⟩
  intro y θ hy hθ hT
  have hv := lvalues_eq i2 i7' hy hθ hT
  refine ⟨_, hv, lerrors_eq i7' hv, ?_, fun i => rfl⟩
  rw [← Finset.mul_sum, sum_frac c ε θ hT, mul_one]

/-- **C91 (new template).** Right after its creation the template shows the contents of the histogram: its values are the sums of weights per
bin, its yield parameter their sum. -/
theorem C91_new (s : LSys) (name var : String) (n : ℕ) (hn : 1 ≤ n) (lo hi : ℝ) (hlt : lo < hi)
    (rows : List (Fl × ℝ)) (hs : ∑ i : Fin n, rowSum (grid lo hi n) rows id i ≠ 0) :
    ∃ T, ((s.step (.newTemplate name var n lo hi (frame rows))).2.tmpls)[s.tmpls.length]? = some T ∧
      T.name = name ∧ T.variable_ = var ∧ T.numBins = n ∧ T.lo = lo ∧ T.hi = hi ∧
      T.yieldP.value = .fin (∑ i : Fin n, rowSum (grid lo hi n) rows id i) ∧
      T.nuiP.value = vec (fun _ : Fin n => 0) ∧
      T.values = .ok (vec fun i : Fin n => rowSum (grid lo hi n) rows id i) := by
  have e := make_eq name var hn hlt rows
  have h0 := new_tIs name var lo hi (fun i : Fin n => rowSum (grid lo hi n) rows id i)
    (fun i : Fin n => rowSum (grid lo hi n) rows (fun w => w ^ 2) i) (fun i => rowSum_sq_nonneg _ _ _)
  refine ⟨LTemplate.new name var n lo hi (vec fun i : Fin n => rowSum (grid lo hi n) rows id i)
    (vec fun i : Fin n => rowSum (grid lo hi n) rows (fun w => w ^ 2) i), ?_, rfl, rfl, rfl, rfl, rfl, h0.yv, h0.nv, reset_values h0 hs⟩
  simp only [LSys.step]
  rw [e]
  simp

/-- **C91 (bad arguments).** Without bins, or over an empty or inverted interval, no template is made: the call raises `ValueError` and nothing
changes. -/
theorem C91_rejected (s : LSys) (name var : String) (nb : ℤ) (lo hi : ℝ) (rows : List (Fl × Fl))
    (h : nb < 1 ∨ hi ≤ lo) :
    s.step (.newTemplate name var nb lo hi rows) = (.error .valueError, s) := by
  have hm : LTemplate.make name var nb lo hi rows = .error .valueError := by
    unfold LTemplate.make LH1.new LH1.init
    simp only
    by_cases hneg : nb < 0
    · rw [if_pos hneg]
    rw [if_neg hneg]
    simp only
    have hbad : ¬ validEdges (linspace lo hi (nb.toNat + 1)) := by
      intro hv
      rcases h with h | h
      · have : nb.toNat = 0 := by omega
        have h2 := hv.1
        rw [linspace_length, this] at h2
        omega
      · by_cases h1 : nb.toNat = 0
        · have h2 := hv.1
          rw [linspace_length, h1] at h2
          omega
        · rw [grid_eq] at hv
          have hp := List.pairwise_iff_getElem.mp hv.2 0 nb.toNat (by rw [grid_length]; omega) (by rw [grid_length]; omega) (by omega)
          simp only [grid, List.getElem_ofFn] at hp
          have : (nb.toNat : ℝ) ≠ 0 := by exact_mod_cast h1
          rw [mul_div_cancel₀ _ this] at hp
          simp at hp
          linarith
    have : ∀ a b, binnedSum (linspace lo hi (nb.toNat + 1)) a b = .error .valueError := by
      intro a b
      unfold binnedSum
      rw [if_neg hbad]
      split <;> rfl
    unfold LH1.fill
    simp only [this]
  simp only [LSys.step]
  rw [hm]

/-! ### a history that meets the hypotheses of C91 -/

namespace Ex

theorem grid2 : grid 0 1 2 = [0, 1 / 2, 1] := by
  simp [grid, List.ofFn_succ]
  norm_num

theorem inBin0 : InBin (grid 0 1 2) 0 (.fin (1 / 4)) := by
  rw [grid2]
  exact Or.inl ⟨0, 1 / 2, rfl, rfl, by norm_num, by norm_num⟩

theorem notBin1 : ¬ InBin (grid 0 1 2) 1 (.fin (1 / 4)) := by
  rw [grid2]
  rintro (⟨a, b, ha, hb, h1, h2⟩ | ⟨-, h1, -⟩)
  · simp at ha; subst ha; norm_num at h1
  · simp at h1; norm_num at h1

/-- one event of weight 3 in the first of two bins, and a missing value -/
def rowsL : List (Fl × ℝ) := [(.fin (1 / 4), 3), (.nan, 5)]

theorem rowsL_sum0 (f : ℝ → ℝ) : rowSum (grid 0 1 2) rowsL f 0 = f 3 := by
  have h : ¬ InBin (grid 0 1 2) 0 .nan := fun h => h
  simp only [rowSum, rowsL, List.filter_cons, inBin0, h, decide_true, decide_false, if_true, List.filter_nil]
  simp

theorem rowsL_sum1 (f : ℝ → ℝ) : rowSum (grid 0 1 2) rowsL f 1 = 0 := by
  have h : ¬ InBin (grid 0 1 2) 1 .nan := fun h => h
  simp only [rowSum, rowsL, List.filter_cons, notBin1, h, decide_false, List.filter_nil]
  simp

/-- the history: add a covariance matrix, try one of the wrong shape, set parameters, make another template and change it -/
def cmdsL : List LCmd :=
  [.addCov 0 (Mat.ofMatrix !![1, 1; 1, 1]), .addCov 0 (Mat.ofMatrix (1 : Matrix (Fin 3) (Fin 3) ℝ)), .setYield 0 (.fin 7),
    .newTemplate "b" "x" 2 0 1 [], .addCov 1 (Mat.ofMatrix !![-1, 0; 0, 1 / 2]), .setNui 0 (vec ![1, 2])]

theorem ones_psd : (!![1, 1; 1, 1] : Matrix (Fin 2) (Fin 2) ℝ).PosSemidef := by
  have : (!![1, 1; 1, 1] : Matrix (Fin 2) (Fin 2) ℝ) = Matrix.vecMulVec ![1, 1] (star ![1, 1]) := by
    ext i j; fin_cases i <;> fin_cases j <;> simp [Matrix.vecMulVec_apply]
  rw [this]; exact Matrix.posSemidef_vecMulVec_self_star _

/-- C91 applies to this history, the template shows 3 events in the first bin, and (the wrong-shaped matrix being skipped) one matrix
is in its covariance -/
example : (∀ m ∈ covArgs 0 cmdsL, m.rows = 2 → m.cols = 2 → ∃ A : Matrix (Fin 2) (Fin 2) ℝ, IsReal m A ∧ A.PosSemidef) ∧
    ∑ i : Fin 2, rowSum (grid 0 1 2) rowsL id i ≠ 0 ∧
    legacyCov 0 1 2 rowsL (covArgs 0 cmdsL) 0 0 = 10 := by
  have hargs : covArgs 0 cmdsL = [Mat.ofMatrix !![1, 1; 1, 1], Mat.ofMatrix (1 : Matrix (Fin 3) (Fin 3) ℝ)] := by
    simp [covArgs, cmdsL]
  refine ⟨?_, ?_, ?_⟩
  · intro m hm h1 _
    rw [hargs] at hm
    simp only [List.mem_cons, List.not_mem_nil, or_false] at hm
    rcases hm with rfl | rfl
    · exact ⟨_, isReal_ofMatrix _, ones_psd⟩
    · simp [Mat.ofMatrix] at h1
  · rw [Fin.sum_univ_two]
    have h0 : rowSum (grid 0 1 2) rowsL id ((0 : Fin 2) : ℕ) = 3 := rowsL_sum0 id
    have h1 : rowSum (grid 0 1 2) rowsL id ((1 : Fin 2) : ℕ) = 0 := rowsL_sum1 id
    rw [h0, h1]; norm_num
  · rw [hargs]
    have h0 : rowSum (grid 0 1 2) rowsL (fun w => w ^ 2) ((0 : Fin 2) : ℕ) = 3 ^ 2 := rowsL_sum0 _
    have h3 : (Mat.ofMatrix (1 : Matrix (Fin 3) (Fin 3) ℝ)).rows ≠ 2 := by simp [Mat.ofMatrix]
    unfold legacyCov
    rw [covSum_cons, covSum_cons, if_pos ⟨rfl, rfl⟩, if_neg (fun h => h3 h.1), isReal_toMatrix (isReal_ofMatrix _)]
    rw [Matrix.add_apply, Matrix.diagonal_apply_eq, h0]
    simp [covSum]
    norm_num

end Ex

end

end TF.Props
