import Verif.Model.Template

/-!
# The legacy modules: histogram_legacy.py, templates_legacy.py, nll.py

Legacy `Hist1d`, plotting and the objects' references to each other are in `Model/LegacySys.lean`. Not modelled: `pandas` column
access (`df[variable].values` is the data array).
-/

namespace TF

open Classical

noncomputable section

/-! ### histogram_legacy.py `Histogram` -/

/-- State of a legacy `Histogram` (histogram_legacy.py:31-38). -/
structure LHist where
  edges : List ℝ
  counts : NdArr
  entries : NdArr
  errSq : NdArr

/-- histogram_legacy.py:31-38 `Histogram.__init__` without data -/
def LHist.new (nbins : ℕ) (lo hi : ℝ) : LHist :=
  ⟨linspace lo hi (nbins + 1), NdArr.zeros [nbins], NdArr.zeros [nbins], NdArr.zeros [nbins]⟩

/-- histogram_legacy.py:43-75 `Histogram.fill`, statement by statement. No `range` is passed to `binned_statistic`, so scipy takes
the minimum of the sample, which raises ValueError for an empty one. -/
def LHist.fill (h : LHist) (data : Vec) (w : Weights) : Except Err Unit × LHist :=
  let ws := w.values data.length
  if data.length ≠ ws.length then (.error .valueError, h)
  else if data = [] then (.error .valueError, h)
  else match binnedSum h.edges data ws with
    | .error e => (.error e, h)
    | .ok s =>
      match h.counts.iadd s with
      | .error e => (.error e, h)
      | .ok c =>
        let h1 := { h with counts := c }
        match binnedSum h.edges data (ws.map fun _ => (1 : Fl)) with
        | .error e => (.error e, h1)
        | .ok n =>
          match h1.entries.iadd n with
          | .error e => (.error e, h1)
          | .ok en =>
            let h2 := { h1 with entries := en }
            if w.noPow then (.error .typeError, h2)
            else match binnedSum h.edges data (ws.map Fl.sq) with
              | .error e => (.error e, h2)
              | .ok s2 =>
                match h2.errSq.iadd s2 with
                | .error e => (.error e, h2)
                | .ok q => (.ok (), { h2 with errSq := q })

/-- histogram_legacy.py:77-88 `Histogram.scale` -/
def LHist.scale (h : LHist) (c : Fl) : LHist :=
  { h with counts := h.counts.map (· * c), errSq := h.errSq.map (· * Fl.sq c) }

/-- histogram_legacy.py:125-128 `Histogram.bin_errors` -/
def LHist.binErrors (h : LHist) : NdArr := h.errSq.map Fl.sqrt

/-! ### histogram_legacy.py `Hist2d` -/

/-- State of a legacy `Hist2d` (histogram_legacy.py:322-340). -/
structure LHist2 where
  ex : List ℝ
  ey : List ℝ
  counts : NdArr
  errSq : NdArr

/-- All legacy `Hist2d` objects and the two `lru_cache`s of the class, keyed by object. -/
structure LWorld where
  hists : ℕ → LHist2
  xCache : Lru ℕ (NdArr × NdArr)
  yCache : Lru ℕ (NdArr × NdArr)

/-- `binned_statistic_2d(x, y, values, statistic='sum', bins=[ex, ey], range=…)[0]`: with an explicit `range`
scipy accepts an empty sample. histogram_legacy.py:348-355, 357-364 -/
def binnedSum2Range (ex ey : List ℝ) (x y values : Vec) : Except Err NdArr :=
  if x.length ≠ y.length ∨ x.length ≠ values.length then .error .valueError
  else if validEdges ex ∧ validEdges ey then
    .ok ⟨[ex.length - 1, ey.length - 1],
      (List.range ((ex.length - 1) * (ey.length - 1))).map fun k =>
        ((((x.zip y).zip values).filter fun p =>
          decide (binIndex ex p.1.1 = some (k / (ey.length - 1)) ∧
                  binIndex ey p.1.2 = some (k % (ey.length - 1)))).map (·.2)).sum⟩
  else .error .valueError

/-- histogram_legacy.py:342-367 `Hist2d.fill`; the caches of *all* objects are cleared, but only
at the very end -/
def LWorld.fill (w : LWorld) (i : ℕ) (x y : Vec) (ws : Weights) : Except Err Unit × LWorld :=
  let h := w.hists i
  let wv := ws.values x.length
  match binnedSum2Range h.ex h.ey x y wv with
  | .error e => (.error e, w)
  | .ok s =>
    match h.counts.iadd s with
    | .error e => (.error e, w)
    | .ok c =>
      let h1 := { h with counts := c }
      let w1 := { w with hists := Function.update w.hists i h1 }
      if ws.noPow then (.error .typeError, w1)
      else match binnedSum2Range h.ex h.ey x y (wv.map Fl.sq) with
        | .error e => (.error e, w1)
        | .ok s2 =>
          match h1.errSq.iadd s2 with
          | .error e => (.error e, w1)
          | .ok q =>
            (.ok (), ⟨Function.update w.hists i { h1 with errSq := q }, ⟨[]⟩, ⟨[]⟩⟩)

/-- body of histogram_legacy.py:385-387 `x_projection` -/
def LHist2.xProj (h : LHist2) : NdArr × NdArr := (h.counts.sumAxis1, h.errSq.sumAxis1.map Fl.sqrt)

/-- body of histogram_legacy.py:389-391 `y_projection` -/
def LHist2.yProj (h : LHist2) : NdArr × NdArr := (h.counts.sumAxis0, h.errSq.sumAxis0.map Fl.sqrt)

/-- histogram_legacy.py:385-387 `x_projection` (memoised) -/
def LWorld.xProjection (w : LWorld) (i : ℕ) : Except Err (NdArr × NdArr) × LWorld :=
  let r := w.xCache.call i (.ok (w.hists i).xProj)
  (r.1, { w with xCache := r.2 })

/-- histogram_legacy.py:389-391 `y_projection` (memoised) -/
def LWorld.yProjection (w : LWorld) (i : ℕ) : Except Err (NdArr × NdArr) × LWorld :=
  let r := w.yCache.call i (.ok (w.hists i).yProj)
  (r.1, { w with yCache := r.2 })

/-- histogram_legacy.py:322-340 `Hist2d.__init__` without data, for given edges -/
def LHist2.new (ex ey : List ℝ) : LHist2 :=
  ⟨ex, ey, NdArr.zeros [ex.length - 1, ey.length - 1], NdArr.zeros [ex.length - 1, ey.length - 1]⟩

/-- the public calls on legacy 2-d histograms (objects are numbered) -/
inductive LOp2 where
  | fill (i : ℕ) (x y : Vec) (w : Weights)
  | projX (i : ℕ)
  | projY (i : ℕ)

/-- state after one call, whether it returns or raises -/
def LWorld.step (w : LWorld) : LOp2 → LWorld
  | .fill i x y ws => (w.fill i x y ws).2
  | .projX i => (w.xProjection i).2
  | .projY i => (w.yProjection i).2

/-- state after a history of calls -/
def LWorld.run (w : LWorld) (ops : List LOp2) : LWorld := ops.foldl LWorld.step w

/-- histogram objects just constructed, nothing cached -/
def LWorld.start (ex ey : ℕ → List ℝ) : LWorld := ⟨fun i => LHist2.new (ex i) (ey i), ⟨[]⟩, ⟨[]⟩⟩

/-! ### templates_legacy.py -/

/-- `TemplateParameter` (templates_legacy.py:28-41) -/
structure LParam (α : Type) where
  value : α
  origValue : α
  error : α
  origError : α

/-- templates_legacy.py:32-37 `__init__` -/
def LParam.new {α : Type} (v e : α) : LParam α := ⟨v, v, e, e⟩

/-- templates_legacy.py:39-41 `reset` -/
def LParam.reset {α : Type} (p : LParam α) : LParam α :=
  { p with value := p.origValue, error := p.origError }

/-- State of a legacy `Template` (templates_legacy.py:144-169). -/
structure LTemplate where
  name : String
  variable_ : String
  numBins : ℕ
  lo : ℝ
  hi : ℝ
  counts : Vec
  cov : Mat
  corr : Mat
  invCorr : Mat
  relErr : Vec
  yieldP : LParam Fl
  nuiP : LParam Vec

/-- templates_legacy.py:144-188 `Template.__init__` and `_init_errors`, given the content of the
histogram it fills -/
def LTemplate.new (name var : String) (numBins : ℕ) (lo hi : ℝ) (counts errSq : Vec) : LTemplate :=
  let cov := Mat.diagOf (statErrSq errSq)
  let one := Mat.diagOf (List.replicate numBins 1)
  { name := name, variable_ := var, numBins := numBins, lo := lo, hi := hi, counts := counts
    cov := cov, corr := one, invCorr := one, relErr := relErrs cov counts
    yieldP := LParam.new (npSum counts) (Fl.sqrt (npSum errSq))
    nuiP := LParam.new (List.replicate numBins 0) (List.replicate numBins 1) }

/-- templates_legacy.py:190-210 `add_covariance_matrix` (conforming shapes) -/
def LTemplate.addCov (t : LTemplate) (m : Mat) : Except Err Unit × LTemplate :=
  if m.rows = t.cov.rows ∧ m.cols = t.cov.cols then
    let t1 := { t with cov := t.cov.add m }
    let t2 := { t1 with corr := cov2corr t1.cov }
    match npInv t2.corr with
    | .error e => (.error e, t2)
    | .ok inv => (.ok (), { t2 with invCorr := inv, relErr := relErrs t2.cov t2.counts })
  else (.error .valueError, t)

/-- templates_legacy.py:228-254 `fractions` (numpy; IEEE division) -/
def LTemplate.fractions (t : LTemplate) (nui : Vec) : Except Err Vec := do
  let a ← bop (· * ·) nui t.relErr
  let y ← bop (· * ·) t.counts (a.map (1 + ·))
  return y.map (· / npSum y)

/-- templates_legacy.py:218-226 `values` -/
def LTemplate.values (t : LTemplate) : Except Err Vec := do
  let f ← t.fractions t.nuiP.value
  return f.map (t.yieldP.value * ·)

/-- templates_legacy.py:312-316 `reset_parameters` -/
def LTemplate.reset (t : LTemplate) : LTemplate :=
  { t with nuiP := t.nuiP.reset, yieldP := t.yieldP.reset }

/-- templates_legacy.py:374-378 `corr_mat`: the property returns `self.corr_mat`, i.e. calls
itself; evaluation with `fuel` nested calls left ends in `RecursionError`. -/
def LTemplate.corrMat (t : LTemplate) : ℕ → Except Err Mat
  | 0 => .error .recursionError
  | fuel + 1 => t.corrMat fuel

/-- State of a `StackedTemplate` (templates_legacy.py:391-401). Simplification: the templates are
values here; `Model/LegacySys.lean` has the dict refer to template objects. -/
structure Stacked where
  variable_ : String
  numBins : ℕ
  lo : ℝ
  hi : ℝ
  templates : List (String × LTemplate)

/-- templates_legacy.py:641-644 `num_templates` -/
def Stacked.num (s : Stacked) : ℕ := s.templates.length

/-- templates_legacy.py:669-672 `yield_param_values` setter (`zip`) -/
def setYields : List (String × LTemplate) → Vec → List (String × LTemplate)
  | (k, t) :: ts, v :: vs => (k, { t with yieldP := { t.yieldP with value := v } }) :: setYields ts vs
  | ts, _ => ts

/-- templates_legacy.py:683-686 `yield_param_errors` setter (`zip`) -/
def setYieldErrs : List (String × LTemplate) → Vec → List (String × LTemplate)
  | (k, t) :: ts, v :: vs => (k, { t with yieldP := { t.yieldP with error := v } }) :: setYieldErrs ts vs
  | ts, _ => ts

/-- loop of templates_legacy.py:697-701 `nui_param_values` setter -/
def setNuis : List (String × LTemplate) → List Vec → List (String × LTemplate)
  | (k, t) :: ts, v :: vs => (k, { t with nuiP := { t.nuiP with value := v } }) :: setNuis ts vs
  | ts, _ => ts

/-- loop of templates_legacy.py:712-716 `nui_param_errors` setter -/
def setNuiErrs : List (String × LTemplate) → List Vec → List (String × LTemplate)
  | (k, t) :: ts, v :: vs => (k, { t with nuiP := { t.nuiP with error := v } }) :: setNuiErrs ts vs
  | ts, _ => ts

/-- templates_legacy.py:617-637 `update_parameters`: four setters in this order; the `np.split`
inside the second and fourth may raise -/
def Stacked.updateParameters (s : Stacked) (x err : Vec) : Except Err Unit × Stacked :=
  let s1 := { s with templates := setYields s.templates (x.take s.num) }
  match splitEq (x.drop s.num) s1.num with
  | .error e => (.error e, s1)
  | .ok ns =>
    let s2 := { s1 with templates := setNuis s1.templates ns }
    let s3 := { s2 with templates := setYieldErrs s2.templates (err.take s.num) }
    match splitEq (err.drop s.num) s3.num with
    | .error e => (.error e, s3)
    | .ok es => (.ok (), { s3 with templates := setNuiErrs s3.templates es })

/-- templates_legacy.py:595-600 `reset_parameters` -/
def Stacked.reset (s : Stacked) : Stacked :=
  { s with templates := s.templates.map fun p => (p.1, p.2.reset) }

/-- rows of templates_legacy.py:488-513 `fractions` -/
def legacyRows : List LTemplate → List Vec → Except Err (List Vec)
  | t :: ts, p :: ps =>
    match t.fractions p with
    | .error e => .error e
    | .ok r =>
      match legacyRows ts ps with
      | .error e => .error e
      | .ok rs => .ok (r :: rs)
  | _, _ => .ok []

/-- templates_legacy.py:488-513 `StackedTemplate.fractions` -/
def Stacked.fractions (s : Stacked) (nui : Vec) : Except Err Mat :=
  match splitEq nui s.num with
  | .error e => .error e
  | .ok ps =>
    match legacyRows (s.templates.map (·.2)) ps with
    | .error e => .error e
    | .ok rows => stackRows rows

/-! ### nll.py -/

/-- nll.py:160-165 `xlogyx` for one pair of entries -/
def legacyXlogyx (x y : Fl) : Fl :=
  Fl.nanToNumInf (if x.lt y then x * Fl.log1p ((y - x) / x) else -x * Fl.log1p ((x - y) / y))

/-- State of a `StackedTemplateNegLogLikelihood` (nll.py:34-38, 111-114): data array, templates,
and the block-diagonal inverse correlation matrix computed once at construction. -/
structure LNll where
  data : Vec
  block : Mat

/-- nll.py:111-114 `__init__` -/
def LNll.new (s : Stacked) (data : Vec) : LNll :=
  ⟨data, blockDiag (s.templates.map fun p => p.2.invCorr)⟩

/-- nll.py:116-121 `x0` -/
def Stacked.x0 (s : Stacked) : Vec :=
  (s.templates.map fun p => p.2.yieldP.value) ++ (s.templates.map fun p => p.2.nuiP.value).flatten

/-- nll.py:136-158 `__call__` -/
def LNll.call (n : LNll) (s : Stacked) (x : Vec) : Except Err Fl := do
  let F ← s.fractions (x.drop s.num)
  let e ← vecMat (x.take s.num) F
  let d ← bop (· - ·) e n.data
  let l ← bop legacyXlogyx n.data e
  let t ← bop (· - ·) d l
  let g ← vecMat (x.drop s.num) n.block
  let q ← dot g (x.drop s.num)
  return npSum t + Fl.fin (1 / 2) * q

end

end TF
