import Verif.Model.Hist
import Verif.Model.Utility

/-!
# templatefitter/templates/{abstract_template,template1d,template2d}.py

A template keeps a *reference* to its histogram object (`hist` is the histogram's heap id,
see `World.lean`); functions that read the live histogram take it as argument `h`.
Plotting attributes (`color`, `pretty_*`, variable names) and the `plot_*` methods are not
modelled.
-/

namespace TF

open Classical

noncomputable section

/-- Python class of a template object. -/
inductive TmplCls where
  | t1 | t2
  deriving DecidableEq, Repr

/-- State of an `AbstractTemplate` (abstract_template.py:20-34). -/
structure Template where
  cls : TmplCls
  name : String
  hist : ℕ
  flatCounts : Vec
  flatErrSq : Vec
  bins : List ℕ
  numBins : ℕ
  range : PyRange
  params : Vec
  cov : Mat
  covMats : List Mat
  corr : Mat
  invCorr : Mat
  relErr : Vec

/-- `np.divide(np.sqrt(np.diag(cov)), counts, out=np.full(n, 1e-7), where=counts != 0)`;
abstract_template.py:151-156 and 194-199 -/
def relErrs (cov : Mat) (counts : Vec) : Vec :=
  List.zipWith (fun v c => if c.beq 0 then Fl.fin (1e-7 : ℝ) else Fl.sqrt v / c) cov.diag counts

/-- abstract_template.py:129-133 `_init_params`: `np.zeros(n + 1)`, first entry
`np.sum(hist.bin_counts)` read from the live histogram. -/
def initParams (numBins : ℕ) (h : Hist) : Vec := npSum h.counts.data :: List.replicate numBins 0

/-- abstract_template.py:142-145: squared statistical errors, empty bins set to 1e-14 -/
def statErrSq (flatErrSq : Vec) : Vec :=
  flatErrSq.map fun v => if v.beq 0 then Fl.fin (1e-14 : ℝ) else v

/-- Common part of the two constructors: snapshot of the histogram content, `_init_params`,
`_init_errors` (abstract_template.py:135-156; template1d.py:29-37; template2d.py:34-42).
`np.divide` raises when the lengths disagree (possible after `from_binned_data` with
inconsistent arrays). Simplified: numpy would broadcast an array of length one, here it raises too. -/
def Template.build (cls : TmplCls) (name : String) (hid : ℕ) (h : Hist) (numBins : ℕ) :
    Except Err Template :=
  if h.counts.data.length = numBins ∧ h.errSq.data.length = numBins then
    let cov := Mat.diagOf (statErrSq h.errSq.data)
    let one := Mat.diagOf (List.replicate numBins 1)
    .ok { cls := cls, name := name, hist := hid
          flatCounts := h.counts.data, flatErrSq := h.errSq.data
          bins := h.shape, numBins := numBins, range := h.range
          params := initParams numBins h
          cov := cov, covMats := [cov], corr := one, invCorr := one
          relErr := relErrs cov h.counts.data }
  else .error .valueError

/-- template1d.py:18-42 `Template1d.__init__`; a `Hist2d` argument fails (`tuple + int`). -/
def Template1d.new (name : String) (hid : ℕ) (h : Hist) : Except Err Template :=
  match h.cls with
  | .h1 => Template.build .t1 name hid h (h.numBins.getD 0 0)
  | .h2 => .error .typeError

/-- template2d.py:22-48 `Template2d.__init__`; `num_bins` is the product over the axes; a
`Hist1d` argument fails (`reduce` over an int). -/
def Template2d.new (name : String) (hid : ℕ) (h : Hist) : Except Err Template :=
  match h.cls with
  | .h2 => Template.build .t2 name hid h h.numBins.prod
  | .h1 => .error .typeError

/-! ### parameters -/

/-- abstract_template.py:93-97 `yield_param` -/
def Template.yieldParam (t : Template) : Fl := t.params.headD 0

/-- abstract_template.py:109-113 `nui_params` -/
def Template.nuiParams (t : Template) : Vec := t.params.tail

/-- A value assigned to `yield_param`, by type: Python float / int, 1-d ndarray, anything else
(numpy ints, float32, strings, …). -/
inductive YieldVal where
  | float (r : Fl)
  | int (i : ℤ)
  | arr (v : Vec)
  | other

/-- abstract_template.py:99-107 `yield_param` setter -/
def Template.setYield (t : Template) (v : YieldVal) : Except Err Template :=
  match v with
  | .float r => .ok { t with params := r :: t.params.tail }
  | .int i => .ok { t with params := Fl.fin i :: t.params.tail }
  | .arr [r] => .ok { t with params := r :: t.params.tail }
  | .arr [] => .error .valueError
  | .arr _ => .error .runtimeError
  | .other => .error .runtimeError

/-- abstract_template.py:115-122 `nui_params` setter -/
def Template.setNui (t : Template) (v : Vec) : Except Err Template :=
  if v.length ≠ t.numBins then .error .runtimeError
  else .ok { t with params := t.params.headD 0 :: v }

/-- abstract_template.py:83-91 `params` setter (the array is taken over by reference; later
in-place changes of the caller's array are outside the model) -/
def Template.setParams (t : Template) (v : Vec) : Except Err Template :=
  if v.length ≠ t.params.length then .error .runtimeError
  else .ok { t with params := v }

/-- abstract_template.py:124-133 `reset` -/
def Template.reset (t : Template) (h : Hist) : Template :=
  { t with params := initParams t.numBins h }

/-! ### fractions, values, errors -/

/-- abstract_template.py:240-243 `bin_fractions` (numba; IEEE division) -/
def binFractions (nui counts rel : Vec) : Except Err Vec := do
  let a ← bop (· * ·) nui rel
  let y ← bop (· * ·) counts (a.map (1 + ·))
  return y.map (· / npSum y)

/-- abstract_template.py:158-182 `fractions` -/
def Template.fractions (t : Template) (nui : Vec) : Except Err Vec :=
  binFractions nui t.flatCounts t.relErr

/-- `a.reshape(shape)` of a 1-d array -/
def reshape (a : Vec) (shape : List ℕ) : Except Err NdArr :=
  if a.length = shape.prod then .ok ⟨shape, a⟩ else .error .valueError

/-- abstract_template.py:201-209 `values` (`shape` is the shape of the underlying histogram,
recorded in `bins` at construction and never changed) -/
def Template.values (t : Template) : Except Err NdArr := do
  let f ← t.fractions t.nuiParams
  let r ← reshape f t.bins
  return r.map (t.yieldParam * ·)

/-- abstract_template.py:211-217 `errors` -/
def Template.errors (t : Template) : Except Err NdArr := do
  let v ← t.values
  let r ← reshape t.relErr t.bins
  return ⟨t.bins, List.zipWith (· * ·) r.data v.data⟩

/-! ### systematic uncertainties -/

/-- abstract_template.py:184-199 `_add_cov_mat`, statement by statement: append to
`cov_mats`, add to `cov`, recompute correlation, invert (may raise), relative errors. -/
def Template.addCov (t : Template) (m : Mat) : Except Err Unit × Template :=
  let t1 := { t with covMats := t.covMats ++ [m] }
  if m.rows = t.cov.rows ∧ m.cols = t.cov.cols then
    let t2 := { t1 with cov := t1.cov.add m }
    let t3 := { t2 with corr := cov2corr t2.cov }
    match npInv t3.corr with
    | .error e => (.error e, t3)
    | .ok inv =>
      (.ok (), { t3 with invCorr := inv, relErr := relErrs t3.cov t3.flatCounts })
  else (.error .valueError, t1)

/-- template1d.py:44-56 `Template1d.add_variation`: histograms the data with `num_bins`
equal-width bins in the template range -/
def Template1d.addVariation (t : Template) (h : Hist) (data : Vec) (up down : Weights) :
    Except Err Unit × Template :=
  match Hist1d.new (.int (h.numBins.getD 0 0)) (some t.range) (some data) up with
  | .error e => (.error e, t)
  | .ok hup =>
    match Hist1d.new (.int (h.numBins.getD 0 0)) (some t.range) (some data) down with
    | .error e => (.error e, t)
    | .ok hdown =>
      match getSystematicCovMat t.flatCounts hup.counts.data hdown.counts.data with
      | .error e => (.error e, t)
      | .ok m => t.addCov m

/-- template1d.py:58-62 `Template1d.add_cov_mat` -/
def Template1d.addCovMat (t : Template) (m : Mat) : Except Err Unit × Template :=
  if ¬(m.rows = t.numBins ∧ m.cols = t.numBins) then (.error .valueError, t)
  else t.addCov m

/-- template2d.py:50-60 `Template2d.add_variation`: ends in the call
`self._add_cov_mat(hup, hdown)` with one argument too many, a `TypeError`. -/
def Template2d.addVariation (t : Template) (h : Hist) (x y : Vec) (up down : Weights) :
    Except Err Unit × Template :=
  match Hist2d.new (.ints (h.numBins.getD 0 0) (h.numBins.getD 1 0)) (some t.range) (some (x, y)) up with
  | .error e => (.error e, t)
  | .ok _ =>
    match Hist2d.new (.ints (h.numBins.getD 0 0) (h.numBins.getD 1 0)) (some t.range) (some (x, y)) down with
    | .error e => (.error e, t)
    | .ok _ => (.error .typeError, t)

/-- `template.add_variation(data, weights_up, weights_down)` of either class -/
def Template.addVariation (t : Template) (h : Hist) (x y : Vec) (up down : Weights) :
    Except Err Unit × Template :=
  match t.cls with
  | .t1 => Template1d.addVariation t h x up down
  | .t2 => Template2d.addVariation t h x y up down

/-- `template.add_cov_mat(m)`; only `Template1d` has this method (template1d.py:58-62) -/
def Template.addCovMat (t : Template) (m : Mat) : Except Err Unit × Template :=
  match t.cls with
  | .t1 => Template1d.addCovMat t m
  | .t2 => (.error .attributeError, t)

end

end TF
