import Verif.Model.Np

/-!
# templatefitter/histograms

`Hist1d`, `Hist2d`, `hist_utils`. One record serves both classes (`cls` tells which);
`edges`, `numBins` have one entry per axis.

Simplifications: bin edges and range limits are finite; all arrays are float64
(integer arrays, as stored by `from_binned_data` when given integers, are treated as
floats, so numpy's refusal to add floats in place into an integer array is not modelled).
-/

namespace TF

open Classical

noncomputable section

/-- Python class of a histogram object. -/
inductive HistCls where
  | h1 | h2
  deriving DecidableEq, Repr

/-- Container kind of a user supplied range; Python's `==` distinguishes list and tuple. -/
inductive SeqKind where
  | tuple | list
  deriving DecidableEq, Repr

/-- The `range` of a histogram, template or channel: `(lo, hi)` or `((xlo, xhi), (ylo, yhi))`. -/
inductive PyRange where
  | d1 (k : SeqKind) (lo hi : ℝ)
  | d2 (k kx ky : SeqKind) (xlo xhi ylo yhi : ℝ)

/-- Bin edges of one axis and whether they are a numpy array (or a Python list). -/
structure Edges where
  isArray : Bool
  vals : List ℝ

/-- State of an `AbstractHist` (abstract_hist.py:16-24). -/
structure Hist where
  cls : HistCls
  counts : NdArr
  errSq : NdArr
  edges : List Edges
  numBins : List ℕ
  shape : List ℕ
  range : PyRange
  isEmpty : Bool

/-- `weights` argument of `fill` by container type; `tuple` stands for sequences without `**`. -/
inductive Weights where
  | none
  | list (w : Vec)
  | array (w : Vec)
  | tuple (w : Vec)

/-! ### hist_utils.py -/

/-- hist_utils.py:7-10 `bin_mids`; on a Python list `+` concatenates and `/ 2` raises TypeError. -/
def binMids (e : Edges) : Except Err (List ℝ) :=
  if e.isArray then .ok (List.zipWith (fun a b => (b + a) / 2) e.vals e.vals.tail)
  else .error .typeError

/-- hist_utils.py:13-16 `bin_widths`; list minus list raises TypeError. -/
def binWidths (e : Edges) : Except Err (List ℝ) :=
  if e.isArray then .ok (List.zipWith (fun a b => b - a) e.vals e.vals.tail)
  else .error .typeError

/-- hist_utils.py:19-22 `get_bin_range` -/
def getBinRange (e : Edges) : Except Err (ℝ × ℝ) :=
  match e.vals with
  | [] => .error .indexError
  | a :: l => .ok (a, (a :: l).getLastD 0)

/-! ### Hist1d -/

/-- `bins` argument of `Hist1d` (hist1d.py:27-39): int, tuple of ints, or edges. -/
inductive Bins1 where
  | int (n : ℤ)
  | tuple (ns : List ℤ)
  | edges (e : Edges)

/-- An empty (all zero) histogram with given axes. hist1d.py:18-22, hist2d.py:19-22 -/
def Hist.blank (cls : HistCls) (edges : List Edges) (nb : List ℕ) (r : PyRange) : Hist :=
  ⟨cls, NdArr.zeros nb, NdArr.zeros nb, edges, nb, nb, r, true⟩

/-- equal-width branch: `np.linspace(*range, n + 1)`, `np.zeros(n)`; hist1d.py:28-31 -/
def uniform1 (n : ℤ) (range : Option PyRange) : Except Err Hist :=
  match range with
  | some (.d1 k lo hi) =>
    if n < 0 then .error .valueError
    else .ok (Hist.blank .h1 [⟨true, linspace lo hi (n.toNat + 1)⟩] [n.toNat] (.d1 k lo hi))
  | _ => .error .typeError

/-- hist1d.py:16-39 `Hist1d.__init__` without data, `_init_bin_edges` -/
def Hist1d.init (bins : Bins1) (range : Option PyRange) : Except Err Hist :=
  match bins with
  | .int n => uniform1 n range
  | .tuple [] => .error .indexError
  | .tuple (n :: _) => uniform1 n range
  | .edges e =>
    match getBinRange e with
    | .error x => .error x
    | .ok (lo, hi) => .ok (Hist.blank .h1 [e] [e.vals.length - 1] (.d1 .tuple lo hi))

/-- the float values of the weights; hist1d.py:52-55 -/
def Weights.values (w : Weights) (n : ℕ) : Vec :=
  match w with
  | .none => List.replicate n 1
  | .list w | .array w | .tuple w => w

/-- does `weights ** 2` raise? (`tuple ** 2`) -/
def Weights.noPow : Weights → Bool
  | .tuple _ => true
  | _ => false

/-- The common tail of both `fill` methods: `_bin_counts += s`, then `weights ** 2` and
`_bin_errors_sq += s2`, then `_is_empty = False`. An exception keeps what was done before.
hist1d.py:57-73, hist2d.py:47-58 -/
def Hist.accumulate (h : Hist) (s s2 : Except Err NdArr) (noPow : Bool) : Except Err Unit × Hist :=
  match s with
  | .error e => (.error e, h)
  | .ok s =>
    match h.counts.iadd s with
    | .error e => (.error e, h)
    | .ok c =>
      let h1 := { h with counts := c }
      if noPow then (.error .typeError, h1)
      else match s2 with
        | .error e => (.error e, h1)
        | .ok s2 =>
          match h1.errSq.iadd s2 with
          | .error e => (.error e, h1)
          | .ok q => (.ok (), { h1 with errSq := q, isEmpty := false })

/-- hist1d.py:41-73 `Hist1d.fill` -/
def Hist1d.fill (h : Hist) (data : Vec) (w : Weights) : Except Err Unit × Hist :=
  let ws := w.values data.length
  let e := ((h.edges.getD 0 ⟨true, []⟩).vals)
  h.accumulate (binnedSum e data ws) (binnedSum e data (ws.map Fl.sq)) w.noPow

/-- hist1d.py:16-25 `Hist1d(bins, range, data, weights)` -/
def Hist1d.new (bins : Bins1) (range : Option PyRange) (data : Option Vec) (w : Weights) :
    Except Err Hist :=
  match Hist1d.init bins range with
  | .error e => .error e
  | .ok h =>
    match data with
    | none => .ok h
    | some d =>
      match Hist1d.fill h d w with
      | (.ok (), h') => .ok h'
      | (.error e, _) => .error e

/-- Overwrite the content of a fresh instance. hist1d.py:92-101, hist2d.py:77-85: errors
default to `sqrt(counts)`; nothing is validated. -/
def Hist.setBinned (h : Hist) (counts : NdArr) (errors : Option NdArr) : Hist :=
  let errs := errors.getD (counts.map Fl.sqrt)
  { h with counts := counts, errSq := errs.map Fl.sq, isEmpty := false }

/-- hist1d.py:75-101 `Hist1d.from_binned_data` -/
def Hist1d.fromBinned (counts : NdArr) (edges : Edges) (errors : Option NdArr) : Except Err Hist :=
  match Hist1d.init (.edges edges) none with
  | .error e => .error e
  | .ok h => .ok (h.setBinned counts errors)

/-! ### Hist2d -/

/-- `bins` argument of `Hist2d` (hist2d.py:27-39): two ints or two edge arrays. -/
inductive Bins2 where
  | ints (nx ny : ℤ)
  | edges (ex ey : Edges)

/-- hist2d.py:17-39 `Hist2d.__init__` without data, `_init_bin_edges` -/
def Hist2d.init (bins : Bins2) (range : Option PyRange) : Except Err Hist :=
  match bins with
  | .ints nx ny =>
    match range with
    | some (.d2 k kx ky xlo xhi ylo yhi) =>
      if nx < 0 ∨ ny < 0 then .error .valueError
      else .ok (Hist.blank .h2
        [⟨true, linspace xlo xhi (nx.toNat + 1)⟩, ⟨true, linspace ylo yhi (ny.toNat + 1)⟩]
        [nx.toNat, ny.toNat] (.d2 k kx ky xlo xhi ylo yhi))
    | _ => .error .typeError
  | .edges ex ey =>
    match getBinRange ex, getBinRange ey with
    | .ok (xlo, xhi), .ok (ylo, yhi) =>
      .ok (Hist.blank .h2 [ex, ey] [ex.vals.length - 1, ey.vals.length - 1]
        (.d2 .tuple .tuple .tuple xlo xhi ylo yhi))
    | .error e, _ => .error e
    | _, .error e => .error e

/-- hist2d.py:41-58 `Hist2d.fill` (`data = (x, y)`) -/
def Hist2d.fill (h : Hist) (x y : Vec) (w : Weights) : Except Err Unit × Hist :=
  let ws := w.values x.length
  let ex := (h.edges.getD 0 ⟨true, []⟩).vals
  let ey := (h.edges.getD 1 ⟨true, []⟩).vals
  h.accumulate (binnedSum2 ex ey x y ws) (binnedSum2 ex ey x y (ws.map Fl.sq)) w.noPow

/-- hist2d.py:17-25 `Hist2d(bins, range, data, weights)` -/
def Hist2d.new (bins : Bins2) (range : Option PyRange) (data : Option (Vec × Vec)) (w : Weights) :
    Except Err Hist :=
  match Hist2d.init bins range with
  | .error e => .error e
  | .ok h =>
    match data with
    | none => .ok h
    | some (x, y) =>
      match Hist2d.fill h x y w with
      | (.ok (), h') => .ok h'
      | (.error e, _) => .error e

/-- hist2d.py:60-85 `Hist2d.from_binned_data` -/
def Hist2d.fromBinned (counts : NdArr) (ex ey : Edges) (errors : Option NdArr) : Except Err Hist :=
  match Hist2d.init (.edges ex ey) none with
  | .error e => .error e
  | .ok h => .ok (h.setBinned counts errors)

/-- hist2d.py:111-116 `x_projection` -/
def Hist2d.xProjection (h : Hist) : Except Err Hist :=
  Hist1d.fromBinned h.counts.sumAxis1 (h.edges.getD 0 ⟨true, []⟩)
    (some (h.errSq.sumAxis1.map Fl.sqrt))

/-- hist2d.py:118-123 `y_projection` -/
def Hist2d.yProjection (h : Hist) : Except Err Hist :=
  Hist1d.fromBinned h.counts.sumAxis0 (h.edges.getD 1 ⟨true, []⟩)
    (some (h.errSq.sumAxis0.map Fl.sqrt))

/-! ### AbstractHist properties -/

/-- abstract_hist.py:30-32 `bin_errors` -/
def Hist.binErrors (h : Hist) : NdArr := h.errSq.map Fl.sqrt

/-- `fill` of either class, with 1-d data in `x` (and 2-d data in `x`, `y`). -/
def Hist.fill (h : Hist) (x y : Vec) (w : Weights) : Except Err Unit × Hist :=
  match h.cls with
  | .h1 => Hist1d.fill h x w
  | .h2 => Hist2d.fill h x y w

end

end TF
