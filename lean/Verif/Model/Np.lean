import Verif.Model.Fl
import Mathlib.LinearAlgebra.Matrix.NonsingularInverse
import Mathlib.Data.List.OfFn

/-!
# The Python / numpy / scipy operations used by templatefitter

These definitions are *assumptions about external libraries* (part of the trusted
base, see DESIGN.md): they state what the calls made by templatefitter return, on
the number type `Fl`.
-/

namespace TF

open Classical

/-- Python exceptions that the modelled code can raise. -/
inductive Err where
  | runtimeError | valueError | typeError | keyError | indexError | attributeError
  | notImplementedError | linAlgError | zeroDivisionError | unboundLocalError
  | recursionError | stopIteration
  deriving DecidableEq, Repr

/-- `except RuntimeError` also catches its subclasses `NotImplementedError` and
`RecursionError` (Python exception hierarchy). -/
def Err.isRuntime : Err → Bool
  | .runtimeError | .notImplementedError | .recursionError => true
  | _ => false

/-- A 1-d float array. -/
abbrev Vec := List Fl

noncomputable section

/-! ### Python containers -/

/-- `d[k]` for an (ordered) dict given as association list; `none` = `KeyError`. -/
def dictGet {κ ν : Type} [DecidableEq κ] (d : List (κ × ν)) (k : κ) : Option ν :=
  match d with
  | [] => none
  | (k', v) :: d => if k' = k then some v else dictGet d k

/-- `d[k] = v`: an existing key keeps its position, a new key is appended. -/
def dictSet {κ ν : Type} [DecidableEq κ] (d : List (κ × ν)) (k : κ) (v : ν) : List (κ × ν) :=
  match d with
  | [] => [(k, v)]
  | (k', v') :: d => if k' = k then (k, v) :: d else (k', v') :: dictSet d k v

/-- `functools.lru_cache()` (default `maxsize=128`), most recently used entry first. -/
structure Lru (κ ν : Type) where
  items : List (κ × ν)

/-- Calling an `lru_cache`d function with key `k`: a hit returns the stored value and
moves it to the front; a miss calls the function, stores the result in front and drops
what exceeds 128 entries; an exception is passed on and nothing is stored. -/
def Lru.call {κ ν : Type} [DecidableEq κ] (c : Lru κ ν) (k : κ) (f : Except Err ν) :
    Except Err ν × Lru κ ν :=
  match dictGet c.items k with
  | some v => (.ok v, ⟨(k, v) :: c.items.filter (fun p => p.1 ≠ k)⟩)
  | none =>
    match f with
    | .ok v => (.ok v, ⟨((k, v) :: c.items).take 128⟩)
    | .error e => (.error e, c)

/-! ### 1-d arrays -/

/-- numpy broadcasting of a binary ufunc on two 1-d arrays. -/
def bop (f : Fl → Fl → Fl) (a b : Vec) : Except Err Vec :=
  if a.length = b.length then .ok (List.zipWith f a b)
  else match a, b with
    | [x], b => .ok (b.map (f x))
    | a, [y] => .ok (a.map (f · y))
    | _, _ => .error .valueError

/-- `np.sum` of a 1-d array -/
def npSum (a : Vec) : Fl := a.sum

/-- `np.split(a, n)` into `n` equal parts. -/
def splitEq {α : Type} (a : List α) (n : ℕ) : Except Err (List (List α)) :=
  if n = 0 then .error .zeroDivisionError
  else if a.length % n ≠ 0 then .error .valueError
  else .ok ((List.range n).map fun k => (a.drop (k * (a.length / n))).take (a.length / n))

/-- `np.split(a, indices)`: the pieces `a[0:i₀], a[i₀:i₁], …, a[i_last:]`. -/
def splitIdxFrom {α : Type} (a : List α) (start : ℕ) : List ℕ → List (List α)
  | [] => [a.drop start]
  | i :: is => (a.take i).drop start :: splitIdxFrom a i is

/-- `np.split(a, indices)` -/
def splitIdx {α : Type} (a : List α) (idx : List ℕ) : List (List α) := splitIdxFrom a 0 idx

/-- `np.cumsum` of a list of ints -/
def cumsumFrom (acc : ℕ) : List ℕ → List ℕ
  | [] => []
  | n :: ns => (acc + n) :: cumsumFrom (acc + n) ns

/-- `np.cumsum` -/
def cumsum (l : List ℕ) : List ℕ := cumsumFrom 0 l

/-- `np.linspace(lo, hi, num)` for finite limits -/
def linspace (lo hi : ℝ) (num : ℕ) : List ℝ :=
  (List.range num).map fun i : ℕ => lo + (i : ℝ) * ((hi - lo) / (num - 1 : ℝ))

/-- `np.linspace(lo, hi, num)` for arbitrary float limits (the last point is set to `hi`). -/
def linspaceFl (lo hi : Fl) (num : ℕ) : Vec :=
  (List.range num).map fun i : ℕ =>
    if 1 < num ∧ i + 1 = num then hi
    else if num = 1 then lo
    else lo + Fl.fin (i : ℝ) * ((hi - lo) / Fl.fin (num - 1 : ℝ))

/-! ### n-d arrays (row-major) -/

/-- An n-d float array in row-major layout. `flatten()` is `data`, `reshape` replaces `shape`. -/
structure NdArr where
  shape : List ℕ
  data : Vec

/-- `np.zeros(shape)` -/
def NdArr.zeros (shape : List ℕ) : NdArr := ⟨shape, List.replicate shape.prod 0⟩

/-- In-place `a += b`. Simplification: of the in-place broadcasts only the equal-shape case
is modelled, every other shape combination raises `ValueError`. -/
def NdArr.iadd (a b : NdArr) : Except Err NdArr :=
  if a.shape = b.shape ∧ a.data.length = b.data.length then
    .ok ⟨a.shape, List.zipWith (· + ·) a.data b.data⟩
  else .error .valueError

/-- elementwise map -/
def NdArr.map (f : Fl → Fl) (a : NdArr) : NdArr := ⟨a.shape, a.data.map f⟩

/-- element `(i, j)` of a 2-d array -/
def NdArr.at2 (a : NdArr) (i j : ℕ) : Fl := a.data.getD (i * a.shape.getD 1 0 + j) 0

/-- `np.sum(a, axis=1)` of a 2-d array -/
def NdArr.sumAxis1 (a : NdArr) : NdArr :=
  ⟨[a.shape.getD 0 0],
   (List.range (a.shape.getD 0 0)).map fun i =>
     ((List.range (a.shape.getD 1 0)).map fun j => a.at2 i j).sum⟩

/-- `np.sum(a, axis=0)` of a 2-d array -/
def NdArr.sumAxis0 (a : NdArr) : NdArr :=
  ⟨[a.shape.getD 1 0],
   (List.range (a.shape.getD 1 0)).map fun j =>
     ((List.range (a.shape.getD 0 0)).map fun i => a.at2 i j).sum⟩

/-! ### matrices -/

/-- A 2-d float array used as matrix; only entries with `i < rows`, `j < cols` are meaningful. -/
structure Mat where
  rows : ℕ
  cols : ℕ
  e : ℕ → ℕ → Fl

/-- `np.diag(v)` for a 1-d array: square matrix, zero off the diagonal -/
def Mat.diagOf (v : Vec) : Mat := ⟨v.length, v.length, fun i j => if i = j then v.getD i 0 else 0⟩

/-- `np.diag(A)` for a square matrix: its diagonal -/
def Mat.diag (A : Mat) : Vec := (List.range A.rows).map fun i => A.e i i

/-- `np.matmul(A, B)` for conforming matrices -/
def Mat.mul (A B : Mat) : Mat :=
  ⟨A.rows, B.cols, fun i j => ∑ k ∈ Finset.range A.cols, A.e i k * B.e k j⟩

/-- `np.transpose` -/
def Mat.transpose (A : Mat) : Mat := ⟨A.cols, A.rows, fun i j => A.e j i⟩

/-- elementwise sum of two matrices of equal shape -/
def Mat.add (A B : Mat) : Mat := ⟨A.rows, A.cols, fun i j => A.e i j + B.e i j⟩

/-- `np.outer` -/
def Mat.outer (v w : Vec) : Mat := ⟨v.length, w.length, fun i j => v.getD i 0 * w.getD j 0⟩

/-- elementwise map -/
def Mat.map (f : Fl → Fl) (A : Mat) : Mat := ⟨A.rows, A.cols, fun i j => f (A.e i j)⟩

/-- `np.zeros((r, c))` -/
def Mat.zeros (r c : ℕ) : Mat := ⟨r, c, fun _ _ => 0⟩

/-- `v @ A` for a 1-d array and a matrix -/
def vecMat (v : Vec) (A : Mat) : Except Err Vec :=
  if v.length = A.rows then
    .ok ((List.range A.cols).map fun j => ∑ i ∈ Finset.range A.rows, v.getD i 0 * A.e i j)
  else .error .valueError

/-- `v @ w` for two 1-d arrays -/
def dot (v w : Vec) : Except Err Fl :=
  if v.length = w.length then .ok (List.zipWith (· * ·) v w).sum
  else .error .valueError

/-- `np.array([row, row, …])` -/
def stackRows (rows : List Vec) : Except Err Mat :=
  let m := (rows.headD []).length
  if rows.all (fun r => r.length = m) then
    .ok ⟨rows.length, m, fun i j => (rows.getD i []).getD j 0⟩
  else .error .valueError

/-- Real part of a finite float (0 otherwise); only applied to finite entries. -/
def Fl.toReal : Fl → ℝ
  | .fin r => r
  | _ => 0

/-- finite? -/
def Fl.isFin : Fl → Prop
  | .fin _ => True
  | _ => False

/-- The top-left `n × n` part of `A` as a real matrix. -/
def Mat.toMatrix (A : Mat) (n : ℕ) : Matrix (Fin n) (Fin n) ℝ := fun i j => (A.e i j).toReal

/-- A real matrix as an array. -/
def Mat.ofMatrix {n : ℕ} (M : Matrix (Fin n) (Fin n) ℝ) : Mat :=
  ⟨n, n, fun i j => if h : i < n ∧ j < n then Fl.fin (M ⟨i, h.1⟩ ⟨j, h.2⟩) else 0⟩

/-- `np.linalg.inv(A)`: `LinAlgError` for non-square or exactly singular input, the exact
inverse otherwise; a matrix with non-finite entries yields NaN entries. -/
def npInv (A : Mat) : Except Err Mat :=
  if A.rows ≠ A.cols then .error .linAlgError
  else if ∀ i < A.rows, ∀ j < A.rows, (A.e i j).isFin then
    if (A.toMatrix A.rows).det = 0 then .error .linAlgError
    else .ok (Mat.ofMatrix (A.toMatrix A.rows)⁻¹)
  else .ok ⟨A.rows, A.rows, fun _ _ => .nan⟩

/-- `scipy.linalg.block_diag(*mats)`; of no matrices scipy makes a 1×0 one, here 0×0 (never multiplied with: splitting into zero parts
raises before) -/
def blockDiag : List Mat → Mat
  | [] => ⟨0, 0, fun _ _ => 0⟩
  | A :: As =>
    let B := blockDiag As
    ⟨A.rows + B.rows, A.cols + B.cols, fun i j =>
      if i < A.rows then (if j < A.cols then A.e i j else 0)
      else (if j < A.cols then 0 else B.e (i - A.rows) (j - A.cols))⟩

/-! ### binning (scipy.stats.binned_statistic) -/

/-- `np.digitize(x, edges)` for increasing edges: the number of edges `≤ x`; NaN sorts last. -/
def digitize (edges : List ℝ) : Fl → ℕ
  | .fin r => (edges.filter (fun e => decide (e ≤ r))).length
  | .pinf => edges.length
  | .ninf => 0
  | .nan => edges.length

/-- smallest bin width -/
def minWidth (edges : List ℝ) : ℝ :=
  (List.zipWith (fun a b => b - a) edges edges.tail).foldr min (edges.getLastD 0 - edges.headD 0)

/-- The rounding precision scipy uses to identify points with the right edge:
`int(-np.log10(dedges.min())) + 6` (truncation towards zero). -/
def edgeDecimals (edges : List ℝ) : ℤ :=
  let y := -(Real.logb 10 (minWidth edges))
  (if 0 ≤ y then ⌊y⌋ else ⌈y⌉) + 6

/-- `np.around(x, d)` -/
def around (d : ℤ) (x : ℝ) : ℝ := Fl.rintR (x * (10 : ℝ) ^ d) / (10 : ℝ) ^ d

/-- scipy `_bin_numbers`: is the point on (or numerically indistinguishable above) the right
edge of the last bin? -/
def onRightEdge (edges : List ℝ) (r : ℝ) : Prop :=
  edges.getLastD 0 ≤ r ∧ around (edgeDecimals edges) r = around (edgeDecimals edges) (edges.getLastD 0)

/-- scipy `_bin_numbers`: digitize, then shift points on the right edge one bin to the left.
Bin numbers `1 … nbins` are inside; `0` and `nbins+1` are outliers. -/
def binNumber (edges : List ℝ) (x : Fl) : ℕ :=
  match x with
  | .fin r => if onRightEdge edges r then digitize edges x - 1 else digitize edges x
  | _ => digitize edges x

/-- Zero-based bin of `x`, `none` for outliers. -/
def binIndex (edges : List ℝ) (x : Fl) : Option ℕ :=
  let k := binNumber edges x
  if 1 ≤ k ∧ k + 1 ≤ edges.length then some (k - 1) else none

/-- Edges that `binned_statistic` accepts: at least one bin, strictly increasing. (Zero-width
bins, decreasing or non-monotonic edges raise `ValueError`.) -/
def validEdges (edges : List ℝ) : Prop := 2 ≤ edges.length ∧ edges.Pairwise (· < ·)

/-- `binned_statistic(data, values, statistic='sum', bins=edges, range=…)[0]`.
The `range` argument only matters for integer `bins` and is not used here. Simplified: scipy takes a single edge as a
number of bins; here it is a `ValueError` like every list of fewer than two edges. -/
def binnedSum (edges : List ℝ) (data values : Vec) : Except Err NdArr :=
  if data.length ≠ values.length then .error .valueError
  else if validEdges edges then
    .ok ⟨[edges.length - 1], (List.range (edges.length - 1)).map fun i =>
      (((data.zip values).filter fun p => decide (binIndex edges p.1 = some i)).map (·.2)).sum⟩
  else .error .valueError

/-- `binned_statistic_2d(x, y, values, statistic='sum', bins=[ex, ey])[0]` (no `range`: an empty
sample raises because scipy takes the sample minimum). -/
def binnedSum2 (ex ey : List ℝ) (x y values : Vec) : Except Err NdArr :=
  if x.length ≠ y.length ∨ x.length ≠ values.length then .error .valueError
  else if x.length = 0 then .error .valueError
  else if validEdges ex ∧ validEdges ey then
    .ok ⟨[ex.length - 1, ey.length - 1],
      (List.range ((ex.length - 1) * (ey.length - 1))).map fun k =>
        ((((x.zip y).zip values).filter fun p =>
          decide (binIndex ex p.1.1 = some (k / (ey.length - 1)) ∧
                  binIndex ey p.1.2 = some (k % (ey.length - 1)))).map (·.2)).sum⟩
  else .error .valueError

end

end TF
