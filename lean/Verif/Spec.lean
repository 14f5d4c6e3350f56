import Verif.Model.Np
import Verif.Model.Hist
import Verif.Model.Channel
import Mathlib.LinearAlgebra.Matrix.PosDef

/-!
# Specification vocabulary

Small definitions used to *state* the properties; none of them is used by the model.
-/

namespace TF.Spec

open Classical
open scoped Matrix

noncomputable section

/-- `x` lies in the half-open bin `[edges i, edges (i+1))`. -/
def InHalfOpen (edges : List ℝ) (i : ℕ) (x : ℝ) : Prop :=
  ∃ a b, edges[i]? = some a ∧ edges[i + 1]? = some b ∧ a ≤ x ∧ x < b

/-- `x` lies at or beyond the last edge and scipy's rounding (`np.around` with the number of
decimals derived from the smallest bin width) identifies it with the last edge. -/
def AtRightEdge (edges : List ℝ) (x : ℝ) : Prop :=
  edges.getLastD 0 ≤ x ∧
    around (edgeDecimals edges) x = around (edgeDecimals edges) (edges.getLastD 0)

/-- The value `x` belongs to bin `i`. NaN and infinities belong to no bin. -/
def InBin (edges : List ℝ) (i : ℕ) : Fl → Prop
  | .fin x => InHalfOpen edges i x ∨ (i + 2 = edges.length ∧ AtRightEdge edges x)
  | _ => False

/-- Sum of the weights of the events that belong to bin `i`. -/
def weightIn (edges : List ℝ) (i : ℕ) (data w : List Fl) : Fl :=
  (((data.zip w).filter fun p => decide (InBin edges i p.1)).map (·.2)).sum

/-- Sum of the squared weights of the events that belong to bin `i`. -/
def weightSqIn (edges : List ℝ) (i : ℕ) (data w : List Fl) : Fl :=
  (((data.zip w).filter fun p => decide (InBin edges i p.1)).map (fun p => p.2 * p.2)).sum

/-- Sum of the weights of the events that belong to some bin. -/
def weightInRange (edges : List ℝ) (data w : List Fl) : Fl :=
  (((data.zip w).filter fun p => decide (∃ i, InBin edges i p.1)).map (·.2)).sum

/-- Sum of the weights of the events in cell `(i, j)` of a 2-d histogram. -/
def weightIn2 (ex ey : List ℝ) (i j : ℕ) (x y w : List Fl) : Fl :=
  ((((x.zip y).zip w).filter fun p =>
    decide (InBin ex i p.1.1 ∧ InBin ey j p.1.2)).map (·.2)).sum

/-- Sum of the squared weights of the events in cell `(i, j)`. -/
def weightSqIn2 (ex ey : List ℝ) (i j : ℕ) (x y w : List Fl) : Fl :=
  ((((x.zip y).zip w).filter fun p =>
    decide (InBin ex i p.1.1 ∧ InBin ey j p.1.2)).map (fun p => p.2 * p.2)).sum

/-- A 1-d histogram object with strictly increasing edges and content arrays of matching size
(what every successful constructor call with usable edges produces, see `Props/HistProps`). -/
structure Good1 (h : Hist) (edges : List ℝ) : Prop where
  cls : h.cls = .h1
  edges_eq : h.edges.map (·.vals) = [edges]
  two : 2 ≤ edges.length
  incr : edges.Pairwise (· < ·)
  counts_shape : h.counts.shape = [edges.length - 1]
  counts_len : h.counts.data.length = edges.length - 1
  err_shape : h.errSq.shape = [edges.length - 1]
  err_len : h.errSq.data.length = edges.length - 1

/-- The same for 2-d histograms. -/
structure Good2 (h : Hist) (ex ey : List ℝ) : Prop where
  cls : h.cls = .h2
  edges_eq : h.edges.map (·.vals) = [ex, ey]
  xtwo : 2 ≤ ex.length
  ytwo : 2 ≤ ey.length
  xincr : ex.Pairwise (· < ·)
  yincr : ey.Pairwise (· < ·)
  counts_shape : h.counts.shape = [ex.length - 1, ey.length - 1]
  counts_len : h.counts.data.length = (ex.length - 1) * (ey.length - 1)
  err_shape : h.errSq.shape = [ex.length - 1, ey.length - 1]
  err_len : h.errSq.data.length = (ex.length - 1) * (ey.length - 1)

/-- `W` is a usable `weights` argument whose values are `w`: absent (unit weights), list or array. -/
def Usable (W : Weights) (data w : List Fl) : Prop :=
  (W = .none ∧ w = data.map fun _ => (1 : Fl)) ∨ W = .list w ∨ W = .array w

/-- a real vector as float array -/
def vec {n : ℕ} (f : Fin n → ℝ) : List Fl := List.ofFn fun i => Fl.fin (f i)

/-- The array `M` holds exactly the real matrix `A`. -/
def IsReal {m n : ℕ} (M : Mat) (A : Matrix (Fin m) (Fin n) ℝ) : Prop :=
  M.rows = m ∧ M.cols = n ∧ ∀ (i : Fin m) (j : Fin n), M.e i j = .fin (A i j)

/-- correlation matrix of a covariance matrix; zero where a variance vanishes -/
def corrOf {n : ℕ} (C : Matrix (Fin n) (Fin n) ℝ) : Matrix (Fin n) (Fin n) ℝ :=
  Matrix.of fun i j =>
    if C i i = 0 ∨ C j j = 0 then 0 else C i j / (Real.sqrt (C i i) * Real.sqrt (C j j))

/-- Bin content `c i` varied by the nuisance parameter `θ i` with relative error `ε i`. -/
def varied {n : ℕ} (c ε θ : Fin n → ℝ) (i : Fin n) : ℝ := c i * (1 + θ i * ε i)

/-- Fraction of bin `i`: its varied content over the varied total. -/
def frac {n : ℕ} (c ε θ : Fin n → ℝ) (i : Fin n) : ℝ := varied c ε θ i / ∑ j, varied c ε θ j

/-- The template has `n` bins with nominal contents `c` and relative errors `ε`. -/
structure HasShape (t : Template) {n : ℕ} (c ε : Fin n → ℝ) : Prop where
  bins : t.numBins = n
  counts : t.flatCounts = vec c
  rel : t.relErr = vec ε
  prod : t.bins.prod = n

/-- The template's parameters are the yield `y` and the nuisance parameters `θ`. -/
def HasParams (t : Template) {n : ℕ} (y : ℝ) (θ : Fin n → ℝ) : Prop := t.params = .fin y :: vec θ

/-- A histogram of `n` cells with finite contents `c` and squared errors `s ≥ 0`. -/
structure HistIs (h : Hist) {n : ℕ} (c s : Fin n → ℝ) : Prop where
  counts : h.counts.data = vec c
  errSq : h.errSq.data = vec s
  nonneg : ∀ i, 0 ≤ s i
  numBins : h.numBins.prod = n
  shape : h.shape.prod = n
  dims : h.numBins = [n] ∨ h.cls = .h2

/-- Channel object `c` of the heap `w` has `K` templates with `n` bins each: template number `k` (in
the order the templates were added) has nominal contents `cnt k`, relative errors `ε k`,
correlation matrix `R k` (and stores its inverse) and efficiency `eff k`. -/
structure ChanIs (w : World) (c : ℕ) {K n : ℕ} (cnt ε : Fin K → Fin n → ℝ) (eff : Fin K → ℝ)
    (R : Fin K → Matrix (Fin n) (Fin n) ℝ) : Prop where
  alloc : c < w.nChans
  num : (w.chans c).numTemplates = K
  effs : (w.chans c).effs.map (·.2) = vec eff
  tmpls : ∃ T : Fin K → Template, w.chanTmpls c = List.ofFn T ∧
    ∀ k, HasShape (T k) (cnt k) (ε k) ∧ IsReal (T k).corr (R k) ∧ IsReal (T k).invCorr (R k)⁻¹

/-- The nuisance parameters of a channel: one block of `n` numbers per template. -/
def nuiVec {K n : ℕ} (θ : Fin K → Fin n → ℝ) : List Fl := (List.ofFn fun k => vec (θ k)).flatten

/-- Expected events in bin `i`: `Σ_k ν_k ε_k f_{k,i}(θ_k)`. -/
def expected {K n : ℕ} (cnt ε : Fin K → Fin n → ℝ) (eff ν : Fin K → ℝ) (θ : Fin K → Fin n → ℝ)
    (i : Fin n) : ℝ :=
  ∑ k, ν k * eff k * (cnt k i * (1 + θ k i * ε k i) / ∑ j, cnt k j * (1 + θ k j * ε k j))

/-- `½ Σ_k θ_kᵀ R_k⁻¹ θ_k` -/
def penalty {K n : ℕ} (R : Fin K → Matrix (Fin n) (Fin n) ℝ) (θ : Fin K → Fin n → ℝ) : ℝ :=
  1 / 2 * ∑ k, (θ k) ⬝ᵥ ((R k)⁻¹.mulVec (θ k))

/-- `ν - n - n log (ν / n)`, and `ν` for an empty bin -/
def poissonBin (n ν : ℝ) : ℝ := if n = 0 then ν else ν - n - n * Real.log (ν / n)

end

end TF.Spec
