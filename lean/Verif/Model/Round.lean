import Verif.Model.Template
import Mathlib.Data.Int.Log

/-!
# Rounding

The rest of the model computes without rounding. Here the histogram fills and the bin fractions are written down again with every
arithmetic operation followed by a rounding `ρ : ℝ → Fl` of its exact result, as IEEE 754 prescribes; `float64` is the rounding of
double precision. Summation orders are not fixed: `SumR` relates a list to every value some order and bracketing of its additions
gives (`np.sum` adds pairwise with eight accumulators). With `ρ = Fl.fin` (no rounding) the definitions agree with the rest of the
model (`Props/RoundProps`).
-/

namespace TF

open Classical

noncomputable section

/-- the exponent of the binade of `x`, not below that of the smallest normal number (IEEE 754-2008, 3.4, binary64) -/
def exp64 (x : ℝ) : ℤ := max (Int.log 2 |x|) (-1022)

/-- round to nearest, ties to even, with 53 bits, unbounded above (IEEE 754-2008, 4.3.1) -/
def round64 (x : ℝ) : ℝ := Fl.rintR (x / 2 ^ (exp64 x - 52)) * 2 ^ (exp64 x - 52)

/-- the double nearest to `x`; overflow to infinity (IEEE 754-2008, 4.3.1 and 7.4); no signed zero -/
def float64 (x : ℝ) : Fl :=
  if Fl.maxFloat < round64 x then .pinf else if round64 x < -Fl.maxFloat then .ninf else .fin (round64 x)

/-- the rounded result of an operation whose exact result is `x` (IEEE 754-2008, 5.1: infinities and NaN need no rounding) -/
def Fl.rd (ρ : ℝ → Fl) : Fl → Fl
  | .fin r => ρ r
  | x => x

/-- sequential summation from zero, as in `np.bincount(…, weights)` -/
def accR (ρ : ℝ → Fl) (l : Vec) : Fl := l.foldl (fun a v => (a + v).rd ρ) 0

/-- `v` is the result of adding up `l` in some order and with some bracketing (`np.sum`) -/
inductive SumR (ρ : ℝ → Fl) : Vec → Fl → Prop
  | nil : SumR ρ [] 0
  | one (x : Fl) : SumR ρ [x] x
  | add {l l' : Vec} {a b : Fl} : SumR ρ l a → SumR ρ l' b → SumR ρ (l ++ l') ((a + b).rd ρ)
  | perm {l l' : Vec} {a : Fl} : SumR ρ l a → l.Perm l' → SumR ρ l' a

/-- `binned_statistic(data, values, statistic='sum', bins=edges)[0]` with rounding; called in hist1d.py:57-71 -/
def binnedSumR (ρ : ℝ → Fl) (edges : List ℝ) (data values : Vec) : Except Err NdArr :=
  if data.length ≠ values.length then .error .valueError
  else if validEdges edges then
    .ok ⟨[edges.length - 1], (List.range (edges.length - 1)).map fun i =>
      accR ρ (((data.zip values).filter fun p => decide (binIndex edges p.1 = some i)).map (·.2))⟩
  else .error .valueError

/-- `binned_statistic_2d(x, y, values, statistic='sum', bins=[ex, ey])[0]` with rounding; called in hist2d.py:47-56 -/
def binnedSum2R (ρ : ℝ → Fl) (ex ey : List ℝ) (x y values : Vec) : Except Err NdArr :=
  if x.length ≠ y.length ∨ x.length ≠ values.length then .error .valueError
  else if x.length = 0 then .error .valueError
  else if validEdges ex ∧ validEdges ey then
    .ok ⟨[ex.length - 1, ey.length - 1],
      (List.range ((ex.length - 1) * (ey.length - 1))).map fun k =>
        accR ρ ((((x.zip y).zip values).filter fun p =>
          decide (binIndex ex p.1.1 = some (k / (ey.length - 1)) ∧
                  binIndex ey p.1.2 = some (k % (ey.length - 1)))).map (·.2))⟩
  else .error .valueError

/-- `a += b` with rounding -/
def NdArr.iaddR (ρ : ℝ → Fl) (a b : NdArr) : Except Err NdArr :=
  if a.shape = b.shape ∧ a.data.length = b.data.length then
    .ok ⟨a.shape, List.zipWith (fun x y => (x + y).rd ρ) a.data b.data⟩
  else .error .valueError

/-- `Hist.accumulate` with rounding; hist1d.py:57-73, hist2d.py:47-58 -/
def Hist.accumulateR (ρ : ℝ → Fl) (h : Hist) (s s2 : Except Err NdArr) (noPow : Bool) : Except Err Unit × Hist :=
  match s with
  | .error e => (.error e, h)
  | .ok s =>
    match h.counts.iaddR ρ s with
    | .error e => (.error e, h)
    | .ok c =>
      let h1 := { h with counts := c }
      if noPow then (.error .typeError, h1)
      else match s2 with
        | .error e => (.error e, h1)
        | .ok s2 =>
          match h1.errSq.iaddR ρ s2 with
          | .error e => (.error e, h1)
          | .ok q => (.ok (), { h1 with errSq := q, isEmpty := false })

/-- hist1d.py:41-73 `Hist1d.fill` with rounding -/
def Hist1d.fillR (ρ : ℝ → Fl) (h : Hist) (data : Vec) (w : Weights) : Except Err Unit × Hist :=
  let ws := w.values data.length
  let e := ((h.edges.getD 0 ⟨true, []⟩).vals)
  h.accumulateR ρ (binnedSumR ρ e data ws) (binnedSumR ρ e data (ws.map fun x => x.sq.rd ρ)) w.noPow

/-- hist2d.py:41-58 `Hist2d.fill` with rounding -/
def Hist2d.fillR (ρ : ℝ → Fl) (h : Hist) (x y : Vec) (w : Weights) : Except Err Unit × Hist :=
  let ws := w.values x.length
  let ex := (h.edges.getD 0 ⟨true, []⟩).vals
  let ey := (h.edges.getD 1 ⟨true, []⟩).vals
  h.accumulateR ρ (binnedSum2R ρ ex ey x y ws) (binnedSum2R ρ ex ey x y (ws.map fun x => x.sq.rd ρ)) w.noPow

/-- `fill` of either class with rounding (hist1d.py:41-73, hist2d.py:41-58) -/
def Hist.fillR (ρ : ℝ → Fl) (h : Hist) (x y : Vec) (w : Weights) : Except Err Unit × Hist :=
  match h.cls with
  | .h1 => Hist1d.fillR ρ h x w
  | .h2 => Hist2d.fillR ρ h x y w

/-- abstract_template.py:240-243 `bin_fractions` with rounding; `sum` is the summation of `np.sum` -/
def binFractionsR (ρ : ℝ → Fl) (sum : Vec → Fl) (nui counts rel : Vec) : Except Err Vec := do
  let a ← bop (fun x y => (x * y).rd ρ) nui rel
  let y ← bop (fun x y => (x * y).rd ρ) counts (a.map fun x => (1 + x).rd ρ)
  return y.map fun x => (x / sum y).rd ρ

/-- abstract_template.py:158-182 `fractions` with rounding -/
def Template.fractionsR (ρ : ℝ → Fl) (sum : Vec → Fl) (t : Template) (nui : Vec) : Except Err Vec :=
  binFractionsR ρ sum nui t.flatCounts t.relErr

/-- abstract_template.py:201-209 `values` with rounding -/
def Template.valuesR (ρ : ℝ → Fl) (sum : Vec → Fl) (t : Template) : Except Err NdArr := do
  let f ← t.fractionsR ρ sum t.nuiParams
  let r ← reshape f t.bins
  return r.map fun x => (t.yieldParam * x).rd ρ

end

end TF
