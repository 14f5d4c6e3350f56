import Verif.Model.Round
import Verif.Model.Channel

/-!
# Rounding in channels

The expected events of a channel with every operation rounded (`Model/Round.lean`). The order of the additions in a matrix product and
the use of fused multiply-add are up to the BLAS library: `DotR` relates a list of factors to every value some order, bracketing and
choice of fused operations gives.
-/

namespace TF

open Classical

noncomputable section

/-- `v` is the result of computing `Σ a*b` over the pairs `(a, b)` in some order and bracketing, each product rounded before it is
added or not (fused multiply-add); one entry of `yields @ fractions` in channel.py:484 -/
inductive DotR (ρ : ℝ → Fl) : List (Fl × Fl) → Fl → Prop
  | nil : DotR ρ [] 0
  | one (a b : Fl) : DotR ρ [(a, b)] ((a * b).rd ρ)
  | add {l l' : List (Fl × Fl)} {s t : Fl} : DotR ρ l s → DotR ρ l' t → DotR ρ (l ++ l') ((s + t).rd ρ)
  | fma {l : List (Fl × Fl)} {s : Fl} (a b : Fl) : DotR ρ l s → DotR ρ ((a, b) :: l) ((a * b + s).rd ρ)
  | perm {l l' : List (Fl × Fl)} {s : Fl} : DotR ρ l s → l.Perm l' → DotR ρ l' s

/-- `v @ A` with rounding; `dot` computes one entry (channel.py:484) -/
def vecMatR (dot : List (Fl × Fl) → Fl) (v : Vec) (A : Mat) : Except Err Vec :=
  if v.length = A.rows then
    .ok ((List.range A.cols).map fun j => dot ((List.range A.rows).map fun i => (v.getD i 0, A.e i j)))
  else .error .valueError

/-- `[template.fractions(nui) for template, nui in zip(templates, pieces)]` with rounding; channel.py:452-457 -/
def fractionRowsR (ρ : ℝ → Fl) (sum : Vec → Fl) : List Template → List Vec → Except Err (List Vec)
  | t :: ts, p :: ps =>
    match t.fractionsR ρ sum p with
    | .error e => .error e
    | .ok r =>
      match fractionRowsR ρ sum ts ps with
      | .error e => .error e
      | .ok rs => .ok (r :: rs)
  | _, _ => .ok []

/-- channel.py:428-457 `_fractions` with rounding -/
def World.chanFractionsR (ρ : ℝ → Fl) (sum : Vec → Fl) (w : World) (c : ℕ) (nui : Vec) : Except Err Mat :=
  match splitEq nui (w.chans c).numTemplates with
  | .error e => .error e
  | .ok pieces =>
    match fractionRowsR ρ sum (w.chanTmpls c) pieces with
    | .error e => .error e
    | .ok rows => stackRows rows

/-- channel.py:466-484 `_expected_evts_per_bin` with rounding -/
def World.expectedEvtsR (ρ : ℝ → Fl) (sum : Vec → Fl) (dot : List (Fl × Fl) → Fl) (w : World) (c : ℕ) (yields nui : Vec) :
    Except Err Vec × World :=
  match w.effArray c with
  | (.error e, w1) => (.error e, w1)
  | (.ok eff, w1) =>
    match bop (fun x y => (x * y).rd ρ) yields eff with
    | .error e => (.error e, w1)
    | .ok v =>
      match w1.chanFractionsR ρ sum c nui with
      | .error e => (.error e, w1)
      | .ok F => (vecMatR dot v F, w1)

/-- utility.py:84-101 `xlogyx` with rounding; `lg` is the library's `log1p` -/
def xlogyxR (ρ : ℝ → Fl) (lg : Fl → Fl) (x y : Fl) : Fl :=
  if x.isNan then 0
  else if x.lt (Fl.fin (1e-100 : ℝ)) then 0
  else if x.lt y then (x * lg (((y - x).rd ρ / x).rd ρ)).rd ρ
  else (-x * lg (((x - y).rd ρ / y).rd ρ)).rd ρ

/-- channel.py:372 `np.sum(exp - data - xlogyx(data, exp))` with rounding -/
def poissonTermR (ρ : ℝ → Fl) (lg : Fl → Fl) (sum : Vec → Fl) (data expd : Vec) : Except Err Fl := do
  let d ← bop (fun x y => (x - y).rd ρ) expd data
  let l ← bop (xlogyxR ρ lg) data expd
  let s ← bop (fun x y => (x - y).rd ρ) d l
  return sum s

/-- channel.py:493-495 `_gauss_term` with rounding -/
def World.gaussTermR (ρ : ℝ → Fl) (dot : List (Fl × Fl) → Fl) (w : World) (c : ℕ) (nui : Vec) : Except Err Fl × World :=
  match w.invCorrBlock c with
  | (.error e, w1) => (.error e, w1)
  | (.ok B, w1) =>
    match vecMatR dot nui B with
    | .error e => (.error e, w1)
    | .ok v =>
      if v.length = nui.length then (.ok ((Fl.fin (1 / 2) * dot (v.zip nui)).rd ρ), w1)
      else (.error .valueError, w1)

/-- channel.py:354-375 `nll_contribution` with rounding -/
def World.nllContributionR (ρ : ℝ → Fl) (lg : Fl → Fl) (sum : Vec → Fl) (dot : List (Fl × Fl) → Fl) (w : World) (c : ℕ)
    (yields nui : Vec) : Except Err Fl × World :=
  match (w.chans c).hdata with
  | none => (.error .attributeError, w)
  | some hid =>
    match w.expectedEvtsR ρ sum dot c yields nui with
    | (.error e, w1) => (.error e, w1)
    | (.ok expd, w1) =>
      match poissonTermR ρ lg sum (w.hists hid).counts.data expd with
      | .error e => (.error e, w1)
      | .ok p =>
        match w1.gaussTermR ρ dot c nui with
        | (.error e, w2) => (.error e, w2)
        | (.ok g, w2) => (.ok ((p + g).rd ρ), w2)

end

end TF
