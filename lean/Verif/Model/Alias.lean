import Verif.Model.Sys

/-!
# Shared numpy arrays

`Sys` treats every numpy array as a value. In the program two kinds of arrays are kept by reference and
changed in place: the `_bin_counts` of a histogram (`from_binned_data` stores the caller's array, hist1d.py:92-93,
hist2d.py:77-78; `fill` uses `+=`, hist1d.py:57, hist2d.py:46) and the `_params` of a template (the `params` setter
stores the caller's array, abstract_template.py:83-91; the `yield_param` and `nui_params` setters assign into it,
abstract_template.py:107 and 122). This file is a heap model of these two kinds of references: `AState` holds the
arrays of the program, and every histogram and template refers to one of them.

Only single-object calls are modelled (constructors, `fill`, `add_variation`, `add_cov_mat`, the setters and
`reset` of a template): calls of channels and of the multi-channel model change templates only through these setters.
An array may have an integer dtype (`isInt`; arrays made by the program itself are float64): assigning floats into it
truncates them, and `+=` with the float result of `binned_statistic` raises `UFuncTypeError` before anything is
changed (numpy casting rule `same_kind`). Overflow of int64 is not modelled.
Bin edges, which are also stored by reference (hist1d.py:39) but never changed by the program, are values.
-/

namespace TF

open Classical

noncomputable section

/-- The program state with references: `arr` are the numpy arrays (ids below `nArr` are allocated), histogram `h`
has `_bin_counts = arr (cref h)`, template `t` has `_params = arr (pref t)`. The fields `counts` and `params` of
the objects stored in `s` are not used: see `AState.view`. -/
structure AState where
  s : Sys
  arr : ℕ → NdArr
  nArr : ℕ
  isInt : ℕ → Bool
  cref : ℕ → ℕ
  pref : ℕ → ℕ

/-- fresh interpreter -/
def AState.init : AState := ⟨Sys.init, fun _ => ⟨[], []⟩, 0, fun _ => false, fun _ => 0, fun _ => 0⟩

/-- What the objects show: `bin_counts` (abstract_hist.py:26-28) and `params` (abstract_template.py:75-81) are read
from the referenced arrays. -/
def AState.view (a : AState) : Sys :=
  { a.s with
    w := { a.s.w with
      hists := fun h => if h < a.s.w.nHists then { a.s.w.hists h with counts := a.arr (a.cref h) } else a.s.w.hists h
      tmpls := fun t => if t < a.s.w.nTmpls then { a.s.w.tmpls t with params := (a.arr (a.pref t)).data }
        else a.s.w.tmpls t } }

/-- User actions: API calls with arguments used nowhere else (`api`), and actions with arrays the user holds on to. -/
inductive AOp where
  /-- an API call whose array arguments are fresh temporaries -/
  | api (op : Op)
  /-- the user creates an array (of floats, or of integers); its id is the current `nArr` -/
  | alloc (v : NdArr) (isInt : Bool)
  /-- the user overwrites the content of an array in place (`a[...] = v`) -/
  | poke (i : ℕ) (v : NdArr)
  /-- `Hist1d.from_binned_data(a, edges, errors)` with array number `i` -/
  | binnedRef (i : ℕ) (e : Edges) (er : Option NdArr)
  /-- `template.params = a` with array number `i` -/
  | paramsRef (t i : ℕ)

/-- How a call treats the arrays of the objects. -/
inductive AKind where
  /-- creates a histogram with an array of its own (hist1d.py:20, hist2d.py:21 `np.zeros`) -/
  | newHist
  /-- changes the counts of a histogram in place (hist1d.py:57, hist2d.py:46 `+=`) -/
  | inHist (h : ℕ)
  /-- creates a template with a parameter array of its own (abstract_template.py:132 `np.zeros`) -/
  | newTmpl
  /-- assigns into the parameter array (abstract_template.py:107, 122) -/
  | inTmpl (t : ℕ)
  /-- does not touch counts or parameters (abstract_template.py:184-199) -/
  | keep
  /-- gives the template another array with the content `v`, if the length fits (abstract_template.py:83-91) -/
  | setParams (t : ℕ) (v : Vec)
  /-- gives the template a new array (abstract_template.py:132) -/
  | resetParams (t : ℕ)
  /-- not in this model -/
  | none

/-- the kind of every call -/
def Op.kind : Op → AKind
  | .newHist1 .. => .newHist
  | .newHist2 .. => .newHist
  | .binned1 .. => .newHist
  | .binned2 .. => .newHist
  | .fill h .. => .inHist h
  | .newTmpl1 .. => .newTmpl
  | .newTmpl2 .. => .newTmpl
  | .addVariation .. => .keep
  | .addCovMat .. => .keep
  | .setTmplYield t _ => .inTmpl t
  | .setTmplNui t _ => .inTmpl t
  | .setTmplParams t v => .setParams t v
  | .resetTmpl t => .resetParams t
  | _ => .none

/-- a 1-d numpy array with these entries -/
def NdArr.of1d (v : Vec) : NdArr := ⟨[v.length], v⟩

/-- `int(x)`: the number without its fractional part; NaN and infinities become the smallest int64 -/
def Fl.trunc : Fl → Fl
  | .fin r => .fin (if 0 ≤ r then ⌊r⌋ else ⌈r⌉ : ℤ)
  | _ => .fin (-2 ^ 63)

/-- the content of an array after assigning `v` into it: integer arrays truncate -/
def storeIn (isInt : Bool) (v : NdArr) : NdArr := if isInt then v.map Fl.trunc else v

/-- assigning a float that is not finite to one entry of an integer array raises (`ValueError`, `OverflowError`) -/
def Op.badForInt : Op → Bool
  | .setTmplYield _ (.float r) => !r.isFin
  | .setTmplYield _ (.arr [r]) => !r.isFin
  | _ => false

/-- One API call on the heap. `s'` is what the call does to the objects as they look like before it; then the array
of the object concerned is changed in place, or a new array is made for it. -/
def AState.api (a : AState) (op : Op) : AState :=
  let s' := a.view.step op
  match op.kind with
  | .newHist =>
    if s'.w.nHists = a.s.w.nHists then a
    else { a with
      s := s'
      arr := Function.update a.arr a.nArr (s'.w.hists a.s.w.nHists).counts
      isInt := Function.update a.isInt a.nArr false
      nArr := a.nArr + 1
      cref := Function.update a.cref a.s.w.nHists a.nArr }
  | .inHist h =>
    if h < a.s.w.nHists ∧ a.isInt (a.cref h) = false then
      { a with s := s', arr := Function.update a.arr (a.cref h) (s'.w.hists h).counts }
    else a
  | .newTmpl =>
    if s'.w.nTmpls = a.s.w.nTmpls then a
    else { a with
      s := s'
      arr := Function.update a.arr a.nArr (NdArr.of1d (s'.w.tmpls a.s.w.nTmpls).params)
      isInt := Function.update a.isInt a.nArr false
      nArr := a.nArr + 1
      pref := Function.update a.pref a.s.w.nTmpls a.nArr }
  | .inTmpl t =>
    if t < a.s.w.nTmpls ∧ ¬(a.isInt (a.pref t) = true ∧ op.badForInt = true) then
      { a with s := s'
               arr := Function.update a.arr (a.pref t)
                 (storeIn (a.isInt (a.pref t)) (NdArr.of1d (s'.w.tmpls t).params)) }
    else a
  | .keep => { a with s := s' }
  | .setParams t v =>
    if t < a.s.w.nTmpls ∧ v.length = (a.arr (a.pref t)).data.length then
      { a with
        s := s'
        arr := Function.update a.arr a.nArr (NdArr.of1d v)
        isInt := Function.update a.isInt a.nArr false
        nArr := a.nArr + 1
        pref := Function.update a.pref t a.nArr }
    else a
  | .resetParams t =>
    if t < a.s.w.nTmpls then
      { a with
        s := s'
        arr := Function.update a.arr a.nArr (NdArr.of1d (s'.w.tmpls t).params)
        isInt := Function.update a.isInt a.nArr false
        nArr := a.nArr + 1
        pref := Function.update a.pref t a.nArr }
    else a
  | .none => a

/-- one user action -/
def AState.step (a : AState) : AOp → AState
  | .api op => a.api op
  | .alloc v isInt =>
    { a with arr := Function.update a.arr a.nArr (storeIn isInt v), isInt := Function.update a.isInt a.nArr isInt
             nArr := a.nArr + 1 }
  | .poke i v =>
    if i < a.nArr ∧ v.shape = (a.arr i).shape then
      { a with arr := Function.update a.arr i (storeIn (a.isInt i) v) }
    else a
  | .binnedRef i e er =>
    if i < a.nArr then
      let s' := a.view.step (.binned1 (a.arr i) e er)
      if s'.w.nHists = a.s.w.nHists then a
      else { a with s := s', cref := Function.update a.cref a.s.w.nHists i }
    else a
  | .paramsRef t i =>
    if t < a.s.w.nTmpls ∧ i < a.nArr ∧ (a.arr i).shape = [(a.arr i).data.length] ∧
        (a.arr i).data.length = (a.arr (a.pref t)).data.length then
      { a with s := a.view.step (.setTmplParams t (a.arr i).data), pref := Function.update a.pref t i }
    else a

/-- state after a whole program -/
def AState.run (a : AState) (ops : List AOp) : AState := ops.foldl AState.step a

end

end TF
