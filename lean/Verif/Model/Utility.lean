import Verif.Model.Np

/-!
# templatefitter/utility.py
-/

namespace TF

open Classical

noncomputable section

/-- utility.py:30 first line of `cov2corr`: `np.nan_to_num(np.diag(1 / np.sqrt(np.diag(cov))))` -/
def invStdDiag (cov : Mat) : Mat :=
  (Mat.diagOf (cov.diag.map fun v => (1 : Fl) / Fl.sqrt v)).map Fl.nanToNum

/-- utility.py:16-31 `cov2corr` (square input) -/
def cov2corr (cov : Mat) : Mat := (invStdDiag cov).mul (cov.mul (invStdDiag cov))

/-- utility.py:34-51 `corr2cov` -/
def corr2cov (corr : Mat) (var : Vec) : Mat := (Mat.diagOf var).mul (corr.mul (Mat.diagOf var))

/-- A `param_id` argument: string, int, or an object of another type. -/
inductive ParamId where
  | str (s : String)
  | int (i : ℤ)
  | other
  deriving DecidableEq, Repr

/-- utility.py:54-81 `id_to_index` -/
def idToIndex (names : List String) (pid : ParamId) : Except Err ℕ :=
  match pid with
  | .str s => if s ∈ names then .ok (names.idxOf s) else .error .valueError
  | .int i => if 0 ≤ i ∧ i < names.length then .ok i.toNat else .error .valueError
  | .other => .error .valueError

/-- utility.py:84-101 `xlogyx` (numba ufunc, IEEE division) -/
def xlogyx (x y : Fl) : Fl :=
  if x.isNan then 0
  else if x.lt (Fl.fin (1e-100 : ℝ)) then 0
  else if x.lt y then x * Fl.log1p ((y - x) / x)
  else -x * Fl.log1p ((x - y) / y)

/-- signed symmetrised difference of one bin, utility.py:122-129 -/
def signedDiff (nom up down : Fl) : Fl :=
  (if up.lt down then -(1 : Fl) else 1) * ((Fl.abs (up - nom) + Fl.abs (down - nom)) / Fl.fin 2)

/-- utility.py:113-131 `get_systematic_cov_mat`. Simplification: arrays of different length
raise `ValueError` (numpy would broadcast length-1 arrays). -/
def getSystematicCovMat (hnom hup hdown : Vec) : Except Err Mat :=
  if hnom.length = hup.length ∧ hup.length = hdown.length then
    let sd := List.zipWith (fun n ud => signedDiff n ud.1 ud.2) hnom (hup.zip hdown)
    .ok (Mat.outer sd sd)
  else .error .valueError

/-- utility.py:134-146 `array_split_into`; `none` is Python's `None` size. The generator is
modelled by the list of everything it yields. -/
def arraySplitInto {α : Type} (xs : List α) : List (Option ℕ) → List (List α)
  | [] => []
  | none :: _ => [xs]
  | some n :: sizes => xs.take n :: arraySplitInto (xs.drop n) sizes

end

end TF
