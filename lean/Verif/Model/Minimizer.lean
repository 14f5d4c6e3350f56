import Verif.Model.Utility

/-!
# templatefitter/minimizer.py

The optimisers (iminuit's MIGRAD, scipy's SLSQP) and the numerical Hessian (numdifftools) are
external: they are parameters (`Optim`) that may return anything or raise. What is modelled is
which problem is handed to them and what is done with their answer.

Not modelled: `status`, `message`, printing. `calculate_hesse_matrix` is in `Verif.Model.Hesse`.
-/

namespace TF

open Classical

noncomputable section

/-- State of `Parameters` (minimizer.py:43-49). -/
structure Params where
  names : List String
  values : Vec
  errors : Vec
  cov : Mat
  corr : Mat

/-- minimizer.py:43-49 `Parameters.__init__` -/
def Params.new (names : List String) : Params :=
  ⟨names, List.replicate names.length 0, List.replicate names.length 0,
   Mat.zeros names.length names.length, Mat.zeros names.length names.length⟩

/-- minimizer.py:127-130 `num_params` -/
def Params.num (p : Params) : ℕ := p.names.length

/-- minimizer.py:137-143 `values` setter -/
def Params.setValues (p : Params) (v : Vec) : Except Err Params :=
  if v.length = p.num then .ok { p with values := v } else .error .valueError

/-- minimizer.py:150-156 `errors` setter -/
def Params.setErrors (p : Params) (v : Vec) : Except Err Params :=
  if v.length = p.num then .ok { p with errors := v } else .error .valueError

/-- minimizer.py:164-166 `covariance` setter (no check) -/
def Params.setCov (p : Params) (c : Mat) : Params := { p with cov := c }

/-- minimizer.py:174-176 `correlation` setter (no check) -/
def Params.setCorr (p : Params) (c : Mat) : Params := { p with corr := c }

/-- minimizer.py:60-73 `get_param_value` -/
def Params.getValue (p : Params) (i : ParamId) : Except Err Fl :=
  match idToIndex p.names i with
  | .error e => .error e
  | .ok k => match p.values[k]? with
    | some v => .ok v
    | none => .error .indexError

/-- minimizer.py:75-88 `get_param_error` -/
def Params.getError (p : Params) (i : ParamId) : Except Err Fl :=
  match idToIndex p.names i with
  | .error e => .error e
  | .ok k => match p.errors[k]? with
    | some v => .ok v
    | none => .error .indexError

/-- minimizer.py:90-106 `__getitem__` -/
def Params.getItem (p : Params) (i : ParamId) : Except Err (Fl × Fl) :=
  match idToIndex p.names i with
  | .error e => .error e
  | .ok k => match p.values[k]?, p.errors[k]? with
    | some v, some e => .ok (v, e)
    | _, _ => .error .indexError

/-- Lower and upper bound, `None` = no bound. -/
abbrev Bounds := Option Fl × Option Fl

/-- Which minimizer class. -/
inductive MinKind where
  | iminuit | scipy
  deriving DecidableEq, Repr

/-- minimizer.py:470-473 `minimizer_factory`: `id.lower()` must be a known key. -/
def minKindOf (id : String) : Except Err MinKind :=
  if id.toLower = "scipy" then .ok .scipy
  else if id.toLower = "iminuit" then .ok .iminuit
  else .error .keyError

/-- State of a minimizer (minimizer.py:191-203). `fixedFlags` is `_fixed_params` of the iminuit
class (list of bool), `fixedIdx` that of the scipy class (list of indices). -/
structure Minimizer where
  kind : MinKind
  params : Params
  fixedFlags : List Bool
  fixedIdx : List ℕ
  bounds : List Bounds
  fcnMin : Option Fl
  success : Option Bool

/-- minimizer.py:191-203, 276-278, 336-337 constructors -/
def Minimizer.new (k : MinKind) (names : List String) : Minimizer :=
  ⟨k, Params.new names, names.map fun _ => false, [], names.map fun _ => (none, none), none, none⟩

/-- minimizer.py:312-314 and 401-412 `set_param_fixed` -/
def Minimizer.setFixed (z : Minimizer) (i : ParamId) : Except Err Unit × Minimizer :=
  match idToIndex z.params.names i with
  | .error e => (.error e, z)
  | .ok k =>
    match z.kind with
    | .iminuit => (.ok (), { z with fixedFlags := z.fixedFlags.set k true })
    | .scipy => (.ok (), { z with fixedIdx := z.fixedIdx ++ [k] })

/-- minimizer.py:316-317 and 414-418 `release_params` -/
def Minimizer.release (z : Minimizer) : Minimizer :=
  match z.kind with
  | .iminuit => { z with fixedFlags := z.params.names.map fun _ => false }
  | .scipy => { z with fixedIdx := [] }

/-- minimizer.py:217-231 `set_param_bounds` -/
def Minimizer.setBounds (z : Minimizer) (i : ParamId) (b : Bounds) : Except Err Unit × Minimizer :=
  match idToIndex z.params.names i with
  | .error e => (.error e, z)
  | .ok k => (.ok (), { z with bounds := z.bounds.set k b })

/-! ### the external optimisers -/

/-- What `Minuit.from_array_func` receives (minimizer.py:282-291). -/
structure MinuitCall where
  fcn : Vec → Except Err Fl
  x0 : Vec
  fix : List Bool
  names : List String
  limit : List Bounds

/-- The three flags of a MIGRAD run that are looked at. -/
structure FMin where
  isValid : Bool
  hasValidParams : Bool
  hasCov : Bool

/-- What Minuit returns after two MIGRAD runs (minimizer.py:294-306). `matrix` may raise
(simplification: `np_matrix()` and `np_matrix(correlation=True)` raise together). -/
structure MinuitOut where
  fmin1 : FMin
  fmin2 : FMin
  fval : Fl
  values : Vec
  errors : Vec
  matrix : Except Err (Mat × Mat)

/-- What `scipy.optimize.minimize` receives (minimizer.py:364-372). All constraints are of type
`"eq"`: feasible points make each function zero. -/
structure ScipyCall where
  fcn : Vec → Except Err Fl
  x0 : Vec
  bounds : List Bounds
  constraints : List (Vec → Fl)

/-- What `scipy.optimize.minimize` returns. -/
structure ScipyOut where
  success : Bool
  x : Vec
  fval : Fl

/-- The external optimisers. `…Evals` are the points at which they evaluate the objective. -/
structure Optim where
  minuit : MinuitCall → Except Err MinuitOut
  minuitEvals : MinuitCall → List Vec
  scipy : ScipyCall → Except Err ScipyOut
  scipyEvals : ScipyCall → List Vec
  hessian : Vec → Except Err Mat

/-- `MinimizeResult`; `params` is the minimizer's own `Parameters` object. -/
structure MinResult where
  fval : Fl
  params : Params
  success : Bool

/-- minimizer.py:420-446 `_create_constraints`. The lambdas capture the *variable*
`fixed_param`; when scipy calls them it holds the last element of the list. -/
def scipyConstraints (fixedIdx : List ℕ) (x0 : Vec) : List (Vec → Fl) :=
  fixedIdx.map fun _ => fun x => x.getD (fixedIdx.getLastD 0) 0 - x0.getD (fixedIdx.getLastD 0) 0

/-- The problem an iminuit minimizer hands over. -/
def Minimizer.minuitCall (z : Minimizer) (fcn : Vec → Except Err Fl) (x0 : Vec) : MinuitCall :=
  ⟨fcn, x0, z.fixedFlags, z.params.names, z.bounds⟩

/-- The problem a scipy minimizer hands over. -/
def Minimizer.scipyCall (z : Minimizer) (fcn : Vec → Except Err Fl) (x0 : Vec) : ScipyCall :=
  ⟨fcn, x0, z.bounds, scipyConstraints z.fixedIdx x0⟩

/-- minimizer.py:280-310 `IMinuitMinimizer.minimize`, statement by statement -/
def Minimizer.minimizeMinuit (o : Optim) (z : Minimizer) (fcn : Vec → Except Err Fl) (x0 : Vec) :
    Except Err MinResult × Minimizer :=
  match o.minuit (z.minuitCall fcn x0) with
  | .error e => (.error e, z)
  | .ok r =>
    let z1 := { z with fcnMin := some r.fval }
    match z1.params.setValues r.values with
    | .error e => (.error e, z1)
    | .ok p2 =>
      let z2 := { z1 with params := p2 }
      match z2.params.setErrors r.errors with
      | .error e => (.error e, z2)
      | .ok p3 =>
        let z3 := { z2 with params := p3 }
        match r.matrix with
        | .error e => (.error e, z3)
        | .ok (cov, corr) =>
          let ok := r.fmin2.isValid && r.fmin2.hasValidParams && r.fmin2.hasCov
          let z4 := { z3 with params := { z3.params with cov := cov, corr := corr }
                              success := some ok }
          (.ok ⟨r.fval, z4.params, ok⟩, z4)

/-- minimizer.py:339-399 `ScipyMinimizer.minimize`, statement by statement -/
def Minimizer.minimizeScipy (o : Optim) (z : Minimizer) (fcn : Vec → Except Err Fl) (x0 : Vec)
    (getHesse : Bool) : Except Err MinResult × Minimizer :=
  match o.scipy (z.scipyCall fcn x0) with
  | .error e => (.error e, z)
  | .ok r =>
    let z1 := { z with success := some r.success }
    if r.success = false then (.error .runtimeError, z1)
    else match z1.params.setValues r.x with
      | .error e => (.error e, z1)
      | .ok p2 =>
        let z2 := { z1 with params := p2, fcnMin := some r.fval }
        if getHesse then
          match o.hessian p2.values with
          | .error e => (.error e, z2)
          | .ok H =>
            match npInv H with
            | .error e => (.error e, z2)
            | .ok C =>
              let p3 := { p2 with cov := C, corr := cov2corr C }
              match p3.setErrors (C.diag.map Fl.sqrt) with
              | .error e => (.error e, { z2 with params := p3 })
              | .ok p4 => (.ok ⟨r.fval, p4, r.success⟩, { z2 with params := p4 })
        else (.ok ⟨r.fval, p2, r.success⟩, z2)

/-- `minimizer.minimize(x0, get_hesse=…)` of either class -/
def Minimizer.minimize (o : Optim) (z : Minimizer) (fcn : Vec → Except Err Fl) (x0 : Vec)
    (getHesse : Bool) : Except Err MinResult × Minimizer :=
  match z.kind with
  | .iminuit => z.minimizeMinuit o fcn x0
  | .scipy => z.minimizeScipy o fcn x0 getHesse

/-- the points at which the objective is evaluated during `minimize` -/
def Minimizer.evals (o : Optim) (z : Minimizer) (fcn : Vec → Except Err Fl) (x0 : Vec) : List Vec :=
  match z.kind with
  | .iminuit => o.minuitEvals (z.minuitCall fcn x0)
  | .scipy => o.scipyEvals (z.scipyCall fcn x0)

end

end TF
