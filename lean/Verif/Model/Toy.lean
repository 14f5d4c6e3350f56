import Verif.Model.Fitter

/-!
# templatefitter/toy_study.py

Each attempt at an experiment draws a toy data set and runs a fit; the outcome of both is
external and may differ from attempt to attempt, so the random generator and the optimisers are
indexed by the running number of the attempt.
-/

namespace TF

open Classical

noncomputable section

/-- External randomness: per attempt a Poisson generator (per channel) and optimisers. -/
structure ToyEnv where
  draw : ℕ → ℕ → Vec → ℕ → ℕ
  optim : ℕ → Optim

/-- State of a `ToyStudy` (toy_study.py:27-31) together with the heap it acts on; `tries`
counts the attempts made so far (ghost variable, selects the oracle). -/
structure Toy where
  minimizerId : String
  params : List Vec
  uncs : List Vec
  fitted : Bool
  w : World
  tries : ℕ

/-- toy_study.py:27-31 `__init__`; the model the study works on is in the heap `w` -/
def Toy.new (w : World) (minimizerId : String) (tries : ℕ) : Toy := ⟨minimizerId, [], [], false, w, tries⟩

/-- toy_study.py:204-211 `_reset_state` -/
def Toy.resetState (t : Toy) : Toy := { t with fitted := false, params := [], uncs := [] }

/-- toy_study.py:58-73 the body of the `try` block -/
def Toy.attempt (env : ToyEnv) (m : Mct) (t : Toy) (getHesse : Bool) : Except Err Unit × Toy :=
  let t1 := { t with tries := t.tries + 1 }
  match m.toy t.w (env.draw t.tries) with
  | .error e => (.error e, t1)
  | .ok data =>
    match m.addDatasets t.w data with
    | (.error e, w1) => (.error e, { t1 with w := w1 })
    | (.ok (), w1) =>
      match (Fitter.new t.minimizerId).doFit (env.optim t.tries) w1 m false getHesse true none with
      | (.error e, w2) => (.error e, { t1 with w := w2 })
      | (.ok r, w2) =>
        (.ok (), { t1 with w := w2, params := t1.params ++ [r.params.values]
                           uncs := t1.uncs ++ [r.params.errors] })

/-- toy_study.py:53-79 `_experiment`: up to `maxTries` attempts, `RuntimeError` is swallowed -/
def Toy.experiment (env : ToyEnv) (m : Mct) (t : Toy) (getHesse : Bool) :
    ℕ → Except Err Unit × Toy
  | 0 => (.error .runtimeError, t)
  | n + 1 =>
    match t.attempt env m getHesse with
    | (.ok (), t1) => (.ok (), t1)
    | (.error e, t1) => if e.isRuntime then Toy.experiment env m t1 getHesse n else (.error e, t1)

/-- `for _ in range(n_exp): self._experiment(...)` -/
def Toy.experiments (env : ToyEnv) (m : Mct) (t : Toy) (getHesse : Bool) (maxTries : ℕ) :
    ℕ → Except Err Unit × Toy
  | 0 => (.ok (), t)
  | n + 1 =>
    match t.experiment env m getHesse maxTries with
    | (.error e, t1) => (.error e, t1)
    | (.ok (), t1) => Toy.experiments env m t1 getHesse maxTries n

/-- toy_study.py:33-51 `do_experiments` -/
def Toy.doExperiments (env : ToyEnv) (m : Mct) (t : Toy) (nExp maxTries : ℕ) :
    Except Err Unit × Toy :=
  match t.resetState.experiments env m true maxTries nExp with
  | (.error e, t1) => (.error e, t1)
  | (.ok (), t1) => (.ok (), { t1 with fitted := true })

/-- toy_study.py:122-127 `result_parameters` -/
def Toy.resultParameters (t : Toy) : Except Err (List Vec) :=
  if t.fitted then .ok t.params else .error .runtimeError

/-- toy_study.py:129-134 `result_uncertainties` -/
def Toy.resultUncertainties (t : Toy) : Except Err (List Vec) :=
  if t.fitted then .ok t.uncs else .error .runtimeError

/-- `array[:, k]` of a list of rows; with no rows the array is 1-d and indexing raises. -/
def column (rows : List Vec) (k : ℕ) : Except Err Vec :=
  if rows = [] then .error .indexError
  else if ∀ r ∈ rows, k < r.length then .ok (rows.map fun r => r.getD k 0)
  else .error .indexError

/-- toy_study.py:136-158 `get_toy_results` -/
def Toy.toyResults (m : Mct) (t : Toy) (p : String) : Except Err (Vec × Vec) :=
  if t.fitted = false then .error .runtimeError
  else if p ∉ m.processes then .error .valueError
  else match column t.params (m.processes.idxOf p), column t.uncs (m.processes.idxOf p) with
    | .ok a, .ok b => .ok (a, b)
    | .error e, _ => .error e
    | _, .error e => .error e

/-- toy_study.py:160-187 `get_toy_result_pulls` -/
def Toy.pulls (m : Mct) (t : Toy) (p : String) : Except Err Vec :=
  if t.fitted = false then .error .runtimeError
  else match t.toyResults m p with
    | .error e => .error e
    | .ok (a, b) =>
      match m.getYield t.w p with
      | .error e => .error e
      | .ok v => .ok (List.zipWith (fun x u => (x - v) / u) a b)

/-- `np.mean` -/
def npMean (v : Vec) : Fl := npSum v / Fl.fin v.length

/-- `np.std` -/
def npStd (v : Vec) : Fl := Fl.sqrt (npMean (v.map fun x => Fl.sq (x - npMean v)))

/-- toy_study.py:104-118 one iteration of the loop over the scan points -/
def Toy.linearityPoint (env : ToyEnv) (m : Mct) (t : Toy) (p : String) (point : Fl) (nExp : ℕ) :
    Except Err (Fl × Fl) × Toy :=
  let t1 := { t.resetState with w := m.resetParameters t.w }
  match m.setYield t1.w p point with
  | (.error e, w1) => (.error e, { t1 with w := w1 })
  | (.ok (), w1) =>
    match ({ t1 with w := w1 }).experiments env m false 10 nExp with
    | (.error e, t2) => (.error e, t2)
    | (.ok (), t2) =>
      let t3 := { t2 with fitted := true }
      match t3.toyResults m p with
      | .error e => (.error e, t3)
      | .ok (a, _) => (.ok (npMean a, npStd a), t3)

/-- the loop of toy_study.py:104-118 -/
def Toy.linearityLoop (env : ToyEnv) (m : Mct) (t : Toy) (p : String) (nExp : ℕ) :
    Vec → Except Err (List (Fl × Fl)) × Toy
  | [] => (.ok [], t)
  | x :: xs =>
    match t.linearityPoint env m p x nExp with
    | (.error e, t1) => (.error e, t1)
    | (.ok r, t1) =>
      match Toy.linearityLoop env m t1 p nExp xs with
      | (.error e, t2) => (.error e, t2)
      | (.ok rs, t2) => (.ok (r :: rs), t2)

/-- toy_study.py:81-120 `do_linearity_test` -/
def Toy.linearityTest (env : ToyEnv) (m : Mct) (t : Toy) (p : String) (lo hi : Fl)
    (nPoints nExp : ℕ) : Except Err (Vec × Vec × Vec) × Toy :=
  match t.linearityLoop env m p nExp (linspaceFl lo hi nPoints) with
  | (.error e, t1) => (.error e, t1)
  | (.ok rs, t1) => (.ok (linspaceFl lo hi nPoints, rs.map (·.1), rs.map (·.2)), t1)

end

end TF
