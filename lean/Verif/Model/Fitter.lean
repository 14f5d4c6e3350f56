import Verif.Model.Minimizer
import Verif.Model.Mct

/-!
# templatefitter/fitter.py

`TemplateFitter` on a `MultiChannelTemplate`. The process pool of `profile` is modelled as a
small scheduler (`Pool`): workers take pickled tasks from the queue and report results in any
order.

Not modelled: printing, progress bars.
-/

namespace TF

open Classical

noncomputable section

/-- State of a `TemplateFitter` (fitter.py:36-43); `_templates` is the `Mct` argument of the
functions below and `_nll` only refers to it. -/
structure Fitter where
  minimizerId : String
  fixedParams : List ParamId
  boundParams : List (ParamId × Bounds)
  fixNui : Bool

/-- fitter.py:36-43 `__init__` -/
def Fitter.new (id : String) : Fitter := ⟨id, [], [], false⟩

/-- fitter.py:45-46 `fix_nui_params` -/
def Fitter.fixNuiParams (f : Fitter) : Fitter := { f with fixNui := true }

/-- fitter.py:115-123 `set_parameter_fixed` -/
def Fitter.setFixed (f : Fitter) (i : ParamId) : Fitter :=
  { f with fixedParams := f.fixedParams ++ [i] }

/-- fitter.py:125-137 `set_parameter_bounds` -/
def Fitter.setBounds (f : Fitter) (i : ParamId) (b : Bounds) : Fitter :=
  { f with boundParams := dictSet f.boundParams i b }

/-- a loop of `minimizer.set_param_fixed(i)` calls -/
def fixAll (z : Minimizer) : List ParamId → Except Err Unit × Minimizer
  | [] => (.ok (), z)
  | i :: is =>
    match z.setFixed i with
    | (.error e, z1) => (.error e, z1)
    | (.ok (), z1) => fixAll z1 is

/-- a loop of `minimizer.set_param_bounds(i, b)` calls -/
def boundAll (z : Minimizer) : List (ParamId × Bounds) → Except Err Unit × Minimizer
  | [] => (.ok (), z)
  | (i, b) :: is =>
    match z.setBounds i b with
    | (.error e, z1) => (.error e, z1)
    | (.ok (), z1) => boundAll z1 is

/-- `range(num_processes, num_nui_params + num_processes)` as parameter ids -/
def nuiIds (nproc nnui : ℕ) : List ParamId :=
  (List.range nnui).map fun k => ParamId.int ((nproc + k : ℕ) : ℤ)

/-- the bounds `nui_param_limits` (if given) for every nuisance parameter, fitter.py:89-94 -/
def nuiBounds (nproc nnui : ℕ) : Option Bounds → List (ParamId × Bounds)
  | none => []
  | some b => (nuiIds nproc nnui).map fun i => (i, b)

/-- the objective `self._nll` in world `w` (simplification: as a function of the parameters it is
taken at the cache state in which the minimisation starts; for models built before their first
evaluation the cache state makes no difference, see C40 and C56) -/
def objective (w : World) (m : Mct) : Vec → Except Err Fl := fun x => (m.nll w x).1

/-- the heap as a worker process sees it after unpickling its arguments: same contents, but the
objects are new ones, so no memoised value applies to them -/
def World.unpickled (w : World) : World := { w with idxCache := ⟨[]⟩, effCache := ⟨[]⟩, invCache := ⟨[]⟩ }

/-- the heap after the optimiser evaluated the objective at the given points -/
def evalAll (w : World) (m : Mct) (xs : List Vec) : World := xs.foldl (fun w x => (m.nll w x).2) w

/-- fitter.py:75-101: set-up of the minimizer (part of fitter.py:48-113 `do_fit`) -/
def Fitter.setup (f : Fitter) (k : MinKind) (names : List String) (nproc nnui : ℕ)
    (fixNui : Bool) (nuiLimits : Option Bounds) : Except Err Minimizer :=
  match fixAll (Minimizer.new k names) (if fixNui then nuiIds nproc nnui else []) with
  | (.error e, _) => .error e
  | (.ok (), z1) =>
    match boundAll z1 (nuiBounds nproc nnui nuiLimits) with
    | (.error e, _) => .error e
    | (.ok (), z2) =>
      match fixAll z2 f.fixedParams with
      | (.error e, _) => .error e
      | (.ok (), z3) =>
        match boundAll z3 f.boundParams with
        | (.error e, _) => .error e
        | (.ok (), z4) => .ok z4

/-- `minimizer.minimize(self._nll.x0, …)` : compute `x0`, run the optimiser, account for its
evaluations of the objective. -/
def runMinimizer (o : Optim) (w : World) (m : Mct) (z : Minimizer) (getHesse : Bool) :
    Except Err (MinResult × Minimizer) × World :=
  match m.x0 w with
  | .error e => (.error e, w)
  | .ok x0 =>
    let r := z.minimize o (objective w m) x0 getHesse
    let w1 := evalAll w m (z.evals o (objective w m) x0)
    match r with
    | (.error e, _) => (.error e, w1)
    | (.ok v, z1) => (.ok (v, z1), w1)

/-- fitter.py:48-113 `do_fit` -/
def Fitter.doFit (o : Optim) (f : Fitter) (w : World) (m : Mct) (updateTemplates getHesse : Bool)
    (fixNui : Bool) (nuiLimits : Option Bounds) : Except Err MinResult × World :=
  match minKindOf f.minimizerId with
  | .error e => (.error e, w)
  | .ok k =>
    match f.setup k (m.paramNames w) m.numProcesses (m.numNui w) fixNui nuiLimits with
    | .error e => (.error e, w)
    | .ok z =>
      match runMinimizer o w m z getHesse with
      | (.error e, w1) => (.error e, w1)
      | (.ok (r, _), w1) =>
        if updateTemplates then
          match m.updateParameters w1 r.params.values with
          | (.error e, w2) => (.error e, w2)
          | (.ok (), w2) => (.ok r, w2)
        else (.ok r, w1)

/-! ### profile -/

/-- fitter.py:140-171 `_get_hesse_approx` at one point -/
def hesseApprox (value error fmin point : Fl) : Fl :=
  Fl.fin (1 / 2) * Fl.sq (1 / error) * Fl.sq (point - value) + fmin

/-- fitter.py:252-287 `_profile_helper` on its own (unpickled) copy of the minimizer and of the
initial values -/
def profileHelper (o : Optim) (fcn : Vec → Except Err Fl) (z : Minimizer) (point : Fl)
    (init : Vec) (pid : ParamId) : Except Err Fl :=
  let z1 := z.release
  match idToIndex z1.params.names pid with
  | .error e => .error e
  | .ok k =>
    let x0 := init.set k point
    match z1.setFixed pid with
    | (.error e, _) => .error e
    | (.ok (), z2) =>
      match (z2.minimize o fcn x0 false).1 with
      | .ok r => .ok r.fval
      | .error e => if e.isRuntime then .ok .nan else .error e

/-- `multiprocessing.Pool.imap`: `queue` are the indices not yet handed out, `running w` the task
worker `w` is busy with, `done` the results received so far, keyed by task index. -/
structure Pool (ρ : Type) where
  queue : List ℕ
  running : ℕ → Option ℕ
  done : List (ℕ × ρ)

/-- scheduling events: worker `w` fetches the next task / delivers its result -/
inductive PoolEv where
  | fetch (w : ℕ)
  | finish (w : ℕ)

/-- one scheduling event; `task k` is the result of computing task `k` (each task carries its own
pickled arguments, so it is a function of the task alone) -/
def Pool.step {ρ : Type} (task : ℕ → ρ) (nworkers : ℕ) (p : Pool ρ) : PoolEv → Pool ρ
  | .fetch w =>
    if w < nworkers ∧ p.running w = none then
      match p.queue with
      | [] => p
      | k :: ks => { p with queue := ks, running := Function.update p.running w (some k) }
    else p
  | .finish w =>
    match p.running w with
    | none => p
    | some k => { p with running := Function.update p.running w none, done := (k, task k) :: p.done }

/-- initial pool for `n` tasks -/
def Pool.init (ρ : Type) (n : ℕ) : Pool ρ := ⟨List.range n, fun _ => none, []⟩

/-- `list(pool.imap(...))` yields the results in task order; `none` while one is missing -/
def Pool.collect {ρ : Type} (p : Pool ρ) (n : ℕ) : Option (List ρ) :=
  (List.range n).mapM fun k => dictGet p.done k

/-- consuming the iterator: the first exception (in task order) is raised -/
def firstError {α : Type} : List (Except Err α) → Except Err (List α)
  | [] => .ok []
  | .error e :: _ => .error e
  | .ok a :: l =>
    match firstError l with
    | .error e => .error e
    | .ok as => .ok (a :: as)

/-- fitter.py:173-249 `profile`: result triple (points, profile values, Hesse approximation).
`sched` is the list of scheduling events of the pool; `none` stands for "still running". -/
def Fitter.profile (o : Optim) (f : Fitter) (w : World) (m : Mct) (pid : ParamId)
    (numCpu numPoints : ℕ) (sigma : Fl) (subtractMin fixNui : Bool) (sched : List PoolEv) :
    Except Err (Option (Vec × Vec × Vec)) × World :=
  match minKindOf f.minimizerId with
  | .error e => (.error e, w)
  | .ok kind =>
    match fixAll (Minimizer.new kind (m.paramNames w))
        (if fixNui then nuiIds m.numProcesses (m.numNui w) else []) with
    | (.error e, _) => (.error e, w)
    | (.ok (), z) =>
      match runMinimizer o w m z true with
      | (.error e, w1) => (.error e, w1)
      | (.ok (r, z1), w1) =>
        match z1.params.getItem pid with
        | .error e => (.error e, w1)
        | .ok (val, unc) =>
          let points := linspaceFl (val - sigma * unc) (val + sigma * unc) numPoints
          let hesse := points.map (hesseApprox val unc r.fval)
          let task := fun k =>
            profileHelper o (objective w1.unpickled m) z1 (points.getD k 0) r.params.values pid
          let pool := sched.foldl (Pool.step task numCpu) (Pool.init _ numPoints)
          -- `Pool(0)` raises
          if numCpu = 0 then (.error .valueError, w1)
          else match pool.collect numPoints with
          | none => (.ok none, w1)
          | some l =>
            match firstError l with
            | .error e => (.error e, w1)
            | .ok vals =>
              if subtractMin then
                (.ok (some (points, vals.map (· - r.fval), hesse.map (· - r.fval))), w1)
              else (.ok (some (points, vals, hesse)), w1)

/-! ### significance -/

/-- fitter.py:328-343, 351-368: the minimizer of the two fits in `get_significance`
(`extra` is the yield fixed in the second one) -/
def Fitter.signifSetup (f : Fitter) (k : MinKind) (names : List String) (nproc nnui : ℕ)
    (fixNui : Bool) (extra : List ParamId) : Except Err Minimizer :=
  match fixAll (Minimizer.new k names) (if fixNui then nuiIds nproc nnui else []) with
  | (.error e, _) => .error e
  | (.ok (), z1) =>
    match fixAll z1 f.fixedParams with
    | (.error e, _) => .error e
    | (.ok (), z2) =>
      match boundAll z2 f.boundParams with
      | (.error e, _) => .error e
      | (.ok (), z3) =>
        match fixAll z3 extra with
        | (.error e, _) => .error e
        | (.ok (), z4) => .ok z4

/-- fitter.py:290-373 `get_significance` -/
def Fitter.getSignificance (o : Optim) (f : Fitter) (w : World) (m : Mct) (process : String)
    (fixNui : Bool) : Except Err Fl × World :=
  match minKindOf f.minimizerId with
  | .error e => (.error e, w)
  | .ok k =>
    match f.signifSetup k (m.paramNames w) m.numProcesses (m.numNui w) fixNui [] with
    | .error e => (.error e, w)
    | .ok z =>
      match runMinimizer o w m z true with
      | (.error e, w1) => (.error e, w1)
      | (.ok (r1, _), w1) =>
        match r1.params.getItem (.str (process ++ "_yield")) with
        | .error e => (.error e, w1)
        | .ok (y, _) =>
          if y.lt 0 then (.ok 0, w1)
          else match m.setYield w1 process 0 with
            | (.error e, w2) => (.error e, w2)
            | (.ok (), w2) =>
              match f.signifSetup k (m.paramNames w2) m.numProcesses (m.numNui w2) fixNui
                  [.str (process ++ "_yield")] with
              | .error e => (.error e, w2)
              | .ok z' =>
                match runMinimizer o w2 m z' true with
                | (.error e, w3) => (.error e, w3)
                | (.ok (r2, _), w3) =>
                  (.ok (Fl.sqrt (Fl.fin 2 * (r2.fval - r1.fval))), w3)

end

end TF
