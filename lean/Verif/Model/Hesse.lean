import Verif.Model.Np

/-!
# minimizer.py:448-467 `ScipyMinimizer.calculate_hesse_matrix`

A static method decorated with `functools.lru_cache(maxsize=128)`: the arguments `(fcn, x, args)` are hashed, callables by
identity. A function object is an id; what it computes may change during the program (for the likelihood of a template model:
whenever data, parameters or templates change). `numdifftools` is external (`ndt`, may return anything or raise).

Simplified: `args` is a tuple of floats; a NaN in a tuple is one and the same Python object in all calls (a hit).
-/

namespace TF

open Classical

noncomputable section

/-- The two kinds of Python objects a caller passes as a point. -/
inductive PyPoint where
  | ndarray (v : Vec)
  | tuple (v : Vec)

/-- What the function objects compute now, and the cache of the decorated method. -/
structure HSys where
  fns : ℕ → Vec → Vec → Except Err Fl
  cache : Lru (ℕ × Vec × Vec) Mat

/-- a freshly started interpreter -/
def HSys.start (fns : ℕ → Vec → Vec → Except Err Fl) : HSys := ⟨fns, ⟨[]⟩⟩

/-- minimizer.py:448-467 `calculate_hesse_matrix(fcn, x, args)`: the key must be hashable, `numpy.ndarray` is not. -/
def HSys.calculateHesse (ndt : (Vec → Except Err Fl) → Vec → Except Err Mat) (s : HSys) (f : ℕ) (x : PyPoint) (args : Vec) :
    Except Err Mat × HSys :=
  match x with
  | .ndarray _ => (.error .typeError, s)
  | .tuple v =>
    let r := s.cache.call (f, v, args) (ndt (fun y => s.fns f y args) v)
    (r.1, { s with cache := r.2 })

/-- One step of a program: a function object changes what it computes (a simplification of any change to what the callable refers
to), or the method (minimizer.py:448-467) is called. -/
inductive HOp where
  | change (f : ℕ) (g : Vec → Vec → Except Err Fl)
  | call (f : ℕ) (x : PyPoint) (args : Vec)

/-- minimizer.py:448-467, one step of a program -/
def HSys.step (ndt : (Vec → Except Err Fl) → Vec → Except Err Mat) (s : HSys) : HOp → HSys
  | .change f g => { s with fns := Function.update s.fns f g }
  | .call f x args => (s.calculateHesse ndt f x args).2

/-- minimizer.py:448-467, a whole program -/
def HSys.run (ndt : (Vec → Except Err Fl) → Vec → Except Err Mat) (s : HSys) (ops : List HOp) : HSys :=
  ops.foldl (HSys.step ndt) s

end

end TF
