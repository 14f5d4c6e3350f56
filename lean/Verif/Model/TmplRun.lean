import Verif.Model.Template

/-!
# Life of one template object

Method calls on a template (abstract_template.py, template1d.py, template2d.py) as a state
machine. The histogram arguments are the state of the template's histogram at the time of the
call, which other code may change between calls.
-/

namespace TF

noncomputable section

/-- A call on a template object. -/
inductive TOp where
  /-- `t.yield_param = v`, abstract_template.py:99-107 -/
  | setYield (v : YieldVal)
  /-- `t.nui_params = v`, abstract_template.py:115-122 -/
  | setNui (v : Vec)
  /-- `t.params = v`, abstract_template.py:83-91 -/
  | setParams (v : Vec)
  /-- `t.reset()`, abstract_template.py:124-133 -/
  | reset (h : Hist)
  /-- `t.add_cov_mat(m)`, template1d.py:58-62 -/
  | addCovMat (m : Mat)
  /-- `t.add_variation(data, up, down)`, template1d.py:44-56, template2d.py:50-60 -/
  | addVariation (h : Hist) (x y : Vec) (up down : Weights)

/-- the state after a setter: unchanged if it raised -/
def keepOnError (t : Template) : Except Err Template → Except Err Unit × Template
  | .ok t' => (.ok (), t')
  | .error e => (.error e, t)

/-- One call: result (or exception) and the state left behind; see the cited lines in `TOp`. -/
def Template.apply (t : Template) : TOp → Except Err Unit × Template
  | .setYield v => keepOnError t (t.setYield v)
  | .setNui v => keepOnError t (t.setNui v)
  | .setParams v => keepOnError t (t.setParams v)
  | .reset h => (.ok (), t.reset h)
  | .addCovMat m => t.addCovMat m
  | .addVariation h x y up down => t.addVariation h x y up down

/-- State after a sequence of calls, raising calls included; see the cited lines in `TOp`. -/
def Template.run (t : Template) (ops : List TOp) : Template := ops.foldl (fun t o => (t.apply o).2) t

end

end TF
