import Verif.Model.Legacy
import Verif.Model.Plot

/-!
# The legacy modules as a system of objects

histogram_legacy.py `Hist1d` and the remaining properties of `Histogram` and `Hist2d`; templates_legacy.py and nll.py with
reference semantics: histograms, templates, stacks and likelihoods are objects that refer to each other.

Simplifications: a template's `limits` is a tuple (Python compares a list and a tuple as unequal); a data frame is its list of
(value, weight) rows, `KeyError` for missing columns is left out; parameter arrays are values: that
`update_parameters` stores views of the caller's array is left out, and so are in-place changes by the caller of an array
obtained from a property. The bin contents of a dataset *are* shared: a likelihood reads them from the histogram object.
-/

namespace TF

open Classical

noncomputable section

/-! ### histogram_legacy.py `Histogram`, remaining properties -/

/-- histogram_legacy.py:100-103 `Histogram.bin_width` -/
def LHist.binWidth (h : LHist) : Except Err ℝ :=
  match h.edges with
  | a :: b :: _ => .ok (b - a)
  | _ => .error .indexError

/-- histogram_legacy.py:105-109 `Histogram.bin_mids` -/
def LHist.binMids (h : LHist) : List ℝ := List.zipWith (fun a b => (a + b) / 2) h.edges h.edges.tail

/-- histogram_legacy.py:134-139 `Histogram.bin_rel_errors`: division without a guard, then zeros become 1e-7 -/
def LHist.binRelErrors (h : LHist) : Except Err Vec := do
  let r ← bop (· / ·) (h.errSq.data.map Fl.sqrt) h.counts.data
  return r.map fun x => if x = 0 then Fl.fin 1e-7 else x

/-- histogram_legacy.py:116-118 `Histogram.bin_counts` setter (assigns whatever is given) -/
def LHist.setCounts (h : LHist) (v : NdArr) : LHist := { h with counts := v }

/-- histogram_legacy.py:130-132 `Histogram.bin_errors` setter -/
def LHist.setErrors (h : LHist) (v : NdArr) : LHist := { h with errSq := v.map Fl.sq }

/-! ### histogram_legacy.py `Hist1d` -/

/-- State of a legacy `Hist1d` (histogram_legacy.py:173-178, 241-256). `_limits` is only handed on to scipy, which ignores it when
it is given edges. -/
structure LH1 where
  edges : Edges
  counts : NdArr
  errSq : NdArr

/-- `bins` argument of the legacy `Hist1d` (histogram_legacy.py:243-250) -/
inductive LBins where
  | int (n : ℤ)
  | edges (e : Edges)

/-- histogram_legacy.py:241-253 `Hist1d.__init__` without data: `np.linspace(*None, …)` raises TypeError, a negative number of bins
ValueError, `np.amin` of no edges ValueError -/
def LH1.init (bins : LBins) (limits : Option (ℝ × ℝ)) : Except Err LH1 :=
  match bins with
  | .int n =>
    match limits with
    | none => .error .typeError
    | some (lo, hi) =>
      if n < 0 then .error .valueError
      else .ok ⟨⟨true, linspace lo hi (n.toNat + 1)⟩, NdArr.zeros [n.toNat], NdArr.zeros [n.toNat]⟩
  | .edges e =>
    if e.vals = [] then .error .valueError
    else .ok ⟨e, NdArr.zeros [e.vals.length - 1], NdArr.zeros [e.vals.length - 1]⟩

/-- histogram_legacy.py:285-315 `Hist1d.fill`: counts are added before `weights ** 2` is formed; lengths are checked by scipy only -/
def LH1.fill (h : LH1) (data : Vec) (w : Weights) : Except Err Unit × LH1 :=
  let ws := w.values data.length
  match binnedSum h.edges.vals data ws with
  | .error e => (.error e, h)
  | .ok s =>
    match h.counts.iadd s with
    | .error e => (.error e, h)
    | .ok c =>
      let h1 := { h with counts := c }
      if w.noPow then (.error .typeError, h1)
      else match binnedSum h.edges.vals data (ws.map Fl.sq) with
        | .error e => (.error e, h1)
        | .ok s2 =>
          match h1.errSq.iadd s2 with
          | .error e => (.error e, h1)
          | .ok q => (.ok (), { h1 with errSq := q })

/-- histogram_legacy.py:241-256 `Hist1d(bins, limits, data, weights)` -/
def LH1.new (bins : LBins) (limits : Option (ℝ × ℝ)) (data : Option Vec) (w : Weights) : Except Err LH1 :=
  match LH1.init bins limits with
  | .error e => .error e
  | .ok h =>
    match data with
    | none => .ok h
    | some d =>
      match h.fill d w with
      | (.ok (), h') => .ok h'
      | (.error e, _) => .error e

/-- histogram_legacy.py:258-283 `Hist1d.from_binned_data(bin_edges, bin_counts, bin_errors)` -/
def LH1.fromBinned (edges : Edges) (counts : Vec) (errors : Option Vec) : Except Err LH1 :=
  match LH1.init (.edges edges) none with
  | .error e => .error e
  | .ok h =>
    let errs := errors.getD (counts.map Fl.sqrt)
    .ok { h with counts := ⟨[counts.length], counts⟩, errSq := ⟨[errs.length], errs.map Fl.sq⟩ }

/-- histogram_legacy.py:204-208 `bin_errors` -/
def LH1.binErrors (h : LH1) : NdArr := h.errSq.map Fl.sqrt

/-- histogram_legacy.py:189-192 `bin_mids` -/
def LH1.binMids (h : LH1) : Except Err (List ℝ) := TF.binMids h.edges

/-- histogram_legacy.py:194-197 `bin_width` -/
def LH1.binWidth (h : LH1) : Except Err ℝ :=
  match h.edges.vals with
  | a :: b :: _ => .ok (b - a)
  | _ => .error .indexError

/-! ### templates_legacy.py `Template`, remaining methods -/

/-- bin edges of a template: those of its histogram `Hist1d(num_bins, limits, …)`; templates_legacy.py:149-155, 77-80 -/
def LTemplate.edges (t : LTemplate) : Edges := ⟨true, linspace t.lo t.hi (t.numBins + 1)⟩

/-- templates_legacy.py:144-169 `Template(name, variable, num_bins, limits, df)`: the histogram is filled from the columns of the data
frame (`rows` holds value and weight of each row) -/
def LTemplate.make (name var : String) (numBins : ℤ) (lo hi : ℝ) (rows : List (Fl × Fl)) : Except Err LTemplate :=
  match LH1.new (.int numBins) (some (lo, hi)) (some (rows.map (·.1))) (.array (rows.map (·.2))) with
  | .error e => .error e
  | .ok h => .ok (LTemplate.new name var numBins.toNat lo hi h.counts.data h.errSq.data)

/-- templates_legacy.py:212-216 `errors` -/
def LTemplate.errors (t : LTemplate) : Except Err Vec := do
  let v ← t.values
  bop (· * ·) t.relErr v

/-- templates_legacy.py:276-297 `generate_asimov_dataset` -/
def LTemplate.asimov (t : LTemplate) (integer : Bool) : Except Err LH1 :=
  match t.values with
  | .error e => .error e
  | .ok v => LH1.fromBinned t.edges (if integer then v.map Fl.rint else v) none

/-- templates_legacy.py:299-310 `generate_toy_dataset`; `draw` is the random generator -/
def LTemplate.toy (t : LTemplate) (draw : Vec → ℕ → ℕ) : Except Err LH1 :=
  match t.values with
  | .error e => .error e
  | .ok v =>
    if poissonOk v then
      LH1.fromBinned t.edges ((List.range v.length).map fun i => Fl.fin (draw v i : ℝ)) none
    else .error .valueError

/-- templates_legacy.py:256-274 `plot_on`: the bars need `self.values - self.errors()`, a method minus an array, which raises TypeError
(`height` is evaluated before it) -/
def LTemplate.plotOn (t : LTemplate) : Except Err Unit × List Draw :=
  match TF.binMids t.edges with
  | .error e => (.error e, [])
  | .ok mids =>
    match t.values with
    | .error e => (.error e, [])
    | .ok v =>
      let d1 := Draw.hist [mids] [v] t.edges.vals []
      match t.errors with
      | .error e => (.error e, [d1])
      | .ok _ => (.error .typeError, [d1])

/-! ### templates_legacy.py `StackedTemplate`, methods that only read -/

/-- the templates in dict order -/
def Stacked.list (s : Stacked) : List LTemplate := s.templates.map (·.2)

/-- templates_legacy.py:397 the bin edges of the stack -/
def Stacked.edges (s : Stacked) : Edges := ⟨true, linspace s.lo s.hi (s.numBins + 1)⟩

/-- templates_legacy.py:477-486 `values`. (Without templates numpy returns the number 0.0; here the empty vector.) -/
def Stacked.values (s : Stacked) : Except Err Vec :=
  match mapE LTemplate.values s.list with
  | .error e => .error e
  | .ok vs => sumRows vs

/-- templates_legacy.py:463-475 `errors` -/
def Stacked.errors (s : Stacked) : Except Err Vec :=
  match mapE LTemplate.errors s.list with
  | .error e => .error e
  | .ok es => quadSum es

/-- templates_legacy.py:559-580 `generate_asimov_dataset` -/
def Stacked.asimov (s : Stacked) (integer : Bool) : Except Err LH1 :=
  match s.values with
  | .error e => .error e
  | .ok v => LH1.fromBinned s.edges (if integer then v.map Fl.rint else v) none

/-- templates_legacy.py:582-593 `generate_toy_dataset` -/
def Stacked.toy (s : Stacked) (draw : Vec → ℕ → ℕ) : Except Err LH1 :=
  match s.values with
  | .error e => .error e
  | .ok v =>
    if poissonOk v then
      LH1.fromBinned s.edges ((List.range v.length).map fun i => Fl.fin (draw v i : ℝ)) none
    else .error .valueError

/-- templates_legacy.py:515-557 `plot_on`: the stacked histograms, then the bars (one common bin width); `bin_mids[0]` raises IndexError
without templates, but `ax.hist` of no data sets is called before it -/
def Stacked.plotOn (s : Stacked) : Except Err Unit × List Draw :=
  match TF.binMids s.edges with
  | .error e => (.error e, [])
  | .ok mids =>
    match mapE LTemplate.values s.list with
    | .error e => (.error e, [])
    | .ok vs =>
      let d1 := Draw.hist (s.list.map fun _ => mids) vs s.edges.vals (s.list.map (·.name))
      match s.errors with
      | .error e => (.error e, [d1])
      | .ok unc =>
        match sumRows vs with
        | .error e => (.error e, [d1])
        | .ok tot =>
          match s.list with
          | [] => (.error .indexError, [d1])
          | _ =>
            match s.edges.vals with
            | a :: b :: _ =>
              match barOf mids unc [b - a] tot with
              | .error e => (.error e, [d1])
              | .ok d2 => (.ok (), [d1, d2])
            | _ => (.error .indexError, [d1])

/-- nll.py:123-134 `param_names`; `template_names` (templates_legacy.py:718-721) are the names of the templates, not their ids -/
def Stacked.paramNames (s : Stacked) : List String :=
  (s.list.map fun t => t.name ++ "_yield") ++
    (s.list.map fun t => (List.range s.numBins).map fun i => t.name ++ "_nui" ++ ("_" ++ toString i)).flatten

/-! ### the objects -/

/-- State of a `StackedTemplate` object (templates_legacy.py:391-401): the dict refers to template objects. -/
structure LStack where
  name : String
  variable_ : String
  numBins : ℕ
  lo : ℝ
  hi : ℝ
  templates : List (String × ℕ)

/-- State of a likelihood object (nll.py:34-38, 111-114): it refers to the dataset's array of bin contents and to the stack, and holds the
block matrix computed when it was made. -/
structure LNllObj where
  hist : ℕ
  stack : ℕ
  block : Mat

/-- All legacy objects made so far, numbered in the order of their creation. -/
structure LSys where
  hists : List LH1
  tmpls : List LTemplate
  stks : List LStack
  nlls : List LNllObj

/-- nothing made yet -/
def LSys.empty : LSys := ⟨[], [], [], []⟩

/-- what stands for an object that does not exist (never read in reachable states) -/
def LTemplate.dummy : LTemplate := LTemplate.new "" "" 0 0 0 [] []

/-- template object number `t` -/
def LSys.tmpl (s : LSys) (t : ℕ) : LTemplate := s.tmpls.getD t LTemplate.dummy

/-- the stack with its dict entries replaced by the present state of the templates they refer to -/
def LSys.look (s : LSys) (S : LStack) : Stacked :=
  ⟨S.variable_, S.numBins, S.lo, S.hi, S.templates.map fun p => (p.1, s.tmpl p.2)⟩

/-- `for template, v in zip(self._template_dict.values(), vs): template.attribute = v`;
templates_legacy.py:671-672, 685-686, 699-701, 714-716 -/
def setAll {α : Type} (f : LTemplate → α → LTemplate) : List ℕ → List α → List LTemplate → List LTemplate
  | i :: is, v :: vs, ts => setAll f is vs (ts.modify i fun t => f t v)
  | _, _, ts => ts

/-- templates_legacy.py:330-332 `yield_param_values` setter of one template -/
def LTemplate.setYield (t : LTemplate) (v : Fl) : LTemplate := { t with yieldP := { t.yieldP with value := v } }

/-- templates_legacy.py:339-341 -/
def LTemplate.setYieldErr (t : LTemplate) (v : Fl) : LTemplate := { t with yieldP := { t.yieldP with error := v } }

/-- templates_legacy.py:354-356 -/
def LTemplate.setNui (t : LTemplate) (v : Vec) : LTemplate := { t with nuiP := { t.nuiP with value := v } }

/-- templates_legacy.py:364-366 -/
def LTemplate.setNuiErr (t : LTemplate) (v : Vec) : LTemplate := { t with nuiP := { t.nuiP with error := v } }

/-- templates_legacy.py:617-637 `update_parameters` on the objects -/
def updateObjs (ids : List ℕ) (x err : Vec) (ts : List LTemplate) : Except Err Unit × List LTemplate :=
  let K := ids.length
  let t1 := setAll LTemplate.setYield ids (x.take K) ts
  match splitEq (x.drop K) K with
  | .error e => (.error e, t1)
  | .ok ns =>
    let t3 := setAll LTemplate.setYieldErr ids (err.take K) (setAll LTemplate.setNui ids ns t1)
    match splitEq (err.drop K) K with
    | .error e => (.error e, t3)
    | .ok es => (.ok (), setAll LTemplate.setNuiErr ids es t3)

/-- templates_legacy.py:595-600 `reset_parameters` on the objects -/
def resetObjs (ids : List ℕ) (ts : List LTemplate) : List LTemplate :=
  ids.foldl (fun ts i => ts.modify i LTemplate.reset) ts

/-- The public calls that make or change objects; objects are named by their number. -/
inductive LCmd where
  | newHist (bins : LBins) (limits : Option (ℝ × ℝ)) (data : Option Vec) (w : Weights)
  | fromBinned (edges : Edges) (counts : Vec) (errors : Option Vec)
  | fill (h : ℕ) (data : Vec) (w : Weights)
  | newTemplate (name var : String) (numBins : ℤ) (lo hi : ℝ) (rows : List (Fl × Fl))
  | addCov (t : ℕ) (m : Mat)
  | setYield (t : ℕ) (v : Fl)
  | setYieldErr (t : ℕ) (v : Fl)
  | setNui (t : ℕ) (v : Vec)
  | setNuiErr (t : ℕ) (v : Vec)
  | resetTemplate (t : ℕ)
  | templateAsimov (t : ℕ) (integer : Bool)
  | templateToy (t : ℕ) (draw : Vec → ℕ → ℕ)
  | newStack (name var : String) (numBins : ℤ) (lo hi : ℝ)
  | addTemplate (S : ℕ) (tid : String) (t : ℕ)
  | createTemplate (S : ℕ) (tid : String) (rows : List (Fl × Fl))
  | update (S : ℕ) (x err : Vec)
  | resetStack (S : ℕ)
  | stackAsimov (S : ℕ) (integer : Bool)
  | stackToy (S : ℕ) (draw : Vec → ℕ → ℕ)
  | createNll (S h : ℕ)

/-- put a new histogram object on the heap -/
def LSys.addHist (s : LSys) : Except Err LH1 → Except Err Unit × LSys
  | .error e => (.error e, s)
  | .ok h => (.ok (), { s with hists := s.hists ++ [h] })

/-- change template object `t` -/
def LSys.onTmpl (s : LSys) (t : ℕ) (f : LTemplate → Except Err Unit × LTemplate) : Except Err Unit × LSys :=
  match s.tmpls[t]? with
  | none => (.error .unboundLocalError, s)
  | some T => ((f T).1, { s with tmpls := s.tmpls.set t (f T).2 })

/-- templates_legacy.py:391-401 `StackedTemplate(name, variable, num_bins, limits)`: `np.linspace` refuses a negative number of points;
`_bin_edges[1]` needs two of them -/
def LStack.new (name var : String) (numBins : ℤ) (lo hi : ℝ) : Except Err LStack :=
  if numBins < -1 then .error .valueError
  else if numBins < 1 then .error .indexError
  else .ok ⟨name, var, numBins.toNat, lo, hi, []⟩

/-- templates_legacy.py:455-461 `_check_template_validity` -/
def LStack.accepts (S : LStack) (t : LTemplate) : Prop :=
  S.variable_ = t.variable_ ∧ S.numBins = t.numBins ∧ S.lo = t.lo ∧ S.hi = t.hi

/-- One call. The result says whether it returned or which exception it raised; a new object gets the next free number. A number that
belongs to no object is an unbound name. -/
def LSys.step (s : LSys) : LCmd → Except Err Unit × LSys
  | .newHist bins limits data w => s.addHist (LH1.new bins limits data w)
  | .fromBinned edges counts errors => s.addHist (LH1.fromBinned edges counts errors)
  | .fill h data w =>
    match s.hists[h]? with
    | none => (.error .unboundLocalError, s)
    | some H => ((H.fill data w).1, { s with hists := s.hists.set h (H.fill data w).2 })
  | .newTemplate name var numBins lo hi rows =>
    match LTemplate.make name var numBins lo hi rows with
    | .error e => (.error e, s)
    | .ok T => (.ok (), { s with tmpls := s.tmpls ++ [T] })
  | .addCov t m => s.onTmpl t fun T => T.addCov m
  | .setYield t v => s.onTmpl t fun T => (.ok (), T.setYield v)
  | .setYieldErr t v => s.onTmpl t fun T => (.ok (), T.setYieldErr v)
  | .setNui t v => s.onTmpl t fun T => (.ok (), T.setNui v)
  | .setNuiErr t v => s.onTmpl t fun T => (.ok (), T.setNuiErr v)
  | .resetTemplate t => s.onTmpl t fun T => (.ok (), T.reset)
  | .templateAsimov t integer =>
    match s.tmpls[t]? with
    | none => (.error .unboundLocalError, s)
    | some T => s.addHist (T.asimov integer)
  | .templateToy t draw =>
    match s.tmpls[t]? with
    | none => (.error .unboundLocalError, s)
    | some T => s.addHist (T.toy draw)
  | .newStack name var numBins lo hi =>
    match LStack.new name var numBins lo hi with
    | .error e => (.error e, s)
    | .ok S => (.ok (), { s with stks := s.stks ++ [S] })
  -- templates_legacy.py:403-420
  | .addTemplate S tid t =>
    match s.stks[S]?, s.tmpls[t]? with
    | some K, some T =>
      if K.accepts T then
        (.ok (), { s with stks := s.stks.set S { K with templates := dictSet K.templates tid t } })
      else (.error .valueError, s)
    | _, _ => (.error .unboundLocalError, s)
  -- templates_legacy.py:422-439
  | .createTemplate S tid rows =>
    match s.stks[S]? with
    | none => (.error .unboundLocalError, s)
    | some K =>
      match LTemplate.make tid K.variable_ K.numBins K.lo K.hi rows with
      | .error e => (.error e, s)
      | .ok T => (.ok (), { s with
          tmpls := s.tmpls ++ [T]
          stks := s.stks.set S { K with templates := dictSet K.templates tid s.tmpls.length } })
  | .update S x err =>
    match s.stks[S]? with
    | none => (.error .unboundLocalError, s)
    | some K =>
      let r := updateObjs (K.templates.map (·.2)) x err s.tmpls
      (r.1, { s with tmpls := r.2 })
  | .resetStack S =>
    match s.stks[S]? with
    | none => (.error .unboundLocalError, s)
    | some K => (.ok (), { s with tmpls := resetObjs (K.templates.map (·.2)) s.tmpls })
  | .stackAsimov S integer =>
    match s.stks[S]? with
    | none => (.error .unboundLocalError, s)
    | some K => s.addHist ((s.look K).asimov integer)
  | .stackToy S draw =>
    match s.stks[S]? with
    | none => (.error .unboundLocalError, s)
    | some K => s.addHist ((s.look K).toy draw)
  -- templates_legacy.py:602-615, nll.py:111-114
  | .createNll S h =>
    match s.stks[S]?, s.hists[h]? with
    | some K, some _ =>
      (.ok (), { s with nlls := s.nlls ++ [⟨h, S, blockDiag ((s.look K).list.map (·.invCorr))⟩] })
    | _, _ => (.error .unboundLocalError, s)

/-- state after a history of calls, whether they return or raise -/
def LSys.run (s : LSys) (cmds : List LCmd) : LSys := cmds.foldl (fun s c => (s.step c).2) s

/-- the stack with number `S`, as it is now -/
def LSys.stack (s : LSys) (S : ℕ) : Option Stacked := (s.stks[S]?).map s.look

/-- nll.py:136-158 calling likelihood object `n`: the contents of the dataset and the templates are read now, the block matrix is the one
stored at creation -/
def LSys.nll (s : LSys) (n : ℕ) (x : Vec) : Except Err Fl :=
  match s.nlls[n]? with
  | none => .error .unboundLocalError
  | some N =>
    match s.stks[N.stack]?, s.hists[N.hist]? with
    | some K, some H => LNll.call ⟨H.counts.data, N.block⟩ (s.look K) x
    | _, _ => .error .unboundLocalError

end

end TF
