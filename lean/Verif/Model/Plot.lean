import Verif.Model.Channel

/-!
# Plotting: what is handed to matplotlib

templatefitter/templates/channel.py `plot_stacked_on`, `plot_post_fit_stacked_on`, `_get_projection`;
template1d.py `plot_on`; template2d.py `plot_on`, `plot_x_projection_on`, `plot_y_projection_on`,
`_plot_projection`; the `bin_mids` and `bin_widths` properties of the histogram classes.

A call to matplotlib is a value of type `Draw` holding the data arguments; colours, hatches, line styles and axis
titles are left out, and labels are the template names (no `pretty_label`). What was drawn before an
exception stays on the axes: the methods return the list of calls made and the exception.
-/

namespace TF

open Classical

noncomputable section

/-- a call of a matplotlib axes method, data arguments only -/
inductive Draw where
  /-- `ax.hist(x, weights=..., bins=edges, label=..., stacked=True, histtype="stepfilled")`: one data set per list -/
  | hist (x : List (List ℝ)) (weights : List Vec) (edges : List ℝ) (labels : List String)
  /-- `ax.bar(x, height, width, bottom)` -/
  | bar (x : List ℝ) (height : Vec) (width : List ℝ) (bottom : Vec)
  /-- `ax.errorbar(x, y, yerr)` -/
  | errorbar (x : List ℝ) (y yerr : Vec)
  /-- `ax.hist2d(x, y, weights=..., bins=[ex, ey], label=...)` -/
  | hist2d (x y : List ℝ) (weights : Vec) (ex ey : List ℝ) (label : String)

/-- `[f(x) for x in l]` where `f` may raise -/
def mapE {α β : Type} (f : α → Except Err β) : List α → Except Err (List β)
  | [] => .ok []
  | a :: l =>
    match f a with
    | .error e => .error e
    | .ok b =>
      match mapE f l with
      | .error e => .error e
      | .ok bs => .ok (b :: bs)

/-- the bin edges of one axis: `_bin_edges` of a 1-d histogram (axis 0), `_bin_edges[axis]` of a 2-d one;
abstract_hist.py:38-40, hist2d.py:103-109 `x_edges`, `y_edges` -/
def Hist.axisEdges (h : Hist) (axis : ℕ) : Edges := h.edges.getD axis ⟨true, []⟩

/-- hist1d.py:104-106 `Hist1d.bin_mids` -/
def Hist1d.binMids (h : Hist) : Except Err (List ℝ) := TF.binMids (h.axisEdges 0)

/-- hist1d.py:108-110 `Hist1d.bin_widths` -/
def Hist1d.binWidths (h : Hist) : Except Err (List ℝ) := TF.binWidths (h.axisEdges 0)

/-- hist2d.py:87-89 `Hist2d.bin_mids` -/
def Hist2d.binMids (h : Hist) : Except Err (List (List ℝ)) := mapE TF.binMids h.edges

/-- hist2d.py:91-93 `Hist2d.bin_widths` -/
def Hist2d.binWidths (h : Hist) : Except Err (List (List ℝ)) := mapE TF.binWidths h.edges

/-- `np.sum(a, axis=0)` of a matrix -/
def Mat.colSums (m : Mat) : Vec := (List.range m.cols).map fun j => ((List.range m.rows).map fun i => m.e i j).sum

/-- `np.sum(np.array(rows), axis=0)`; channel.py:245-247, 321 -/
def sumRows (rows : List Vec) : Except Err Vec :=
  match stackRows rows with
  | .error e => .error e
  | .ok m => .ok m.colSums

/-- `np.sqrt(np.sum(np.array([r ** 2 for r in rows]), axis=0))`; channel.py:241-245 -/
def quadSum (rows : List Vec) : Except Err Vec :=
  match sumRows (rows.map (·.map Fl.sq)) with
  | .error e => .error e
  | .ok v => .ok (v.map Fl.sqrt)

/-- `ax.bar(x, height=2 * unc, width, bottom=total - unc)`; channel.py:249-259, 323-333, template1d.py:75-84,
template2d.py:125-134 -/
def barOf (mids : List ℝ) (unc : Vec) (widths : List ℝ) (total : Vec) : Except Err Draw :=
  match bop (· - ·) total unc with
  | .error e => .error e
  | .ok b => .ok (.bar mids (unc.map (Fl.fin 2 * ·)) widths b)

/-- the local variables of channel.py:211-229 and 281-298 -/
structure StackData where
  mids : List (List ℝ)
  edges : List ℝ
  widths : List ℝ
  values : List Vec
  labels : List String

/-- channel.py:211-229 (and the same statements in 281-298): `None > 1` raises TypeError; without templates `next` raises
StopIteration. `template.bin_mids` etc. are those of its histogram (abstract_template.py:58-68). -/
def World.stackData (w : World) (c : ℕ) : Except Err StackData :=
  match (w.chans c).dim with
  | none => .error .typeError
  | some d =>
    if 1 < d then .error .notImplementedError
    else match mapE (fun t => Hist1d.binMids (w.hists t.hist)) (w.chanTmpls c) with
    | .error e => .error e
    | .ok mids =>
      match w.chanTmpls c with
      | [] => .error .stopIteration
      | t0 :: _ =>
        match Hist1d.binWidths (w.hists t0.hist) with
        | .error e => .error e
        | .ok widths =>
          match mapE Template.values (w.chanTmpls c) with
          | .error e => .error e
          | .ok vals => .ok ⟨mids, ((w.hists t0.hist).axisEdges 0).vals, widths, vals.map (·.data),
              (w.chanTmpls c).map (·.name)⟩

/-- the last part of both methods, channel.py:261-278, 335-352: the data points -/
def World.plotData (w : World) (c : ℕ) : Except Err Unit × List Draw :=
  match (w.chans c).hdata with
  | none => (.ok (), [])
  | some hid =>
    match Hist1d.binMids (w.hists hid) with
    | .error e => (.error e, [])
    | .ok mids => (.ok (), [.errorbar mids (w.hists hid).counts.data ((w.hists hid).errSq.data.map Fl.sqrt)])

/-- channel.py:230-278, 299-352 with the band `unc` (computed after the stack is drawn) -/
def World.plotStack (w : World) (c : ℕ) (unc : Except Err Vec) : Except Err Unit × List Draw :=
  match w.stackData c with
  | .error e => (.error e, [])
  | .ok d =>
    let d1 := Draw.hist d.mids d.values d.edges d.labels
    match unc with
    | .error e => (.error e, [d1])
    | .ok u =>
      match sumRows d.values with
      | .error e => (.error e, [d1])
      | .ok total =>
        match barOf (d.mids.headD []) u d.widths total with
        | .error e => (.error e, [d1])
        | .ok d2 =>
          let r := w.plotData c
          (r.1, d1 :: d2 :: r.2)

/-- channel.py:241-245 `total_uncertainty` -/
def World.preFitBand (w : World) (c : ℕ) : Except Err Vec :=
  match mapE Template.errors (w.chanTmpls c) with
  | .error e => .error e
  | .ok errs => quadSum (errs.map (·.data))

/-- channel.py:209-278 `plot_stacked_on` -/
def World.plotStackedOn (w : World) (c : ℕ) : Except Err Unit × List Draw := w.plotStack c (w.preFitBand c)

/-- the argument `post_fit_uncertainties` with what is needed of `result_params`: for "propagate" the numerical
Jacobian and the covariance matrix, for "scale" the parameter errors -/
inductive BandMode where
  | propagate (jac cov : Mat)
  | scale (errors : Vec)
  | other

/-- channel.py:315-319: `errors[n:].reshape((n, -1))` times the stacked template errors, in quadrature over templates -/
def World.scaledBand (w : World) (c : ℕ) (errors : Vec) : Except Err Vec :=
  match splitEq (errors.drop (w.chanTmpls c).length) (w.chanTmpls c).length with
  | .error e => .error e
  | .ok nui =>
    match mapE Template.errors (w.chanTmpls c) with
    | .error e => .error e
    | .ok errs =>
      match stackRows (errs.map (·.data)) with
      | .error e => .error e
      | .ok _ =>
        match mapE (fun p => bop (· * ·) p.1 p.2) (nui.zip (errs.map (·.data))) with
        | .error e => .error e
        | .ok rows => quadSum rows

/-- channel.py:311-319; any other string leaves `post_fit_errors` unassigned -/
def World.postFitBand (w : World) (c : ℕ) : BandMode → Except Err Vec
  | .propagate jac cov => .ok (postFitBinUncertainty jac cov)
  | .scale errors => w.scaledBand c errors
  | .other => .error .unboundLocalError

/-- channel.py:280-352 `plot_post_fit_stacked_on` -/
def World.plotPostFitOn (w : World) (c : ℕ) (mode : BandMode) : Except Err Unit × List Draw :=
  w.plotStack c (w.postFitBand c mode)

/-- channel.py:400-404 `_get_projection` -/
def getProjection (ax : String) (bc : NdArr) : Except Err NdArr :=
  if ax = "x" then .ok bc.sumAxis1
  else if ax = "y" then .ok bc.sumAxis0
  else .error .keyError

/-- template2d.py:113-134 `_plot_projection`, and template1d.py:64-84 (where values and errors are those of the template and
`projection` is its histogram) -/
def plotProjection (name : String) (values : Vec) (errors : Except Err Vec) (p : Hist) : Except Err Unit × List Draw :=
  match Hist1d.binMids p with
  | .error e => (.error e, [])
  | .ok mids =>
    let d1 := Draw.hist [mids] [values] (p.axisEdges 0).vals [name]
    match errors with
    | .error e => (.error e, [d1])
    | .ok errs =>
      match Hist1d.binWidths p with
      | .error e => (.error e, [d1])
      | .ok widths =>
        match barOf mids errs widths values with
        | .error e => (.error e, [d1])
        | .ok d2 => (.ok (), [d1, d2])

/-- template1d.py:64-88 `Template1d.plot_on` -/
def Template1d.plotOn (t : Template) (h : Hist) : Except Err Unit × List Draw :=
  match Hist1d.binMids h with
  | .error e => (.error e, [])
  | .ok _ =>
    match t.values with
    | .error e => (.error e, [])
    | .ok v => plotProjection t.name v.data (t.errors.map (·.data)) h

/-- template2d.py:62-89 `Template2d.plot_on`: all pairs of bin mids, with the flattened values as weights -/
def Template2d.plotOn (t : Template) (h : Hist) : Except Err Unit × List Draw :=
  match Hist2d.binMids h with
  | .error e => (.error e, [])
  | .ok mids =>
    let xe := mids.getD 0 []
    let ye := mids.getD 1 []
    let xy := xe.flatMap fun x => ye.map fun y => (x, y)
    match t.values with
    | .error e => (.error e, [])
    | .ok v => (.ok (), [.hist2d (xy.map (·.1)) (xy.map (·.2)) v.data (h.axisEdges 0).vals (h.axisEdges 1).vals t.name])

/-- template2d.py:91-100 `plot_x_projection_on` -/
def Template2d.plotXProjectionOn (t : Template) (h : Hist) : Except Err Unit × List Draw :=
  match t.values, t.errors, Hist2d.xProjection h with
  | .error e, _, _ => (.error e, [])
  | _, .error e, _ => (.error e, [])
  | _, _, .error e => (.error e, [])
  | .ok v, .ok s, .ok p =>
    plotProjection t.name v.sumAxis1.data (.ok ((s.map Fl.sq).sumAxis1.map Fl.sqrt).data) p

/-- template2d.py:102-111 `plot_y_projection_on` -/
def Template2d.plotYProjectionOn (t : Template) (h : Hist) : Except Err Unit × List Draw :=
  match t.values, t.errors, Hist2d.yProjection h with
  | .error e, _, _ => (.error e, [])
  | _, .error e, _ => (.error e, [])
  | _, _, .error e => (.error e, [])
  | .ok v, .ok s, .ok p =>
    plotProjection t.name v.sumAxis0.data (.ok ((s.map Fl.sq).sumAxis0.map Fl.sqrt).data) p

end

end TF
