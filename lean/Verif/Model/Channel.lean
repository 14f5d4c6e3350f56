import Verif.Model.Template

/-!
# templatefitter/templates/channel.py

Channels, templates and histograms are Python objects shared by reference; they live in the
heap `World` and are addressed by ids. The three `lru_cache` decorated methods share one cache
each for *all* channels (the decorator sits on the class), keyed by the channel's identity;
they are part of `World`.
-/

namespace TF

open Classical

noncomputable section

/-- State of a `Channel` (channel.py:32-43). `ttype`/`htype` are `_template_type`/`_htype`. -/
structure Channel where
  name : String
  bins : List ℕ
  range : PyRange
  processes : List String
  templates : List (String × ℕ)
  effs : List (String × Fl)
  hdata : Option ℕ
  dim : Option ℕ
  ttype : Option TmplCls
  htype : Option HistCls

/-- The heap of Python objects plus the method caches. -/
structure World where
  hists : ℕ → Hist
  nHists : ℕ
  tmpls : ℕ → Template
  nTmpls : ℕ
  chans : ℕ → Channel
  nChans : ℕ
  idxCache : Lru (ℕ × List String) (List ℕ)
  effCache : Lru ℕ Vec
  invCache : Lru ℕ Mat

/-- `bins` argument of `Channel`: an int or a tuple of ints. -/
inductive ChanBins where
  | int (n : ℕ)
  | tuple (ns : List ℕ)

/-- channel.py:38 -/
def ChanBins.toTuple : ChanBins → List ℕ
  | .int n => [n]
  | .tuple ns => ns

/-- channel.py:32-43 `Channel.__init__` -/
def Channel.new (name : String) (bins : ChanBins) (range : PyRange) : Channel :=
  ⟨name, bins.toTuple, range, [], [], [], none, none, none, none⟩

/-- channel.py:46-48 `num_templates` -/
def Channel.numTemplates (c : Channel) : ℕ := c.processes.length

/-- channel.py:56-58 `num_bins` (product over the axes; for an empty tuple Python's `reduce`
raises, here the product is 1) -/
def Channel.numBins (c : Channel) : ℕ := c.bins.prod

/-- channel.py:87-89 `num_nui_params` -/
def Channel.numNui (c : Channel) : ℕ := c.numTemplates * c.numBins

/-- channel.py:91-93 `processes` -/
def Channel.procs (c : Channel) : List String := c.templates.map (·.1)

/-! ### heap access -/

/-- replace template `i` -/
def World.setTmpl (w : World) (i : ℕ) (t : Template) : World :=
  { w with tmpls := Function.update w.tmpls i t }

/-- replace channel `i` -/
def World.setChan (w : World) (i : ℕ) (c : Channel) : World :=
  { w with chans := Function.update w.chans i c }

/-- replace histogram `i` -/
def World.setHist (w : World) (i : ℕ) (h : Hist) : World :=
  { w with hists := Function.update w.hists i h }

/-- allocate a histogram object -/
def World.newHist (w : World) (h : Hist) : ℕ × World :=
  (w.nHists, { w with hists := Function.update w.hists w.nHists h, nHists := w.nHists + 1 })

/-- allocate a template object -/
def World.newTmpl (w : World) (t : Template) : ℕ × World :=
  (w.nTmpls, { w with tmpls := Function.update w.tmpls w.nTmpls t, nTmpls := w.nTmpls + 1 })

/-- allocate a channel object -/
def World.newChan (w : World) (c : Channel) : ℕ × World :=
  (w.nChans, { w with chans := Function.update w.chans w.nChans c, nChans := w.nChans + 1 })

/-! ### building a channel -/

/-- channel.py:497-500 `_check_template` -/
def Channel.checkTemplate (c : Channel) (t : Template) : Prop := c.bins = t.bins ∧ c.range = t.range

/-- channel.py:502-505 `_check_hist` -/
def Channel.checkHist (c : Channel) (h : Hist) : Prop := c.bins = h.shape ∧ c.range = h.range

/-- channel.py:111-130 `add_template` and 406-426 `_add_template`. `tid` is the template object,
`t` its state, `hcls` the class of its histogram. -/
def Channel.addTemplate (c : Channel) (process : String) (tid : ℕ) (t : Template) (hcls : HistCls)
    (eff : Fl) : Except Err Unit × Channel :=
  if c.checkTemplate t then
    if process ∈ c.procs then (.error .runtimeError, c)
    else
      let c1 := if c.dim = none then { c with dim := some t.bins.length } else c
      let c2 := if c1.ttype = none then { c1 with ttype := some t.cls, htype := some hcls } else c1
      if some t.cls ≠ c2.ttype then (.error .runtimeError, c2)
      else (.ok (), { c2 with
              processes := c2.processes ++ [process]
              templates := dictSet c2.templates process tid
              effs := dictSet c2.effs process eff })
  else (.error .runtimeError, c)

/-- channel.py:132-147 `add_data` -/
def Channel.addData (c : Channel) (hid : ℕ) (h : Hist) : Except Err Unit × Channel :=
  if c.checkHist h then (.ok (), { c with hdata := some hid })
  else (.error .runtimeError, c)

/-! ### cached methods -/

/-- body of channel.py:149-154 `process_indices`; `tuple.index` raises ValueError -/
def computeIndices (procs outer : List String) : Except Err (List ℕ) :=
  match procs with
  | [] => .ok []
  | p :: ps =>
    if p ∈ outer then
      match computeIndices ps outer with
      | .ok l => .ok (outer.idxOf p :: l)
      | .error e => .error e
    else .error .valueError

/-- channel.py:149-154 `process_indices` (lru_cache keyed by channel and argument) -/
def World.processIndices (w : World) (c : ℕ) (outer : List String) :
    Except Err (List ℕ) × World :=
  let r := w.idxCache.call (c, outer) (computeIndices (w.chans c).procs outer)
  (r.1, { w with idxCache := r.2 })

/-- channel.py:459-464 `_get_efficiencies_as_array` (lru_cache keyed by channel) -/
def World.effArray (w : World) (c : ℕ) : Except Err Vec × World :=
  let r := w.effCache.call c (.ok ((w.chans c).effs.map (·.2)))
  (r.1, { w with effCache := r.2 })

/-- the templates of channel `c` in dict order -/
def World.chanTmpls (w : World) (c : ℕ) : List Template :=
  (w.chans c).templates.map fun p => w.tmpls p.2

/-- channel.py:486-491 `_create_block_diag_inv_corr_mat` (lru_cache keyed by channel) -/
def World.invCorrBlock (w : World) (c : ℕ) : Except Err Mat × World :=
  let r := w.invCache.call c (.ok (blockDiag ((w.chanTmpls c).map (·.invCorr))))
  (r.1, { w with invCache := r.2 })

/-! ### likelihood -/

/-- `[template.fractions(nui) for template, nui in zip(templates, pieces)]` -/
def fractionRows : List Template → List Vec → Except Err (List Vec)
  | t :: ts, p :: ps =>
    match t.fractions p with
    | .error e => .error e
    | .ok r =>
      match fractionRows ts ps with
      | .error e => .error e
      | .ok rs => .ok (r :: rs)
  | _, _ => .ok []

/-- channel.py:428-457 `_fractions` -/
def World.chanFractions (w : World) (c : ℕ) (nui : Vec) : Except Err Mat :=
  match splitEq nui (w.chans c).numTemplates with
  | .error e => .error e
  | .ok pieces =>
    match fractionRows (w.chanTmpls c) pieces with
    | .error e => .error e
    | .ok rows => stackRows rows

/-- channel.py:466-484 `_expected_evts_per_bin` -/
def World.expectedEvts (w : World) (c : ℕ) (yields nui : Vec) : Except Err Vec × World :=
  match w.effArray c with
  | (.error e, w1) => (.error e, w1)
  | (.ok eff, w1) =>
    match bop (· * ·) yields eff with
    | .error e => (.error e, w1)
    | .ok v =>
      match w1.chanFractions c nui with
      | .error e => (.error e, w1)
      | .ok F => (vecMat v F, w1)

/-- channel.py:493-495 `_gauss_term` -/
def World.gaussTerm (w : World) (c : ℕ) (nui : Vec) : Except Err Fl × World :=
  match w.invCorrBlock c with
  | (.error e, w1) => (.error e, w1)
  | (.ok B, w1) =>
    match vecMat nui B with
    | .error e => (.error e, w1)
    | .ok v =>
      match dot v nui with
      | .error e => (.error e, w1)
      | .ok q => (.ok (Fl.fin (1 / 2) * q), w1)

/-- channel.py:372 `np.sum(exp - data - xlogyx(data, exp))` -/
def poissonTerm (data expd : Vec) : Except Err Fl := do
  let d ← bop (· - ·) expd data
  let l ← bop xlogyx data expd
  let s ← bop (· - ·) d l
  return npSum s

/-- channel.py:354-375 `nll_contribution`; without data `self._hdata` is `None`. -/
def World.nllContribution (w : World) (c : ℕ) (yields nui : Vec) : Except Err Fl × World :=
  match (w.chans c).hdata with
  | none => (.error .attributeError, w)
  | some hid =>
    match w.expectedEvts c yields nui with
    | (.error e, w1) => (.error e, w1)
    | (.ok expd, w1) =>
      match poissonTerm (w.hists hid).counts.data expd with
      | .error e => (.error e, w1)
      | .ok p =>
        match w1.gaussTerm c nui with
        | (.error e, w2) => (.error e, w2)
        | (.ok g, w2) => (.ok (p + g), w2)

/-- channel.py:166-174 `split_parameter_array` -/
def Channel.splitParams (c : Channel) (x : Vec) : Vec × Vec :=
  (x.take c.numTemplates, x.drop c.numTemplates)

/-- channel.py:200-207 `bin_counts_from_param_values` -/
def World.binCountsFromParams (w : World) (c : ℕ) (x : Vec) : Except Err Vec × World :=
  w.expectedEvts c (x.take (w.chans c).numTemplates) (x.drop (w.chans c).numTemplates)

/-- channel.py:190 `jac @ covariance @ np.transpose(jac)`; the numerical Jacobian is external. -/
def propagateCov (jac cov : Mat) : Mat := (jac.mul cov).mul jac.transpose

/-- channel.py:194-198 `get_post_fit_bin_uncertainty` -/
def postFitBinUncertainty (jac cov : Mat) : Vec := (propagateCov jac cov).diag.map Fl.sqrt

/-! ### parameters -/

/-- one iteration of the loop in channel.py:156-164: assign yield (an ndarray `new_yield * eff`)
then nuisance parameters to template object `tid` -/
def World.updateTmpl (w : World) (tid : ℕ) (eff : Fl) (y nui : Vec) : Except Err Unit × World :=
  match (w.tmpls tid).setYield (.arr (y.map (· * eff))) with
  | .error e => (.error e, w)
  | .ok t1 =>
    match t1.setNui nui with
    | .error e => (.error e, w.setTmpl tid t1)
    | .ok t2 => (.ok (), w.setTmpl tid t2)

/-- the `zip` loop of channel.py:156-164 -/
def World.updateLoop (w : World) : List (String × ℕ) → List (String × Fl) → List Vec → List Vec →
    Except Err Unit × World
  | (_, tid) :: ts, (_, eff) :: es, y :: ys, n :: ns =>
    match w.updateTmpl tid eff y n with
    | (.error e, w1) => (.error e, w1)
    | (.ok (), w1) => w1.updateLoop ts es ys ns
  | _, _, _, _ => (.ok (), w)

/-- channel.py:156-164 `update_parameters` -/
def World.updateChannel (w : World) (c : ℕ) (yields nui : Vec) : Except Err Unit × World :=
  match splitEq yields (w.chans c).numTemplates with
  | .error e => (.error e, w)
  | .ok ys =>
    match splitEq nui (w.chans c).numTemplates with
    | .error e => (.error e, w)
    | .ok ns => w.updateLoop (w.chans c).templates (w.chans c).effs ys ns

/-- channel.py:107-109 `reset` over a list of template objects -/
def World.resetTmpls (w : World) : List (String × ℕ) → World
  | [] => w
  | (_, tid) :: ts =>
    (w.setTmpl tid ((w.tmpls tid).reset (w.hists (w.tmpls tid).hist))).resetTmpls ts

/-- channel.py:107-109 `reset` -/
def World.resetChannel (w : World) (c : ℕ) : World := w.resetTmpls (w.chans c).templates

/-! ### generated data sets -/

/-- `sum([template.values for template in templates])` for a non-empty list -/
def sumValues : List Template → Except Err NdArr
  | [] => .ok ⟨[], [0]⟩
  | [t] => t.values
  | t :: ts =>
    match t.values with
    | .error e => .error e
    | .ok v =>
      match sumValues ts with
      | .error e => .error e
      | .ok s => v.iadd s

/-- `self._htype.from_binned_data(counts, self.bin_edges, np.sqrt(counts))`, the last statement of
channel.py:377-385 and 387-398; `bin_edges` (channel.py:60-62) are those of the first template's
histogram. Without templates `_htype` is `None`. -/
def World.datasetFrom (w : World) (c : ℕ) (counts : NdArr) : Except Err Hist :=
  match (w.chans c).htype, (w.chans c).templates with
  | none, _ => .error .attributeError
  | _, [] => .error .indexError
  | some .h1, (_, tid) :: _ =>
    Hist1d.fromBinned counts ((w.hists (w.tmpls tid).hist).edges.getD 0 ⟨true, []⟩)
      (some (counts.map Fl.sqrt))
  | some .h2, (_, tid) :: _ =>
    Hist2d.fromBinned counts ((w.hists (w.tmpls tid).hist).edges.getD 0 ⟨true, []⟩)
      ((w.hists (w.tmpls tid).hist).edges.getD 1 ⟨true, []⟩) (some (counts.map Fl.sqrt))

/-- channel.py:387-398 `generate_asimov_dataset` -/
def World.asimov (w : World) (c : ℕ) (integer : Bool) : Except Err Hist :=
  match sumValues (w.chanTmpls c) with
  | .error e => .error e
  | .ok s => w.datasetFrom c (if integer then s.map Fl.rint else s)

/-- does `poisson.rvs(mu)` accept these means? (finite, non-negative) -/
def poissonOk (mu : Vec) : Prop := ∀ m ∈ mu, ∃ r : ℝ, m = Fl.fin r ∧ 0 ≤ r

/-- channel.py:377-385 `generate_toy_dataset`; `draw` is the random generator: it returns the
count drawn in each bin for the given means. -/
def World.toy (w : World) (c : ℕ) (draw : Vec → ℕ → ℕ) : Except Err Hist :=
  match sumValues (w.chanTmpls c) with
  | .error e => .error e
  | .ok s =>
    if poissonOk s.data then
      w.datasetFrom c ⟨s.shape, (List.range s.data.length).map fun i => Fl.fin (draw s.data i : ℝ)⟩
    else .error .valueError

end

end TF
