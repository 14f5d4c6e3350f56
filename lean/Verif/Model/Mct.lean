import Verif.Model.Channel

/-!
# templatefitter/templates/multi_channel_template.py

`MultiChannelTemplate` (record `Mct`, the channels are objects of the heap `World`) and
`NegLogLikelihood`, which only holds a reference to the model.

Not modelled: non-string names; `add_data`'s Python restriction of keyword names.
-/

namespace TF

open Classical

noncomputable section

/-- State of a `MultiChannelTemplate` (multi_channel_template.py:18-23): channel dict
(name, channel object), process tuple, constrained processes, constraint values and errors. -/
structure Mct where
  channels : List (String × ℕ)
  processes : List String
  constrained : List String
  cvals : List (String × Fl)
  cerrs : List (String × Fl)

/-- multi_channel_template.py:18-23 `__init__` -/
def Mct.empty : Mct := ⟨[], [], [], [], []⟩

/-- multi_channel_template.py:80-83 `num_processes` -/
def Mct.numProcesses (m : Mct) : ℕ := m.processes.length

/-- `channels.values()` -/
def Mct.chanIds (m : Mct) : List ℕ := m.channels.map (·.2)

/-- multi_channel_template.py:25-28 `num_nui_params` -/
def Mct.numNui (w : World) (m : Mct) : ℕ := (m.chanIds.map fun c => (w.chans c).numNui).sum

/-- multi_channel_template.py:90-97 `add_gaussian_constraint_on_yield` -/
def Mct.addConstraint (m : Mct) (p : String) (v e : Fl) : Except Err Unit × Mct :=
  if p ∉ m.processes then (.error .runtimeError, m)
  else (.ok (), { m with
          constrained := m.constrained ++ [p]
          cvals := dictSet m.cvals p v
          cerrs := dictSet m.cerrs p e })

/-- multi_channel_template.py:111-119 `define_channel` -/
def Mct.defineChannel (w : World) (m : Mct) (name : String) (bins : ChanBins) (range : PyRange) :
    World × Mct :=
  let r := w.newChan (Channel.new name bins range)
  (r.2, { m with channels := dictSet m.channels name r.1 })

/-- multi_channel_template.py:121-135 `define_process` -/
def Mct.defineProcess (m : Mct) (name : String) : Except Err Unit × Mct :=
  if name ∉ m.processes then (.ok (), { m with processes := m.processes ++ [name] })
  else (.error .runtimeError, m)

/-- channel.py:111-130 `add_template` on a channel object of the heap with a template object -/
def World.addTemplate (w : World) (c : ℕ) (process : String) (tid : ℕ) (eff : Fl) :
    Except Err Unit × World :=
  let r := (w.chans c).addTemplate process tid (w.tmpls tid) (w.hists (w.tmpls tid).hist).cls eff
  (r.1, w.setChan c r.2)

/-- channel.py:132-147 `add_data` on a channel object of the heap -/
def World.addData (w : World) (c : ℕ) (hid : ℕ) : Except Err Unit × World :=
  let r := (w.chans c).addData hid (w.hists hid)
  (r.1, w.setChan c r.2)

/-- multi_channel_template.py:137-156 `add_template` -/
def Mct.addTemplate (w : World) (m : Mct) (channel process : String) (tid : ℕ) (eff : Fl) :
    Except Err Unit × World :=
  match dictGet m.channels channel with
  | none => (.error .runtimeError, w)
  | some c =>
    if process ∉ m.processes then (.error .runtimeError, w)
    else w.addTemplate c process tid eff

/-- multi_channel_template.py:158-173 `add_data` (keyword arguments in call order) -/
def Mct.addData (w : World) (m : Mct) : List (String × ℕ) → Except Err Unit × World
  | [] => (.ok (), w)
  | (ch, hid) :: rest =>
    match dictGet m.channels ch with
    | none => (.error .runtimeError, w)
    | some c =>
      match w.addData c hid with
      | (.error e, w1) => (.error e, w1)
      | (.ok (), w1) => Mct.addData w1 m rest

/-! ### yields -/

/-- multi_channel_template.py:192-200, the loop of `set_yield` over the channels. `value` is a
Python float (or int) and so is `value * efficiency`; a channel without the process raises
`KeyError`, which is swallowed. -/
def World.setYieldLoop (w : World) (p : String) (v : Fl) : List ℕ → Except Err Unit × World
  | [] => (.ok (), w)
  | c :: cs =>
    match dictGet (w.chans c).templates p, dictGet (w.chans c).effs p with
    | some tid, some eff =>
      match (w.tmpls tid).setYield (.float (v * eff)) with
      | .error e => (.error e, w)
      | .ok t => (w.setTmpl tid t).setYieldLoop p v cs
    | _, _ => w.setYieldLoop p v cs

/-- multi_channel_template.py:179-200 `set_yield` -/
def Mct.setYield (w : World) (m : Mct) (p : String) (v : Fl) : Except Err Unit × World :=
  if p ∉ m.processes then (.error .runtimeError, w)
  else w.setYieldLoop p v m.chanIds

/-- one entry of multi_channel_template.py:30-43 `process_yields`: the sum of the current yields
of the process' templates over the channels that have one -/
def World.processYield (w : World) (p : String) : List ℕ → Fl
  | [] => 0
  | c :: cs =>
    match dictGet (w.chans c).templates p with
    | some tid => (w.tmpls tid).yieldParam + w.processYield p cs
    | none => w.processYield p cs

/-- multi_channel_template.py:30-43 `process_yields` (process names are unique, so
`process_to_index` of the k-th process is k) -/
def Mct.processYields (w : World) (m : Mct) : Vec :=
  m.processes.map fun p => w.processYield p m.chanIds

/-- sum of squared bin errors of the process' templates, multi_channel_template.py:49-56 -/
def World.processErrSq (w : World) (p : String) : List ℕ → Except Err Fl
  | [] => .ok 0
  | c :: cs =>
    match dictGet (w.chans c).templates p with
    | some tid =>
      match (w.tmpls tid).errors with
      | .error e => .error e
      | .ok a =>
        match w.processErrSq p cs with
        | .error e => .error e
        | .ok s => .ok (npSum (a.data.map Fl.sq) + s)
    | none => w.processErrSq p cs

/-- multi_channel_template.py:45-58 `process_yield_errors` -/
def Mct.processYieldErrors (w : World) (m : Mct) : List (Except Err Fl) :=
  m.processes.map fun p => (w.processErrSq p m.chanIds).map Fl.sqrt

/-- multi_channel_template.py:202-217 `get_yield` -/
def Mct.getYield (w : World) (m : Mct) (p : String) : Except Err Fl :=
  if p ∉ m.processes then .error .runtimeError
  else .ok ((m.processYields w).getD (m.processes.idxOf p) 0)

/-- templates of all channels in order -/
def Mct.allTmpls (w : World) (m : Mct) : List Template := (m.chanIds.map w.chanTmpls).flatten

/-- multi_channel_template.py:60-68 `nui_params`; `np.concatenate([])` raises ValueError -/
def Mct.nuiParams (w : World) (m : Mct) : Except Err Vec :=
  if m.allTmpls w = [] then .error .valueError
  else .ok ((m.allTmpls w).map (·.nuiParams)).flatten

/-- multi_channel_template.py:219-227 `reset_parameters` -/
def World.resetChannels (w : World) : List ℕ → World
  | [] => w
  | c :: cs => (w.resetChannel c).resetChannels cs

/-- multi_channel_template.py:219-227 `reset_parameters` -/
def Mct.resetParameters (w : World) (m : Mct) : World := w.resetChannels m.chanIds

/-! ### parameter vector -/

/-- numpy fancy indexing `v[[i, j, …]]` -/
def takeIdx (v : Vec) : List ℕ → Except Err Vec
  | [] => .ok []
  | i :: is =>
    match v[i]? with
    | none => .error .indexError
    | some a =>
      match takeIdx v is with
      | .error e => .error e
      | .ok l => .ok (a :: l)

/-- multi_channel_template.py:243-246 the list comprehension over the channels -/
def World.channelYields (w : World) (procs : List String) (yields : Vec) :
    List ℕ → Except Err (List Vec) × World
  | [] => (.ok [], w)
  | c :: cs =>
    match w.processIndices c procs with
    | (.error e, w1) => (.error e, w1)
    | (.ok idx, w1) =>
      match takeIdx yields idx with
      | .error e => (.error e, w1)
      | .ok ys =>
        match w1.channelYields procs yields cs with
        | (.error e, w2) => (.error e, w2)
        | (.ok l, w2) => (.ok (ys :: l), w2)

/-- multi_channel_template.py:229-256 `generate_per_channel_parameters` -/
def Mct.perChannel (w : World) (m : Mct) (x : Vec) :
    Except Err (List Vec × List Vec) × World :=
  match w.channelYields m.processes (x.take m.numProcesses) m.chanIds with
  | (.error e, w1) => (.error e, w1)
  | (.ok ys, w1) =>
    let nui := (x.take (m.numNui w + m.numProcesses)).drop m.numProcesses
    let sizes := m.chanIds.map fun c => (w.chans c).numNui
    (.ok (ys, splitIdx nui (cumsum sizes).dropLast), w1)

/-- multi_channel_template.py:274-277 the `zip` loop of `update_parameters` -/
def World.updateChannels (w : World) : List ℕ → List Vec → List Vec → Except Err Unit × World
  | c :: cs, y :: ys, n :: ns =>
    match w.updateChannel c y n with
    | (.error e, w1) => (.error e, w1)
    | (.ok (), w1) => w1.updateChannels cs ys ns
  | _, _, _ => (.ok (), w)

/-- multi_channel_template.py:258-277 `update_parameters` -/
def Mct.updateParameters (w : World) (m : Mct) (x : Vec) : Except Err Unit × World :=
  match m.perChannel w x with
  | (.error e, w1) => (.error e, w1)
  | (.ok (ys, ns), w1) => w1.updateChannels m.chanIds ys ns

/-! ### NegLogLikelihood -/

/-- multi_channel_template.py:362-367 `x0` -/
def Mct.x0 (w : World) (m : Mct) : Except Err Vec :=
  match m.nuiParams w with
  | .error e => .error e
  | .ok n => .ok (m.processYields w ++ n)

/-- f"{ch_name}_{temp_name}_bin_{i}", multi_channel_template.py:379 -/
def nuiName (ch p : String) (i : ℕ) : String := ch ++ "_" ++ p ++ "_bin_" ++ toString i

/-- names of one channel, multi_channel_template.py:375-381 -/
def World.channelNames (w : World) (ch : String) (c : ℕ) : List String :=
  ((w.chans c).templates.map fun p =>
    (List.range (w.tmpls p.2).numBins).map fun i => nuiName ch p.1 i).flatten

/-- multi_channel_template.py:369-383 `param_names` -/
def Mct.paramNames (w : World) (m : Mct) : List String :=
  m.processes.map (· ++ "_yield") ++
    (m.channels.map fun ch => w.channelNames ch.1 ch.2).flatten

/-- multi_channel_template.py:389-393 sum of the channel contributions -/
def World.nllChannels (w : World) : List ℕ → List Vec → List Vec → Except Err Fl × World
  | c :: cs, y :: ys, n :: ns =>
    match w.nllContribution c y n with
    | (.error e, w1) => (.error e, w1)
    | (.ok v, w1) =>
      match w1.nllChannels cs ys ns with
      | (.error e, w2) => (.error e, w2)
      | (.ok s, w2) => (.ok (v + s), w2)
  | _, _, _ => (.ok 0, w)

/-- one constraint term, multi_channel_template.py:396-405 -/
def constraintTerm (x v e : Fl) : Fl := Fl.fin (1 / 2) * Fl.sq (x - v) / Fl.sq e

/-- multi_channel_template.py:395-405 sum of the constraint terms -/
def Mct.constraintSum (m : Mct) (x : Vec) : List String → Except Err Fl
  | [] => .ok 0
  | p :: ps =>
    if p ∉ m.processes then .error .valueError
    else match x[m.processes.idxOf p]?, dictGet m.cvals p, dictGet m.cerrs p with
      | some xp, some v, some e =>
        match m.constraintSum x ps with
        | .error er => .error er
        | .ok s => .ok (constraintTerm xp v e + s)
      | none, _, _ => .error .indexError
      | _, _, _ => .error .keyError

/-- multi_channel_template.py:385-407 `NegLogLikelihood.__call__` -/
def Mct.nll (w : World) (m : Mct) (x : Vec) : Except Err Fl × World :=
  match m.perChannel w x with
  | (.error e, w1) => (.error e, w1)
  | (.ok (ys, ns), w1) =>
    match w1.nllChannels m.chanIds ys ns with
    | (.error e, w2) => (.error e, w2)
    | (.ok s, w2) =>
      match m.constraintSum x m.constrained with
      | .error e => (.error e, w2)
      | .ok k => (.ok (s + k), w2)

/-! ### generated data sets -/

/-- multi_channel_template.py:288-302 / 304-325: one data set per channel; the channel method
is the parameter `gen` -/
def Mct.generate (m : Mct) (gen : ℕ → Except Err Hist) :
    Except Err (List (String × Hist)) :=
  m.channels.foldr (fun ch acc =>
    match gen ch.2 with
    | .error e => .error e
    | .ok h => match acc with
      | .error e => .error e
      | .ok l => .ok ((ch.1, h) :: l)) (.ok [])

/-- multi_channel_template.py:304-325 `generate_asimov_dataset` -/
def Mct.asimov (w : World) (m : Mct) (integer : Bool) : Except Err (List (String × Hist)) :=
  m.generate fun c => w.asimov c integer

/-- multi_channel_template.py:288-302 `generate_toy_dataset`; `draw c` is the random generator
used for channel `c` -/
def Mct.toy (w : World) (m : Mct) (draw : ℕ → Vec → ℕ → ℕ) :
    Except Err (List (String × Hist)) :=
  m.generate fun c => w.toy c (draw c)

/-- Allocate the generated histograms as Python objects and pass them to `add_data(**datasets)`,
the idiom of toy_study.py:60 and of the user scripts. -/
def Mct.addDatasets (w : World) (m : Mct) : List (String × Hist) → Except Err Unit × World
  | [] => (.ok (), w)
  | (ch, h) :: rest =>
    let r := w.newHist h
    match dictGet m.channels ch with
    | none => (.error .runtimeError, r.2)
    | some c =>
      match r.2.addData c r.1 with
      | (.error e, w1) => (.error e, w1)
      | (.ok (), w1) => Mct.addDatasets w1 m rest

end

end TF
