import Verif.Model.Mct

/-!
# The public API as a state machine

A user program is a list of API calls (`Op`) acting on the heap and one
`MultiChannelTemplate`; object arguments are heap ids (dangling ids are calls with an object
that does not exist and are ignored). A call that raises leaves the state the method left
behind. `Reachable` is the set of states of all such histories.
-/

namespace TF

open Classical

noncomputable section

/-- Heap plus the multi-channel model under study. -/
structure Sys where
  w : World
  m : Mct

/-- an arbitrary (unused) histogram, template, channel: content of unallocated heap cells -/
def dummyHist : Hist := Hist.blank .h1 [] [0] (.d1 .tuple 0 1)

/-- unallocated template cell -/
def dummyTmpl : Template :=
  ⟨.t1, "", 0, [], [], [0], 0, .d1 .tuple 0 1, [0], Mat.zeros 0 0, [], Mat.zeros 0 0, Mat.zeros 0 0, []⟩

/-- unallocated channel cell -/
def dummyChan : Channel := Channel.new "" (.int 0) (.d1 .tuple 0 1)

/-- a fresh interpreter: empty heap, empty caches -/
def World.init : World :=
  ⟨fun _ => dummyHist, 0, fun _ => dummyTmpl, 0, fun _ => dummyChan, 0, ⟨[]⟩, ⟨[]⟩, ⟨[]⟩⟩

/-- `mct = MultiChannelTemplate()` in a fresh interpreter -/
def Sys.init : Sys := ⟨World.init, Mct.empty⟩

/-- API calls. -/
inductive Op where
  /-- `Hist1d(bins, range, data, weights)` -/
  | newHist1 (bins : Bins1) (range : Option PyRange) (data : Option Vec) (w : Weights)
  /-- `Hist2d(bins, range, data, weights)` -/
  | newHist2 (bins : Bins2) (range : Option PyRange) (data : Option (Vec × Vec)) (w : Weights)
  /-- `Hist1d.from_binned_data` -/
  | binned1 (counts : NdArr) (edges : Edges) (errors : Option NdArr)
  /-- `Hist2d.from_binned_data` -/
  | binned2 (counts : NdArr) (ex ey : Edges) (errors : Option NdArr)
  /-- `hist.fill` -/
  | fill (h : ℕ) (x y : Vec) (w : Weights)
  /-- `Template1d(name, ..., hist)` -/
  | newTmpl1 (name : String) (h : ℕ)
  /-- `Template2d(name, ..., hist)` -/
  | newTmpl2 (name : String) (h : ℕ)
  /-- `template.add_variation` (`data = (x, y)` for a `Template2d`, `x` for a `Template1d`) -/
  | addVariation (t : ℕ) (x y : Vec) (up down : Weights)
  /-- `template.add_cov_mat`; `Template2d` has no such method -/
  | addCovMat (t : ℕ) (m : Mat)
  /-- `template.yield_param = v` -/
  | setTmplYield (t : ℕ) (v : YieldVal)
  /-- `template.nui_params = v` -/
  | setTmplNui (t : ℕ) (v : Vec)
  /-- `template.params = v` -/
  | setTmplParams (t : ℕ) (v : Vec)
  /-- `template.reset()` -/
  | resetTmpl (t : ℕ)
  /-- `mct.define_channel` -/
  | defineChannel (name : String) (bins : ChanBins) (range : PyRange)
  /-- `mct.define_process` -/
  | defineProcess (name : String)
  /-- `mct.add_template` -/
  | addTemplate (channel process : String) (t : ℕ) (eff : Fl)
  /-- `mct.add_data(**{...})` -/
  | addData (hs : List (String × ℕ))
  /-- `mct.add_gaussian_constraint_on_yield` -/
  | constrain (p : String) (v e : Fl)
  /-- `mct.set_yield` -/
  | setYield (p : String) (v : Fl)
  /-- `mct.update_parameters` -/
  | update (x : Vec)
  /-- `mct.reset_parameters` -/
  | reset
  /-- `nll(x)` -/
  | nll (x : Vec)
  /-- `mct.channels[ch].bin_counts_from_param_values(x)` -/
  | binCounts (ch : String) (x : Vec)
  /-- `mct.channels[ch].process_indices(processes)` -/
  | procIndices (ch : String) (outer : List String)
  /-- `mct.channels[ch].update_parameters(yields, nui)` -/
  | chanUpdate (ch : String) (yields nui : Vec)
  /-- `mct.channels[ch].reset()` -/
  | chanReset (ch : String)
  /-- `mct.add_data(**mct.generate_asimov_dataset(integer))` -/
  | addAsimov (integer : Bool)
  /-- `mct.add_data(**mct.generate_toy_dataset())` -/
  | addToy (draw : ℕ → Vec → ℕ → ℕ)

/-- allocate a histogram if its construction succeeded -/
def Sys.allocHist (s : Sys) : Except Err Hist → Sys
  | .ok h => { s with w := (s.w.newHist h).2 }
  | .error _ => s

/-- allocate a template if its construction succeeded -/
def Sys.allocTmpl (s : Sys) : Except Err Template → Sys
  | .ok t => { s with w := (s.w.newTmpl t).2 }
  | .error _ => s

/-- store a template after a setter call that may have raised -/
def Sys.storeTmpl (s : Sys) (t : ℕ) : Except Err Template → Sys
  | .ok t' => { s with w := s.w.setTmpl t t' }
  | .error _ => s

/-- one API call -/
def Sys.step (s : Sys) : Op → Sys
  | .newHist1 b r d w => s.allocHist (Hist1d.new b r d w)
  | .newHist2 b r d w => s.allocHist (Hist2d.new b r d w)
  | .binned1 c e er => s.allocHist (Hist1d.fromBinned c e er)
  | .binned2 c ex ey er => s.allocHist (Hist2d.fromBinned c ex ey er)
  | .fill h x y w =>
    if h < s.w.nHists then { s with w := s.w.setHist h ((s.w.hists h).fill x y w).2 } else s
  | .newTmpl1 n h => if h < s.w.nHists then s.allocTmpl (Template1d.new n h (s.w.hists h)) else s
  | .newTmpl2 n h => if h < s.w.nHists then s.allocTmpl (Template2d.new n h (s.w.hists h)) else s
  | .addVariation t x y up down =>
    if t < s.w.nTmpls then
      let r := (s.w.tmpls t).addVariation (s.w.hists (s.w.tmpls t).hist) x y up down
      { s with w := s.w.setTmpl t r.2 }
    else s
  | .addCovMat t m =>
    if t < s.w.nTmpls then { s with w := s.w.setTmpl t ((s.w.tmpls t).addCovMat m).2 } else s
  | .setTmplYield t v => if t < s.w.nTmpls then s.storeTmpl t ((s.w.tmpls t).setYield v) else s
  | .setTmplNui t v => if t < s.w.nTmpls then s.storeTmpl t ((s.w.tmpls t).setNui v) else s
  | .setTmplParams t v => if t < s.w.nTmpls then s.storeTmpl t ((s.w.tmpls t).setParams v) else s
  | .resetTmpl t =>
    if t < s.w.nTmpls then
      { s with w := s.w.setTmpl t ((s.w.tmpls t).reset (s.w.hists (s.w.tmpls t).hist)) }
    else s
  | .defineChannel n b r => let x := s.m.defineChannel s.w n b r; ⟨x.1, x.2⟩
  | .defineProcess n => { s with m := (s.m.defineProcess n).2 }
  | .addTemplate c p t e =>
    if t < s.w.nTmpls then { s with w := (s.m.addTemplate s.w c p t e).2 } else s
  | .addData hs =>
    if ∀ h ∈ hs, h.2 < s.w.nHists then { s with w := (s.m.addData s.w hs).2 } else s
  | .constrain p v e => { s with m := (s.m.addConstraint p v e).2 }
  | .setYield p v => { s with w := (s.m.setYield s.w p v).2 }
  | .update x => { s with w := (s.m.updateParameters s.w x).2 }
  | .reset => { s with w := s.m.resetParameters s.w }
  | .nll x => { s with w := (s.m.nll s.w x).2 }
  | .binCounts ch x =>
    match dictGet s.m.channels ch with
    | none => s
    | some c => { s with w := (s.w.binCountsFromParams c x).2 }
  | .procIndices ch outer =>
    match dictGet s.m.channels ch with
    | none => s
    | some c => { s with w := (s.w.processIndices c outer).2 }
  | .chanUpdate ch ys ns =>
    match dictGet s.m.channels ch with
    | none => s
    | some c => { s with w := (s.w.updateChannel c ys ns).2 }
  | .chanReset ch =>
    match dictGet s.m.channels ch with
    | none => s
    | some c => { s with w := s.w.resetChannel c }
  | .addAsimov i =>
    match s.m.asimov s.w i with
    | .error _ => s
    | .ok l => { s with w := (s.m.addDatasets s.w l).2 }
  | .addToy d =>
    match s.m.toy s.w d with
    | .error _ => s
    | .ok l => { s with w := (s.m.addDatasets s.w l).2 }

/-- state after a whole user program -/
def Sys.run (s : Sys) (ops : List Op) : Sys := ops.foldl Sys.step s

/-- states reachable from a fresh interpreter by any API history -/
def Sys.Reachable (s : Sys) : Prop := ∃ ops, Sys.init.run ops = s

end

end TF
