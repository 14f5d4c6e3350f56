import Verif.Props.MctProps2
import Verif.Props.ChannelProps3

set_option linter.unusedSimpArgs false

/-!
# Channel-level parameter splitting (C41)
-/

namespace TF.Props

open Classical Spec

noncomputable section

/-- **C41 (partial).** In a model with a single channel to which the templates were added in the order in which
the processes were defined (and which was built channel by channel before evaluation (`Built`)), `bin_counts_from_param_values`
splits a fit result exactly as the likelihood does, hence returns the likelihood's expectation. Missing: other
orders and several channels, where it is false (`C41_refuted`, `C41_refuted_channels`). -/
theorem C41_single_channel_partial (s : Sys) (h : s.Built) (name : String) (c : ℕ) (h1 : s.m.channels = [(name, c)])
    (h2 : (s.w.chans c).procs = s.m.processes) (x : Vec) (hx : x.length = s.m.numProcesses + s.m.numNui s.w) :
    ∃ y n, (s.m.perChannel s.w x).1 = .ok ([y], [n]) ∧ (s.w.chans c).splitParams x = (y, n) ∧
      (s.w.binCountsFromParams c x).1 = (s.w.expectedEvts c y n).1 := by
  have hw := reachable_wf h.reachable
  have hids : s.m.chanIds = [c] := by simp [Mct.chanIds, h1]
  have hnum : (s.w.chans c).numTemplates = s.m.numProcesses := by
    have hc := hw.chan c (hw.lt c (by simp [hids]))
    unfold Channel.numTemplates Mct.numProcesses
    rw [← hc.tkeys, ← h2]; rfl
  have hl : (x.drop s.m.numProcesses).length = (nuiSizes s.w s.m).sum := by
    rw [List.length_drop, hx]; simp [nuiSizes, Mct.numNui]
  refine ⟨x.take s.m.numProcesses, x.drop s.m.numProcesses, ?_, ?_, ?_⟩
  · rw [(perChannel_coh h.coherent s.m hw.lt x).1, perChannelPure_eq s.w s.m x (by rw [h1]; simp) hw.subset hx]
    simp only [hids, List.map_cons, List.map_nil, Except.ok.injEq, Prod.mk.injEq, List.cons.injEq, and_true]
    refine ⟨?_, ?_⟩
    · unfold chanYields
      rw [h2]
      apply List.ext_getElem
      · rw [List.length_map, List.length_take, hx]; simp [Mct.numProcesses]
      · intro i i1 i2
        have hi : i < s.m.processes.length := by simpa using i1
        have hx' : i < x.length := by rw [hx]; unfold Mct.numProcesses; omega
        simp [hw.procs.idxOf_getElem, List.getElem?_eq_getElem hx']
    · have : nuiSizes s.w s.m = [(x.drop s.m.numProcesses).length] := by
        rw [hl]; simp [nuiSizes, hids]
      rw [this]
      simp [blocks]
  · simp [Channel.splitParams, hnum]
  · unfold World.binCountsFromParams
    rw [hnum]

namespace Ex

/-- processes `p`, `q`; the templates of the single channel are added in the order `q`, `p` -/
def opsO : List Op :=
  [.binned1 ⟨[2], vec ![1, 1]⟩ ⟨true, [0, 1, 2]⟩ (some ⟨[2], vec ![1, 1]⟩), .newTmpl1 "p" 0, .newTmpl1 "q" 0,
   .defineChannel "a" (.int 2) (.d1 .tuple 0 2), .defineProcess "p", .defineProcess "q",
   .addTemplate "a" "q" 1 (.fin 1), .addTemplate "a" "p" 0 (.fin (1/2))]

def chO : Channel :=
  ⟨"a", [2], .d1 .tuple 0 2, ["q", "p"], [("q", 1), ("p", 0)], [("q", .fin 1), ("p", .fin (1/2))], none, some 1,
   some .t1, some .h1⟩

def wO : World :=
  { World.init with
    hists := Function.update (fun _ => dummyHist) 0 (bh ![1, 1] ![1, 1])
    nHists := 1
    tmpls := Function.update (Function.update (fun _ => dummyTmpl) 0 (bt "p" 0 ![1, 1] ![1, 1])) 1
      (bt "q" 0 ![1, 1] ![1, 1])
    nTmpls := 2
    chans := Function.update (fun _ => dummyChan) 0 chO
    nChans := 1 }

def mO : Mct := ⟨[("a", 0)], ["p", "q"], [], [], []⟩

theorem runO : Sys.init.run opsO = ⟨wO, mO⟩ := by
  simp only [opsO, Sys.run, List.foldl_cons, List.foldl_nil, Sys.step, bh_eq, Sys.allocHist, World.newHist,
    Sys.init, World.init]
  simp only [Nat.lt_one_iff, zero_add, if_true, Function.update_self, bt_eq, Sys.allocTmpl, World.newTmpl]
  simp [Mct.defineChannel, Mct.defineProcess,
    Mct.addTemplate, World.addTemplate, Mct.empty, World.newChan, dictSet, dictGet, Mct.addData, World.addData,
    World.setChan, Channel.new, Channel.addTemplate, Channel.checkTemplate, Channel.procs, bt, bh,
    Hist.setBinned, Hist.blank, ChanBins.toTuple, Channel.addData, Channel.checkHist, wO, mO, chO, World.init,
    Function.update_apply]

theorem sysO_built : Sys.Built ⟨wO, mO⟩ := by
  refine ⟨_, setupFirst_of_noEval ?_, runO⟩
  intro o ho
  simp only [opsO, List.mem_cons, List.not_mem_nil, or_false] at ho
  rcases ho with rfl | rfl | rfl | rfl | rfl | rfl | rfl | rfl <;> exact id

theorem chanO : ChanIs wO 0 (fun (_ : Fin 2) (_ : Fin 2) => (1:ℝ)) (fun _ _ => 1) ![1, 1/2] (fun _ => 1) := by
  refine ⟨by simp [wO], by simp [wO, chO, Channel.numTemplates], by simp [wO, chO, vec, List.ofFn_succ], ?_⟩
  refine ⟨![bt "q" 0 ![1, 1] ![1, 1], bt "p" 0 ![1, 1] ![1, 1]], by
    simp [World.chanTmpls, wO, chO, List.ofFn_succ], ?_⟩
  intro k
  rw [inv_one]
  have this := fun n => bt_shape n 0 ![1, 1] ![1, 1] (by intro i; fin_cases i <;> simp) (by intro i; fin_cases i <;> simp)
  have e1 : (![1, 1] : Fin 2 → ℝ) = fun _ => 1 := by funext i; fin_cases i <;> rfl
  rw [e1] at this ⊢
  simp only [div_one] at this
  fin_cases k
  · exact ⟨this "q", one_real, one_real⟩
  · exact ⟨this "p", one_real, one_real⟩

/-- fit result: 2 events of `p`, none of `q` -/
def xO : Vec := [.fin 2, .fin 0, .fin 0, .fin 0, .fin 0, .fin 0]

theorem evalO (ν : Fin 2 → ℝ) : (wO.expectedEvts 0 (vec ν) [.fin 0, .fin 0, .fin 0, .fin 0]).1 =
    .ok (vec fun _ : Fin 2 => (ν 0 + ν 1 * (1/2)) / 2) := by
  have hn : nuiVec (fun (_ : Fin 2) (_ : Fin 2) => (0:ℝ)) = [.fin 0, .fin 0, .fin 0, .fin 0] := by
    simp [nuiVec, vec, List.ofFn_succ]
  rw [(expectedEvts_coh (sysO_built.coherent) 0 (by simp [wO]) _ _).1, ← hn,
    expectedPure_eq chanO two_pos _ _ (by intro k; simp [varied])]
  congr 2
  funext i
  simp [expected, Fin.sum_univ_two]
  ring

end Ex

/-- **C41 is false of the code:** in a model whose channel lists the processes in another order than the model,
the likelihood expects (1/2, 1/2) for the fit result `x` while `bin_counts_from_param_values(x)` returns (1, 1):
the yields of the two processes are swapped. -/
theorem C41_refuted : ∃ (s : Sys) (x y n : Vec), s.Built ∧ s.m.channels = [("a", 0)] ∧
    x.length = s.m.numProcesses + s.m.numNui s.w ∧ (s.m.perChannel s.w x).1 = .ok ([y], [n]) ∧
    (s.w.expectedEvts 0 y n).1 = .ok [.fin (1/2), .fin (1/2)] ∧
    (s.w.binCountsFromParams 0 x).1 = .ok [.fin 1, .fin 1] := by
  refine ⟨⟨Ex.wO, Ex.mO⟩, Ex.xO, vec ![0, 2], [.fin 0, .fin 0, .fin 0, .fin 0], Ex.sysO_built, rfl, ?_, ?_, ?_, ?_⟩
  · simp [Ex.xO, Ex.mO, Ex.wO, Ex.chO, Mct.numProcesses, Mct.numNui, Mct.chanIds, Channel.numNui,
      Channel.numTemplates, Channel.numBins]
  · simp [Mct.perChannel, Ex.mO, Mct.chanIds, World.channelYields, World.processIndices, Ex.wO, Lru.call, dictGet,
      takeIdx, Ex.xO, Mct.numProcesses, Mct.numNui, Ex.chO, Channel.numNui, Channel.numTemplates, Channel.numBins,
      cumsum, cumsumFrom, splitIdx, splitIdxFrom, World.init, computeIndices, Channel.procs, vec, List.ofFn_succ,
      List.idxOf_cons]
  · rw [Ex.evalO]; simp [vec, List.ofFn_succ]
  · have : Ex.wO.binCountsFromParams 0 Ex.xO = Ex.wO.expectedEvts 0 (vec ![2, 0]) [.fin 0, .fin 0, .fin 0, .fin 0] := by
      unfold World.binCountsFromParams
      simp [Ex.wO, Ex.chO, Channel.numTemplates, Ex.xO, vec, List.ofFn_succ]
    simp only [this]
    rw [Ex.evalO]; simp [vec, List.ofFn_succ]

/-- **C41 is false of the code:** with two channels, `bin_counts_from_param_values` of the second channel of the
example raises `ValueError` for a fit result that the likelihood splits. -/
theorem C41_refuted_channels : Ex.sys1.Built ∧ (∃ r, (Ex.sys1.m.perChannel Ex.sys1.w Ex.x1).1 = .ok r) ∧
    (Ex.sys1.w.binCountsFromParams 1 Ex.x1).1 = .error .valueError := by
  refine ⟨Ex.sys1_built, ?_, ?_⟩
  · obtain ⟨ys, ns, h, -⟩ := C47_partition Ex.sys1 Ex.sys1_built (by simp [Ex.sys1, Ex.m1]) Ex.x1 Ex.x1_length
    exact ⟨_, h⟩
  · simp [World.binCountsFromParams, World.expectedEvts, World.effArray, Ex.sys1, Ex.w1, Ex.w0, World.init, Lru.call,
      dictGet, Ex.chA, Ex.chB, bop, Ex.x1, World.chanFractions, splitEq, Channel.numTemplates, World.chanTmpls,
      fractionRows, Template.fractions, binFractions, Ex.bt, vec, List.ofFn_succ, bind, Except.bind, relErrs,
      List.range_succ, statErrSq, Mat.diag, Mat.diagOf]

/-- non-vacuity of the partial theorem: the single-channel example of C40 -/
example : ∃ y n, (Ex.mC.perChannel Ex.wC Ex.xC).1 = .ok ([y], [n]) ∧
    (Ex.wC.binCountsFromParams 0 Ex.xC).1 = (Ex.wC.expectedEvts 0 y n).1 := by
  have hb : Sys.Built ⟨Ex.wC, Ex.mC⟩ := by
    refine ⟨_, setupFirst_of_noEval ?_, Ex.runC⟩
    intro o ho
    simp only [Ex.opsC, List.mem_cons, List.not_mem_nil, or_false] at ho
    rcases ho with rfl | rfl | rfl | rfl | rfl | rfl <;> exact id
  obtain ⟨y, n, h1, -, h2⟩ := C41_single_channel_partial ⟨Ex.wC, Ex.mC⟩ hb "a" 0 rfl
    (by simp [Ex.wC, Ex.chC, Channel.procs, Ex.mC]) Ex.xC
    (by simp [Ex.xC, Ex.mC, Ex.wC, Ex.chC, Mct.numProcesses, Mct.numNui, Mct.chanIds, Channel.numNui,
      Channel.numTemplates, Channel.numBins])
  exact ⟨y, n, h1, h2⟩

end

end TF.Props
