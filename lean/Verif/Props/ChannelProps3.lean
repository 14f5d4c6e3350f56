import Verif.Props.ChannelProps2

set_option linter.unusedSimpArgs false

/-!
# Properties of `Channel`: witnesses for C38 and C39, caches (C40), parameter splitting (C41)
-/

namespace TF.Props

open Classical Spec
open scoped Matrix

noncomputable section

namespace Ex

/-- one event with value 1/2 in a one-bin histogram with range `[0, 1]` (a Python list) -/
def hL : Hist := ⟨.h1, ⟨[1], [.fin 1]⟩, ⟨[1], [.fin 1]⟩, [⟨true, [0, 1]⟩], [1], [1], .d1 .list 0 1, false⟩

theorem hL_eq : Hist1d.new (.int 1) (some (.d1 .list 0 1)) (some [.fin (1/2)]) .none = .ok hL := by
  have hl : linspace 0 1 2 = [0, 1] := by
    simp [linspace, List.range_succ]; norm_num
  have hi : binIndex [0, 1] (.fin (1/2)) = some 0 := by
    have h1 : ¬ onRightEdge [0, 1] (1/2) := by
      unfold onRightEdge; norm_num
    have h2 : digitize [0, 1] (.fin (1/2)) = 1 := by
      simp [digitize, List.filter]; norm_num
    unfold binIndex binNumber
    simp only [if_neg h1, h2]
    rfl
  have hv : validEdges [0, 1] := by simp [validEdges]
  have hb : ∀ v : ℝ, binnedSum [0, 1] [.fin (1/2)] [.fin v] = .ok ⟨[1], [.fin v]⟩ := by
    intro v
    unfold binnedSum
    rw [if_neg (by simp), if_pos hv]
    simp only [List.length_cons, List.length_nil, List.zip_cons_cons, List.zip_nil_left]
    have hi' : binIndex [0, 1] (.fin 2⁻¹) = some 0 := by rw [← one_div]; exact hi
    simp [List.range_succ]
    rw [List.filter_cons_of_pos (by simp [hi'])]
    simp
  have hb1 : binnedSum [0, 1] [.fin (1/2)] [1] = .ok ⟨[1], [.fin 1]⟩ := hb 1
  have hb2 : binnedSum [0, 1] [.fin (1/2)] [Fl.sq 1] = .ok ⟨[1], [.fin 1]⟩ := by
    have := hb 1; rw [Fl.one_def, Fl.sq_fin, one_pow]; exact this
  simp only [Hist1d.new, Hist1d.init, uniform1]
  rw [if_neg (by norm_num)]
  simp only [Int.toNat_one, hl, Hist1d.fill, Hist.blank, List.getD_cons_zero, Weights.values, List.length_cons,
    List.length_nil, List.replicate, List.map, hb1, hb2, Hist.accumulate, Weights.noPow, NdArr.zeros, NdArr.iadd]
  simp [Fl.zero_def, hL]

/-- a channel whose range is given as a list -/
def opsL : List Op :=
  [.newHist1 (.int 1) (some (.d1 .list 0 1)) (some [.fin (1/2)]) .none, .newTmpl1 "t" 0,
   .defineChannel "a" (.int 1) (.d1 .list 0 1), .defineProcess "p", .addTemplate "a" "p" 0 (.fin 1)]

theorem runL : ∃ s, Sys.init.run opsL = s ∧ ("a", 0) ∈ s.m.channels ∧
    (s.w.chans 0).templates = [("p", 0)] ∧ (s.w.chans 0).bins = [1] ∧
    (s.w.chans 0).range = .d1 .list 0 1 ∧ (s.w.tmpls 0).flatCounts = [.fin 1] ∧
    (s.w.tmpls 0).relErr = [.fin 1] ∧ (s.w.tmpls 0).params = [.fin 1, .fin 0] ∧ (s.w.tmpls 0).bins = [1] ∧
    (s.w.tmpls 0).numBins = 1 := by
  refine ⟨_, rfl, ?_⟩
  simp only [opsL, Sys.run, List.foldl_cons, List.foldl_nil, Sys.step, hL_eq, Sys.allocHist, World.newHist,
    Sys.init, World.init]
  simp [Template1d.new, hL, Template.build, Sys.allocTmpl, World.newTmpl, Mct.defineChannel, Mct.empty, dictSet,
    World.newChan, Mct.defineProcess, Mct.addTemplate, dictGet, World.addTemplate, Channel.new,
    Channel.addTemplate, Channel.checkTemplate, ChanBins.toTuple, World.setChan, Channel.procs, initParams,
    relErrs, statErrSq, Mat.diag, Mat.diagOf, List.range_succ, npSum, Fl.zero_def]
  rw [Fl.sqrt_fin (by norm_num), Real.sqrt_one, Fl.fin_div _ _ one_ne_zero, div_one]

end Ex

/-- **C38 is false of the code:** a reachable channel (one process, range given as list `[0, 1]`) produces
an Asimov data set with one event and rejects it with `RuntimeError`. -/
theorem C38_refuted : ∃ (s : Sys) (c : ℕ) (h : Hist), s.Reachable ∧ ("a", c) ∈ s.m.channels ∧
    s.w.asimov c false = .ok h ∧ h.counts.data = [.fin 1] ∧
    ∀ hid, ((s.w.chans c).addData hid h).1 = .error .runtimeError := by
  obtain ⟨s, hs, h1, h2, h3, h4, h5, h6, h7, h8, h9⟩ := Ex.runL
  have hr : s.Reachable := ⟨_, hs⟩
  have hb : ∀ n ∈ (s.w.chans 0).bins, 1 ≤ n := by rw [h3]; simp
  obtain ⟨h, a, e1, e2, e3, -, -⟩ := C39_asimov (K := 1) (n := 1) s hr "a" 0 h1 hb one_pos
    (fun _ => s.w.tmpls 0) (by simp [World.chanTmpls, h2]) (fun _ _ => 1) (fun _ _ => 1) (fun _ => 1)
    (fun _ _ => 0) (fun k => ⟨h9, by simp [h5, vec], by simp [h6, vec], by simp [h8]⟩)
    (fun k => by simp [HasParams, h7, vec]) (fun k => by simp) false
  refine ⟨s, 0, h, hr, h1, e1, ?_, ?_⟩
  · rw [e3]; simp [e2, vec]
  · intro hid
    have := (C38_accepted_partial s hr "a" 0 h1 (by rw [h2]; simp) hb h (Or.inl ⟨false, e1⟩) hid).1
    rw [h4] at this
    unfold Channel.addData at this ⊢
    split
    · rename_i hk; rw [if_pos hk] at this; simp [AllTuple] at this
    · rfl

/-- non-vacuity of C38 (accepted data sets) and C39: channel `a` of the example -/
example : ∃ (h : Hist) (a : Fin 2 → ℝ), Ex.sys1.w.asimov 0 true = .ok h ∧
    h.counts.data = vec (fun i => Fl.rintR (a i)) ∧
    ((Ex.sys1.w.chans 0).addData 7 h).1 = .ok () := by
  have hb : ∀ n ∈ (Ex.sys1.w.chans 0).bins, 1 ≤ n := by simp [Ex.sys1, Ex.w1, Ex.chA]
  have hm : ("a", 0) ∈ Ex.sys1.m.channels := by simp [Ex.sys1, Ex.m1]
  obtain ⟨h, a, e1, e2, e3, -, -⟩ := C39_asimov (K := 2) (n := 2) Ex.sys1 Ex.sys1_reachable "a" 0 hm hb two_pos
    ![Ex.bt "s" 0 ![4, 6] ![2, 3], Ex.bt "b" 1 ![5, 5] ![1, 1]]
    (by simp [World.chanTmpls, Ex.sys1, Ex.w1, Ex.chA, Ex.w0, List.ofFn_succ]) Ex.cntA Ex.epsA ![10, 10]
    (fun _ _ => 0) (by
      intro k
      fin_cases k
      · exact Ex.bt_shape _ _ _ _ (by intro i; fin_cases i <;> simp) (by intro i; fin_cases i <;> simp)
      · exact Ex.bt_shape _ _ _ _ (by intro i; fin_cases i <;> simp) (by intro i; fin_cases i <;> simp))
    (by
      intro k
      fin_cases k <;>
        simp [HasParams, Ex.bt, initParams, Ex.bh, Hist.setBinned, npSum, vec, List.replicate, Fl.zero_def,
          List.ofFn_succ] <;> norm_num)
    (by intro k; fin_cases k <;> simp [Ex.cntA] <;> norm_num) true
  refine ⟨h, a, e1, by simpa using e3, ?_⟩
  rw [(C38_accepted_partial Ex.sys1 Ex.sys1_reachable "a" 0 hm (by simp [Ex.sys1, Ex.w1, Ex.chA]) hb h
    (Or.inl ⟨true, e1⟩) 7).1]
  simp [Ex.sys1, Ex.w1, Ex.chA, AllTuple]

/-! ## C40 -/

theorem nll_clear {w : World} (h : Coherent w) (m : Mct) (hcs : ∀ c ∈ m.chanIds, c < w.nChans) (x : Vec) :
    (m.nll w x).1 = (m.nll w.clear x).1 := by
  rw [(nll_coh h m hcs x).1, (nll_coh (clear_coherent w) m hcs x).1, (clear_cacheOnly w).nllPure]

/-- **C40 (partial).** For every history of API calls in which no channel is extended (by a template, or by a
systematic uncertainty of one of its templates) after its first evaluation - evaluations, new channels with their
templates, new processes, data, constraints and parameter changes may be mixed freely: the likelihood is what a
fresh interpreter with the same objects (empty caches) computes. Missing: histories that extend a channel already
evaluated, see `C40_refuted`. -/
theorem C40_history_independent_partial (ops : List Op) (h : SetupFirst ops) (x : Vec) :
    ((Sys.init.run ops).m.nll (Sys.init.run ops).w x).1 =
      ((Sys.init.run ops).m.nll (Sys.init.run ops).w.clear x).1 := by
  apply nll_clear (run_coherent ops h)
  intro c hc
  obtain ⟨p, hp, rfl⟩ := List.mem_map.mp hc
  exact (run_wf init_wf ops).chLt p hp

namespace Ex

/-- one channel, one template with contents (1, 1) and errors (1, 1), the template's histogram as data -/
def opsC : List Op :=
  [.binned1 ⟨[2], vec ![1, 1]⟩ ⟨true, [0, 1, 2]⟩ (some ⟨[2], vec ![1, 1]⟩), .newTmpl1 "t" 0,
   .defineChannel "a" (.int 2) (.d1 .tuple 0 2), .defineProcess "p", .addTemplate "a" "p" 0 (.fin 1),
   .addData [("a", 0)]]

def chC : Channel :=
  ⟨"a", [2], .d1 .tuple 0 2, ["p"], [("p", 0)], [("p", .fin 1)], some 0, some 1, some .t1, some .h1⟩

def wC : World :=
  { World.init with
    hists := Function.update (fun _ => dummyHist) 0 (bh ![1, 1] ![1, 1])
    nHists := 1
    tmpls := Function.update (fun _ => dummyTmpl) 0 (bt "t" 0 ![1, 1] ![1, 1])
    nTmpls := 1
    chans := Function.update (fun _ => dummyChan) 0 chC
    nChans := 1 }

def mC : Mct := ⟨[("a", 0)], ["p"], [], [], []⟩

theorem runC : Sys.init.run opsC = ⟨wC, mC⟩ := by
  simp only [opsC, Sys.run, List.foldl_cons, List.foldl_nil, Sys.step, bh_eq, Sys.allocHist, World.newHist,
    Sys.init, World.init]
  simp only [Nat.lt_one_iff, zero_add, if_true, Function.update_self, bt_eq, Sys.allocTmpl, World.newTmpl]
  simp [Mct.defineChannel, Mct.defineProcess,
    Mct.addTemplate, World.addTemplate, Mct.empty, World.newChan, dictSet, dictGet, Mct.addData, World.addData,
    World.setChan, Channel.new, Channel.addTemplate, Channel.checkTemplate, Channel.procs, bt, bh,
    Hist.setBinned, Hist.blank, ChanBins.toTuple, Channel.addData, Channel.checkHist, wC, mC, chC, World.init]

/-- yield 2 and nuisance parameters (1, 1) -/
def xC : Vec := [.fin 2, .fin 1, .fin 1]

theorem chanC : ChanIs wC 0 (fun (_ : Fin 1) (_ : Fin 2) => (1:ℝ)) (fun _ _ => 1) (fun _ => 1) (fun _ => 1) := by
  refine ⟨by simp [wC], by simp [wC, chC, Channel.numTemplates], by simp [wC, chC, vec], ?_⟩
  refine ⟨fun _ => bt "t" 0 ![1, 1] ![1, 1], by simp [World.chanTmpls, wC, chC], ?_⟩
  intro k
  rw [inv_one]
  have := bt_shape "t" 0 ![1, 1] ![1, 1] (by intro i; fin_cases i <;> simp) (by intro i; fin_cases i <;> simp)
  have e1 : (![1, 1] : Fin 2 → ℝ) = fun _ => 1 := by funext i; fin_cases i <;> rfl
  rw [e1] at this ⊢
  simp only [div_one] at this
  exact ⟨this, one_real, one_real⟩

/-- the memoised inverse correlation matrix -/
def invC : Mat := blockDiag [Mat.diagOf (List.replicate 2 1)]

/-- `wC` with template `t` instead of the original one and the caches filled by one evaluation -/
def wS (t : Template) : World :=
  { wC with
    tmpls := Function.update (fun _ => dummyTmpl) 0 t
    idxCache := ⟨[((0, ["p"]), [0])]⟩, effCache := ⟨[(0, [.fin 1])]⟩, invCache := ⟨[(0, invC)]⟩ }

theorem poisson11 : poissonTerm [.fin 1, .fin 1] [.fin 1, .fin 1] = .ok (.fin 0) := by
  have h := poissonTerm_zip (fun _ : Fin 2 => (1:ℝ)) (fun _ => 1)
  have hv : vec (fun _ : Fin 2 => (1:ℝ)) = [.fin 1, .fin 1] := by simp [vec, List.ofFn_succ]
  rw [hv] at h
  rw [h, binTerm_fin (Or.inr (by norm_num)) one_pos]
  simp [poissonBin, List.ofFn_succ]

theorem fractions11 (t : Template) (r : ℝ) (hr : 0 ≤ r) (hc : t.flatCounts = [.fin 1, .fin 1])
    (he : t.relErr = [.fin r, .fin r]) :
    t.fractions [.fin 1, .fin 1] = .ok [.fin (1/2), .fin (1/2)] := by
  have hpos : (1 + 1 * r + (1 + 1 * r) : ℝ) ≠ 0 := by positivity
  have : ∀ x, x = 1 + r → Fl.fin x / Fl.fin (x + x) = .fin (1/2) := by
    intro x hx
    rw [Fl.fin_div _ _ (by rw [hx]; intro h; apply hpos; linarith)]
    congr 1
    rw [hx]; field_simp; ring
  simp [Template.fractions, binFractions, hc, he, bop, Fl.one_def, npSum, bind, Except.bind, pure, Except.pure]
  rw [← one_div]
  exact this _ rfl

/-- `wS t` with only the index cache filled -/
def wS1 (t : Template) : World := { wS t with effCache := ⟨[]⟩, invCache := ⟨[]⟩ }

/-- `wS t` without the memoised matrix -/
def wS2 (t : Template) : World := { wS t with invCache := ⟨[]⟩ }

/-- the first evaluation of the likelihood fills the caches -/
theorem firstEval (t : Template) (r : ℝ) (hr : 0 ≤ r) (hc : t.flatCounts = [.fin 1, .fin 1])
    (he : t.relErr = [.fin r, .fin r]) (hi : blockDiag [t.invCorr] = invC) :
    (mC.nll (wS t).clear xC).2 = wS t := by
  have hp : mC.perChannel (wS t).clear xC = (.ok ([[.fin 2]], [[.fin 1, .fin 1]]),
      (wS1 t)) := by
    simp [Mct.perChannel, mC, Mct.chanIds, World.channelYields, World.processIndices, wS, Lru.call, dictGet,
      takeIdx, wS1, wS2, xC, Mct.numProcesses, Mct.numNui, wC, chC, Channel.numNui, Channel.numTemplates, Channel.numBins,
      cumsum, cumsumFrom, splitIdx, splitIdxFrom, World.clear, computeIndices, Channel.procs]
  have hx := fractions11 t r hr hc he
  have hE : World.expectedEvts (wS1 t) 0 [.fin 2] [.fin 1, .fin 1] =
      (.ok [.fin 1, .fin 1], (wS2 t)) := by
    have hF : World.chanFractions (wS2 t) 0 [.fin 1, .fin 1] = .ok ⟨1, 2, fun i j =>
        ([[Fl.fin (1/2), .fin (1/2)]].getD i []).getD j 0⟩ := by
      simp [World.chanFractions, wS2, wS, wC, chC, Channel.numTemplates, splitEq, World.chanTmpls, List.range_succ,
        fractionRows, hx, stackRows]
    have he : World.effArray (wS1 t) 0 =
        (.ok [.fin 1], (wS2 t)) := by
      simp [World.effArray, wS1, wS2, wS, Lru.call, dictGet, wC, chC]
    unfold World.expectedEvts
    simp only [he, bop, List.length_cons, List.length_nil, if_true, List.zipWith, hF]
    simp [vecMat, List.range_succ]
  have hG : World.gaussTerm (wS2 t) 0 [.fin 1, .fin 1] = (.ok (.fin 1), wS t) := by
    have hb : World.invCorrBlock (wS2 t) 0 = (.ok invC, wS t) := by
      simp [World.invCorrBlock, wS2, wS, Lru.call, dictGet, World.chanTmpls, wC, chC, hi]
    unfold World.gaussTerm
    simp only [hb]
    simp [vecMat, invC, blockDiag, Mat.diagOf, List.range_succ, dot, Finset.sum_range_succ, Fl.zero_def, Fl.one_def,
      List.getD, List.replicate]
    norm_num
  have hd : (World.chans (wS1 t) 0).hdata = some 0 := by
    simp [wS1, wS, wC, chC]
  have hh : (World.hists (wS1 t) 0).counts.data =
      [.fin 1, .fin 1] := by
    simp [wS1, wS, wC, bh, Hist.setBinned, vec, List.ofFn_succ]
  have hN : World.nllContribution (wS1 t) 0 [.fin 2] [.fin 1, .fin 1] =
      (.ok (.fin 1), wS t) := by
    unfold World.nllContribution
    simp only [hd, hE, hh, poisson11, hG, Fl.fin_add, zero_add]
  unfold Mct.nll
  simp only [hp]
  simp [mC, Mct.chanIds, World.nllChannels, hN, Mct.constraintSum, Fl.zero_def]

/-- the template of the example after `add_cov_mat`, as far as the likelihood reads it -/
theorem evalS (t : Template) (r : ℝ) (hr : 0 ≤ r) (hc : t.flatCounts = [.fin 1, .fin 1])
    (he : t.relErr = [.fin r, .fin r]) :
    (mC.nll (wS t) xC) = (.ok (.fin 1), wS t) := by
  have hp : mC.perChannel (wS t) xC = (.ok ([[.fin 2]], [[.fin 1, .fin 1]]), wS t) := by
    simp [Mct.perChannel, mC, Mct.chanIds, World.channelYields, World.processIndices, wS, Lru.call, dictGet,
      takeIdx, xC, Mct.numProcesses, Mct.numNui, wC, chC, Channel.numNui, Channel.numTemplates, Channel.numBins,
      cumsum, cumsumFrom, splitIdx, splitIdxFrom]
  have hx := fractions11 t r hr hc he
  have hE : (wS t).expectedEvts 0 [.fin 2] [.fin 1, .fin 1] = (.ok [.fin 1, .fin 1], wS t) := by
    have hF : (wS t).chanFractions 0 [.fin 1, .fin 1] = .ok ⟨1, 2, fun i j =>
        ([[Fl.fin (1/2), .fin (1/2)]].getD i []).getD j 0⟩ := by
      simp [World.chanFractions, wS, wC, chC, Channel.numTemplates, splitEq, World.chanTmpls, List.range_succ,
        fractionRows, hx, stackRows]
    have he : (wS t).effArray 0 = (.ok [.fin 1], wS t) := by
      simp [World.effArray, wS, Lru.call, dictGet]
    unfold World.expectedEvts
    simp only [he, bop, List.length_cons, List.length_nil, if_true, List.zipWith, hF]
    simp [vecMat, List.range_succ]
  have hG : (wS t).gaussTerm 0 [.fin 1, .fin 1] = (.ok (.fin 1), wS t) := by
    have hb : (wS t).invCorrBlock 0 = (.ok invC, wS t) := by
      simp [World.invCorrBlock, wS, Lru.call, dictGet]
    unfold World.gaussTerm
    simp only [hb]
    simp [vecMat, invC, blockDiag, Mat.diagOf, List.range_succ, dot, Finset.sum_range_succ, Fl.zero_def, Fl.one_def,
      List.getD, List.replicate]
    norm_num
  have hd : ((wS t).chans 0).hdata = some 0 := by simp [wS, wC, chC]
  have hh : ((wS t).hists 0).counts.data = [.fin 1, .fin 1] := by
    simp [wS, wC, bh, Hist.setBinned, vec, List.ofFn_succ]
  have hN : (wS t).nllContribution 0 [.fin 2] [.fin 1, .fin 1] = (.ok (.fin 1), wS t) := by
    unfold World.nllContribution
    simp only [hd, hE, hh, poisson11, hG, Fl.fin_add, zero_add]
  unfold Mct.nll
  simp only [hp]
  simp [mC, Mct.chanIds, World.nllChannels, hN, Mct.constraintSum, Fl.zero_def]

/-- the added covariance matrix `[[1, 1], [1, 1]]` -/
def covC : Mat := Mat.outer (vec ![1, 1]) (vec ![1, 1])

/-- the history: build, evaluate once, add a systematic uncertainty -/
def opsS : List Op := opsC ++ [.nll xC, .addCovMat 0 covC]

/-- the template after `add_cov_mat` -/
def tS : Template := ((bt "t" 0 ![1, 1] ![1, 1]).addCovMat covC).2

theorem btC_inv : CovInv (bt "t" 0 ![1, 1] ![1, 1]) (![1, 1] : Fin 2 → ℝ)
    (1 : Matrix (Fin 2) (Fin 2) ℝ) := by
  have e : (vec (![1, 1] : Fin 2 → ℝ)).map Fl.sq = vec (fun _ : Fin 2 => (1:ℝ)) := by
    apply map_vec; intro i; fin_cases i <;> simp
  have hone : corrOf (1 : Matrix (Fin 2) (Fin 2) ℝ) = 1 := by
    ext i j
    by_cases h : i = j
    · subst h; rw [corrOf_diag_one (by intro i; simp)]; simp
    · simp [corrOf, Matrix.one_apply_ne h]
  have hs := bt_shape "t" 0 ![1, 1] ![1, 1] (by intro i; fin_cases i <;> simp) (by intro i; fin_cases i <;> simp)
  refine ⟨rfl, rfl, Matrix.PosDef.one, ?_, ?_, ?_, ?_⟩
  · show IsReal (Mat.diagOf (statErrSq ((vec ![1, 1]).map Fl.sq))) _
    rw [e, statErrSq_vec]
    have := isReal_diagOf (fun _ : Fin 2 => statVar 1)
    simpa [statVar] using this
  · rw [hone]; exact one_real
  · rw [hone, inv_one]; exact one_real
  · rw [hs.rel]
    congr 1
    funext i
    fin_cases i <;> simp [relOf]

theorem tS_inv : CovInv tS (![1, 1] : Fin 2 → ℝ)
    (1 + Matrix.vecMulVec ![1, 1] ![1, 1] : Matrix (Fin 2) (Fin 2) ℝ) := by
  have hA : (Matrix.vecMulVec ![1, 1] ![1, 1] : Matrix (Fin 2) (Fin 2) ℝ).PosSemidef := by
    have := Matrix.posSemidef_vecMulVec_self_star (R := ℝ) (![1, 1] : Fin 2 → ℝ)
    simpa using this
  have := (addCov_inv btC_inv (isReal_outer ![1, 1] ![1, 1]) hA).2
  have e : tS = ((bt "t" 0 ![1, 1] ![1, 1]).addCov covC).2 := by
    unfold tS Template.addCovMat Template1d.addCovMat
    simp [bt, covC, Mat.outer, vec_length]
  rw [e]; exact this

theorem runS : Sys.init.run opsS = ⟨wS tS, mC⟩ := by
  rw [opsS, run_append, runC]
  have h0 : wC = (wS (bt "t" 0 ![1, 1] ![1, 1])).clear := rfl
  have hs := bt_shape "t" 0 ![1, 1] ![1, 1] (by intro i; fin_cases i <;> simp) (by intro i; fin_cases i <;> simp)
  have h1 := firstEval (bt "t" 0 ![1, 1] ![1, 1]) 1 zero_le_one (by simp [bt, vec, List.ofFn_succ])
    (by rw [hs.rel]; simp [vec, List.ofFn_succ]) rfl
  simp only [Sys.run, List.foldl_cons, List.foldl_nil, Sys.step]
  rw [h0, h1]
  simp [wS, World.setTmpl, tS, wC]

theorem staleS : (mC.nll (wS tS) xC).1 = .ok (.fin 1) := by
  rw [evalS tS (Real.sqrt 2) (Real.sqrt_nonneg 2)]
  · rw [tS_inv.counts]; simp [vec, List.ofFn_succ]
  · rw [tS_inv.rel]
    simp [vec, List.ofFn_succ, relOf, Matrix.vecMulVec_apply]
    norm_num

theorem chanS : ChanIs (wS tS).clear 0 (fun (_ : Fin 1) (_ : Fin 2) => (1:ℝ)) (fun _ _ => Real.sqrt 2)
    (fun _ => 1) (fun _ => !![1, 1/2; 1/2, 1]) := by
  have hcorr : corrOf (1 + Matrix.vecMulVec ![1, 1] ![1, 1] : Matrix (Fin 2) (Fin 2) ℝ) = !![1, 1/2; 1/2, 1] := by
    ext i j
    have h2 : Real.sqrt 2 * Real.sqrt 2 = 2 := Real.mul_self_sqrt (by norm_num)
    fin_cases i <;> fin_cases j <;>
      simp [corrOf, Matrix.vecMulVec_apply] <;> norm_num [h2]
  refine ⟨by simp [wS, wC, World.clear], by simp [wS, wC, World.clear, chC, Channel.numTemplates],
    by simp [wS, wC, World.clear, chC, vec], fun _ => tS, ?_, ?_⟩
  · simp [World.chanTmpls, wS, wC, World.clear, chC]
  · intro k
    have hi := tS_inv
    refine ⟨⟨hi.bins, ?_, ?_, ?_⟩, ?_, ?_⟩
    · rw [hi.counts]; congr 1; funext i; fin_cases i <;> rfl
    · rw [hi.rel]
      congr 1
      funext i
      fin_cases i <;> simp [relOf, Matrix.vecMulVec_apply] <;> norm_num
    · have e : tS = ((bt "t" 0 ![1, 1] ![1, 1]).addCov covC).2 := by
        unfold tS Template.addCovMat Template1d.addCovMat
        simp [bt, covC, Mat.outer, vec_length]
      rw [e, (addCov_frame _ _).1.bins]
      simp [bt]
    · rw [← hcorr]; exact hi.corr
    · rw [← hcorr]; exact hi.inv

theorem freshS : (mC.nll (wS tS).clear xC).1 = .ok (.fin (2/3)) := by
  have hcoh := clear_coherent (wS tS)
  rw [(nll_coh hcoh mC (by simp [mC, Mct.chanIds, wS, wC, World.clear]) xC).1]
  have hp : perChannelPure (wS tS).clear mC xC = .ok ([[.fin 2]], [[.fin 1, .fin 1]]) := by
    simp [perChannelPure, mC, Mct.chanIds, yieldsPure, wS, takeIdx, xC, Mct.numProcesses, Mct.numNui, wC, chC,
      Channel.numNui, Channel.numTemplates, Channel.numBins, cumsum, cumsumFrom, splitIdx, splitIdxFrom,
      World.clear, computeIndices, Channel.procs]
  have hv : vec (fun _ : Fin 1 => (2:ℝ)) = [.fin 2] := by simp [vec]
  have hn : nuiVec (fun (_ : Fin 1) (_ : Fin 2) => (1:ℝ)) = [.fin 1, .fin 1] := by
    simp [nuiVec, vec, List.ofFn_succ]
  have hsq : (0:ℝ) < 1 + Real.sqrt 2 := by positivity
  have hc := contrib_value chanS one_pos hcoh (hid := 0) (by simp [wS, wC, chC, World.clear]) (d := fun _ => 1)
    (by simp [wS, wC, bh, Hist.setBinned, World.clear, vec, List.ofFn_succ]) (fun _ => 2) (fun _ _ => 1)
    (by intro k; simp; linarith)
  have hE : ∀ i, expected (fun (_ : Fin 1) (_ : Fin 2) => (1:ℝ)) (fun _ _ => Real.sqrt 2) (fun _ => 1)
      (fun _ => 2) (fun _ _ => 1) i = 1 := by
    intro i
    simp [expected]
    field_simp
  have hpen : penalty (fun _ : Fin 1 => !![(1:ℝ), 1/2; 1/2, 1]) (fun _ _ => 1) = 2/3 := by
    have hinv : (!![(1:ℝ), 1/2; 1/2, 1])⁻¹ = !![4/3, -2/3; -2/3, 4/3] := by
      rw [Matrix.inv_eq_right_inv]
      ext i j
      fin_cases i <;> fin_cases j <;> simp [Matrix.mul_apply, Fin.sum_univ_two] <;> norm_num
    simp only [penalty, hinv]
    simp [dotProduct, Matrix.mulVec, Fin.sum_univ_two]
    norm_num
  rw [hv, hn, (nllContribution_coh hcoh 0 chanS.alloc _ _).1, hpen] at hc
  unfold nllPure
  simp only [hp]
  simp only [mC, Mct.chanIds, List.map_cons, List.map_nil, channelsPure, hc, Mct.constraintSum, hE]
  rw [binTerm_fin (Or.inr (by norm_num)) one_pos]
  simp [poissonBin, List.ofFn_succ, Fl.zero_def]

end Ex

/-- **C40 is false of the code:** build a model, evaluate its likelihood once, then add a systematic
uncertainty to its template. The likelihood at yield 2 and nuisance parameters (1, 1) is now reported as 1;
the same objects without the memoised inverse correlation matrix give 2/3. -/
theorem C40_refuted : ∃ (s : Sys) (x : Vec), s.Reachable ∧
    (s.m.nll s.w x).1 = .ok (.fin 1) ∧ (s.m.nll s.w.clear x).1 = .ok (.fin (2/3)) :=
  ⟨_, Ex.xC, ⟨_, Ex.runS⟩, Ex.staleS, Ex.freshS⟩

/-- non-vacuity of the partial theorem: the construction followed by two evaluations is such a history -/
example : SetupFirst (Ex.opsC ++ [.nll Ex.xC, .nll Ex.xC]) := by
  refine setupFirst_of_before ?_
  intro pre o post h hs e he
  have : ∀ l : List Op, (∀ q ∈ l, ¬ q.structural) → ∀ pre o post, l = pre ++ o :: post → ¬ o.structural := by
    rintro l hl pre o post rfl; exact hl o (by simp)
  rcases List.append_eq_append_iff.mp h with ⟨a, h1, h2⟩ | ⟨a, h1, h2⟩
  · exact absurd hs (this [.nll Ex.xC, .nll Ex.xC] (by simp [Op.structural]) a o post h2)
  · have hm : e ∈ Ex.opsC := by rw [h1]; simp [he]
    simp only [Ex.opsC, List.mem_cons, List.not_mem_nil, or_false] at hm
    rcases hm with rfl | rfl | rfl | rfl | rfl | rfl <;> exact id

/-- non-vacuity beyond "build first, evaluate later": a model is evaluated, then a second channel is defined and
filled with a template, and the model is evaluated again -/
example : SetupFirst (Ex.opsC ++ [.nll Ex.xC, .defineChannel "b" (.int 2) (.d1 .tuple 0 3),
    .addTemplate "b" "p" 0 1, .nll Ex.xC]) := by
  intro a e b o post c he h1 h2
  simp only [Ex.opsC] at he
  rcases a with _ | ⟨x0, a⟩
  · simp only [List.nil_append, List.cons_append, List.cons.injEq] at he; obtain ⟨rfl, he⟩ := he; exact h1.elim
  simp only [List.nil_append, List.cons_append, List.cons.injEq] at he; obtain ⟨rfl, he⟩ := he
  rcases a with _ | ⟨x1, a⟩
  · simp only [List.nil_append, List.cons_append, List.cons.injEq] at he; obtain ⟨rfl, he⟩ := he; exact h1.elim
  simp only [List.nil_append, List.cons_append, List.cons.injEq] at he; obtain ⟨rfl, he⟩ := he
  rcases a with _ | ⟨x2, a⟩
  · simp only [List.nil_append, List.cons_append, List.cons.injEq] at he; obtain ⟨rfl, he⟩ := he; exact h1.elim
  simp only [List.nil_append, List.cons_append, List.cons.injEq] at he; obtain ⟨rfl, he⟩ := he
  rcases a with _ | ⟨x3, a⟩
  · simp only [List.nil_append, List.cons_append, List.cons.injEq] at he; obtain ⟨rfl, he⟩ := he; exact h1.elim
  simp only [List.nil_append, List.cons_append, List.cons.injEq] at he; obtain ⟨rfl, he⟩ := he
  rcases a with _ | ⟨x4, a⟩
  · simp only [List.nil_append, List.cons_append, List.cons.injEq] at he; obtain ⟨rfl, he⟩ := he; exact h1.elim
  simp only [List.nil_append, List.cons_append, List.cons.injEq] at he; obtain ⟨rfl, he⟩ := he
  rcases a with _ | ⟨x5, a⟩
  · simp only [List.nil_append, List.cons_append, List.cons.injEq] at he; obtain ⟨rfl, he⟩ := he; exact h1.elim
  simp only [List.nil_append, List.cons_append, List.cons.injEq] at he; obtain ⟨rfl, he⟩ := he
  rcases a with _ | ⟨x6, a⟩
  · -- the evaluation: only channel 0 exists
    simp only [List.nil_append, List.cons_append, List.cons.injEq] at he; obtain ⟨rfl, he⟩ := he
    have hc : c = 0 := by
      have : c ∈ (Sys.init.run Ex.opsC).m.chanIds := h1
      rw [Ex.runC] at this
      simpa [Ex.mC, Mct.chanIds] using this
    subst hc
    rcases b with _ | ⟨y0, b⟩
    · simp only [List.nil_append, List.cons_append, List.cons.injEq] at he; obtain ⟨rfl, he⟩ := he; exact h2.elim
    simp only [List.nil_append, List.cons_append, List.cons.injEq] at he; obtain ⟨rfl, he⟩ := he
    rcases b with _ | ⟨y1, b⟩
    · simp only [List.nil_append, List.cons_append, List.cons.injEq] at he; obtain ⟨rfl, he⟩ := he
      have hb : dictGet (Sys.init.run (Ex.opsC ++ [.nll Ex.xC, .defineChannel "b" (.int 2) (.d1 .tuple 0 3)])).m.channels "b" =
        some 0 := h2
      rw [run_append, Ex.runC] at hb
      simp only [Sys.run, List.foldl_cons, List.foldl_nil, Sys.step, Mct.defineChannel, Ex.mC] at hb
      have hn : (Mct.nll Ex.wC Ex.mC Ex.xC).2.nChans = 1 := (nll_frame Ex.wC Ex.mC Ex.xC).nChans
      simp only [World.newChan, dictSet, Ex.mC] at hb hn
      rw [hn] at hb
      simp [dictGet] at hb
    simp only [List.nil_append, List.cons_append, List.cons.injEq] at he; obtain ⟨rfl, he⟩ := he
    rcases b with _ | ⟨y2, b⟩
    · simp only [List.nil_append, List.cons_append, List.cons.injEq] at he; obtain ⟨rfl, he⟩ := he; exact h2.elim
    simp only [List.nil_append, List.cons_append, List.cons.injEq] at he; obtain ⟨rfl, he⟩ := he
    simp at he
  simp only [List.nil_append, List.cons_append, List.cons.injEq] at he; obtain ⟨rfl, he⟩ := he
  -- after the evaluation the last structural call comes before the next evaluation
  rcases a with _ | ⟨x7, a⟩
  · simp only [List.nil_append, List.cons_append, List.cons.injEq] at he; obtain ⟨rfl, he⟩ := he; exact h1.elim
  simp only [List.nil_append, List.cons_append, List.cons.injEq] at he; obtain ⟨rfl, he⟩ := he
  rcases a with _ | ⟨x8, a⟩
  · simp only [List.nil_append, List.cons_append, List.cons.injEq] at he; obtain ⟨rfl, he⟩ := he; exact h1.elim
  simp only [List.nil_append, List.cons_append, List.cons.injEq] at he; obtain ⟨rfl, he⟩ := he
  rcases a with _ | ⟨x9, a⟩
  · simp only [List.nil_append, List.cons_append, List.cons.injEq] at he; obtain ⟨rfl, he⟩ := he
    simp at he
  simp only [List.nil_append, List.cons_append, List.cons.injEq] at he; obtain ⟨rfl, he⟩ := he
  simp at he

end

end TF.Props
