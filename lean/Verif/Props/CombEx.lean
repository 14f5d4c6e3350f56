import Verif.Props.CombProps
import Verif.Props.LumiEx

set_option linter.unusedSimpArgs false
set_option linter.unusedVariables false

/-!
# Non-vacuity of C147
-/

namespace TF.Props

open Classical Spec
open scoped Matrix

noncomputable section

/-- the present parameters do not change when Asimov data are added -/
theorem asimov_x0 (s : Sys) (h : s.Built) (hne : s.m.channels ≠ []) (S : ℕ → ChanSpec) (hS : ModelIs s S)
    (htup : ∀ c ∈ s.m.chanIds, AllTuple (s.w.chans c).range) (y : ∀ k, Fin (S k).K → ℝ) (θ : ∀ k, Fin (S k).K → Fin (S k).n → ℝ) (hp : ParamsAre s S y θ)
    (hT : NonZeroSums s S θ) (ν : String → ℝ) (hν : ∀ p ∈ s.m.processes, s.m.getYield s.w p = .ok (.fin (ν p))) :
    (s.step (.addAsimov false)).m.x0 (s.step (.addAsimov false)).w = .ok (paramVec s S ν θ) := by
  obtain ⟨e1, e2, e3, e4, e5⟩ := asimov_step s h.reachable S hS htup y θ hp hT
  rw [← x0_eq s h.reachable hne S hS y θ hp ν hν]
  generalize s.step (.addAsimov false) = s' at *
  have t1 : ∀ c, (s'.w.chans c).templates = (s.w.chans c).templates := fun c => by obtain ⟨d, hd⟩ := e4 c; rw [hd]
  have t2 : ∀ c, s'.w.chanTmpls c = s.w.chanTmpls c := fun c => by unfold World.chanTmpls; rw [t1, e1]
  have t3 : ∀ p cs, s'.w.processYield p cs = s.w.processYield p cs := by
    intro p cs
    induction cs with
    | nil => rfl
    | cons c cs ih => simp only [World.processYield, ih, e1, t1]
  rw [e2]
  unfold Mct.x0 Mct.nuiParams Mct.processYields Mct.allTmpls
  simp only [t3, funext t2]

namespace Ex

/-- a fit that starts away from the minimum `xm` returns, if the parameters held fixed agree with `xm` -/
theorem fit_from {s : Sys} (hs : s.Reachable) (hist : List FitOp) (hk : KnownIds (s.m.paramNames s.w) hist) (hb : ∀ pid b, FitOp.bound pid b ∉ hist)
    {x0 xm : Vec} (hx0 : s.m.x0 s.w = .ok x0) (hl : xm.length = s.m.numProcesses + s.m.numNui s.w) {v : ℝ} (h1 : objective s.w s.m xm = .ok (.fin v))
    (h2 : ∀ x u, x.length = s.m.numProcesses + s.m.numNui s.w → objective s.w s.m x = .ok u → ¬ u.lt (.fin v)) (g fixNui : Bool)
    (hfix : ∀ q < (s.m.paramNames s.w).length, WantedFixed (s.m.paramNames s.w) hist s.m.numProcesses fixNui q → xm[q]? = x0[q]?) :
    ∃ r, ((fitRun "iminuit" hist).doFit optErr s.w s.m false g fixNui none).1 = .ok r := by
  have hal := C51_aligned s hs
  obtain ⟨c, c1, c2, c3, c4, c5, c6⟩ := C64_iminuit s hs "iminuit" lower_iminuit hist hk x0 hx0 g fixNui none
  have hf : MFeasible c xm := by
    refine ⟨by rw [c3, hl, hal.1], fun q hq => ⟨fun hfx => ?_, fun _ b u hb' hu => ?_⟩⟩
    · rw [c3] at hq
      rw [c4, List.getElem?_map, List.getElem?_range hq] at hfx
      rw [c2]
      exact hfix q hq (of_decide_eq_true (Option.some.inj hfx))
    rw [c3] at hq
    obtain ⟨b', w1, w2⟩ := c5 q hq (fun p q' b _ hm _ => absurd hm (hb _ _))
    rw [w2] at hb'
    obtain rfl := Option.some.inj hb'
    have hbb : b' = (none, none) := by
      rcases w1 with ⟨pre, op, post, he, ⟨pid, hop, _⟩, _⟩ | ⟨_, w1⟩
      · exact absurd (show FitOp.bound pid b' ∈ hist by rw [he, hop]; simp) (hb _ _)
      · rw [w1]; split <;> rfl
    rw [hbb]
    exact ⟨fun _ h => (by cases h), fun _ h => (by cases h)⟩
  have hex : ∃ r, IsMin c r ∧ ∃ v : ℝ, r.fval = .fin v :=
    ⟨⟨⟨true, true, true⟩, ⟨true, true, true⟩, .fin v, xm, xm, .ok (Mat.zeros 1 1, Mat.zeros 1 1)⟩,
      ⟨hf, by rw [c1]; exact h1, by simp, fun y u hy hu => h2 y u (by rw [hy.1, c3, hal.1]) (c1 ▸ hu), by show xm.length = _; rw [c3, hl, hal.1], _, _, rfl⟩, _, rfl⟩
  have hm := hex.choose_spec.1
  obtain ⟨C, R, hm2⟩ := hm.2.2.2.2.2
  have hv : hex.choose.values.length = (s.m.paramNames s.w).length := by rw [← c3]; exact hm.1.1
  have hq : optFin.minuit c = .ok hex.choose := by simp only [optFin]; rw [dif_pos hex]
  exact ⟨_, (c6 optErr).2 { hex.choose with errors := (exists_errs c hex.choose).choose } C R (by unfold optErr; simp only [hq]; rfl) hv
    (by rw [← hv]; exact (exists_errs c hex.choose).choose_spec.1) hm2⟩

/-- the first channel of the two-channel model on its own -/
def opsQ1 : List Op :=
  [.binned1 ⟨[2], vec ![1, 1]⟩ ⟨true, [0, 1, 2]⟩ (some ⟨[2], vec ![1, 1]⟩), .newTmpl1 "t" 0, .defineChannel "a" (.int 2) (.d1 .tuple 0 2), .defineProcess "p",
   .addTemplate "a" "p" 0 (.fin (1/4))]

def wQ1 : World :=
  { World.init with
    hists := Function.update (fun _ => dummyHist) 0 (bh ![1, 1] ![1, 1])
    nHists := 1
    tmpls := Function.update (fun _ => dummyTmpl) 0 (bt "t" 0 ![1, 1] ![1, 1])
    nTmpls := 1
    chans := Function.update (fun _ => dummyChan) 0 chQa
    nChans := 1 }

def sysQ1 : Sys := ⟨wQ1, ⟨[("a", 0)], ["p"], [], [], []⟩⟩

theorem runQ1 : Sys.init.run opsQ1 = sysQ1 := by
  simp only [opsQ1, Sys.run, List.foldl_cons, List.foldl_nil, Sys.step, bh_eq, Sys.allocHist, World.newHist,
    Sys.init, World.init, Sys.allocTmpl, World.newTmpl]
  simp [bt_eq, Sys.allocTmpl, World.newTmpl, Function.update_apply]
  simp [Mct.defineChannel, Mct.defineProcess,
    Mct.addTemplate, World.addTemplate, Mct.empty, World.newChan, dictSet, dictGet, Mct.addData, World.addData,
    World.setChan, Channel.new, Channel.addTemplate, Channel.checkTemplate, Channel.procs, bt, bh,
    Hist.setBinned, Hist.blank, ChanBins.toTuple, Channel.addData, Channel.checkHist, sysQ1, wQ1, chQa,
    World.init, Function.update_apply]

theorem sysQ1_built : sysQ1.Built := by
  refine ⟨_, setupFirst_of_noEval ?_, runQ1⟩
  intro o ho
  simp only [opsQ1, List.mem_cons, List.not_mem_nil, or_false] at ho
  rcases ho with rfl | rfl | rfl | rfl | rfl <;> exact id

theorem chanQ1 (k : ℕ) (hk : k < sysQ1.m.chanIds.length) : k = 0 := by
  have : k < 1 := by simpa [sysQ1, Mct.chanIds] using hk
  omega

theorem modelQ1 : ModelIs sysQ1 SQ := by
  intro k hk
  obtain rfl := chanQ1 k hk
  refine ⟨Nat.one_pos, Nat.two_pos, fun _ => Matrix.PosDef.one, ?_⟩
  exact chanIs_single wQ1 0 (by simp [wQ1]) "p" 0 (1/4) "t" 0 ![1, 1] ![1, 1] (by intro i; fin_cases i <;> simp)
      (by intro i; fin_cases i <;> simp) (by simp [wQ1, chQa]) (by simp [wQ1, chQa]) (by simp [wQ1, chQa]) (by simp [wQ1])

theorem paramsQ1 : ParamsAre sysQ1 SQ yQ (fun _ _ _ => 0) := by
  intro k hk j t ht
  obtain rfl := chanQ1 k hk
  have hj : (j : ℕ) = 0 := by have : (j : ℕ) < 1 := j.2; omega
  rw [hj] at ht
  have e : t = bt "t" 0 ![1, 1] ![1, 1] := by
    have := Option.some.inj ht
    rw [← this]; simp [sysQ1, Mct.chanIds, wQ1, chQa, World.chanTmpls]
  rw [e]
  have := bt_params "t" 0 ![1, 1] ![1, 1]
  norm_num at this
  exact this

theorem yieldQ1 : sysQ1.m.getYield sysQ1.w "p" = .ok (.fin 2) := by
  simp [sysQ1, Mct.getYield, Mct.processYields, Mct.chanIds, World.processYield, wQ1, chQa, dictGet,
    Template.yieldParam, bt, initParams, bh, Hist.setBinned, npSum, vec, List.ofFn_succ, Fl.zero_def]
  norm_num

theorem identQ1 : Identifiable sysQ1 SQ := by
  intro δ h _ p hp
  have h1 := h 0 (by simp [sysQ1, Mct.chanIds]) (0 : Fin 2)
  have hp : p = "p" := by simpa [sysQ1] using hp
  subst hp
  have hn : procName sysQ1 0 (0 : Fin 1) = "p" := by simp [procName, sysQ1, Mct.chanIds, wQ1, chQa]
  have h1 : ∑ j : Fin 1, δ (procName sysQ1 0 j) * (1/4) * ((![1, 1] : Fin 2 → ℝ) 0 * (1 + 0 * ((![1, 1] : Fin 2 → ℝ) 0 / (![1, 1] : Fin 2 → ℝ) 0)) /
      ∑ i' : Fin 2, (![1, 1] : Fin 2 → ℝ) i' * (1 + 0 * ((![1, 1] : Fin 2 → ℝ) i' / (![1, 1] : Fin 2 → ℝ) i'))) = 0 := h1
  rw [Fin.sum_univ_one, hn, Fin.sum_univ_two] at h1
  norm_num at h1
  linarith

/-- its Asimov data set -/
def sysQ1A : Sys := sysQ1.step (.addAsimov false)

end Ex

/-- `C147_combination` applies to the first channel of the two-channel model (fitted from the wrong yield 2) and the two-channel model: both fits return, both find the true yield 8, and the errors of the yield and of the two
nuisance parameters of the first channel do not grow when the second channel is added. -/
example : ∃ r r', ((fitRun "iminuit" []).doFit Ex.optErr Ex.sysQ1A.w Ex.sysQ1A.m false true false none).1 = .ok r ∧
    ((fitRun "iminuit" []).doFit Ex.optErr Ex.sysQA.w Ex.sysQA.m false true false none).1 = .ok r' ∧
    r.params.values.head? = some (.fin 8) ∧ Ex.sysQ1A.m.x0 Ex.sysQ1A.w ≠ .ok r.params.values ∧
    ∀ q < 3, ∃ e e', ErrorIs r q e ∧ ErrorIs r' q e' ∧ 0 < e' ∧ e' ≤ e := by
  have htup1 : ∀ c ∈ Ex.sysQ1.m.chanIds, AllTuple (Ex.sysQ1.w.chans c).range := by simp [Ex.sysQ1, Mct.chanIds, Ex.wQ1, Ex.chQa, AllTuple]
  have hsub : ∀ k < Ex.sysQ1.m.chanIds.length, k < Ex.sysQ.m.chanIds.length := fun k hk => by rw [Ex.chanQ1 k hk]; simp [Ex.sysQ, Ex.mQ, Mct.chanIds]
  obtain ⟨a1, a2, a3, a4, a5, a6, a7⟩ := asimov_model Ex.sysQ1 Ex.sysQ1_built Ex.SQ Ex.modelQ1 htup1 Ex.yQ _ Ex.paramsQ1 (fun k hk j => Ex.sumsQ0 k (hsub k hk) j)
  obtain ⟨b1, b2, b3, b4, b5, b6, b7⟩ := asimov_model Ex.sysQ Ex.sysQ_built Ex.SQ Ex.modelQ Ex.tupQ Ex.yQ _ Ex.paramsQ Ex.sumsQ0
  change Ex.sysQ1A.Built at a1
  change Ex.sysQ1A.m = _ at a2
  change ModelIs Ex.sysQ1A _ at a3
  change DataIs Ex.sysQ1A _ _ at a4
  change ∀ ν θ, paramVec Ex.sysQ1A Ex.SQ ν θ = _ at a5
  change ∀ k j, procName Ex.sysQ1A k j = _ at a6
  change ∀ ν θ k i, expectedIn Ex.sysQ1A Ex.SQ ν θ k i = _ at a7
  change Ex.sysQA.Built at b1
  change Ex.sysQA.m = _ at b2
  change ModelIs Ex.sysQA _ at b3
  change DataIs Ex.sysQA _ _ at b4
  change ∀ ν θ, paramVec Ex.sysQA Ex.SQ ν θ = _ at b5
  change ∀ k j, procName Ex.sysQA k j = _ at b6
  change ∀ ν θ k i, expectedIn Ex.sysQA Ex.SQ ν θ k i = _ at b7
  have hm : MoreChannels Ex.sysQ1A Ex.sysQA Ex.SQ := by
    refine ⟨a3, b3, by rw [a2, b2]; rfl, by rw [a2, b2]; simp [Ex.sysQ1, Ex.sysQ, Ex.mQ, Mct.chanIds], fun k hk j => ?_, by rw [a2, b2]; rfl⟩
    rw [a2] at hk
    obtain rfl := Ex.chanQ1 k hk
    rw [a6, b6]
    simp [procName, Ex.sysQ1, Ex.sysQ, Ex.mQ, Mct.chanIds, Ex.wQ1, Ex.wQ, Ex.chQa]
  have hE : ∀ k < Ex.sysQA.m.chanIds.length, ∀ i, expectedIn Ex.sysQA Ex.SQ (fun _ => 8) (fun _ _ _ => 0) k i = presentIn Ex.SQ Ex.yQ (fun _ _ _ => 0) k i := by
    intro k hk i
    rw [b2] at hk
    rw [b7, expectedIn_eq]
    unfold presentIn
    refine Finset.sum_congr rfl fun j _ => ?_
    rw [Ex.shareQ k hk j]
    rfl
  have hpos : ∀ k < Ex.sysQA.m.chanIds.length, ∀ i, (1e-100 : ℝ) ≤ presentIn Ex.SQ Ex.yQ (fun _ _ _ => 0) k i := fun k hk i => by
    rw [← hE k hk i, b7]
    rw [b2] at hk
    exact Ex.expQ 8 le_rfl k hk i
  have hT0 : NonZeroSums Ex.sysQA Ex.SQ fun _ _ _ => 0 := by unfold NonZeroSums; rw [b2]; exact Ex.sumsQ0
  have hc1 : ConstraintsAre Ex.sysQ1A (fun _ => 0) (fun _ => 1) := by intro p hp; rw [a2] at hp; simp [Ex.sysQ1] at hp
  have hc2 : ConstraintsAre Ex.sysQA (fun _ => 0) (fun _ => 1) := by intro p hp; rw [b2] at hp; simp [Ex.sysQ, Ex.mQ] at hp
  have hx1 : Ex.sysQ1A.m.x0 Ex.sysQ1A.w = .ok (paramVec Ex.sysQ1 Ex.SQ (fun _ => 2) fun _ _ _ => 0) :=
    asimov_x0 Ex.sysQ1 Ex.sysQ1_built (by simp [Ex.sysQ1]) Ex.SQ Ex.modelQ1 htup1 Ex.yQ _ Ex.paramsQ1 (fun k hk j => Ex.sumsQ0 k (hsub k hk) j) (fun _ => 2)
      (by intro p hp; simp [Ex.sysQ1] at hp; subst hp; exact Ex.yieldQ1)
  have hx2 : Ex.sysQA.m.x0 Ex.sysQA.w = .ok (paramVec Ex.sysQ Ex.SQ (fun _ => 8) fun _ _ _ => 0) :=
    asimov_x0 Ex.sysQ Ex.sysQ_built (by simp [Ex.sysQ, Ex.mQ]) Ex.SQ Ex.modelQ Ex.tupQ Ex.yQ _ Ex.paramsQ Ex.sumsQ0 (fun _ => 8)
      (by simp only [Ex.sysQ]; intro p hp; simp [Ex.mQ] at hp; subst hp; exact Ex.yieldQ)
  have hid1 : Identifiable Ex.sysQ1A Ex.SQ := fun δ h1 h2 p hp => by
    rw [a2] at hp
    exact Ex.identQ1 δ (fun k hk i => by rw [← a7]; exact h1 k (by rw [a2]; exact hk) i) (by intro p hp; simp [Ex.sysQ1] at hp) p hp
  have hid2 : Identifiable Ex.sysQA Ex.SQ := fun δ h1 h2 p hp => by
    rw [b2] at hp
    exact Ex.identQ δ (fun k hk i => by rw [← b7]; exact h1 k (by rw [b2]; exact hk) i) (by intro p hp; simp [Ex.sysQ, Ex.mQ] at hp) p hp
  have hE1 : ∀ k < Ex.sysQ1A.m.chanIds.length, ∀ i, expectedIn Ex.sysQ1A Ex.SQ (fun _ => 8) (fun _ _ _ => 0) k i = presentIn Ex.SQ Ex.yQ (fun _ _ _ => 0) k i := by
    intro k hk i
    rw [← hE k (hk.trans_le hm.channels) i, expectedIn_eq, expectedIn_eq]
  have hne1 : Ex.sysQ1A.m.channels ≠ [] := by rw [a2]; simp [Ex.sysQ1]
  have hne2 : Ex.sysQA.m.channels ≠ [] := by rw [b2]; simp [Ex.sysQ, Ex.mQ]
  obtain ⟨m1, m2⟩ := C106_minimum Ex.sysQ1A a1 hne1 Ex.SQ a3 _ a4 (fun k hk i => hpos k (hk.trans_le hm.channels) i) _ _ hc1 (fun _ => 8)
    (fun k hk => hT0 k (hk.trans_le hm.channels)) hE1 (by intro p hp; rw [a2] at hp; simp [Ex.sysQ1] at hp) hid1
  obtain ⟨n1, n2⟩ := C106_minimum Ex.sysQA b1 hne2 Ex.SQ b3 _ b4 hpos _ _ hc2 (fun _ => 8) hT0 hE (by intro p hp; rw [b2] at hp; simp [Ex.sysQ, Ex.mQ] at hp) hid2
  have hnf : ∀ s : Sys, ∀ q, ¬ WantedFixed (s.m.paramNames s.w) [] s.m.numProcesses false q := by simp [WantedFixed, FitFixed]
  have hkn : ∀ s : Sys, KnownIds (s.m.paramNames s.w) [] := fun s => ⟨by simp, by simp⟩
  obtain ⟨r, hr⟩ := Ex.fit_from a1.reachable [] (hkn _) (by simp) hx1 (paramVec_length (reachable_wf a1.reachable) a3 _ _) m1 (fun x u h1 h2 => (m2 x u h1 h2).1) true false
    (fun q _ h => absurd h (hnf _ q))
  obtain ⟨r', hr'⟩ := Ex.fit_from b1.reachable [] (hkn _) (by simp) hx2 (paramVec_length (reachable_wf b1.reachable) b3 _ _) n1 (fun x u h1 h2 => (n2 x u h1 h2).1) true false
    (fun q _ h => absurd h (hnf _ q))
  obtain ⟨k1, k2, k3, k4⟩ := C147_combination Ex.sysQ1A Ex.sysQA a1 b1 hne1 Ex.SQ hm _ a4 b4 hpos _ _ hc1 hc2 (fun _ => 8) (by intro p hp; rw [a2] at hp; simp [Ex.sysQ1] at hp) _ _ hx1 hx2 hT0 hE hid1
    Ex.optErr Ex.optErr Ex.optErr_fin.1 Ex.optErr_fin.1 Ex.optErr_exact Ex.optErr_exact "iminuit" lower_iminuit [] [] (hkn _) (hkn _) false true false false true false (by simp)
    (fun q _ h => absurd h (hnf _ q)) (fun q _ h => absurd h (hnf _ q)) (fun q hq _ => ⟨hq, hnf _ q⟩) r r' hr hr'
  have hpl : (Ex.sysQ1A.m.paramNames Ex.sysQ1A.w).length = 3 := by
    rw [(C51_aligned _ a1.reachable).1, ← paramVec_length (reachable_wf a1.reachable) a3 (fun _ => 8) fun _ _ _ => 0, a5]
    simp [paramVec, Ex.sysQ1, Mct.chanIds, nuiVec, List.range_succ, Ex.SQ, List.ofFn_succ, vec]
  refine ⟨r, r', hr, hr', ?_, ?_, fun q hq => k4 q (by omega) ⟨by omega, hnf _ q⟩⟩
  · rw [k1, a5]; simp [paramVec, Ex.sysQ1]
  · rw [k1, a5, hx1]
    simp [paramVec, Ex.sysQ1]

end

end TF.Props
