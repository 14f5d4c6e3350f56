import Verif.Props.CombProps2
import Verif.Props.CombEx

set_option linter.unusedSimpArgs false
set_option linter.unusedVariables false

/-!
# Non-vacuity of C147 (weighted average)
-/

namespace TF.Props

open Classical Spec
open scoped Matrix

noncomputable section

namespace Ex

/-- the second channel of the two-channel model on its own -/
def opsQ2 : List Op :=
  [.binned1 ⟨[2], vec ![2, 4]⟩ ⟨true, [0, 1, 2]⟩ (some ⟨[2], vec ![1, 1]⟩), .newTmpl1 "u" 0, .defineChannel "b" (.int 2) (.d1 .tuple 0 2), .defineProcess "p",
   .addTemplate "b" "p" 0 (.fin (3/4))]

def chQb2 : Channel :=
  ⟨"b", [2], .d1 .tuple 0 2, ["p"], [("p", 0)], [("p", .fin (3/4))], none, some 1, some .t1, some .h1⟩

def wQ2 : World :=
  { World.init with
    hists := Function.update (fun _ => dummyHist) 0 (bh ![2, 4] ![1, 1])
    nHists := 1
    tmpls := Function.update (fun _ => dummyTmpl) 0 (bt "u" 0 ![2, 4] ![1, 1])
    nTmpls := 1
    chans := Function.update (fun _ => dummyChan) 0 chQb2
    nChans := 1 }

def sysQ2 : Sys := ⟨wQ2, ⟨[("b", 0)], ["p"], [], [], []⟩⟩

theorem runQ2 : Sys.init.run opsQ2 = sysQ2 := by
  simp only [opsQ2, Sys.run, List.foldl_cons, List.foldl_nil, Sys.step, bh_eq, Sys.allocHist, World.newHist,
    Sys.init, World.init, Sys.allocTmpl, World.newTmpl]
  simp [bt_eq, Sys.allocTmpl, World.newTmpl, Function.update_apply]
  simp [Mct.defineChannel, Mct.defineProcess,
    Mct.addTemplate, World.addTemplate, Mct.empty, World.newChan, dictSet, dictGet, Mct.addData, World.addData,
    World.setChan, Channel.new, Channel.addTemplate, Channel.checkTemplate, Channel.procs, bt, bh,
    Hist.setBinned, Hist.blank, ChanBins.toTuple, Channel.addData, Channel.checkHist, sysQ2, wQ2, chQb2,
    World.init, Function.update_apply]

theorem sysQ2_built : sysQ2.Built := by
  refine ⟨_, setupFirst_of_noEval ?_, runQ2⟩
  intro o ho
  simp only [opsQ2, List.mem_cons, List.not_mem_nil, or_false] at ho
  rcases ho with rfl | rfl | rfl | rfl | rfl <;> exact id

theorem chanQ2 (k : ℕ) (hk : k < sysQ2.m.chanIds.length) : k = 0 := by
  have : k < 1 := by simpa [sysQ2, Mct.chanIds] using hk
  omega

/-- template yields of the second channel -/
def yQ2 : ∀ k, Fin (laterChannels SQ 1 k).K → ℝ := fun k => yQ (1 + k)

theorem modelQ2 : ModelIs sysQ2 (laterChannels SQ 1) := by
  intro k hk
  obtain rfl := chanQ2 k hk
  refine ⟨Nat.one_pos, Nat.two_pos, fun _ => Matrix.PosDef.one, ?_⟩
  exact chanIs_single wQ2 0 (by simp [wQ2]) "p" 0 (3/4) "u" 0 ![2, 4] ![1, 1] (by intro i; fin_cases i <;> simp)
      (by intro i; fin_cases i <;> simp) (by simp [wQ2, chQb2]) (by simp [wQ2, chQb2]) (by simp [wQ2, chQb2]) (by simp [wQ2])

theorem paramsQ2 : ParamsAre sysQ2 (laterChannels SQ 1) yQ2 (fun _ _ _ => 0) := by
  intro k hk j t ht
  obtain rfl := chanQ2 k hk
  have hj : (j : ℕ) = 0 := by have : (j : ℕ) < 1 := j.2; omega
  rw [hj] at ht
  have e : t = bt "u" 0 ![2, 4] ![1, 1] := by
    have := Option.some.inj ht
    rw [← this]; simp [sysQ2, Mct.chanIds, wQ2, chQb2, World.chanTmpls]
  rw [e]
  have := bt_params "u" 0 ![2, 4] ![1, 1]
  norm_num at this
  exact this

theorem yieldQ2 : sysQ2.m.getYield sysQ2.w "p" = .ok (.fin 6) := by
  simp [sysQ2, Mct.getYield, Mct.processYields, Mct.chanIds, World.processYield, wQ2, chQb2, dictGet,
    Template.yieldParam, bt, initParams, bh, Hist.setBinned, npSum, vec, List.ofFn_succ, Fl.zero_def]
  norm_num

theorem identQ2 : Identifiable sysQ2 (laterChannels SQ 1) := by
  intro δ h _ p hp
  have h1 := h 0 (by simp [sysQ2, Mct.chanIds]) (0 : Fin 2)
  have hp : p = "p" := by simpa [sysQ2] using hp
  subst hp
  have hn : procName sysQ2 0 (0 : Fin 1) = "p" := by simp [procName, sysQ2, Mct.chanIds, wQ2, chQb2]
  have h1 : ∑ j : Fin 1, δ (procName sysQ2 0 j) * (3/4) * ((![2, 4] : Fin 2 → ℝ) 0 * (1 + 0 * ((![1, 1] : Fin 2 → ℝ) 0 / (![2, 4] : Fin 2 → ℝ) 0)) /
      ∑ i' : Fin 2, (![2, 4] : Fin 2 → ℝ) i' * (1 + 0 * ((![1, 1] : Fin 2 → ℝ) i' / (![2, 4] : Fin 2 → ℝ) i'))) = 0 := h1
  rw [Fin.sum_univ_one, hn, Fin.sum_univ_two] at h1
  norm_num at h1
  linarith

/-- its Asimov data set -/
def sysQ2A : Sys := sysQ2.step (.addAsimov false)

end Ex

/-- `C147_weighted` applies to the two channels of the two-channel model fitted separately (from the wrong yields 2 and 6) and together: all three fits return and the inverse squared error of the yield in the combined fit is at least the sum
of the other two. -/
example : ∃ r₁ r₂ r, ((fitRun "iminuit" []).doFit Ex.optErr Ex.sysQ1A.w Ex.sysQ1A.m false true false none).1 = .ok r₁ ∧
    ((fitRun "iminuit" []).doFit Ex.optErr Ex.sysQ2A.w Ex.sysQ2A.m false true false none).1 = .ok r₂ ∧
    ((fitRun "iminuit" []).doFit Ex.optErr Ex.sysQA.w Ex.sysQA.m false true false none).1 = .ok r ∧
    ∃ e₁ e₂ e, ErrorIs r₁ 0 e₁ ∧ ErrorIs r₂ 0 e₂ ∧ ErrorIs r 0 e ∧ 0 < e₁ ∧ 0 < e₂ ∧ 0 < e ∧ (e₁ ^ 2)⁻¹ + (e₂ ^ 2)⁻¹ ≤ (e ^ 2)⁻¹ := by
  have htup1 : ∀ c ∈ Ex.sysQ1.m.chanIds, AllTuple (Ex.sysQ1.w.chans c).range := by simp [Ex.sysQ1, Mct.chanIds, Ex.wQ1, Ex.chQa, AllTuple]
  have htup2 : ∀ c ∈ Ex.sysQ2.m.chanIds, AllTuple (Ex.sysQ2.w.chans c).range := by simp [Ex.sysQ2, Mct.chanIds, Ex.wQ2, Ex.chQb2, AllTuple]
  have hsub : ∀ k < Ex.sysQ1.m.chanIds.length, k < Ex.sysQ.m.chanIds.length := fun k hk => by rw [Ex.chanQ1 k hk]; simp [Ex.sysQ, Ex.mQ, Mct.chanIds]
  have hsub2 : ∀ k < Ex.sysQ2.m.chanIds.length, 1 + k < Ex.sysQ.m.chanIds.length := fun k hk => by rw [Ex.chanQ2 k hk]; simp [Ex.sysQ, Ex.mQ, Mct.chanIds]
  have hT2 : NonZeroSums Ex.sysQ2 (laterChannels Ex.SQ 1) fun _ _ _ => 0 := fun k hk j => Ex.sumsQ0 (1 + k) (hsub2 k hk) j
  have hT1 : NonZeroSums Ex.sysQ1 Ex.SQ fun _ _ _ => 0 := fun k hk j => Ex.sumsQ0 k (hsub k hk) j
  obtain ⟨a1, a2, a3, a4, a5, a6, a7⟩ := asimov_model Ex.sysQ1 Ex.sysQ1_built Ex.SQ Ex.modelQ1 htup1 Ex.yQ _ Ex.paramsQ1 hT1
  obtain ⟨c1, c2, c3, c4, c5, c6, c7⟩ := asimov_model Ex.sysQ2 Ex.sysQ2_built _ Ex.modelQ2 htup2 Ex.yQ2 _ Ex.paramsQ2 hT2
  obtain ⟨b1, b2, b3, b4, b5, b6, b7⟩ := asimov_model Ex.sysQ Ex.sysQ_built Ex.SQ Ex.modelQ Ex.tupQ Ex.yQ _ Ex.paramsQ Ex.sumsQ0
  change Ex.sysQ1A.Built at a1
  change Ex.sysQ1A.m = _ at a2
  change ModelIs Ex.sysQ1A _ at a3
  change DataIs Ex.sysQ1A _ _ at a4
  change ∀ k j, procName Ex.sysQ1A k j = _ at a6
  change ∀ ν θ k i, expectedIn Ex.sysQ1A Ex.SQ ν θ k i = _ at a7
  change Ex.sysQ2A.Built at c1
  change Ex.sysQ2A.m = _ at c2
  change ModelIs Ex.sysQ2A _ at c3
  change DataIs Ex.sysQ2A _ _ at c4
  change ∀ k j, procName Ex.sysQ2A k j = _ at c6
  change ∀ ν θ k i, expectedIn Ex.sysQ2A _ ν θ k i = _ at c7
  change Ex.sysQA.Built at b1
  change Ex.sysQA.m = _ at b2
  change ModelIs Ex.sysQA _ at b3
  change DataIs Ex.sysQA _ _ at b4
  change ∀ k j, procName Ex.sysQA k j = _ at b6
  change ∀ ν θ k i, expectedIn Ex.sysQA Ex.SQ ν θ k i = _ at b7
  have len1 : Ex.sysQ1A.m.chanIds.length = 1 := by rw [a2]; simp [Ex.sysQ1, Mct.chanIds]
  have hfree : Ex.sysQA.m.constrained = [] := by rw [b2]; simp [Ex.sysQ, Ex.mQ]
  have hm1 : MoreChannels Ex.sysQ1A Ex.sysQA Ex.SQ := by
    refine ⟨a3, b3, by rw [a2, b2]; rfl, by rw [a2, b2]; simp [Ex.sysQ1, Ex.sysQ, Ex.mQ, Mct.chanIds], fun k hk j => ?_, by rw [a2, b2]; rfl⟩
    rw [a2] at hk
    obtain rfl := Ex.chanQ1 k hk
    rw [a6, b6]
    simp [procName, Ex.sysQ1, Ex.sysQ, Ex.mQ, Mct.chanIds, Ex.wQ1, Ex.wQ, Ex.chQa]
  have hm : Combines Ex.sysQ1A Ex.sysQ2A Ex.sysQA Ex.SQ := by
    refine ⟨hm1, by rw [len1]; exact c3, by rw [c2, b2]; rfl, by rw [len1, b2, c2]; simp [Ex.sysQ2, Ex.sysQ, Ex.mQ, Mct.chanIds], fun k hk j => ?_, hfree, by rw [c2]; rfl⟩
    rw [c2] at hk
    obtain rfl := Ex.chanQ2 k hk
    have hj : (j : ℕ) = 0 := by
      have h1 := j.2
      have h2 : ∀ n, n = 1 → (Ex.SQ (n + 0)).K = 1 := by rintro n rfl; rfl
      have := h2 _ len1
      omega
    rw [c6, b6, hj]
    simp only [len1]
    simp [procName, Ex.sysQ2, Ex.sysQ, Ex.mQ, Mct.chanIds, Ex.wQ2, Ex.wQ, Ex.chQb, Ex.chQb2]
  have hE : ∀ k < Ex.sysQA.m.chanIds.length, ∀ i, expectedIn Ex.sysQA Ex.SQ (fun _ => 8) (fun _ _ _ => 0) k i = presentIn Ex.SQ Ex.yQ (fun _ _ _ => 0) k i := by
    intro k hk i
    rw [b2] at hk
    rw [b7, expectedIn_eq]
    unfold presentIn
    refine Finset.sum_congr rfl fun j _ => ?_
    rw [Ex.shareQ k hk j]
    rfl
  have hpos : ∀ k < Ex.sysQA.m.chanIds.length, ∀ i, (1e-100 : ℝ) ≤ presentIn Ex.SQ Ex.yQ (fun _ _ _ => 0) k i := fun k hk i => by
    rw [← hE k hk i, b7]
    rw [b2] at hk
    exact Ex.expQ 8 le_rfl k hk i
  have hT0 : NonZeroSums Ex.sysQA Ex.SQ fun _ _ _ => 0 := by unfold NonZeroSums; rw [b2]; exact Ex.sumsQ0
  have hTc : NonZeroSums Ex.sysQ2A (laterChannels Ex.SQ 1) fun _ _ _ => 0 := by unfold NonZeroSums; rw [c2]; exact hT2
  have hc0 : ∀ t : Sys, t.m.constrained = [] → ConstraintsAre t (fun _ => 0) (fun _ => 1) := fun t ht p hp => by rw [ht] at hp; cases hp
  have f1 : Ex.sysQ1A.m.constrained = [] := by rw [a2]; rfl
  have f2 : Ex.sysQ2A.m.constrained = [] := by rw [c2]; rfl
  have hx1 : Ex.sysQ1A.m.x0 Ex.sysQ1A.w = .ok (paramVec Ex.sysQ1 Ex.SQ (fun _ => 2) fun _ _ _ => 0) :=
    asimov_x0 Ex.sysQ1 Ex.sysQ1_built (by simp [Ex.sysQ1]) Ex.SQ Ex.modelQ1 htup1 Ex.yQ _ Ex.paramsQ1 hT1 (fun _ => 2)
      (by intro p hp; simp [Ex.sysQ1] at hp; subst hp; exact Ex.yieldQ1)
  have hx2 : Ex.sysQ2A.m.x0 Ex.sysQ2A.w = .ok (paramVec Ex.sysQ2 (laterChannels Ex.SQ 1) (fun _ => 6) fun _ _ _ => 0) :=
    asimov_x0 Ex.sysQ2 Ex.sysQ2_built (by simp [Ex.sysQ2]) _ Ex.modelQ2 htup2 Ex.yQ2 _ Ex.paramsQ2 hT2 (fun _ => 6)
      (by intro p hp; simp [Ex.sysQ2] at hp; subst hp; exact Ex.yieldQ2)
  have hx : Ex.sysQA.m.x0 Ex.sysQA.w = .ok (paramVec Ex.sysQ Ex.SQ (fun _ => 8) fun _ _ _ => 0) :=
    asimov_x0 Ex.sysQ Ex.sysQ_built (by simp [Ex.sysQ, Ex.mQ]) Ex.SQ Ex.modelQ Ex.tupQ Ex.yQ _ Ex.paramsQ Ex.sumsQ0 (fun _ => 8)
      (by simp only [Ex.sysQ]; intro p hp; simp [Ex.mQ] at hp; subst hp; exact Ex.yieldQ)
  have hid1 : Identifiable Ex.sysQ1A Ex.SQ := fun δ h1 h2 p hp => by
    rw [a2] at hp
    exact Ex.identQ1 δ (fun k hk i => by rw [← a7]; exact h1 k (by rw [a2]; exact hk) i) (by intro p hp; simp [Ex.sysQ1] at hp) p hp
  have hid2 : Identifiable Ex.sysQ2A (laterChannels Ex.SQ 1) := fun δ h1 h2 p hp => by
    rw [c2] at hp
    exact Ex.identQ2 δ (fun k hk i => by rw [← c7]; exact h1 k (by rw [c2]; exact hk) i) (by intro p hp; simp [Ex.sysQ2] at hp) p hp
  have hidc : Identifiable Ex.sysQA Ex.SQ := fun δ h1 h2 p hp => by
    rw [b2] at hp
    exact Ex.identQ δ (fun k hk i => by rw [← b7]; exact h1 k (by rw [b2]; exact hk) i) (by intro p hp; simp [Ex.sysQ, Ex.mQ] at hp) p hp
  have hE1 : ∀ k < Ex.sysQ1A.m.chanIds.length, ∀ i, expectedIn Ex.sysQ1A Ex.SQ (fun _ => 8) (fun _ _ _ => 0) k i = presentIn Ex.SQ Ex.yQ (fun _ _ _ => 0) k i := by
    intro k hk i
    rw [← hE k (hk.trans_le hm1.channels) i, expectedIn_eq, expectedIn_eq]
  have hE2 : ∀ k < Ex.sysQ2A.m.chanIds.length, ∀ i, expectedIn Ex.sysQ2A (laterChannels Ex.SQ 1) (fun _ => 8) (fun _ _ _ => 0) k i = presentIn (laterChannels Ex.SQ 1) Ex.yQ2 (fun _ _ _ => 0) k i := by
    intro k hk i
    rw [c2] at hk
    have h1 := hE (1 + k) (by rw [b2]; exact hsub2 k hk) i
    rw [expectedIn_eq] at h1
    rw [expectedIn_eq]
    exact h1
  have hpos2 : ∀ k < Ex.sysQ2A.m.chanIds.length, ∀ i, (1e-100 : ℝ) ≤ presentIn (laterChannels Ex.SQ 1) Ex.yQ2 (fun _ _ _ => 0) k i := fun k hk i => by
    rw [c2] at hk
    exact hpos (1 + k) (by rw [b2]; exact hsub2 k hk) i
  have hne1 : Ex.sysQ1A.m.channels ≠ [] := by rw [a2]; simp [Ex.sysQ1]
  have hne2 : Ex.sysQ2A.m.channels ≠ [] := by rw [c2]; simp [Ex.sysQ2]
  have hne : Ex.sysQA.m.channels ≠ [] := by rw [b2]; simp [Ex.sysQ, Ex.mQ]
  have hV : ∀ t : Sys, t.m.constrained = [] → ∀ p ∈ t.m.constrained, (fun _ : String => (0 : ℝ)) p = (fun _ => 8) p := fun t ht p hp => by rw [ht] at hp; cases hp
  obtain ⟨m1, m2⟩ := C106_minimum Ex.sysQ1A a1 hne1 Ex.SQ a3 _ a4 (fun k hk i => hpos k (hk.trans_le hm1.channels) i) _ _ (hc0 _ f1) (fun _ => 8)
    (fun k hk => hT0 k (hk.trans_le hm1.channels)) hE1 (hV _ f1) hid1
  obtain ⟨l1, l2⟩ := C106_minimum Ex.sysQ2A c1 hne2 _ c3 _ c4 hpos2 _ _ (hc0 _ f2) (fun _ => 8) hTc hE2 (hV _ f2) hid2
  obtain ⟨n1, n2⟩ := C106_minimum Ex.sysQA b1 hne Ex.SQ b3 _ b4 hpos _ _ (hc0 _ hfree) (fun _ => 8) hT0 hE (hV _ hfree) hidc
  have hnf : ∀ s : Sys, ∀ q, ¬ WantedFixed (s.m.paramNames s.w) [] s.m.numProcesses false q := by simp [WantedFixed, FitFixed]
  have hkn : ∀ s : Sys, KnownIds (s.m.paramNames s.w) [] := fun s => ⟨by simp, by simp⟩
  obtain ⟨r₁, hr₁⟩ := Ex.fit_from a1.reachable [] (hkn _) (by simp) hx1 (paramVec_length (reachable_wf a1.reachable) a3 _ _) m1 (fun x u h1 h2 => (m2 x u h1 h2).1) true false
    (fun q _ h => absurd h (hnf _ q))
  obtain ⟨r₂, hr₂⟩ := Ex.fit_from c1.reachable [] (hkn _) (by simp) hx2 (paramVec_length (reachable_wf c1.reachable) c3 _ _) l1 (fun x u h1 h2 => (l2 x u h1 h2).1) true false
    (fun q _ h => absurd h (hnf _ q))
  obtain ⟨r, hr⟩ := Ex.fit_from b1.reachable [] (hkn _) (by simp) hx (paramVec_length (reachable_wf b1.reachable) b3 _ _) n1 (fun x u h1 h2 => (n2 x u h1 h2).1) true false
    (fun q _ h => absurd h (hnf _ q))
  refine ⟨r₁, r₂, r, hr₁, hr₂, hr, ?_⟩
  exact C147_weighted Ex.sysQ1A Ex.sysQ2A Ex.sysQA a1 c1 b1 hne1 hne2 Ex.SQ hm _ a4 (by rw [len1]; exact c4) b4 hpos (fun _ => 8) hT0 hE hid1 (by rw [len1]; exact hid2) _ _ _ hx1 hx2 hx false
    (by simp) (by simp) (by simp) Ex.optErr Ex.optErr Ex.optErr Ex.optErr_fin.1 Ex.optErr_fin.1 Ex.optErr_fin.1 Ex.optErr_exact Ex.optErr_exact Ex.optErr_exact "iminuit" lower_iminuit
    false true false true false true r₁ r₂ r hr₁ hr₂ hr 0 (by rw [b2]; simp [Ex.sysQ, Ex.mQ, Mct.numProcesses])

end

end TF.Props
