import Verif.Props.MergeProps
import Verif.Props.CombEx2

set_option linter.unusedSimpArgs false
set_option linter.unusedVariables false

/-!
# Non-vacuity of C148
-/

namespace TF.Props

open Classical Spec
open scoped Matrix

noncomputable section

namespace Ex

/-- a histogram with one bin -/
def bhm (c e : Fin 1 → ℝ) : Hist :=
  (Hist.blank .h1 [⟨true, [0, 2]⟩] [1] (.d1 .tuple 0 2)).setBinned ⟨[1], vec c⟩ (some ⟨[1], vec e⟩)

theorem bhm_eq (c e : Fin 1 → ℝ) : Hist1d.fromBinned ⟨[1], vec c⟩ ⟨true, [0, 2]⟩ (some ⟨[1], vec e⟩) = .ok (bhm c e) := rfl

/-- the template made from such a histogram -/
def btm (name : String) (hid : ℕ) (c e : Fin 1 → ℝ) : Template :=
  { cls := .t1, name := name, hist := hid
    flatCounts := vec c, flatErrSq := (vec e).map Fl.sq
    bins := [1], numBins := 1, range := .d1 .tuple 0 2
    params := initParams 1 (bhm c e)
    cov := Mat.diagOf (statErrSq ((vec e).map Fl.sq))
    covMats := [Mat.diagOf (statErrSq ((vec e).map Fl.sq))]
    corr := Mat.diagOf (List.replicate 1 1), invCorr := Mat.diagOf (List.replicate 1 1)
    relErr := relErrs (Mat.diagOf (statErrSq ((vec e).map Fl.sq))) (vec c) }

theorem btm_eq (name : String) (hid : ℕ) (c e : Fin 1 → ℝ) : Template1d.new name hid (bhm c e) = .ok (btm name hid c e) := by
  unfold Template1d.new
  show Template.build .t1 name hid (bhm c e) 1 = _
  unfold Template.build
  rw [if_pos ⟨by simp [bhm, Hist.setBinned, vec_length], by
    simp [bhm, Hist.setBinned, NdArr.map, vec_length]⟩]
  rfl

theorem btm_shape (name : String) (hid : ℕ) (c e : Fin 1 → ℝ) (hc : ∀ i, c i ≠ 0) (he : ∀ i, 0 < e i) : HasShape (btm name hid c e) c (fun i => e i / c i) := by
  refine ⟨rfl, rfl, ?_, rfl⟩
  show relErrs (Mat.diagOf (statErrSq ((vec e).map Fl.sq))) (vec c) = _
  rw [map_vec e Fl.sq (fun i => e i ^ 2) (fun i => Fl.sq_fin _), statErrSq_vec,
    relErrs_vec (isReal_diagOf _) (fun i => by
      rw [Matrix.diagonal_apply_eq]; exact (statVar_pos (sq_nonneg _)).le)]
  congr 1
  funext i
  have h0 : e i ^ 2 ≠ 0 := pow_ne_zero 2 (he i).ne'
  rw [Matrix.diagonal_apply_eq]
  simp only [relOf, statVar, if_neg (hc i), if_neg h0, Real.sqrt_sq (he i).le]

theorem one_realm : IsReal (Mat.diagOf (List.replicate 1 1)) (1 : Matrix (Fin 1) (Fin 1) ℝ) := by
  have := isReal_diagOf (fun _ : Fin 1 => (1:ℝ))
  rw [← replicate_one_vec, Matrix.diagonal_one] at this
  exact this

/-- the second channel of the two-channel model, its two bins (contents 2 and 4) merged into one -/
def opsQ3 : List Op :=
  [.binned1 ⟨[1], vec ![6]⟩ ⟨true, [0, 2]⟩ (some ⟨[1], vec ![1]⟩), .newTmpl1 "u" 0, .defineChannel "b" (.int 1) (.d1 .tuple 0 2), .defineProcess "p",
   .addTemplate "b" "p" 0 (.fin (3/4))]

def chQb3 : Channel :=
  ⟨"b", [1], .d1 .tuple 0 2, ["p"], [("p", 0)], [("p", .fin (3/4))], none, some 1, some .t1, some .h1⟩

def wQ3 : World :=
  { World.init with
    hists := Function.update (fun _ => dummyHist) 0 (bhm ![6] ![1])
    nHists := 1
    tmpls := Function.update (fun _ => dummyTmpl) 0 (btm "u" 0 ![6] ![1])
    nTmpls := 1
    chans := Function.update (fun _ => dummyChan) 0 chQb3
    nChans := 1 }

def sysQ3 : Sys := ⟨wQ3, ⟨[("b", 0)], ["p"], [], [], []⟩⟩

theorem runQ3 : Sys.init.run opsQ3 = sysQ3 := by
  simp only [opsQ3, Sys.run, List.foldl_cons, List.foldl_nil, Sys.step, bhm_eq, Sys.allocHist, World.newHist,
    Sys.init, World.init, Sys.allocTmpl, World.newTmpl]
  simp [btm_eq, Sys.allocTmpl, World.newTmpl, Function.update_apply]
  simp [Mct.defineChannel, Mct.defineProcess,
    Mct.addTemplate, World.addTemplate, Mct.empty, World.newChan, dictSet, dictGet, Mct.addData, World.addData,
    World.setChan, Channel.new, Channel.addTemplate, Channel.checkTemplate, Channel.procs, btm, bhm,
    Hist.setBinned, Hist.blank, ChanBins.toTuple, Channel.addData, Channel.checkHist, sysQ3, wQ3, chQb3,
    World.init, Function.update_apply]

theorem sysQ3_built : sysQ3.Built := by
  refine ⟨_, setupFirst_of_noEval ?_, runQ3⟩
  intro o ho
  simp only [opsQ3, List.mem_cons, List.not_mem_nil, or_false] at ho
  rcases ho with rfl | rfl | rfl | rfl | rfl <;> exact id

theorem chanQ3 (k : ℕ) (hk : k < sysQ3.m.chanIds.length) : k = 0 := by
  have : k < 1 := by simpa [sysQ3, Mct.chanIds] using hk
  omega

/-- description of the coarse channel -/
def SM : ℕ → ChanSpec := fun _ => ⟨1, 1, fun _ => ![6], fun _ i => (![1] : Fin 1 → ℝ) i / (![6] : Fin 1 → ℝ) i, fun _ => 3/4, fun _ => 1⟩

theorem modelQ3 : ModelIs sysQ3 SM := by
  intro k hk
  obtain rfl := chanQ3 k hk
  refine ⟨Nat.one_pos, Nat.one_pos, fun _ => Matrix.PosDef.one, by simp [sysQ3, Mct.chanIds, wQ3], ?_, ?_, fun _ => btm "u" 0 ![6] ![1], ?_, ?_⟩
  · simp [sysQ3, Mct.chanIds, wQ3, chQb3, Channel.numTemplates, SM]
  · simp [sysQ3, Mct.chanIds, wQ3, chQb3, SM, vec]
  · simp [sysQ3, Mct.chanIds, World.chanTmpls, wQ3, chQb3, SM]
  · intro j
    have : ((SM 0).R j)⁻¹ = 1 := inv_one
    rw [this]
    exact ⟨btm_shape "u" 0 ![6] ![1] (by intro i; fin_cases i; simp) (by intro i; fin_cases i; simp), one_realm, one_realm⟩

theorem paramsQ3 : ParamsAre sysQ3 SM (fun _ _ => 6) (fun _ _ _ => 0) := by
  intro k hk j t ht
  obtain rfl := chanQ3 k hk
  have hj : (j : ℕ) = 0 := by have : (j : ℕ) < 1 := j.2; omega
  rw [hj] at ht
  have e : t = btm "u" 0 ![6] ![1] := by
    have := Option.some.inj ht
    rw [← this]; simp [sysQ3, Mct.chanIds, wQ3, chQb3, World.chanTmpls]
  rw [e]
  show HasParams (btm "u" 0 ![6] ![1]) 6 (fun _ : Fin 1 => 0)
  simp [HasParams, btm, initParams, bhm, Hist.setBinned, npSum, vec, List.ofFn_succ, Fl.zero_def, List.replicate]

theorem yieldQ3 : sysQ3.m.getYield sysQ3.w "p" = .ok (.fin 6) := by
  simp [sysQ3, Mct.getYield, Mct.processYields, Mct.chanIds, World.processYield, wQ3, chQb3, dictGet,
    Template.yieldParam, btm, initParams, bhm, Hist.setBinned, npSum, vec, List.ofFn_succ, Fl.zero_def]

theorem nameQ3 (j : Fin 1) : procName sysQ3 0 j = "p" := by
  obtain rfl : j = 0 := Subsingleton.elim _ _
  simp [procName, sysQ3, Mct.chanIds, wQ3, chQb3]

theorem expQ3 (δ : String → ℝ) (i : Fin 1) : expectedIn sysQ3 SM δ (fun _ _ _ => 0) 0 i = δ "p" * (3/4) := by
  have h1 : expectedIn sysQ3 SM δ (fun _ _ _ => 0) 0 i = ∑ j : Fin 1, δ (procName sysQ3 0 j) * (3/4) * ((![6] : Fin 1 → ℝ) i * (1 + 0 * ((![1] : Fin 1 → ℝ) i / (![6] : Fin 1 → ℝ) i)) /
      ∑ i' : Fin 1, (![6] : Fin 1 → ℝ) i' * (1 + 0 * ((![1] : Fin 1 → ℝ) i' / (![6] : Fin 1 → ℝ) i'))) := rfl
  obtain rfl : i = 0 := Subsingleton.elim _ _
  rw [h1, Fin.sum_univ_one, nameQ3, Fin.sum_univ_one]
  norm_num

theorem identQ3 : Identifiable sysQ3 SM := by
  intro δ h _ p hp
  have h1 := h 0 (by simp [sysQ3, Mct.chanIds]) (0 : Fin 1)
  have hp : p = "p" := by simpa [sysQ3] using hp
  subst hp
  rw [expQ3] at h1
  linarith

/-- its Asimov data set -/
def sysQ3A : Sys := sysQ3.step (.addAsimov false)

/-- both bins are merged -/
def bM : ∀ k, Fin (laterChannels SQ 1 k).n → Fin (SM k).n := fun _ _ => (0 : Fin 1)

theorem expQ2 (δ : String → ℝ) (i : Fin (laterChannels SQ 1 0).n) : expectedIn sysQ2 (laterChannels SQ 1) δ (fun _ _ _ => 0) 0 i = δ "p" * (3/4) * ((![2, 4] : Fin 2 → ℝ) i / 6) := by
  have h1 : expectedIn sysQ2 (laterChannels SQ 1) δ (fun _ _ _ => 0) 0 i = ∑ j : Fin 1, δ (procName sysQ2 0 j) * (3/4) * ((![2, 4] : Fin 2 → ℝ) i * (1 + 0 * ((![1, 1] : Fin 2 → ℝ) i / (![2, 4] : Fin 2 → ℝ) i)) /
      ∑ i' : Fin 2, (![2, 4] : Fin 2 → ℝ) i' * (1 + 0 * ((![1, 1] : Fin 2 → ℝ) i' / (![2, 4] : Fin 2 → ℝ) i'))) := rfl
  have hn : procName sysQ2 0 (0 : Fin 1) = "p" := by simp [procName, sysQ2, Mct.chanIds, wQ2, chQb2]
  rw [h1, Fin.sum_univ_one, hn, Fin.sum_univ_two]
  norm_num

end Ex

/-- `C148_merging` applies to a channel with bins of contents 2 and 4 and the channel with the two bins merged, both fitted to Asimov data with the nuisance parameters held fixed: both fits return; since the only template has one composition in all bins the error of the
yield is the same. -/
example : ∃ r r', ((fitRun "iminuit" []).doFit Ex.optErr Ex.sysQ2A.w Ex.sysQ2A.m false true true none).1 = .ok r ∧
    ((fitRun "iminuit" []).doFit Ex.optErr Ex.sysQ3A.w Ex.sysQ3A.m false true true none).1 = .ok r' ∧
    ∃ e e', ErrorIs r 0 e ∧ ErrorIs r' 0 e' ∧ 0 < e ∧ 0 < e' ∧ e = e' := by
  have htup2 : ∀ c ∈ Ex.sysQ2.m.chanIds, AllTuple (Ex.sysQ2.w.chans c).range := by simp [Ex.sysQ2, Mct.chanIds, Ex.wQ2, Ex.chQb2, AllTuple]
  have htup3 : ∀ c ∈ Ex.sysQ3.m.chanIds, AllTuple (Ex.sysQ3.w.chans c).range := by simp [Ex.sysQ3, Mct.chanIds, Ex.wQ3, Ex.chQb3, AllTuple]
  have hT2 : NonZeroSums Ex.sysQ2 (laterChannels Ex.SQ 1) fun _ _ _ => 0 := fun k hk j => by
    obtain rfl := Ex.chanQ2 k hk
    show ∑ i' : Fin 2, (![2, 4] : Fin 2 → ℝ) i' * (1 + 0 * ((![1, 1] : Fin 2 → ℝ) i' / (![2, 4] : Fin 2 → ℝ) i')) ≠ 0
    rw [Fin.sum_univ_two]; norm_num
  have hT3 : NonZeroSums Ex.sysQ3 Ex.SM fun _ _ _ => 0 := fun k hk j => by
    obtain rfl := Ex.chanQ3 k hk
    show ∑ i' : Fin 1, (![6] : Fin 1 → ℝ) i' * (1 + 0 * ((![1] : Fin 1 → ℝ) i' / (![6] : Fin 1 → ℝ) i')) ≠ 0
    rw [Fin.sum_univ_one]; norm_num
  obtain ⟨a1, a2, a3, a4, a5, a6, a7⟩ := asimov_model Ex.sysQ2 Ex.sysQ2_built _ Ex.modelQ2 htup2 Ex.yQ2 _ Ex.paramsQ2 hT2
  obtain ⟨b1, b2, b3, b4, b5, b6, b7⟩ := asimov_model Ex.sysQ3 Ex.sysQ3_built Ex.SM Ex.modelQ3 htup3 (fun _ _ => 6) _ Ex.paramsQ3 hT3
  change Ex.sysQ2A.Built at a1
  change Ex.sysQ2A.m = _ at a2
  change ModelIs Ex.sysQ2A _ at a3
  change DataIs Ex.sysQ2A _ _ at a4
  change ∀ k j, procName Ex.sysQ2A k j = _ at a6
  change ∀ ν θ k i, expectedIn Ex.sysQ2A _ ν θ k i = _ at a7
  change Ex.sysQ3A.Built at b1
  change Ex.sysQ3A.m = _ at b2
  change ModelIs Ex.sysQ3A _ at b3
  change DataIs Ex.sysQ3A _ _ at b4
  change ∀ k j, procName Ex.sysQ3A k j = _ at b6
  change ∀ ν θ k i, expectedIn Ex.sysQ3A _ ν θ k i = _ at b7
  have f2 : Ex.sysQ2A.m.constrained = [] := by rw [a2]; rfl
  have f3 : Ex.sysQ3A.m.constrained = [] := by rw [b2]; rfl
  have hc0 : ∀ t : Sys, t.m.constrained = [] → ConstraintsAre t (fun _ => 0) (fun _ => 1) := fun t ht p hp => by rw [ht] at hp; cases hp
  have hV : ∀ t : Sys, t.m.constrained = [] → ∀ p ∈ t.m.constrained, (fun _ : String => (0 : ℝ)) p = (fun _ => 8) p := fun t ht p hp => by rw [ht] at hp; cases hp
  have c2 : ∀ k < Ex.sysQ2A.m.chanIds.length, k = 0 := by rw [a2]; exact Ex.chanQ2
  have c3 : ∀ k < Ex.sysQ3A.m.chanIds.length, k = 0 := by rw [b2]; exact Ex.chanQ3
  have l2 : Ex.sysQ2A.m.chanIds.length = 1 := by rw [a2]; simp [Ex.sysQ2, Mct.chanIds]
  have l3 : Ex.sysQ3A.m.chanIds.length = 1 := by rw [b2]; simp [Ex.sysQ3, Mct.chanIds]
  have hm : Merged Ex.sysQ2A Ex.sysQ3A (laterChannels Ex.SQ 1) Ex.SM Ex.bM := by
    refine ⟨a3, b3, by rw [a2, b2]; rfl, by rw [f2, f3], by rw [l2, l3], fun k hk => ?_, fun k hk i => ?_, fun k hk j j' hj => ?_⟩
    · obtain rfl := c2 k hk; rfl
    · obtain rfl := c2 k hk
      exact ⟨(0 : Fin 2), Subsingleton.elim (α := Fin 1) _ _⟩
    · obtain rfl := c2 k hk
      refine ⟨?_, rfl, fun i' => ?_⟩
      · rw [a6, b6]
        have h1 := Ex.nameQ3 j'
        rw [h1]
        obtain rfl : j = (0 : Fin 1) := Subsingleton.elim (α := Fin 1) _ _
        simp [procName, Ex.sysQ2, Mct.chanIds, Ex.wQ2, Ex.chQb2]
      · have h0 : ∀ i, Ex.bM 0 i = i' := fun i => Subsingleton.elim (α := Fin 1) _ _
        rw [Finset.filter_true_of_mem fun i _ => h0 i]
        have h1 : (Ex.SM 0).cnt j' i' = 6 := by
          have := (Fin.forall_fin_one (p := fun i : Fin 1 => (![6] : Fin 1 → ℝ) i = 6)).mpr rfl i'
          exact this
        rw [h1]
        show (6 : ℝ) = ∑ i : Fin 2, (![2, 4] : Fin 2 → ℝ) i
        rw [Fin.sum_univ_two]
        norm_num
  have hcomp : SameComposition Ex.sysQ2A (laterChannels Ex.SQ 1) Ex.SM Ex.bM := by
    intro k hk
    obtain rfl := c2 k hk
    refine ⟨(fun i => (![2, 4] : Fin 2 → ℝ) i / 6 : Fin 2 → ℝ), fun j j' _ i => ?_⟩
    show (![2, 4] : Fin 2 → ℝ) i = (![2, 4] : Fin 2 → ℝ) i / 6 * 6
    ring
  have hE2 : ∀ k < Ex.sysQ2A.m.chanIds.length, ∀ i, expectedIn Ex.sysQ2A (laterChannels Ex.SQ 1) (fun _ => 8) (fun _ _ _ => 0) k i = presentIn (laterChannels Ex.SQ 1) Ex.yQ2 (fun _ _ _ => 0) k i := by
    intro k hk i
    obtain rfl := c2 k hk
    rw [a7, expectedIn_eq]
    unfold presentIn
    refine Finset.sum_congr rfl fun j _ => ?_
    have h1 : (laterChannels Ex.SQ 1 0).eff j = 3/4 := rfl
    have h2 : Ex.yQ2 0 j = 6 := rfl
    rw [h1, h2]
    norm_num [fracIn]
  have hE3 : ∀ k < Ex.sysQ3A.m.chanIds.length, ∀ i, expectedIn Ex.sysQ3A Ex.SM (fun _ => 8) (fun _ _ _ => 0) k i = presentIn Ex.SM (fun _ _ => 6) (fun _ _ _ => 0) k i := by
    intro k hk i
    rw [b7, expectedIn_eq]
    unfold presentIn
    refine Finset.sum_congr rfl fun j _ => ?_
    have h1 : (Ex.SM k).eff j = 3/4 := rfl
    rw [h1]
    norm_num [fracIn]
  have hpos2 : ∀ k < Ex.sysQ2A.m.chanIds.length, ∀ i, (1e-100 : ℝ) ≤ presentIn (laterChannels Ex.SQ 1) Ex.yQ2 (fun _ _ _ => 0) k i := fun k hk i => by
    rw [← hE2 k hk i, a7]
    obtain rfl := c2 k hk
    have : expectedIn Ex.sysQ2 (laterChannels Ex.SQ 1) (fun _ => 8) (fun _ _ _ => 0) 0 i = _ := Ex.expQ2 (fun _ => 8) i
    rw [this]
    change Fin 2 at i
    fin_cases i <;> norm_num
  have hpos3 : ∀ k < Ex.sysQ3A.m.chanIds.length, ∀ i, (1e-100 : ℝ) ≤ presentIn Ex.SM (fun _ _ => 6) (fun _ _ _ => 0) k i := fun k hk i => by
    rw [← hE3 k hk i, b7]
    obtain rfl := c3 k hk
    have : expectedIn Ex.sysQ3 Ex.SM (fun _ => 8) (fun _ _ _ => 0) 0 i = _ := Ex.expQ3 (fun _ => 8) i
    rw [this]
    norm_num
  have hdd : ∀ k < Ex.sysQ2A.m.chanIds.length, ∀ i', presentIn Ex.SM (fun _ _ => 6) (fun _ _ _ => 0) k i' =
      ∑ i with Ex.bM k i = i', presentIn (laterChannels Ex.SQ 1) Ex.yQ2 (fun _ _ _ => 0) k i := fun k hk i' => by
    rw [← hE3 k (by rw [l3, ← l2]; exact hk), merged_expected hm hk]
    exact Finset.sum_congr rfl fun i _ => hE2 k hk i
  have hTA2 : NonZeroSums Ex.sysQ2A (laterChannels Ex.SQ 1) fun _ _ _ => 0 := by unfold NonZeroSums; rw [a2]; exact hT2
  have hTA3 : NonZeroSums Ex.sysQ3A Ex.SM fun _ _ _ => 0 := by unfold NonZeroSums; rw [b2]; exact hT3
  have hx2 : Ex.sysQ2A.m.x0 Ex.sysQ2A.w = .ok (paramVec Ex.sysQ2 (laterChannels Ex.SQ 1) (fun _ => 6) fun _ _ _ => 0) :=
    asimov_x0 Ex.sysQ2 Ex.sysQ2_built (by simp [Ex.sysQ2]) _ Ex.modelQ2 htup2 Ex.yQ2 _ Ex.paramsQ2 hT2 (fun _ => 6)
      (by intro p hp; simp [Ex.sysQ2] at hp; subst hp; exact Ex.yieldQ2)
  have hx3 : Ex.sysQ3A.m.x0 Ex.sysQ3A.w = .ok (paramVec Ex.sysQ3 Ex.SM (fun _ => 6) fun _ _ _ => 0) :=
    asimov_x0 Ex.sysQ3 Ex.sysQ3_built (by simp [Ex.sysQ3]) _ Ex.modelQ3 htup3 (fun _ _ => 6) _ Ex.paramsQ3 hT3 (fun _ => 6)
      (by intro p hp; simp [Ex.sysQ3] at hp; subst hp; exact Ex.yieldQ3)
  rw [← a5] at hx2
  rw [← b5] at hx3
  have hid2 : Identifiable Ex.sysQ2A (laterChannels Ex.SQ 1) := fun δ h1 h2 p hp => by
    rw [a2] at hp
    exact Ex.identQ2 δ (fun k hk i => by rw [← a7]; exact h1 k (by rw [a2]; exact hk) i) (by intro p hp; simp [Ex.sysQ2] at hp) p hp
  have hid3 : Identifiable Ex.sysQ3A Ex.SM := fun δ h1 h2 p hp => by
    rw [b2] at hp
    exact Ex.identQ3 δ (fun k hk i => by rw [← b7]; exact h1 k (by rw [b2]; exact hk) i) (by intro p hp; simp [Ex.sysQ3] at hp) p hp
  have hne2 : Ex.sysQ2A.m.channels ≠ [] := by rw [a2]; simp [Ex.sysQ2]
  have hne3 : Ex.sysQ3A.m.channels ≠ [] := by rw [b2]; simp [Ex.sysQ3]
  obtain ⟨m1, m2⟩ := C106_minimum Ex.sysQ2A a1 hne2 _ a3 _ a4 hpos2 _ _ (hc0 _ f2) (fun _ => 8) hTA2 hE2 (hV _ f2) hid2
  obtain ⟨n1, n2⟩ := C106_minimum Ex.sysQ3A b1 hne3 _ b3 _ b4 hpos3 _ _ (hc0 _ f3) (fun _ => 8) hTA3 hE3 (hV _ f3) hid3
  have hnui : ∀ (t : Sys) (T : ℕ → ChanSpec) q, WantedFixed (t.m.paramNames t.w) [] t.m.numProcesses true q →
      (paramVec t T (fun _ => 8) fun _ _ _ => 0)[q]? = (paramVec t T (fun _ => 6) fun _ _ _ => 0)[q]? := by
    intro t T q hq
    have hq : t.m.processes.length ≤ q := by simpa [WantedFixed, FitFixed, Mct.numProcesses] using hq
    unfold paramVec
    rw [List.getElem?_append_right (by simpa using hq), List.getElem?_append_right (by simpa using hq)]
    simp
  have hkn : ∀ s : Sys, KnownIds (s.m.paramNames s.w) [] := fun s => ⟨by simp, by simp⟩
  obtain ⟨r, hr⟩ := Ex.fit_from a1.reachable [] (hkn _) (by simp) hx2 (paramVec_length (reachable_wf a1.reachable) a3 _ _) m1 (fun x u h1 h2 => (m2 x u h1 h2).1) true true
    (fun q _ h => hnui _ _ q h)
  obtain ⟨r', hr'⟩ := Ex.fit_from b1.reachable [] (hkn _) (by simp) hx3 (paramVec_length (reachable_wf b1.reachable) b3 _ _) n1 (fun x u h1 h2 => (n2 x u h1 h2).1) true true
    (fun q _ h => hnui _ _ q h)
  have hnp : ∀ t : Sys, t.m.processes = ["p"] → ∀ (S : ℕ → ChanSpec) (hb : t.Built), ModelIs t S → ∀ q < t.m.numProcesses, FreeParam t [] true q := by
    intro t ht S hb hS q hq
    refine ⟨?_, by simp [WantedFixed, FitFixed]; exact hq⟩
    rw [(C51_aligned _ hb.reachable).1, ← paramVec_length (reachable_wf hb.reachable) hS (fun _ => 6) fun _ _ _ => 0]
    simp only [paramVec, List.length_append, List.length_map]
    unfold Mct.numProcesses at hq
    omega
  have p2 : Ex.sysQ2A.m.processes = ["p"] := by rw [a2]; rfl
  have p3 : Ex.sysQ3A.m.processes = ["p"] := by rw [b2]; rfl
  have n2' : Ex.sysQ2A.m.numProcesses = 1 := by unfold Mct.numProcesses; rw [p2]; rfl
  have n3' : Ex.sysQ3A.m.numProcesses = 1 := by unfold Mct.numProcesses; rw [p3]; rfl
  have F2 := hnp _ p2 _ a1 a3
  have F3 := hnp _ p3 _ b1 b3
  obtain ⟨-, -, k3⟩ := C148_merging Ex.sysQ2A Ex.sysQ3A a1 b1 hne2 _ _ _ hm _ _ a4 b4 hpos2 hdd _ _ (hc0 _ f2) (hc0 _ f3) (fun _ => 8) (hV _ f2) _ _ hx2 hx3 hTA2 hE2 hid3
    Ex.optErr Ex.optErr Ex.optErr_fin.1 Ex.optErr_fin.1 Ex.optErr_exact Ex.optErr_exact "iminuit" lower_iminuit [] [] (hkn _) (hkn _) false true false true (by simp)
    (fun q _ h => (hnui _ _ q h).symm) (fun q _ h => (hnui _ _ q h).symm) r r' hr hr'
  obtain ⟨e, e', i1, i2, i3, i4, i5, i6⟩ := k3 0 (by omega) (F2 0 (by omega)) (F3 0 (by omega))
  exact ⟨r, r', hr, hr', e, e', i1, i2, i3, i4, le_antisymm (i5 fun p hp _ => F3 p (by omega)) (i6 (fun p hp _ => F2 p (by omega)) hcomp)⟩

end

end TF.Props
