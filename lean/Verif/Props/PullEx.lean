import Verif.Props.PullProps

set_option linter.unusedSimpArgs false
set_option linter.unusedVariables false
set_option linter.unreachableTactic false
set_option linter.unusedTactic false

/-!
# Non-vacuity of C144: one channel of one bin with 8 expected events
-/

namespace TF.Props

open Classical Spec MeasureTheory ProbabilityTheory
open scoped Matrix NNReal ENNReal

noncomputable section

namespace Ex

/-- an exact error vector exists for every result -/
theorem exists_errs (c : MinuitCall) (r : MinuitOut) : ∃ e : Vec, e.length = r.values.length ∧
    ∀ (n : ℕ) (x : Fin n → ℝ) (A : Matrix (Fin n) (Fin n) ℝ), r.values = vec x → IsHesse c.fcn x A →
      ∀ q : {i : Fin n // c.fix[(i : ℕ)]? ≠ some true}, e[(q.1 : ℕ)]? = some (.fin (√((A.submatrix Subtype.val Subtype.val)⁻¹ q q))) := by
  by_cases hx : ∃ (x : Fin r.values.length → ℝ) (A : Matrix (Fin r.values.length) (Fin r.values.length) ℝ), r.values = vec x ∧ IsHesse c.fcn x A
  · obtain ⟨x, A, h1, h2⟩ := hx
    refine ⟨List.ofFn fun i => if h : c.fix[(i : ℕ)]? ≠ some true then
      .fin (√((A.submatrix (Subtype.val : {i : Fin r.values.length // c.fix[(i : ℕ)]? ≠ some true} → _) (Subtype.val : {i : Fin r.values.length // c.fix[(i : ℕ)]? ≠ some true} → _))⁻¹ ⟨i, h⟩ ⟨i, h⟩)) else .fin 0, by simp, ?_⟩
    intro n x' A' h1' h2' q
    obtain rfl : r.values.length = n := by rw [h1', vec_length]
    obtain rfl : x = x' := by
      have := h1.symm.trans h1'
      have := List.ofFn_injective this
      funext i
      exact Fl.fin.inj (congrFun this i)
    obtain rfl := C131_hesse_unique h2 h2'
    rw [List.getElem?_ofFn, dif_pos q.1.2, dif_pos q.2]
  · refine ⟨r.values, rfl, ?_⟩
    intro n x A h1 h2
    obtain rfl : r.values.length = n := by rw [h1, vec_length]
    exact absurd ⟨x, A, h1, h2⟩ hx

/-- a minimizer that finds true minima of finite value and exact errors -/
def optErr : Optim :=
  { optFin with minuit := fun c => (optFin.minuit c).map fun r => { r with errors := (exists_errs c r).choose } }

theorem optErr_inv {c : MinuitCall} {r : MinuitOut} (h : optErr.minuit c = .ok r) :
    ∃ r0, optFin.minuit c = .ok r0 ∧ r = { r0 with errors := (exists_errs c r0).choose } := by
  unfold optErr at h
  simp only at h
  cases h0 : optFin.minuit c with
  | error e => rw [h0] at h; cases h
  | ok r0 => rw [h0] at h; exact ⟨r0, rfl, (Except.ok.inj h).symm⟩

theorem optErr_fin : FiniteMin optErr := by
  constructor
  · intro c r h
    obtain ⟨r0, h1, rfl⟩ := optErr_inv h
    exact optFin_ok.1 c r0 h1
  · intro c r h
    obtain ⟨r0, h1, rfl⟩ := optErr_inv h
    exact optFin_ok.2 c r0 h1

theorem optErr_exact : ExactErrors optErr := by
  intro c r h
  obtain ⟨r0, h1, rfl⟩ := optErr_inv h
  exact (exists_errs c r0).choose_spec.2

/-- where the fit with `optFin` returns, so does the one with `optErr` -/
theorem fit_optErr {s : Sys} (hs : s.Reachable) {x0 : Vec} (hx0 : s.m.x0 s.w = .ok x0) {g : Bool}
    (h : ∃ r, ((Fitter.new "iminuit").doFit optFin s.w s.m false g true none).1 = .ok r) :
    ∃ r, ((Fitter.new "iminuit").doFit optErr s.w s.m false g true none).1 = .ok r := by
  obtain ⟨c, -, -, c3, -, -, c6⟩ := C64_iminuit s hs "iminuit" lower_iminuit [] ⟨by simp, by simp⟩ _ hx0 g true none
  have hnew : fitRun "iminuit" [] = Fitter.new "iminuit" := rfl
  rw [hnew] at c6
  obtain ⟨r, hr⟩ := h
  cases hq : optFin.minuit c with
  | error e => rw [(c6 optFin).1 e hq] at hr; cases hr
  | ok rr =>
    have hm : IsMin c rr := by
      simp only [optFin] at hq
      by_cases hc : ∃ r, IsMin c r ∧ ∃ v : ℝ, r.fval = .fin v
      · rw [dif_pos hc] at hq
        rw [← Except.ok.inj hq]
        exact hc.choose_spec.1
      · rw [dif_neg hc] at hq; cases hq
    obtain ⟨C, R, hm2⟩ := hm.2.2.2.2.2
    have hv : rr.values.length = (s.m.paramNames s.w).length := by rw [← c3]; exact hm.1.1
    exact ⟨_, (c6 optErr).2 { rr with errors := (exists_errs c rr).choose } C R (by unfold optErr; simp only [hq]; rfl) hv
      (by rw [← hv]; exact (exists_errs c rr).choose_spec.1) hm2⟩

/-! the model -/

def bh1 : Hist := (Hist.blank .h1 [⟨true, [0, 1]⟩] [1] (.d1 .tuple 0 1)).setBinned ⟨[1], vec ![(8:ℝ)]⟩ (some ⟨[1], vec ![(8:ℝ)]⟩)

theorem bh1_eq : Hist1d.fromBinned ⟨[1], vec ![(8:ℝ)]⟩ ⟨true, [0, 1]⟩ (some ⟨[1], vec ![(8:ℝ)]⟩) = .ok bh1 := rfl

def bt1 : Template :=
  { cls := .t1, name := "t", hist := 0
    flatCounts := vec ![(8:ℝ)], flatErrSq := (vec ![(8:ℝ)]).map Fl.sq
    bins := [1], numBins := 1, range := .d1 .tuple 0 1
    params := initParams 1 bh1
    cov := Mat.diagOf (statErrSq ((vec ![(8:ℝ)]).map Fl.sq))
    covMats := [Mat.diagOf (statErrSq ((vec ![(8:ℝ)]).map Fl.sq))]
    corr := Mat.diagOf (List.replicate 1 1), invCorr := Mat.diagOf (List.replicate 1 1)
    relErr := relErrs (Mat.diagOf (statErrSq ((vec ![(8:ℝ)]).map Fl.sq))) (vec ![(8:ℝ)]) }

theorem bt1_eq : Template1d.new "t" 0 bh1 = .ok bt1 := by
  unfold Template1d.new
  show Template.build .t1 "t" 0 bh1 1 = _
  unfold Template.build
  rw [if_pos ⟨by simp [bh1, Hist.setBinned, vec_length], by
    simp [bh1, Hist.setBinned, NdArr.map, vec_length]⟩]
  rfl

theorem bt1_shape : HasShape bt1 (![8] : Fin 1 → ℝ) (fun i => (![8] : Fin 1 → ℝ) i / (![8] : Fin 1 → ℝ) i) := by
  refine ⟨rfl, rfl, ?_, rfl⟩
  show relErrs (Mat.diagOf (statErrSq ((vec (![8] : Fin 1 → ℝ)).map Fl.sq))) (vec ![8]) = _
  have h8 : ∀ i, (![8] : Fin 1 → ℝ) i = 8 := by intro i; fin_cases i; rfl
  rw [map_vec _ Fl.sq (fun i => (![8] : Fin 1 → ℝ) i ^ 2) (fun i => Fl.sq_fin _), statErrSq_vec,
    relErrs_vec (isReal_diagOf _) (fun i => by
      rw [Matrix.diagonal_apply_eq]; exact (statVar_pos (sq_nonneg _)).le)]
  congr 1
  funext i
  rw [Matrix.diagonal_apply_eq, h8]
  norm_num [relOf, statVar]
  rw [show (64:ℝ) = 8 ^ 2 by norm_num, Real.sqrt_sq (by norm_num)]
  norm_num

theorem one_real1 : IsReal (Mat.diagOf (List.replicate 1 1)) (1 : Matrix (Fin 1) (Fin 1) ℝ) := by
  have := isReal_diagOf (fun _ : Fin 1 => (1:ℝ))
  rw [← replicate_one_vec, Matrix.diagonal_one] at this
  exact this

def opsBin : List Op :=
  [.binned1 ⟨[1], vec ![(8:ℝ)]⟩ ⟨true, [0, 1]⟩ (some ⟨[1], vec ![(8:ℝ)]⟩), .newTmpl1 "t" 0,
   .defineChannel "a" (.int 1) (.d1 .tuple 0 1), .defineProcess "p", .addTemplate "a" "p" 0 (.fin 1)]

def chBin : Channel :=
  ⟨"a", [1], .d1 .tuple 0 1, ["p"], [("p", 0)], [("p", .fin 1)], none, some 1, some .t1, some .h1⟩

def wBin : World :=
  { World.init with
    hists := Function.update (fun _ => dummyHist) 0 bh1
    nHists := 1
    tmpls := Function.update (fun _ => dummyTmpl) 0 bt1
    nTmpls := 1
    chans := Function.update (fun _ => dummyChan) 0 chBin
    nChans := 1 }

def sysBin : Sys := ⟨wBin, mZ⟩

theorem runBin : Sys.init.run opsBin = sysBin := by
  simp only [opsBin, Sys.run, List.foldl_cons, List.foldl_nil, Sys.step, bh1_eq, Sys.allocHist, World.newHist,
    Sys.init, World.init, Sys.allocTmpl, World.newTmpl]
  simp [bt1_eq, Sys.allocTmpl, World.newTmpl, Function.update_apply]
  simp [Mct.defineChannel, Mct.defineProcess,
    Mct.addTemplate, World.addTemplate, Mct.empty, World.newChan, dictSet, dictGet, Mct.addData, World.addData,
    World.setChan, Channel.new, Channel.addTemplate, Channel.checkTemplate, Channel.procs, bt1, bh1,
    Hist.setBinned, Hist.blank, ChanBins.toTuple, Channel.addData, Channel.checkHist, sysBin, wBin, mZ, chBin,
    World.init, Function.update_apply]

theorem sysBin_built : sysBin.Built := by
  refine ⟨_, setupFirst_of_noEval ?_, runBin⟩
  intro o ho
  simp only [opsBin, List.mem_cons, List.not_mem_nil, or_false] at ho
  rcases ho with rfl | rfl | rfl | rfl | rfl <;> exact id

def SBin : ℕ → ChanSpec := fun _ =>
  ⟨1, 1, fun _ => ![8], fun _ i => (![8] : Fin 1 → ℝ) i / (![8] : Fin 1 → ℝ) i, fun _ => 1, fun _ => 1⟩

theorem chanIsBin : ChanIs wBin 0 (fun _ : Fin 1 => ![8]) (fun _ i => (![8] : Fin 1 → ℝ) i / (![8] : Fin 1 → ℝ) i) (fun _ => 1) (fun _ => 1) := by
  refine ⟨by simp [wBin], by simp [Channel.numTemplates, wBin, chBin], by simp [wBin, chBin, vec], fun _ => bt1, ?_, ?_⟩
  · simp [World.chanTmpls, wBin, chBin]
  · intro k
    rw [inv_one]
    exact ⟨bt1_shape, one_real1, one_real1⟩

theorem modelBin : ModelIs sysBin SBin := by
  intro k hk
  have : k = 0 := by simpa [sysBin, mZ, Mct.chanIds] using hk
  subst this
  exact ⟨Nat.one_pos, Nat.one_pos, fun _ => Matrix.PosDef.one, chanIsBin⟩

theorem x0Bin : sysBin.m.x0 sysBin.w = .ok [.fin 8, .fin 0] := by
  simp [sysBin, Mct.x0, Mct.nuiParams, Mct.allTmpls, World.chanTmpls, Template.nuiParams, mZ, Mct.processYields, Mct.chanIds,
    World.processYield, wBin, chBin, dictGet, Template.yieldParam, bt1, initParams, bh1, Hist.setBinned,
    npSum, vec, List.ofFn_succ, Fl.zero_def, List.replicate]

theorem chanBin (k : ℕ) (hk : k < sysBin.m.chanIds.length) : k = 0 := by simpa [sysBin, mZ, Mct.chanIds] using hk

theorem bt1_params : HasParams bt1 8 (fun _ : Fin 1 => 0) := by
  simp [HasParams, bt1, initParams, bh1, Hist.setBinned, npSum, vec, List.ofFn_succ, Fl.zero_def, List.replicate]

theorem paramsBin : ParamsAre sysBin SBin (fun _ _ => 8) (fun _ _ _ => 0) := by
  intro k hk j t ht
  obtain rfl := chanBin k hk
  have hj : (j : ℕ) = 0 := by have : (j : ℕ) < 1 := j.2; omega
  rw [hj] at ht
  have e : t = bt1 := by
    have := Option.some.inj ht
    rw [← this]; simp [sysBin, mZ, Mct.chanIds, wBin, chBin, World.chanTmpls]
  rw [e]
  exact bt1_params

theorem expBin (x : ℝ) : ∀ k (i : Fin (SBin k).n), expectedIn sysBin SBin (fun _ => x) (fun _ _ _ => 0) k i = x := by
  intro k i
  show ∑ j : Fin 1, x * 1 * ((![8] : Fin 1 → ℝ) i * _ / ∑ i' : Fin 1, (![8] : Fin 1 → ℝ) i' * _) = _
  obtain rfl : i = (0 : Fin 1) := Subsingleton.elim (α := Fin 1) _ _
  simp

theorem sumsBin : NonZeroSums sysBin SBin (fun _ _ _ => 0) := by
  intro k hk j
  show ∑ i : Fin 1, (![8] : Fin 1 → ℝ) i * (1 + 0 * ((![8] : Fin 1 → ℝ) i / (![8] : Fin 1 → ℝ) i)) ≠ 0
  simp

theorem presentBin : ∀ k (i : Fin (SBin k).n), presentIn SBin (fun _ _ => 8) (fun _ _ _ => 0) k i = 8 := by
  intro k i
  show ∑ j : Fin 1, (8:ℝ) * ((![8] : Fin 1 → ℝ) i * _ / ∑ i' : Fin 1, (![8] : Fin 1 → ℝ) i' * _) = _
  obtain rfl : i = (0 : Fin 1) := Subsingleton.elim (α := Fin 1) _ _
  simp

theorem tupBin : ∀ c ∈ sysBin.m.chanIds, AllTuple (sysBin.w.chans c).range := by
  simp [sysBin, mZ, Mct.chanIds, wBin, chBin, AllTuple]

theorem yieldBin : sysBin.m.getYield sysBin.w "p" = .ok (.fin 8) := by
  simp [sysBin, Mct.getYield, mZ, Mct.processYields, Mct.chanIds, World.processYield, wBin, chBin, dictGet, Template.yieldParam, bt1, initParams, bh1,
    Hist.setBinned, npSum, vec, List.ofFn_succ]

theorem accBin : acceptance sysBin SBin "p" = 1 := by
  have hl : sysBin.m.chanIds.length = 1 := by simp [sysBin, mZ, Mct.chanIds]
  unfold acceptance
  rw [hl, Finset.sum_range_one]
  show ∑ j : Fin 1, (if procName sysBin 0 j = "p" then (1:ℝ) else 0) = 1
  simp [procName, sysBin, mZ, Mct.chanIds, wBin, chBin]

theorem oneBin : OneProcess sysBin SBin (fun _ _ => 8) (fun _ _ _ => 0) "p" 8 where
  ne := by simp [sysBin, mZ]
  tup := tupBin
  params := paramsBin
  sums := sumsBin
  pos := fun k _ i => by rw [presentBin]; norm_num
  free := by simp [sysBin, mZ]
  one := by simp [sysBin, mZ]
  yields := fun k _ j => by show (8:ℝ) = 8 * 1; norm_num
  value := yieldBin
  accepts := by rw [accBin]; norm_num


theorem usedBin : AllUsed sysBin SBin := by
  intro p hp
  have : p = "p" := by simpa [sysBin, mZ] using hp
  subst this
  exact .inl ⟨0, by simp [sysBin, mZ, Mct.chanIds], (0 : Fin 1), by simp [procName, sysBin, mZ, Mct.chanIds, wBin, chBin]⟩

theorem toyBin (draw : ℕ → Vec → ℕ → ℕ) : ∃ h, sysBin.m.toy sysBin.w draw = .ok [("a", h)] ∧ h.shape = [1] ∧ h.range = .d1 .tuple 0 1 := by
  obtain ⟨a, ha, h1, -⟩ := C83_toy (K := 1) (n := 1) sysBin sysBin_built.reachable "a" 0 (by simp [sysBin, mZ])
    (by simp [sysBin, wBin, chBin]) Nat.one_pos (fun _ => bt1) (by
      simp [sysBin, World.chanTmpls, wBin, chBin]) (fun _ => ![8])
    (fun _ i => (![8] : Fin 1 → ℝ) i / (![8] : Fin 1 → ℝ) i) (fun _ => 8) (fun _ _ => 0)
    (fun k => bt1_shape) (fun k => bt1_params) (fun k => by simp) (draw 0)
  have ha1 : a = fun _ => 8 := by
    funext i
    rw [ha]
    obtain rfl : i = (0 : Fin 1) := Subsingleton.elim (α := Fin 1) _ _
    simp
  obtain ⟨h, e1, e2, e3, e4, e5⟩ := h1 (by intro i; rw [ha1]; norm_num)
  refine ⟨h, ?_, e4, e5.mpr rfl⟩
  have : sysBin.m.channels = [("a", 0)] := rfl
  unfold Mct.toy Mct.generate
  rw [this]
  simp only [List.foldr_cons, List.foldr_nil, e1]

theorem drawnBin (draw : ℕ → Vec → ℕ → ℕ) : eventsDrawn sysBin SBin (presentIn SBin (fun _ _ => 8) (fun _ _ _ => 0)) draw =
    draw 0 (vec (presentIn SBin (fun _ _ => 8) (fun _ _ _ => 0) 0)) 0 := by
  have hl : sysBin.m.chanIds.length = 1 := by simp [sysBin, mZ, Mct.chanIds]
  unfold eventsDrawn
  rw [hl, Finset.sum_range_one]
  show ∑ i : Fin 1, draw 0 _ i = _
  simp

/-- the toys with events can be fitted -/
theorem toyFitBin (draw : ℕ → Vec → ℕ → ℕ) (hN : 1 ≤ eventsDrawn sysBin SBin (presentIn SBin (fun _ _ => 8) (fun _ _ _ => 0)) draw) (k : ℕ) :
    ∃ v, toyFit ⟨fun _ => draw, fun _ => optErr⟩ sysBin.m "iminuit" true sysBin.w k = .ok v := by
  obtain ⟨h, h1, h2, h3⟩ := toyBin draw
  have hok : (sysBin.m.addDatasets sysBin.w [("a", h)]).1 = .ok () := by
    simp [Mct.addDatasets, sysBin, mZ, dictGet, World.addData, World.newHist, wBin, chBin, Channel.addData, Channel.checkHist, h2, h3]
  have hx0 : sysBin.m.x0 sysBin.w = .ok (paramVec sysBin SBin (fun _ => 8) fun _ _ _ => 0) := by
    rw [x0Bin]
    simp [paramVec, sysBin, mZ, Mct.chanIds, nuiVec, SBin, List.range_succ, List.ofFn_succ, vec]
  obtain ⟨q1, q2, q3, q4, q5, q6, q7⟩ := toy_model sysBin sysBin_built SBin modelBin tupBin _ _ paramsBin sumsBin
    (fun k _ i => by rw [presentBin]; norm_num) draw
  obtain ⟨n1, n2, n3⟩ := names_same (toy_same sysBin draw) sysBin.m
  have hs : sysBin.step (.addToy draw) = ⟨(sysBin.m.addDatasets sysBin.w [("a", h)]).2, sysBin.m⟩ := by
    simp only [Sys.step, h1]
  rw [hs] at q1 q2 q3 q4 q5 q6 q7 n1 n2 n3
  have hx1 : sysBin.m.x0 (sysBin.m.addDatasets sysBin.w [("a", h)]).2 = .ok (paramVec sysBin SBin (fun _ => 8) fun _ _ _ => 0) := by
    have := n3
    simp only at this
    rw [this]; exact hx0
  obtain ⟨r, hr⟩ := fit_optErr q1.reachable hx1 (one_fit_free _ q1 (by simp [sysBin, mZ]) SBin q3 _ q4 (by
      intro k' hk' i
      obtain rfl : k' = 0 := chanBin k' hk'
      obtain rfl : i = (0 : Fin 1) := Subsingleton.elim (α := Fin 1) _ _
      unfold toyData
      rw [drawnBin] at hN
      have hN' : 1 ≤ draw (sysBin.m.chanIds.getD 0 0) (vec (presentIn SBin (fun _ _ => 8) (fun _ _ _ => 0) 0)) 0 := hN
      have : (1:ℝ) ≤ (draw (sysBin.m.chanIds.getD 0 0) (vec (presentIn SBin (fun _ _ => 8) (fun _ _ _ => 0) 0)) 0 : ℕ) := by exact_mod_cast hN'
      refine le_trans (by norm_num) this) (by simp [sysBin, mZ]) "p" (by simp [sysBin, mZ])
    (by unfold AllUsed; simp only [q6]; exact usedBin) (fun _ _ _ => 0) sumsBin (by simp only [q7, expBin]; intros; norm_num) (fun _ => 8)
    (by rw [q5]; exact hx1) true)
  refine ⟨(r.params.values, r.params.errors), ?_⟩
  unfold toyFit
  simp only [h1, hok]
  have hr : (Fitter.doFit optErr (Fitter.new "iminuit") (sysBin.m.addDatasets sysBin.w [("a", h)]).2 sysBin.m false true true none).1 = .ok r := hr
  rw [hr]

/-- every toy with events has a pull -/
theorem pullBin (draw : ℕ → Vec → ℕ → ℕ) (N : ℕ) (hN : N = eventsDrawn sysBin SBin (presentIn SBin (fun _ _ => 8) (fun _ _ _ => 0)) draw) (hN1 : 1 ≤ N) :
    PullOf sysBin "p" draw optErr ((N - 8) / √N) := by
  have hex : ((Toy.new sysBin.w "iminuit" 0).doExperiments ⟨fun _ => draw, fun _ => optErr⟩ sysBin.m 1 1).1 = .ok () := by
    obtain ⟨ks, K', h1, h2, h3 | ⟨h3, e, h4, h5⟩⟩ := C74_retries sysBin sysBin_built ⟨fun _ => draw, fun _ => optErr⟩ (Toy.new sysBin.w "iminuit" 0) rfl 1 1
    · exact h3.1
    · exfalso
      have hid : (Toy.new sysBin.w "iminuit" 0).minimizerId = "iminuit" := rfl
      rw [hid] at h5
      rcases h5 with ⟨k, -, -, -, h6, h7, -⟩ | ⟨h6, -⟩
      · obtain ⟨v, hv⟩ := toyFitBin draw (hN ▸ hN1) k
        rw [hv] at h6; cases h6
      · obtain ⟨e, h7, -⟩ := h6 K' (by omega) (by omega)
        obtain ⟨v, hv⟩ := toyFitBin draw (hN ▸ hN1) K'
        rw [hv] at h7; cases h7
  generalize hq : (Toy.new sysBin.w "iminuit" 0).doExperiments ⟨fun _ => draw, fun _ => optErr⟩ sysBin.m 1 1 = q at hex
  obtain ⟨q1, t'⟩ := q
  simp only at hex
  subst hex
  refine ⟨t', hq, ?_⟩
  obtain ⟨L, ks, K', b1, b2, -, b4, b5⟩ := C144_study sysBin sysBin_built oneBin.ne SBin modelBin oneBin.tup _ _ oneBin.params oneBin.sums oneBin.pos oneBin.free
    "p" oneBin.one 8 oneBin.yields oneBin.value oneBin.accepts ⟨fun _ => draw, fun _ => optErr⟩ (fun _ => optErr_fin) (fun _ => optErr_exact)
    (Toy.new sysBin.w "iminuit" 0) rfl lower_iminuit 1 1 one_pos t' hq _ rfl
  rw [b1]
  match ks, L, b4, b2 with
  | [k], [x], _, _ =>
    have := b5 0 k N rfl hN hN1
    rw [accBin, mul_one] at this
    simp only [List.getElem?_cons_zero, Option.some.injEq] at this
    rw [this]

end Ex

/-- **C144 is false.** A model with one process of eight events, one channel with one bin and no constraints. Its toy data follow their Poisson distribution, the optimiser returns true minima and exact errors, and every
toy with events has a pull; the mean of these pulls is negative, while the one of a standard normal distribution is `0`. -/
theorem C144_refuted : ∃ (s : Sys) (S : ℕ → ChanSpec) (y : ∀ k, Fin (S k).K → ℝ) (θ₀ : ∀ k, Fin (S k).K → Fin (S k).n → ℝ),
    s.Built ∧ ModelIs s S ∧ OneProcess s S y θ₀ "p" 8 ∧ acceptance s S "p" = 1 ∧
    ∃ (Ω : Type) (_ : MeasurableSpace Ω) (P : Measure Ω) (draw : Ω → ℕ → Vec → ℕ → ℕ) (o : Optim) (Z : Ω → ℝ),
      PoissonLaw P s S (presentIn S y θ₀) draw ∧ MutuallyIndep P s S (presentIn S y θ₀) draw ∧ FiniteMin o ∧ ExactErrors o ∧
      (∀ ω, 1 ≤ eventsDrawn s S (presentIn S y θ₀) (draw ω) → PullOf s "p" (draw ω) o (Z ω)) ∧
      ∫ ω, (if 1 ≤ eventsDrawn s S (presentIn S y θ₀) (draw ω) then Z ω else 0) ∂P < 0 := by
  obtain ⟨Ω, mΩ, P, draw, h1, h2⟩ := poisson_gen_all Ex.sysBin (reachable_wf Ex.sysBin_built.reachable) Ex.SBin (presentIn Ex.SBin (fun _ _ => 8) fun _ _ _ => 0)
  refine ⟨Ex.sysBin, Ex.SBin, fun _ _ => 8, fun _ _ _ => 0, Ex.sysBin_built, Ex.modelBin, Ex.oneBin, Ex.accBin, Ω, mΩ, P, draw, Ex.optErr,
    fun ω => ((eventsDrawn Ex.sysBin Ex.SBin (presentIn Ex.SBin (fun _ _ => 8) fun _ _ _ => 0) (draw ω) : ℝ) - 8) /
      √(eventsDrawn Ex.sysBin Ex.SBin (presentIn Ex.SBin (fun _ _ => 8) fun _ _ _ => 0) (draw ω) : ℝ), h1, h2, Ex.optErr_fin, Ex.optErr_exact,
    fun ω hω => Ex.pullBin (draw ω) _ rfl hω, ?_⟩
  exact (C144_biased Ex.sysBin Ex.sysBin_built Ex.SBin Ex.modelBin _ _ "p" 8 Ex.oneBin P draw h1 h2 (fun _ => Ex.optErr) (fun _ => Ex.optErr_fin) (fun _ => Ex.optErr_exact)
    _ (fun _ => rfl) 8 (by rw [Ex.accBin, mul_one]) (by norm_num) _ (.of_forall fun ω hω => Ex.pullBin (draw ω) _ rfl hω)).2

/-- non-vacuity of `C144_mean_partial`, `C144_limit_partial`: the same model meets their hypotheses -/
example : ∃ (Ω : Type) (_ : MeasurableSpace Ω) (P : Measure Ω) (draw : Ω → ℕ → Vec → ℕ → ℕ) (Z : Ω → ℝ),
    PoissonLaw P Ex.sysBin Ex.SBin (presentIn Ex.SBin (fun _ _ => 8) fun _ _ _ => 0) draw ∧
    |∫ ω, (if 1 ≤ eventsDrawn Ex.sysBin Ex.SBin (presentIn Ex.SBin (fun _ _ => 8) fun _ _ _ => 0) (draw ω) then Z ω else 0) ∂P| ≤ 2 / √8 ∧
    ∀ ω, 1 ≤ eventsDrawn Ex.sysBin Ex.SBin (presentIn Ex.SBin (fun _ _ => 8) fun _ _ _ => 0) (draw ω) → PullOf Ex.sysBin "p" (draw ω) Ex.optErr (Z ω) := by
  obtain ⟨Ω, mΩ, P, draw, h1, h2⟩ := poisson_gen_all Ex.sysBin (reachable_wf Ex.sysBin_built.reachable) Ex.SBin (presentIn Ex.SBin (fun _ _ => 8) fun _ _ _ => 0)
  refine ⟨Ω, mΩ, P, draw, _, h1, ?_, fun ω hω => Ex.pullBin (draw ω) _ rfl hω⟩
  exact C144_mean_partial Ex.sysBin Ex.sysBin_built Ex.SBin Ex.modelBin _ _ "p" 8 Ex.oneBin P draw h1 h2 (fun _ => Ex.optErr) (fun _ => Ex.optErr_fin) (fun _ => Ex.optErr_exact)
    _ (fun _ => rfl) 8 (by rw [Ex.accBin, mul_one]) _ (.of_forall fun ω hω => Ex.pullBin (draw ω) _ rfl hω)

end
end TF.Props
