import Verif.Props.FitterProps9

set_option linter.unusedSimpArgs false

/-!
# A profile has its minimum at the best fit (C109); the goodness of fit is twice the likelihood (C108)
-/

namespace TF.Props

open Classical Spec
open scoped Matrix

noncomputable section

theorem sub_not_lt {v f : Fl} (hf : f ≠ .nan) (h : ¬ v.lt f) : ¬ (v - f).lt (.fin 0) := by
  cases v with
  | fin a =>
    cases f with
    | fin b =>
      rw [Fl.fin_sub]
      have h : ¬ a < b := h
      show ¬ (a - b < 0)
      linarith [not_lt.mp h]
    | pinf => exact absurd trivial h
    | ninf => exact id
    | nan => exact absurd rfl hf
  | pinf => cases f <;> exact id
  | ninf =>
    cases f with
    | fin b => exact absurd trivial h
    | pinf => exact absurd trivial h
    | ninf => exact id
    | nan => exact id
  | nan => cases f <;> exact id

theorem Fl.eq_of_not_lt {a b : Fl} (ha : a ≠ .nan) (hb : b ≠ .nan) (h1 : ¬ a.lt b) (h2 : ¬ b.lt a) : a = b := by
  cases a <;> cases b <;> first
    | rfl
    | exact absurd rfl ha
    | exact absurd rfl hb
    | exact absurd trivial h1
    | exact absurd trivial h2
    | exact congrArg Fl.fin (le_antisymm (not_lt.mp h2) (not_lt.mp h1))

/-- **C109, without fixed nuisance parameters.** Take any model and an optimiser that returns true constrained minima. Whenever
`profile` (with `fix_nui_params=False`) returns, no profile value lies below the fitted minimum: with the minimum subtracted no
value is negative (failed points are NaN). A point at the fitted value of the parameter, if it did not fail, has exactly the
fitted minimum. -/
theorem C109_nonneg_partial (s : Sys) (h : s.Built) (f : Fitter) (hid : minKindOf f.minimizerId = .ok .iminuit)
    (o : Optim) (ho : TrueMin o) (r : MinResult)
    (hr : ((Fitter.new f.minimizerId).doFit o s.w s.m false true false none).1 = .ok r) (pid : ParamId) (i : ℕ)
    (hd : Denotes (s.m.paramNames s.w) pid i) (cpu n : ℕ) (sg : Fl) (sub : Bool) (sched : List PoolEv)
    (pts vals hess : Vec) (w' : World)
    (hp : f.profile o s.w s.m pid cpu n sg sub false sched = (.ok (some (pts, vals, hess)), w')) :
    ∀ (k : ℕ) (pt v : Fl), pts[k]? = some pt → vals[k]? = some v →
      ¬ v.lt (if sub then .fin 0 else r.fval) ∧
      (r.params.values[i]? = some pt → v ≠ .nan → v = if sub then r.fval - r.fval else r.fval) := by
  obtain ⟨val, unc, -, -, -, -, -, -, hv, hex⟩ := C68_values s h f .iminuit hid o false r hr pid i hd cpu n sg sub sched pts
    vals hess w' hp
  have hal := C51_aligned s h.reachable
  have hkn : KnownIds (s.m.paramNames s.w) [] := ⟨by simp, by simp⟩
  have hz := setup_eq (kd := .iminuit) (id := f.minimizerId) hal.1.symm hkn false none
  have hzw := minRun_wf .iminuit (s.m.paramNames s.w)
    (setupOps (fitRun f.minimizerId []) s.m.numProcesses (s.m.numNui s.w) false none)
  have hm1 : minKindOf (fitRun f.minimizerId []).minimizerId = .ok .iminuit := by rw [fitRun_id]; exact hid
  obtain ⟨x1, q, hx1, hq, hf, hval⟩ := doFit_minuit_inv' hm1 hz hzw.hk hr
  set z := minRun .iminuit (s.m.paramNames s.w)
    (setupOps (fitRun f.minimizerId []) s.m.numProcesses (s.m.numNui s.w) false none) with hzz
  obtain ⟨t1, t2, t3, t4⟩ := ho _ _ hq
  have hnames : (z.minuitCall (objective s.w s.m) x1).names = s.m.paramNames s.w := hzw.hn
  have hall : ∀ y : Vec, y.length = (s.m.paramNames s.w).length → MFeasible (z.minuitCall (objective s.w s.m) x1) y := by
    have e0 : setupOps (fitRun f.minimizerId []) s.m.numProcesses (s.m.numNui s.w) false none = [] := by
      simp [setupOps, fitRun, Fitter.new]
    intro y hy
    refine ⟨by rw [hnames]; exact hy, fun k hkk => ?_⟩
    rw [hnames] at hkk
    constructor
    · intro hc
      rw [hzz, e0, C58_iminuit, List.getElem?_map, List.getElem?_range hkk, Option.map_some] at hc
      have hc := of_decide_eq_true (Option.some.inj hc)
      obtain ⟨_, _, _, he, _⟩ := hc
      simp at he
    · intro _ b v hb _
      rw [hzz, e0] at hb
      have hb : b = (none, none) := by
        simp [minRun, Minimizer.new, Minimizer.minuitCall, List.getElem?_replicate, hkk] at hb
        exact hb.symm
      rw [hb]
      exact ⟨fun _ h => (by cases h), fun _ h => (by cases h)⟩
  intro k pt v hk hvk
  obtain ⟨res, hres⟩ := hex k pt hk
  have hvv := hv k pt res hk hres
  rw [hvk] at hvv
  have hvv := Option.some.inj hvv
  cases res with
  | failed =>
    have : v = .nan := hvv
    rw [this]
    exact ⟨by simp [Fl.lt], fun _ h => absurd rfl h⟩
  | found u =>
    obtain ⟨q', C, R, g1, g2, g3, g4, -⟩ := hres
    obtain ⟨b1, b2, b3, b4⟩ := ho _ _ g1
    have hu : ¬ u.lt r.fval := by
      rw [hf, ← g2]
      exact t4 q'.values q'.fval (hall _ g3) b2
    have hrn : r.fval ≠ .nan := by rw [hf]; exact t3
    constructor
    · rw [hvv]
      cases sub with
      | true => exact sub_not_lt hrn hu
      | false => exact hu
    · intro hpt hvn
      have hfe : MFeasible (scanMinuit (objective s.w s.m) (s.m.paramNames s.w) r.params.values i pt) r.params.values := by
        refine ⟨by rw [hval, t1.1, hnames]; rfl, fun k' hk' => ⟨fun _ => ?_, fun _ b v' hb _ => ?_⟩⟩
        · show _ = (r.params.values.set i pt)[k']?
          by_cases hki : i = k'
          · subst hki
            rw [List.getElem?_set_self (List.getElem?_eq_some_iff.mp hpt).1]
            exact hpt
          · rw [List.getElem?_set_ne hki]
        · have hk' : k' < (s.m.paramNames s.w).length := hk'
          have hb : ((s.m.paramNames s.w).map fun _ => ((none, none) : Bounds))[k']? = some b := hb
          rw [List.getElem?_map, List.getElem?_eq_getElem hk', Option.map_some] at hb
          rw [← Option.some.inj hb]
          exact ⟨fun _ h => (by cases h), fun _ h => (by cases h)⟩
      have hob : objective s.w s.m r.params.values = .ok r.fval := by rw [hval, hf]; exact t2
      have h5 : ¬ r.fval.lt u := by rw [← g2]; exact b4 _ _ hfe hob
      have h6 : u = r.fval := Fl.eq_of_not_lt (by rw [← g2]; exact b3) hrn hu h5
      rw [hvv]
      cases sub <;> simp [pointValue, h6]

/-! ### with fixed nuisance parameters it is refuted: one template with contents 1, 1, data 4, 4, start at nuisance parameters 1 -/

namespace Ex

def ops44 : List Op :=
  [.binned1 ⟨[2], vec ![1, 1]⟩ ⟨true, [0, 1, 2]⟩ (some ⟨[2], vec ![1, 1]⟩),
   .binned1 ⟨[2], vec ![4, 4]⟩ ⟨true, [0, 1, 2]⟩ (some ⟨[2], vec ![1, 1]⟩), .newTmpl1 "t" 0,
   .defineChannel "a" (.int 2) (.d1 .tuple 0 2), .defineProcess "p", .addTemplate "a" "p" 0 (.fin 1),
   .addData [("a", 1)]]

def w44 : World :=
  { World.init with
    hists := Function.update (Function.update (fun _ => dummyHist) 0 (bh ![1, 1] ![1, 1])) 1 (bh ![4, 4] ![1, 1])
    nHists := 2
    tmpls := Function.update (fun _ => dummyTmpl) 0 (bt "t" 0 ![1, 1] ![1, 1])
    nTmpls := 1
    chans := Function.update (fun _ => dummyChan) 0 chZ
    nChans := 1 }

def sys44 : Sys := ⟨w44, mZ⟩

theorem run44 : Sys.init.run ops44 = sys44 := by
  simp only [ops44, Sys.run, List.foldl_cons, List.foldl_nil, Sys.step, bh_eq, Sys.allocHist, World.newHist,
    Sys.init, World.init, Sys.allocTmpl, World.newTmpl]
  simp [bt_eq, Sys.allocTmpl, World.newTmpl, Function.update_apply]
  simp [Mct.defineChannel, Mct.defineProcess,
    Mct.addTemplate, World.addTemplate, Mct.empty, World.newChan, dictSet, dictGet, Mct.addData, World.addData,
    World.setChan, Channel.new, Channel.addTemplate, Channel.checkTemplate, Channel.procs, bt, bh,
    Hist.setBinned, Hist.blank, ChanBins.toTuple, Channel.addData, Channel.checkHist, sys44, w44, mZ, chZ,
    World.init, Function.update_apply]

theorem sys44_built : sys44.Built := by
  refine ⟨_, setupFirst_of_noEval ?_, run44⟩
  intro o ho
  simp only [ops44, List.mem_cons, List.not_mem_nil, or_false] at ho
  rcases ho with rfl | rfl | rfl | rfl | rfl | rfl | rfl <;> exact id

theorem model44 : ModelIs sys44 SZ := by
  intro k hk
  have : k = 0 := by simpa [sys44, mZ, Mct.chanIds] using hk
  subst this
  refine ⟨Nat.one_pos, Nat.two_pos, fun _ => Matrix.PosDef.one, ?_⟩
  exact chanIs_single w44 0 (by simp [w44]) "p" 0 1 "t" 0 ![1, 1] ![1, 1] (by intro i; fin_cases i <;> simp)
      (by intro i; fin_cases i <;> simp) (by simp [w44, chZ]) (by simp [w44, chZ]) (by simp [w44, chZ]) (by simp [w44])

def d44 : ∀ k, Fin (SZ k).n → ℝ := fun _ _ => 4

theorem data44 : DataIs sys44 SZ d44 := by
  intro k hk
  have : k = 0 := by simpa [sys44, mZ, Mct.chanIds] using hk
  subst this
  refine ⟨1, by simp [sys44, mZ, Mct.chanIds, w44, chZ], ?_⟩
  show (w44.hists 1).counts.data = vec (fun _ : Fin 2 => (4:ℝ))
  simp [w44, bh, Hist.setBinned, vec, List.ofFn_succ]

theorem frac44 {t : ℝ} (ht : 0 < 1 + t) (i : Fin 2) : fracIn SZ (fun _ _ _ => t) 0 (0 : Fin 1) i = 1 / 2 := by
  show (![1, 1] : Fin 2 → ℝ) i * (1 + t * ((![1, 1] : Fin 2 → ℝ) i / (![1, 1] : Fin 2 → ℝ) i)) /
    ∑ i' : Fin 2, (![1, 1] : Fin 2 → ℝ) i' * (1 + t * ((![1, 1] : Fin 2 → ℝ) i' / (![1, 1] : Fin 2 → ℝ) i')) = _
  have h : ∀ i, (![1, 1] : Fin 2 → ℝ) i = 1 := by intro i; fin_cases i <;> rfl
  simp only [h, Fin.sum_univ_two]
  field_simp
  ring

theorem exp44 {t : ℝ} (ht : 0 < 1 + t) (ν : String → ℝ) (i : Fin 2) :
    expectedIn sys44 SZ ν (fun _ _ _ => t) 0 i = ν "p" / 2 := by
  refine (expectedIn_eq sys44 SZ ν (fun _ _ _ => t) 0 i).trans ?_
  show ∑ j : Fin 1, _ = _
  rw [Fin.sum_univ_one]
  have hn : procName sys44 0 (0 : Fin 1) = "p" := by simp [procName, sys44, mZ, Mct.chanIds, w44, chZ]
  have := frac44 ht i
  show ν (procName sys44 0 (0 : Fin 1)) * 1 * fracIn SZ (fun _ _ _ => t) 0 (0 : Fin 1) i = _
  rw [hn, this]; ring

theorem sums44 {t : ℝ} (ht : 0 < 1 + t) : NonZeroSums sys44 SZ (fun _ _ _ => t) := by
  intro k hk j
  show ∑ i' : Fin 2, (![1, 1] : Fin 2 → ℝ) i' * (1 + t * ((![1, 1] : Fin 2 → ℝ) i' / (![1, 1] : Fin 2 → ℝ) i')) ≠ 0
  have h : ∀ i, (![1, 1] : Fin 2 → ℝ) i = 1 := by intro i; fin_cases i <;> rfl
  simp only [h, Fin.sum_univ_two]
  norm_num
  linarith

theorem ident44 : Identifiable sys44 SZ := by
  intro δ h _ p hp
  have h1 := h 0 (by simp [sys44, mZ, Mct.chanIds]) (0 : Fin 2)
  have hp : p = "p" := by simpa [sys44, mZ] using hp
  subst hp
  have := exp44 (t := 0) (by norm_num) δ 0
  rw [this] at h1
  linarith

theorem vec44 (y t : ℝ) : paramVec sys44 SZ (fun _ => y) (fun _ _ _ => t) = [.fin y, .fin t, .fin t] := by
  have : nuiVec (fun (_ : Fin (SZ 0).K) (_ : Fin (SZ 0).n) => t) = [.fin t, .fin t] := by
    show nuiVec (fun (_ : Fin 1) (_ : Fin 2) => t) = _
    simp [nuiVec, vec, List.ofFn_succ]
  simp [paramVec, sys44, mZ, Mct.chanIds, this]

theorem min44 : objective sys44.w sys44.m [.fin 8, .fin 0, .fin 0] = .ok (.fin 0) ∧
    ∀ x v, x.length = 3 → objective sys44.w sys44.m x = .ok v → ¬ v.lt (.fin 0) := by
  have h := C106_minimum sys44 sys44_built (by simp [sys44, mZ]) SZ model44 d44 data44
    (by intro k _ i; show (1e-100 : ℝ) ≤ 4; norm_num) (fun _ => 0) (fun _ => 1) (by intro p hp; simp [sys44, mZ] at hp)
    (fun _ => 8) (sums44 (by norm_num)) (by
      intro k hk i
      have : k = 0 := by simpa [sys44, mZ, Mct.chanIds] using hk
      subst this
      refine (exp44 (t := 0) (by norm_num) (fun _ => 8) i).trans ?_
      show (8:ℝ) / 2 = 4
      norm_num) (by intro p hp; simp [sys44, mZ] at hp) ident44
  rw [vec44] at h
  refine ⟨h.1, fun x v hx hv => (h.2 x v ?_ hv).1⟩
  rw [hx]
  have h1 := paramVec_length (reachable_wf sys44_built.reachable) model44 (fun _ => 8) (fun _ _ _ => 0)
  rw [vec44] at h1
  exact h1

theorem pen44 : penalty (SZ 0).R (fun _ _ => 1) = 1 := by
  show penalty (fun _ : Fin 1 => (1 : Matrix (Fin 2) (Fin 2) ℝ)) (fun _ _ => 1) = 1
  simp [penalty, dotProduct, Fin.sum_univ_two]

/-- the likelihood with both nuisance parameters at 1 is at least 1 -/
theorem nui44 : objective sys44.w sys44.m [.fin 8, .fin 1, .fin 1] = .ok (.fin 1) ∧
    ∀ x0 v, objective sys44.w sys44.m [x0, .fin 1, .fin 1] = .ok v → ¬ v.lt (.fin 1) := by
  have hB := sys44_built
  have hne : sys44.m.channels ≠ [] := by simp [sys44, mZ]
  have hp : ∀ k < sys44.m.chanIds.length, ∀ i, d44 k i = 0 ∨ (1e-100 : ℝ) ≤ d44 k i := by
    intro k _ i; right; show (1e-100 : ℝ) ≤ 4; norm_num
  have hc : ConstraintsAre sys44 (fun _ => 0) (fun _ => 1) := by intro p hp; simp [sys44, mZ] at hp
  have hl : sys44.m.chanIds.length = 1 := by simp [sys44, mZ, Mct.chanIds]
  have hco : sys44.m.constrained = [] := rfl
  have hval : ∀ ν : String → ℝ, nllAt sys44 SZ d44 (fun _ => 0) (fun _ => 1) (fun _ _ _ => 1) ν =
      (∑ _i : Fin 2, poissonBin 4 (ν "p" / 2)) + 1 := by
    intro ν
    unfold nllAt
    rw [hl, hco, Finset.range_one, Finset.sum_singleton, List.map_nil, List.sum_nil, add_zero, pen44]
    congr 1
    refine Finset.sum_congr rfl fun i _ => ?_
    show poissonBin 4 _ = _
    congr 1
    exact exp44 (t := 1) (by norm_num) ν i
  constructor
  · rw [← vec44, objective_nllAt' hB hne model44 data44 hp hc (sums44 (by norm_num)) (by
      intro k hk i _
      have : k = 0 := by simpa [sys44, mZ, Mct.chanIds] using hk
      subst this
      rw [show expectedIn sys44 SZ (fun _ => 8) (fun _ _ _ => 1) 0 i = 8 / 2 from exp44 (t := 1) (by norm_num) _ i]
      norm_num), hval]
    have : poissonBin 4 (8 / 2) = 0 := by simp [poissonBin]; norm_num
    simp [this]
  · intro x0 v hv
    have hlen : ([x0, .fin 1, .fin 1] : Vec).length = sys44.m.numProcesses + sys44.m.numNui sys44.w := by
      have h1 := paramVec_length (reachable_wf hB.reachable) model44 (fun _ => 8) (fun _ _ _ => 0)
      rw [vec44] at h1
      exact h1
    have hnn := objective_not_ninf hB hne model44 data44 (by intro k _ i; show (1e-100 : ℝ) ≤ 4; norm_num) hc _ hlen
    cases v with
    | nan => simp [Fl.lt]
    | ninf => exact absurd hv hnn
    | pinf => simp [Fl.lt]
    | fin b =>
      have hused : AllUsed sys44 SZ := by
        intro p hp
        have : p = "p" := by simpa [sys44, mZ] using hp
        subst this
        exact Or.inl ⟨0, by rw [hl]; norm_num, (0 : Fin 1), by simp [procName, sys44, mZ, Mct.chanIds, w44, chZ]⟩
      obtain ⟨ν, θ, e1, hT, hE⟩ := (C104_domain sys44 hB hne SZ model44 d44 data44 hp _ _ hc hused _ hlen).mp ⟨b, hv⟩
      have e2 : θ 0 = fun _ _ => 1 := by
        have : paramVec sys44 SZ ν θ = [.fin (ν "p")] ++ nuiVec (fun (j : Fin 1) (i : Fin 2) => θ 0 j i) := by
          simp [paramVec, sys44, mZ, Mct.chanIds]
          rfl
        rw [this] at e1
        simp [nuiVec, vec, List.ofFn_succ] at e1
        funext j i
        revert j i
        show ∀ (j : Fin 1) (i : Fin 2), θ 0 j i = 1
        intro j i
        fin_cases j; fin_cases i
        · exact e1.2.1.symm
        · exact e1.2.2.symm
      have hv2 := objective_nllAt' hB hne model44 data44 hp hc hT hE
      have hsame : nllAt sys44 SZ d44 (fun _ => 0) (fun _ => 1) θ ν = nllAt sys44 SZ d44 (fun _ => 0) (fun _ => 1) (fun _ _ _ => 1) ν := by
        unfold nllAt expectedIn
        rw [hl, Finset.range_one, Finset.sum_singleton, Finset.sum_singleton, e2]
      rw [← e1, hv, hsame, hval] at hv2
      have hb := Fl.fin.inj (Except.ok.inj hv2)
      have hE0 := hE 0 (by rw [hl]; norm_num) (0 : Fin 2) (show (4:ℝ) ≠ 0 by norm_num)
      have hE1 : expectedIn sys44 SZ ν θ 0 (0 : Fin 2) = ν "p" / 2 := by
        refine Eq.trans ?_ (exp44 (t := 1) (by norm_num) ν 0)
        unfold expectedIn
        rw [e2]
      rw [hE1] at hE0
      have := (poissonBin_nonneg (d := 4) (by norm_num) hE0).1
      simp only [Fl.lt, not_lt]
      rw [hb, Fin.sum_univ_two]
      linarith

/-- the same model with the template's parameters set to yield 8 and nuisance parameters 1, 1 -/
def sys44' : Sys := sys44.step (.setTmplParams 0 [.fin 8, .fin 1, .fin 1])

theorem sys44'_built : sys44'.Built := Sys.Built.step sys44_built (by simp [Op.structural])

theorem sys44'_only : ParamOnly sys44.w sys44'.w ∧ sys44'.m = sys44.m := by
  have h : 0 < sys44.w.nTmpls := by simp [sys44, w44]
  unfold sys44'
  simp only [Sys.step, if_pos h]
  refine storeTmpl_paramOnly _ _ _ fun t ht => ?_
  unfold Template.setParams at ht
  split at ht
  · cases ht
  · exact ⟨_, (Except.ok.inj ht).symm⟩

theorem obj44' : objective sys44'.w sys44'.m = objective sys44.w sys44.m := by
  rw [sys44'_only.2]
  exact objective_params sys44'_only.1 sys44_built.coherent _ (reachable_wf sys44_built.reachable).lt

theorem names44' : sys44'.m.paramNames sys44'.w = ["p_yield", "a_p_bin_0", "a_p_bin_1"] := by
  simp [sys44', Sys.step, Sys.storeTmpl, Template.setParams, World.setTmpl, sys44, mZ, Mct.paramNames, World.channelNames, w44, chZ, bt, List.range_succ, nuiName,
    initParams]
  exact ⟨rfl, rfl⟩

theorem x044' : sys44'.m.x0 sys44'.w = .ok [.fin 8, .fin 1, .fin 1] := by
  simp [sys44', Sys.step, Sys.storeTmpl, Template.setParams, World.setTmpl, sys44, Mct.x0, Mct.nuiParams, Mct.allTmpls, World.chanTmpls, Template.nuiParams, mZ, Mct.processYields, Mct.chanIds,
    World.processYield, w44, chZ, dictGet, Template.yieldParam, bt, initParams, bh, Hist.setBinned,
    npSum, vec, List.ofFn_succ, Fl.zero_def, List.replicate]

/-- the output that reports the parameters `x` with errors 0 -/
def out44 (c : MinuitCall) (x : Vec) : MinuitOut :=
  ⟨⟨true, true, true⟩, ⟨true, true, true⟩, (match c.fcn x with | .ok v => v | .error _ => .nan), x,
    c.names.map fun _ => .fin 0, .ok (Mat.zeros 1 1, Mat.zeros 1 1)⟩

/-- an optimiser that knows two candidates, the start point and `[8, 0, 0]`, and returns one only if it is the true constrained
minimum -/
def opt44 : Optim where
  minuit := fun c => if IsMin c (out44 c c.x0) then .ok (out44 c c.x0) else
    if IsMin c (out44 c [.fin 8, .fin 0, .fin 0]) then .ok (out44 c [.fin 8, .fin 0, .fin 0]) else .error .runtimeError
  minuitEvals := fun _ => []
  scipy := fun _ => .error .runtimeError
  scipyEvals := fun _ => []
  hessian := fun _ => .error .runtimeError

theorem opt44_ok {c : MinuitCall} {r : MinuitOut} (h : opt44.minuit c = .ok r) : IsMin c r := by
  simp only [opt44] at h
  split at h
  · rename_i h1; rw [← Except.ok.inj h]; exact h1
  · split at h
    · rename_i h1; rw [← Except.ok.inj h]; exact h1
    · cases h

theorem opt44_true : TrueMin opt44 := fun _ _ h =>
  have := opt44_ok h
  ⟨this.1, this.2.1, this.2.2.1, this.2.2.2.1⟩

theorem den44 : Denotes (sys44'.m.paramNames sys44'.w) (.str "p_yield") 0 := by
  rw [names44', denotes_iff]; simp [idToIndex, List.idxOf_cons]

/-- with the nuisance parameters fixed at 1 the fit returns the start point, likelihood 1 -/
theorem fit44 : ∃ C R ok, ((Fitter.new "iminuit").doFit opt44 sys44'.w sys44'.m false true true none).1 =
    .ok ⟨.fin 1, ⟨sys44'.m.paramNames sys44'.w, [.fin 8, .fin 1, .fin 1], [.fin 0, .fin 0, .fin 0], C, R⟩, ok⟩ := by
  have hk : KnownIds (sys44'.m.paramNames sys44'.w) [] := ⟨by simp, by simp⟩
  obtain ⟨c, h1, h2, h3, h4, h5, h6⟩ := C64_iminuit sys44' sys44'_built.reachable "iminuit" lower_iminuit [] hk _ x044' true true none
  have hn : c.names = ["p_yield", "a_p_bin_0", "a_p_bin_1"] := by rw [h3, names44']
  have hlen : c.names.length = 3 := by rw [hn]; rfl
  have hm : sys44'.m.numProcesses = 1 := by rw [sys44'_only.2]; simp [sys44, mZ, Mct.numProcesses]
  have hfix : ∀ k, 1 ≤ k → k < 3 → c.fix[k]? = some true := by
    intro k hk1 hk3
    rw [h4, names44', List.getElem?_map, List.getElem?_range (by simpa using hk3), Option.map_some]
    congr 1
    refine decide_eq_true (Or.inr ⟨rfl, ?_⟩)
    rw [hm]; exact hk1
  have hval : c.fcn c.x0 = .ok (.fin 1) := by rw [h1, h2, obj44']; exact nui44.1
  have hfe : MFeasible c c.x0 := by
    refine ⟨by rw [h2, hlen]; rfl, fun k hk => ⟨fun _ => rfl, fun _ b v hb hv => ?_⟩⟩
    obtain ⟨b', w1, w2⟩ := h5 k (by rw [← h3]; exact hk) (by intro p q b c hb; simp at hb)
    rw [w2] at hb
    cases hb
    have hbb : b = (none, none) := by
      rcases w1 with ⟨_, _, _, he, _⟩ | ⟨_, w1⟩
      · simp at he
      · rw [w1]; split <;> rfl
    rw [hbb]
    exact ⟨fun _ h => (by cases h), fun _ h => (by cases h)⟩
  have hfv : (out44 c c.x0).fval = .fin 1 := by simp only [out44, hval]
  have hmin : IsMin c (out44 c c.x0) := by
    refine ⟨hfe, by rw [hfv]; exact hval, by rw [hfv]; simp, fun y v hy hv => ?_, by simp [out44], _, _, rfl⟩
    rw [hfv]
    have e1 := (hy.2 1 (by omega)).1 (hfix 1 (by omega) (by omega))
    have e2 := (hy.2 2 (by omega)).1 (hfix 2 (by omega) (by omega))
    have e0 := hy.1
    rw [h2] at e1 e2
    rw [hlen] at e0
    match y, e0, e1, e2, hv with
    | [a, b, d], _, e1, e2, hv =>
      simp at e1 e2
      subst e1; subst e2
      rw [h1, obj44'] at hv
      exact nui44.2 a v hv
  have hok : opt44.minuit c = .ok (out44 c c.x0) := by simp only [opt44, if_pos hmin]
  have := (h6 opt44).2 _ _ _ hok (by rw [← h3]; exact hfe.1) (by rw [← h3]; simp [out44]) rfl
  rw [hfv] at this
  simp only [out44, h2, hn] at this
  exact ⟨_, _, _, this⟩

/-- a scan point at 8: the nuisance parameters are free and the likelihood goes down to 0 -/
theorem point44 (pt : Fl) : ∃ res, PointIs opt44 .iminuit (objective sys44'.w sys44'.m) (sys44'.m.paramNames sys44'.w)
    [.fin 8, .fin 1, .fin 1] 0 pt res ∧ (pt = .fin 8 → res = .found (.fin 0)) := by
  set c := scanMinuit (objective sys44'.w sys44'.m) (sys44'.m.paramNames sys44'.w) [.fin 8, .fin 1, .fin 1] 0 pt with hc
  have hlen : c.names.length = 3 := by rw [hc]; show (sys44'.m.paramNames sys44'.w).length = 3; rw [names44']; rfl
  have h1 : c.fcn = objective sys44.w sys44.m := by rw [hc, ← obj44']; rfl
  have hfe : pt = .fin 8 → ∀ a b, MFeasible c [.fin 8, a, b] := by
    intro hpt a b
    refine ⟨by rw [hlen]; rfl, fun k hk => ⟨fun hf => ?_, fun _ b v hb hv => ?_⟩⟩
    · rw [hc] at hf ⊢
      have hk0 : k = 0 := by
        rw [hlen] at hk
        have hf : ((List.range (sys44'.m.paramNames sys44'.w).length).map fun j => decide (j = 0))[k]? = some true := hf
        rw [names44', List.getElem?_map, List.getElem?_range (by simpa using hk), Option.map_some] at hf
        simpa using hf
      subst hk0
      rw [hpt]; rfl
    · rw [hc] at hb
      have hk' : k < (sys44'.m.paramNames sys44'.w).length := hk
      have hb : ((sys44'.m.paramNames sys44'.w).map fun _ => ((none, none) : Bounds))[k]? = some b := hb
      rw [List.getElem?_map, List.getElem?_eq_getElem hk', Option.map_some] at hb
      rw [← Option.some.inj hb]
      exact ⟨fun _ h => (by cases h), fun _ h => (by cases h)⟩
  have hv0 : c.fcn [.fin 8, .fin 0, .fin 0] = .ok (.fin 0) := by rw [h1]; exact min44.1
  cases ho : opt44.minuit c with
  | error e =>
    have he : e = .runtimeError := by
      simp only [opt44] at ho
      split at ho
      · cases ho
      · split at ho
        · cases ho
        · exact (Except.error.inj ho).symm
    subst he
    refine ⟨.failed, ⟨.runtimeError, by simp [CaughtAsRuntime], Or.inl ho⟩, fun hpt => ?_⟩
    exfalso
    have hm : IsMin c (out44 c [.fin 8, .fin 0, .fin 0]) := by
      refine ⟨hfe hpt _ _, by simp only [out44, hv0], by simp [out44, hv0], fun y v hy hv => ?_, by simp [out44], _, _, rfl⟩
      simp only [out44, hv0]
      rw [h1] at hv
      exact min44.2 y v (by rw [hy.1, hlen]) hv
    simp only [opt44] at ho
    split at ho
    · cases ho
    · cases ho
  | ok r =>
    have hr := opt44_ok ho
    obtain ⟨C, R, hm⟩ := hr.2.2.2.2.2
    refine ⟨.found r.fval, ⟨r, C, R, ho, rfl, hr.1.1, hr.2.2.2.2.1, hm⟩, fun hpt => ?_⟩
    have g1 := hr.2.2.2.1 _ _ (hfe hpt (.fin 0) (.fin 0)) hv0
    have g2 : ¬ r.fval.lt (.fin 0) := by
      have := hr.2.1
      rw [h1] at this
      exact min44.2 _ _ (by rw [hr.1.1, hlen]) this
    rw [Fl.eq_of_not_lt hr.2.2.1 (by simp) g2 g1]

end Ex

/-- **C109 refuted for `fix_nui_params=True`.** A model whose template parameters were set to yield 8 and nuisance parameters
1, 1, and an optimiser that only returns true constrained minima: the nominal fit keeps the nuisance parameters at 1 and has
minimum 1, the scan points free them and find likelihood 0, so with the minimum subtracted all 100 profile values are -1. -/
theorem C109_refuted : ∃ (s : Sys) (o : Optim) (r : MinResult), s.Built ∧ TrueMin o ∧
    ((Fitter.new "iminuit").doFit o s.w s.m false true true none).1 = .ok r ∧ r.fval = .fin 1 ∧
    ∃ (sched : List PoolEv) (pts vals hess : Vec),
      ((Fitter.new "iminuit").profile o s.w s.m (.str "p_yield") 4 100 (.fin 2) true true sched).1 = .ok (some (pts, vals, hess)) ∧
      vals = List.replicate 100 (.fin (-1)) := by
  obtain ⟨C, R, ok, hr⟩ := Ex.fit44
  refine ⟨Ex.sys44', Ex.opt44, _, Ex.sys44'_built, Ex.opt44_true, hr, rfl, ?_⟩
  have hid := minKind_iminuit lower_iminuit
  obtain ⟨⟨pts, vals, hess⟩, hR⟩ := C68_returns Ex.sys44' Ex.sys44'_built (Fitter.new "iminuit") .iminuit hid Ex.opt44
      true _ hr (.str "p_yield") 0 Ex.den44 100 (.fin 2) true (fun pt => ⟨_, (Ex.point44 pt).choose_spec.1⟩)
  obtain ⟨-, sched, hs⟩ := hR 4 (by omega) []
  refine ⟨_, pts, vals, hess, hs, ?_⟩
  obtain ⟨val, unc, g1, g2, g3, hl1, hl2, -, hv, -⟩ := C68_values Ex.sys44' Ex.sys44'_built (Fitter.new "iminuit") .iminuit hid Ex.opt44
      true _ hr (.str "p_yield") 0 Ex.den44 4 100 (.fin 2) true _ pts vals hess _ (Prod.ext hs rfl)
  simp at g1 g2
  subst g1; subst g2
  apply List.ext_getElem?
  intro k
  by_cases hk : k < 100
  · have hpt : pts[k]'(by omega) = .fin 8 := by
      subst g3
      unfold linspaceFl
      rw [List.getElem_map]
      simp only [Fl.fin_mul, Fl.fin_sub, Fl.fin_add, mul_zero, sub_zero, add_zero, sub_self]
      rw [Fl.fin_div _ _ (by norm_num)]
      simp
    obtain ⟨res, q1, q2⟩ := Ex.point44 (.fin 8)
    rw [hv k _ _ (by rw [List.getElem?_eq_getElem (by omega), hpt]) q1]
    rw [List.getElem?_replicate, if_pos hk, q2 rfl]
    simp [pointValue]
  · rw [List.getElem?_eq_none (by omega), List.getElem?_eq_none (by simpa using hk)]



/-- non-vacuity of C109: with the nuisance parameters free the same fit returns, and so does the profile -/
example : TrueMin Ex.opt44 ∧ ∃ r, ((Fitter.new "iminuit").doFit Ex.opt44 Ex.sys44'.w Ex.sys44'.m false true false none).1 = .ok r ∧
    ∃ sched R w', (Fitter.new "iminuit").profile Ex.opt44 Ex.sys44'.w Ex.sys44'.m (.str "p_yield") 4 100 (.fin 2) true false sched =
      (.ok (some R), w') := by
  refine ⟨Ex.opt44_true, ?_⟩
  have hk : KnownIds (Ex.sys44'.m.paramNames Ex.sys44'.w) [] := ⟨by simp, by simp⟩
  obtain ⟨c, h1, h2, h3, h4, h5, h6⟩ := C64_iminuit Ex.sys44' Ex.sys44'_built.reachable "iminuit" lower_iminuit [] hk _ Ex.x044' true false none
  have hlen : c.names.length = 3 := by rw [h3, Ex.names44']; rfl
  have hv0 : c.fcn [.fin 8, .fin 0, .fin 0] = .ok (.fin 0) := by rw [h1, Ex.obj44']; exact Ex.min44.1
  have hm : Ex.IsMin c (Ex.out44 c [.fin 8, .fin 0, .fin 0]) := by
    refine ⟨⟨by rw [hlen]; rfl, fun k hk => ⟨fun hf => ?_, fun _ b v hb hv => ?_⟩⟩, by simp only [Ex.out44, hv0], by simp [Ex.out44, hv0],
      fun y v hy hv => ?_, by simp [Ex.out44], _, _, rfl⟩
    · rw [h4, List.getElem?_map, List.getElem?_range (by rw [← h3]; exact hk), Option.map_some] at hf
      have hf := of_decide_eq_true (Option.some.inj hf)
      rcases hf with ⟨_, he, _⟩ | ⟨he, _⟩
      · simp at he
      · cases he
    · obtain ⟨b', w1, w2⟩ := h5 k (by rw [← h3]; exact hk) (by intro p q b c hb; simp at hb)
      rw [w2] at hb
      cases hb
      have hbb : b = (none, none) := by
        rcases w1 with ⟨_, _, _, he, _⟩ | ⟨_, w1⟩
        · simp at he
        · rw [w1]; split <;> rfl
      rw [hbb]
      exact ⟨fun _ h => (by cases h), fun _ h => (by cases h)⟩
    · simp only [Ex.out44, hv0]
      rw [h1, Ex.obj44'] at hv
      exact Ex.min44.2 y v (by rw [hy.1, hlen]) hv
  obtain ⟨r, hr⟩ : ∃ r, Ex.opt44.minuit c = .ok r := by
    simp only [Ex.opt44]
    split
    · exact ⟨_, rfl⟩
    · exact ⟨_, rfl⟩
  have hi := Ex.opt44_ok hr
  obtain ⟨C, R, hmat⟩ := hi.2.2.2.2.2
  have hfit := (h6 Ex.opt44).2 r C R hr (by rw [← h3]; exact hi.1.1) (by rw [← h3]; exact hi.2.2.2.2.1) hmat
  refine ⟨_, hfit, ?_⟩
  obtain ⟨P, hP⟩ := C68_returns Ex.sys44' Ex.sys44'_built (Fitter.new "iminuit") .iminuit (minKind_iminuit lower_iminuit) Ex.opt44
      false _ hfit (.str "p_yield") 0 Ex.den44 100 (.fin 2) true (fun pt => by
        cases ho : Ex.opt44.minuit (scanMinuit (objective Ex.sys44'.w Ex.sys44'.m) (Ex.sys44'.m.paramNames Ex.sys44'.w) r.values 0 pt) with
        | error e =>
          have he : e = .runtimeError := by
            simp only [Ex.opt44] at ho
            split at ho
            · cases ho
            · split at ho
              · cases ho
              · exact (Except.error.inj ho).symm
          subst he
          exact ⟨.failed, .runtimeError, by simp [CaughtAsRuntime], Or.inl ho⟩
        | ok q =>
          have hq := Ex.opt44_ok ho
          obtain ⟨C, R, hm⟩ := hq.2.2.2.2.2
          exact ⟨.found q.fval, q, C, R, ho, rfl, hq.1.1, hq.2.2.2.2.1, hm⟩)
  obtain ⟨-, sched, hs⟩ := hP 4 (by omega) []
  exact ⟨_, P, _, Prod.ext hs rfl⟩

/-! ### the goodness of fit -/

/-- **C108.** For every model built channel by channel before evaluation, data without empty bins, and parameters at which all
expectations are positive: the likelihood-ratio statistics `cowan_binned_likelihood_gof(data, expectation, dof)` of the channels
are numbers `chi k`, and the likelihood is half their sum plus the penalties of nuisance parameters and constraints. -/
theorem C108_gof (s : Sys) (h : s.Built) (hne : s.m.channels ≠ []) (S : ℕ → ChanSpec) (hS : ModelIs s S)
    (d : ∀ k, Fin (S k).n → ℝ) (hd : DataIs s S d) (hpos : ∀ k < s.m.chanIds.length, ∀ i, (1e-100 : ℝ) ≤ d k i)
    (V E : String → ℝ) (hc : ConstraintsAre s V E) (ν : String → ℝ) (θ : ∀ k, Fin (S k).K → Fin (S k).n → ℝ)
    (hT : NonZeroSums s S θ) (hE : ∀ k < s.m.chanIds.length, ∀ i, 0 < expectedIn s S ν θ k i) (pval : Fl → Fl → Fl)
    (dof : ℕ → ℝ) (hdof : ∀ k, dof k ≠ 0) :
    ∃ chi : ℕ → ℝ, (∀ k < s.m.chanIds.length, cowanGof pval (vec (d k)) (vec (expectedIn s S ν θ k)) (.fin (dof k)) =
        .ok (.fin (chi k), .fin (chi k / dof k), pval (.fin (chi k)) (.fin (dof k)))) ∧
      objective s.w s.m (paramVec s S ν θ) = .ok (.fin ((∑ k ∈ Finset.range s.m.chanIds.length, chi k) / 2 +
        ∑ k ∈ Finset.range s.m.chanIds.length, 1 / 2 * ∑ j, (θ k j) ⬝ᵥ (((S k).R j)⁻¹.mulVec (θ k j)) +
        (s.m.constrained.map fun p => (ν p - V p) ^ 2 / (2 * E p ^ 2)).sum)) := by
  have hd0 : ∀ k < s.m.chanIds.length, ∀ i, 0 < d k i := fun k hk i => lt_of_lt_of_le (by norm_num) (hpos k hk i)
  refine ⟨fun k => 2 * ∑ i, (d k i * Real.log (d k i / expectedIn s S ν θ k i) + expectedIn s S ν θ k i - d k i),
    fun k hk => ?_, ?_⟩
  · obtain ⟨chi, h1, h2, -⟩ := C18_cowan_partial pval (d k) (expectedIn s S ν θ k) (dof k) (hd0 k hk) (hE k hk) (hdof k)
    show _ = Except.ok (Fl.fin (2 * ∑ i, _), Fl.fin ((2 * ∑ i, _) / _), pval (.fin (2 * ∑ i, _)) _)
    rw [← h2]
    exact h1
  · rw [objective_nllAt' h hne hS hd (fun k hk i => Or.inr (hpos k hk i)) hc hT (fun k hk i _ => hE k hk i)]
    unfold nllAt
    rw [Finset.sum_add_distrib, ← Finset.mul_sum, mul_div_cancel_left₀ _ (by norm_num : (2:ℝ) ≠ 0)]
    congr 3
    refine congrArg₂ _ (Finset.sum_congr rfl fun k hk => Finset.sum_congr rfl fun i _ => ?_) rfl
    have hk := Finset.mem_range.mp hk
    have h1 := hd0 k hk i
    have h2 := hE k hk i
    unfold poissonBin
    rw [if_neg h1.ne', Real.log_div h2.ne' h1.ne', Real.log_div h1.ne' h2.ne']
    ring

/-- non-vacuity of C108: data 3, 5, expectation 4, 4 -/
example : ∃ chi : ℕ → ℝ, cowanGof (fun _ _ => .nan) (vec (Ex.d35 0)) (vec (expectedIn Ex.sys35 Ex.SZ (fun _ => 8) (fun _ _ _ => 0) 0)) (.fin 1) =
        .ok (.fin (chi 0), .fin (chi 0 / 1), .nan) ∧
      objective Ex.sys35.w Ex.sys35.m (paramVec Ex.sys35 Ex.SZ (fun _ => 8) (fun _ _ _ => 0)) = .ok (.fin (chi 0 / 2)) := by
  have hl : Ex.sys35.m.chanIds.length = 1 := by simp [Ex.sys35, Ex.mZ, Mct.chanIds]
  have hco : Ex.sys35.m.constrained = [] := rfl
  obtain ⟨chi, h1, h2⟩ := C108_gof Ex.sys35 Ex.sys35_built (by simp [Ex.sys35, Ex.mZ]) Ex.SZ Ex.model35 Ex.d35 Ex.data35
    (fun k _ i => by
      have : ∀ i : Fin 2, (1e-100 : ℝ) ≤ (![3, 5] : Fin 2 → ℝ) i := by intro i; fin_cases i <;> norm_num
      exact this i) (fun _ => 0) (fun _ => 1) (by intro p hp; simp [Ex.sys35, Ex.mZ] at hp) (fun _ => 8) _ Ex.sums35
    (fun k _ i => by rw [Ex.exp35]; norm_num) (fun _ _ => .nan) (fun _ => 1) (fun _ => one_ne_zero)
  refine ⟨chi, h1 0 (by rw [hl]; norm_num), ?_⟩
  rw [h2, hl, hco, Finset.range_one, Finset.sum_singleton, Finset.sum_singleton]
  simp [dotProduct]

end

end TF.Props
