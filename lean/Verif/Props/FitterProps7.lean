import Verif.Props.FitterProps6

set_option linter.unusedSimpArgs false

/-!
# Significance: counterexample and examples for C71, and C72
-/

namespace TF.Props

open Classical Spec

noncomputable section

namespace Ex

/-- a template with contents (1, 1), data without any events -/
def opsZ : List Op :=
  [.binned1 ⟨[2], vec ![1, 1]⟩ ⟨true, [0, 1, 2]⟩ (some ⟨[2], vec ![1, 1]⟩),
   .binned1 ⟨[2], vec ![0, 0]⟩ ⟨true, [0, 1, 2]⟩ (some ⟨[2], vec ![1, 1]⟩), .newTmpl1 "t" 0,
   .defineChannel "a" (.int 2) (.d1 .tuple 0 2), .defineProcess "p", .addTemplate "a" "p" 0 (.fin 1),
   .addData [("a", 1)]]

def chZ : Channel :=
  ⟨"a", [2], .d1 .tuple 0 2, ["p"], [("p", 0)], [("p", .fin 1)], some 1, some 1, some .t1, some .h1⟩

def wZ : World :=
  { World.init with
    hists := Function.update (Function.update (fun _ => dummyHist) 0 (bh ![1, 1] ![1, 1])) 1 (bh ![0, 0] ![1, 1])
    nHists := 2
    tmpls := Function.update (fun _ => dummyTmpl) 0 (bt "t" 0 ![1, 1] ![1, 1])
    nTmpls := 1
    chans := Function.update (fun _ => dummyChan) 0 chZ
    nChans := 1 }

def mZ : Mct := ⟨[("a", 0)], ["p"], [], [], []⟩

def sysZ : Sys := ⟨wZ, mZ⟩

theorem runZ : Sys.init.run opsZ = sysZ := by
  simp only [opsZ, Sys.run, List.foldl_cons, List.foldl_nil, Sys.step, bh_eq, Sys.allocHist, World.newHist,
    Sys.init, World.init, Sys.allocTmpl, World.newTmpl]
  simp [bt_eq, Sys.allocTmpl, World.newTmpl, Function.update_apply]
  simp [Mct.defineChannel, Mct.defineProcess,
    Mct.addTemplate, World.addTemplate, Mct.empty, World.newChan, dictSet, dictGet, Mct.addData, World.addData,
    World.setChan, Channel.new, Channel.addTemplate, Channel.checkTemplate, Channel.procs, bt, bh,
    Hist.setBinned, Hist.blank, ChanBins.toTuple, Channel.addData, Channel.checkHist, sysZ, wZ, mZ, chZ,
    World.init, Function.update_apply]

theorem sysZ_built : sysZ.Built := by
  refine ⟨_, setupFirst_of_noEval ?_, runZ⟩
  intro o ho
  simp only [opsZ, List.mem_cons, List.not_mem_nil, or_false] at ho
  rcases ho with rfl | rfl | rfl | rfl | rfl | rfl | rfl <;> exact id

def SZ : ℕ → ChanSpec := fun _ =>
  ⟨1, 2, fun _ => ![1, 1], fun _ i => (![1, 1] : Fin 2 → ℝ) i / (![1, 1] : Fin 2 → ℝ) i, fun _ => 1, fun _ => 1⟩

theorem modelZ : ModelIs sysZ SZ := by
  intro k hk
  have : k = 0 := by simpa [sysZ, mZ, Mct.chanIds] using hk
  subst this
  refine ⟨Nat.one_pos, Nat.two_pos, fun _ => Matrix.PosDef.one, ?_⟩
  exact chanIs_single wZ 0 (by simp [wZ]) "p" 0 1 "t" 0 ![1, 1] ![1, 1] (by intro i; fin_cases i <;> simp)
      (by intro i; fin_cases i <;> simp) (by simp [wZ, chZ]) (by simp [wZ, chZ]) (by simp [wZ, chZ]) (by simp [wZ])

theorem dataZ : DataIs sysZ SZ (fun _ _ => 0) := by
  intro k hk
  have : k = 0 := by simpa [sysZ, mZ, Mct.chanIds] using hk
  subst this
  refine ⟨1, by simp [sysZ, mZ, Mct.chanIds, wZ, chZ], ?_⟩
  show (wZ.hists 1).counts.data = vec (fun _ : Fin 2 => (0 : ℝ))
  simp [wZ, bh, Hist.setBinned, vec, List.ofFn_succ]

/-- without nuisance variations and without data the likelihood is the yield -/
theorem nllZ (x : ℝ) (hx : 0 ≤ x) : objective sysZ.w sysZ.m [.fin x, .fin 0, .fin 0] = .ok (.fin x) := by
  have hexp : ∀ k (i : Fin (SZ k).n), expectedIn sysZ SZ (fun _ => x) (fun _ _ _ => 0) k i = x / 2 := by
    intro k i
    show ∑ j : Fin 1, x * 1 * ((![1, 1] : Fin 2 → ℝ) i * _ / ∑ i' : Fin 2, (![1, 1] : Fin 2 → ℝ) i' * _) = _
    have : (![1, 1] : Fin 2 → ℝ) i = 1 := by revert i; show ∀ i : Fin 2, _; intro i; fin_cases i <;> rfl
    simp [this, Fin.sum_univ_two]
    norm_num
    ring
  obtain ⟨v, h1, -, h3⟩ := C54_closed sysZ sysZ_built (by simp [sysZ, mZ]) SZ modelZ _ dataZ (fun _ _ _ => .inl rfl)
    (fun _ => 0) (fun _ => 1) (by intro p hp; simp [sysZ, mZ] at hp) (fun _ => x) (fun _ _ _ => 0) (by
      intro k hk j
      show ∑ i : Fin 2, (![1, 1] : Fin 2 → ℝ) i * _ ≠ 0
      simp [Fin.sum_univ_two]) (by
      intro k hk i
      rw [hexp]
      rcases hx.lt_or_eq with h | h
      · left; linarith
      · right; rw [← h]; simp)
  have e : paramVec sysZ SZ (fun _ => x) (fun _ _ _ => 0) = [.fin x, .fin 0, .fin 0] := by
    have : nuiVec (fun (_ : Fin (SZ 0).K) (_ : Fin (SZ 0).n) => (0 : ℝ)) = [.fin 0, .fin 0] := by
      show nuiVec (fun (_ : Fin 1) (_ : Fin 2) => (0 : ℝ)) = _
      simp [nuiVec, vec, List.ofFn_succ]
    simp [paramVec, sysZ, mZ, Mct.chanIds, this]
  rw [e] at h1
  unfold objective
  rw [h1, h3]
  have hc : sysZ.m.channels.length = 1 := by simp [sysZ, mZ]
  have hco : sysZ.m.constrained = [] := rfl
  rw [hc, hco]
  simp only [hexp, if_true, Finset.range_one, Finset.sum_singleton, List.map_nil, List.sum_nil]
  have h2 : ∑ _i : Fin (SZ 0).n, x / 2 = x := by
    show ∑ _i : Fin 2, x / 2 = x
    rw [Fin.sum_univ_two]; ring
  rw [h2]
  have h4 : ∀ j : Fin (SZ 0).K, (fun _ : Fin (SZ 0).n => (0:ℝ)) ⬝ᵥ (((SZ 0).R j)⁻¹.mulVec fun _ => 0) = 0 := by
    intro j; simp [dotProduct]
  simp only [h4, Finset.sum_const_zero, mul_zero, add_zero]

theorem namesZ : sysZ.m.paramNames sysZ.w = ["p_yield", "a_p_bin_0", "a_p_bin_1"] := by
  simp [sysZ, mZ, Mct.paramNames, World.channelNames, wZ, chZ, bt, List.range_succ, nuiName]
  exact ⟨rfl, rfl⟩

theorem x0Z : sysZ.m.x0 sysZ.w = .ok [.fin 2, .fin 0, .fin 0] := by
  simp [sysZ, Mct.x0, Mct.nuiParams, Mct.allTmpls, World.chanTmpls, Template.nuiParams, mZ, Mct.processYields, Mct.chanIds,
    World.processYield, wZ, chZ, dictGet, Template.yieldParam, bt, initParams, bh, Hist.setBinned,
    npSum, vec, List.ofFn_succ, Fl.zero_def, List.replicate]
  norm_num

theorem sysZ_hyps : Unshared sysZ ∧ FiniteEffs sysZ := by
  constructor
  · simp [Unshared, sysZ, mZ, Mct.chanIds, wZ, chZ]
  · intro c hc e he
    simp [sysZ, mZ, Mct.chanIds] at hc
    subst hc
    simp [sysZ, wZ, chZ] at he
    subst he
    exact ⟨_, rfl⟩

/-- `r` is a true constrained minimum of the problem `c`, with arrays of the right size -/
def IsMin (c : MinuitCall) (r : MinuitOut) : Prop :=
  MFeasible c r.values ∧ c.fcn r.values = .ok r.fval ∧ r.fval ≠ .nan ∧
    (∀ y v, MFeasible c y → c.fcn y = .ok v → ¬ v.lt r.fval) ∧ r.errors.length = c.names.length ∧
    ∃ C R, r.matrix = .ok (C, R)

/-- an optimiser that finds the true minimum whenever there is one and raises otherwise -/
def optMin : Optim where
  minuit := fun c => if h : ∃ r, IsMin c r then .ok h.choose else .error .runtimeError
  minuitEvals := fun _ => []
  scipy := fun _ => .error .runtimeError
  scipyEvals := fun _ => []
  hessian := fun _ => .error .runtimeError

theorem optMin_true : TrueMin optMin := by
  intro c r h
  simp only [optMin] at h
  by_cases hc : ∃ r, IsMin c r
  · rw [dif_pos hc] at h
    have := hc.choose_spec
    injection h with h
    rw [h] at this
    exact ⟨this.1, this.2.1, this.2.2.1, this.2.2.2.1⟩
  · rw [dif_neg hc] at h; cases h

theorem optMin_ok {c : MinuitCall} {r : MinuitOut} (h : IsMin c r) :
    ∃ r', optMin.minuit c = .ok r' ∧ IsMin c r' := by
  have hc : ∃ r, IsMin c r := ⟨r, h⟩
  exact ⟨hc.choose, by simp only [optMin]; rw [dif_pos hc], hc.choose_spec⟩

end Ex

/-- a fit with Minuit and the true optimiser, given one true minimum with value `v` -/
theorem fit_optMin (s : Sys) (hs : s.Reachable) (h : List FitOp) (hk : KnownIds (s.m.paramNames s.w) h) (x0 : Vec)
    (hx : s.m.x0 s.w = .ok x0) (fixNui : Bool) (v : Fl) (xs : Vec)
    (hmin : ∀ c : MinuitCall, c.fcn = objective s.w s.m → c.x0 = x0 → c.names = s.m.paramNames s.w →
      c.fix = (List.range (s.m.paramNames s.w).length).map
        (fun k => decide (WantedFixed (s.m.paramNames s.w) h s.m.numProcesses fixNui k)) →
      (∀ k < (s.m.paramNames s.w).length, OneId (s.m.paramNames s.w) h k →
        ∃ b, WantedBounds (s.m.paramNames s.w) h s.m.numProcesses none k b ∧ c.limit[k]? = some b) →
      (∃ r, Ex.IsMin c r) ∧ ∀ r, Ex.IsMin c r → r.fval = v ∧ r.values = xs) :
    ∃ r, ((fitRun "iminuit" h).doFit Ex.optMin s.w s.m false true fixNui none).1 = .ok r ∧ r.fval = v ∧
      r.params.names = s.m.paramNames s.w ∧ r.params.values = xs := by
  obtain ⟨c, h1, h2, h3, h4, h5, h6⟩ := C64_iminuit s hs "iminuit" lower_iminuit h hk x0 hx true fixNui none
  obtain ⟨⟨r, hr⟩, hv⟩ := hmin c h1 h2 h3 h4 h5
  obtain ⟨r', g1, g2⟩ := Ex.optMin_ok hr
  obtain ⟨C, R, hm⟩ := g2.2.2.2.2.2
  have := (h6 Ex.optMin).2 r' C R g1 (by rw [← h3]; exact g2.1.1) (by rw [← h3]; exact g2.2.2.2.2.1) hm
  exact ⟨_, this, (hv r' g2).1, rfl, (hv r' g2).2⟩

/-- if everything is fixed the start point is the minimum -/
theorem isMin_fixed {c : MinuitCall} {n : ℕ} (hn : c.names.length = n) (hx : c.x0.length = n)
    (hfix : ∀ k < n, c.fix[k]? = some true) {v : ℝ} (hv : c.fcn c.x0 = .ok (.fin v)) :
    (∃ r, Ex.IsMin c r) ∧ ∀ r, Ex.IsMin c r → r.fval = .fin v ∧ r.values = c.x0 := by
  have huniq : ∀ y, MFeasible c y → y = c.x0 := by
    intro y hy
    apply List.ext_getElem?
    intro k
    by_cases hk : k < n
    · exact (hy.2 k (by omega)).1 (hfix k hk)
    · rw [List.getElem?_eq_none (by rw [hy.1]; omega), List.getElem?_eq_none (by omega)]
  have hf0 : MFeasible c c.x0 := by
    refine ⟨by omega, fun k hk => ⟨fun _ => rfl, fun h => absurd (hfix k (by omega)) h⟩⟩
  constructor
  · refine ⟨⟨⟨true, true, true⟩, ⟨true, true, true⟩, .fin v, c.x0, c.x0, .ok (Mat.zeros n n, Mat.zeros n n)⟩, hf0, hv,
      by simp, ?_, by show List.length c.x0 = _; omega, _, _, rfl⟩
    intro y u hy hu
    rw [huniq y hy, hv] at hu
    rw [← Except.ok.inj hu]
    simp [Fl.lt]
  · intro r hr
    have := hr.2.1
    rw [huniq _ hr.1, hv] at this
    exact ⟨(Except.ok.inj this).symm, huniq _ hr.1⟩

/-- **C71 refuted.** A fitter in which the signal yield was fixed at 2, on data without any events, nuisance
parameters fixed: the nominal fit has likelihood 2, the background fit likelihood 0, and `get_significance`
returns NaN, although the optimiser found the true constrained minimum both times. -/
theorem C71_refuted : ∃ (s : Sys) (o : Optim), s.Built ∧ Unshared s ∧ FiniteEffs s ∧ TrueMin o ∧
    ((fitRun "iminuit" [.fix (.str "p_yield")]).getSignificance o s.w s.m "p" true).1 = .ok .nan := by
  refine ⟨Ex.sysZ, Ex.optMin, Ex.sysZ_built, Ex.sysZ_hyps.1, Ex.sysZ_hyps.2, Ex.optMin_true, ?_⟩
  have hp : "p" ∈ Ex.sysZ.m.processes := by simp [Ex.sysZ, Ex.mZ]
  have hpid : "p" ++ "_yield" = "p_yield" := rfl
  have hd : Denotes (Ex.sysZ.m.paramNames Ex.sysZ.w) (.str "p_yield") 0 := by
    rw [Ex.namesZ, denotes_iff]; simp [idToIndex, List.idxOf_cons]
  have hB2 : (Ex.sysZ.step (.setYield "p" 0)).Built := Sys.Built.step Ex.sysZ_built (by simp [Op.structural])
  have hpo := setYield_paramOnly Ex.sysZ.w Ex.sysZ.m "p" 0
  have hn2 : Ex.sysZ.m.paramNames (Ex.sysZ.step (.setYield "p" 0)).w = Ex.sysZ.m.paramNames Ex.sysZ.w :=
    (names_params hpo Ex.sysZ.m).1
  have hobj : objective (Ex.sysZ.step (.setYield "p" 0)).w Ex.sysZ.m = objective Ex.sysZ.w Ex.sysZ.m :=
    objective_params hpo Ex.sysZ_built.coherent Ex.sysZ.m (reachable_wf Ex.sysZ_built.reachable).lt
  have hlen : (Ex.sysZ.m.paramNames Ex.sysZ.w).length = 3 := by rw [Ex.namesZ]; rfl
  have hnp : Ex.sysZ.m.numProcesses = 1 := by simp [Ex.sysZ, Ex.mZ, Mct.numProcesses]
  have hwf : ∀ h : List FitOp, FitOp.fix (.str "p_yield") ∈ h → ∀ k < 3,
      ((List.range (Ex.sysZ.m.paramNames Ex.sysZ.w).length).map (fun k => decide (WantedFixed
        (Ex.sysZ.m.paramNames Ex.sysZ.w) h Ex.sysZ.m.numProcesses true k)))[k]? = some true := by
    intro h hm k hk
    rw [hlen, List.getElem?_map, List.getElem?_range hk, Option.map_some]
    congr 1
    rw [decide_eq_true_eq, hnp]
    by_cases h0 : k = 0
    · subst h0; exact .inl ⟨_, hm, hd⟩
    · exact .inr ⟨rfl, by omega⟩
  have hkn : ∀ h : List FitOp, (∀ q ∈ h, q = FitOp.fix (.str "p_yield")) → KnownIds (Ex.sysZ.m.paramNames Ex.sysZ.w) h := by
    intro h hq
    constructor
    · intro pid hpid
      have := hq _ hpid
      injection this with this
      subst this
      exact ⟨0, hd⟩
    · intro pid b hb
      have := hq _ hb
      cases this
  obtain ⟨r1, hr1, hv1, hn1, hvals1⟩ := fit_optMin Ex.sysZ Ex.sysZ_built.reachable [.fix (.str "p_yield")] (hkn _ (by simp)) _ Ex.x0Z true
    (.fin 2) [.fin 2, .fin 0, .fin 0] (by
      intro c c1 c2 c3 c4 _
      rw [← c2]
      refine isMin_fixed (n := 3) (by rw [c3]; exact hlen) (by rw [c2]; rfl) ?_ ?_
      · rw [c4]; exact hwf _ (by simp)
      · rw [c1, c2]; exact Ex.nllZ 2 (by norm_num))
  have hx2 : Ex.sysZ.m.x0 (Ex.sysZ.step (.setYield "p" 0)).w = .ok [.fin 0, .fin 0, .fin 0] := by
    obtain ⟨y, hy, hyl, -⟩ := (C51_aligned _ hB2.reachable).2.2.2
      ⟨0, by simp [Ex.sysZ, Ex.mZ, Mct.chanIds, Sys.step], by
        show ((Ex.sysZ.m.setYield Ex.sysZ.w "p" 0).2.chans 0).templates ≠ []
        rw [hpo.chans]; simp [Ex.sysZ, Ex.wZ, Ex.chZ]⟩
    have hy : Ex.sysZ.m.x0 (Ex.sysZ.m.setYield Ex.sysZ.w "p" 0).2 = .ok y := hy
    obtain ⟨g1, g2⟩ := x0_setYield Ex.sysZ_built.reachable Ex.sysZ_hyps.1 Ex.sysZ_hyps.2 hp Ex.x0Z hy
    show Ex.sysZ.m.x0 (Ex.sysZ.m.setYield Ex.sysZ.w "p" 0).2 = _
    rw [hy]
    congr 1
    have hi : Ex.sysZ.m.processes.idxOf "p" = 0 := by simp [Ex.sysZ, Ex.mZ]
    rw [hi] at g1 g2
    apply List.ext_getElem?
    intro k
    by_cases h0 : k = 0
    · subst h0; rw [g1]; rfl
    · rw [g2 k h0]
      match k with
      | 0 => exact absurd rfl h0
      | 1 => rfl
      | 2 => rfl
      | (n + 3) => rfl
  obtain ⟨r2, hr2, hv2, -, -⟩ := fit_optMin (Ex.sysZ.step (.setYield "p" 0)) hB2.reachable
    [.fix (.str "p_yield"), .fix (.str "p_yield")] (by
      show KnownIds (Ex.sysZ.m.paramNames (Ex.sysZ.step (.setYield "p" 0)).w) _
      rw [hn2]; exact hkn _ (by simp)) _ hx2 true
    (.fin 0) [.fin 0, .fin 0, .fin 0] (by
      intro c c1 c2 c3 c4 _
      rw [← c2]
      have c3 : c.names = Ex.sysZ.m.paramNames (Ex.sysZ.step (.setYield "p" 0)).w := c3
      have c4 : c.fix = (List.range (Ex.sysZ.m.paramNames (Ex.sysZ.step (.setYield "p" 0)).w).length).map
        (fun k => decide (WantedFixed (Ex.sysZ.m.paramNames (Ex.sysZ.step (.setYield "p" 0)).w) _ Ex.sysZ.m.numProcesses true k)) := c4
      have c1 : c.fcn = objective (Ex.sysZ.step (.setYield "p" 0)).w Ex.sysZ.m := c1
      rw [hn2] at c3 c4
      refine isMin_fixed (n := 3) (by rw [c3]; exact hlen) (by rw [c2]; rfl) ?_ ?_
      · rw [c4]; exact hwf _ (by simp)
      · rw [c1, c2, hobj]; exact Ex.nllZ 0 le_rfl)
  obtain ⟨y, hy, g1, g2⟩ := (C71_formula Ex.sysZ Ex.sysZ_built (fitRun "iminuit" [.fix (.str "p_yield")]) Ex.optMin "p" hp
    true _ _ rfl rfl).2 r1 hr1
  have hyv : y = .fin 2 := by
    rw [hpid] at hy
    simp only [Params.getValue, hn1, (denotes_iff _ _ _).mp hd, hvals1, List.getElem?_cons_zero, Except.ok.injEq] at hy
    exact hy.symm
  obtain ⟨-, g3⟩ := g2 (by rw [hyv, Fl.zero_def]; simp [Fl.lt])
  rw [g3 r2 hr2, hv1, hv2]
  simp only [Fl.fin_sub, Fl.fin_mul]
  rw [Fl.sqrt_neg (by norm_num)]

/-- non-vacuity of `C71_nonneg_partial`: the yield bounded to [0, 20] on the data without events, nuisance
parameters fixed. The nominal fit finds the minimum 0 at yield 0 and the significance is 0. -/
example : ∃ r1, ((fitRun "iminuit" [.bound (.str "p_yield") (some (.fin 0), some (.fin 20))]).doFit Ex.optMin Ex.sysZ.w Ex.sysZ.m
      false true true none).1 = .ok r1 ∧ r1.fval = .fin 0 ∧
    ∀ v, ((fitRun "iminuit" [.bound (.str "p_yield") (some (.fin 0), some (.fin 20))]).getSignificance Ex.optMin Ex.sysZ.w
      Ex.sysZ.m "p" true).1 = .ok v → v = .pinf ∨ ∃ x : ℝ, 0 ≤ x ∧ v = .fin x := by
  have hp : "p" ∈ Ex.sysZ.m.processes := by simp [Ex.sysZ, Ex.mZ]
  have hi : Ex.sysZ.m.processes.idxOf "p" = 0 := by simp [Ex.sysZ, Ex.mZ]
  have hd : Denotes (Ex.sysZ.m.paramNames Ex.sysZ.w) (.str "p_yield") 0 := by
    rw [Ex.namesZ, denotes_iff]; simp [idToIndex, List.idxOf_cons]
  have hlen : (Ex.sysZ.m.paramNames Ex.sysZ.w).length = 3 := by rw [Ex.namesZ]; rfl
  have hnp : Ex.sysZ.m.numProcesses = 1 := by simp [Ex.sysZ, Ex.mZ, Mct.numProcesses]
  have hk : KnownIds (Ex.sysZ.m.paramNames Ex.sysZ.w) [.bound (.str "p_yield") (some (.fin 0), some (.fin 20))] := by
    constructor
    · intro pid h; simp at h
    · intro pid b h
      simp at h
      exact ⟨0, by rw [h.1]; exact hd⟩
  obtain ⟨r1, hr1, hv1, hn1, hvals1⟩ := fit_optMin Ex.sysZ Ex.sysZ_built.reachable _ hk _ Ex.x0Z true
    (.fin 0) [.fin 0, .fin 0, .fin 0] (by
      intro c c1 c2 c3 c4 c5
      rw [hlen] at c4 c5
      obtain ⟨b, hb, hc⟩ := c5 0 (by omega) (by intro p q b c hp hq _ _; simp at hp hq; rw [hp.1, hq.1])
      have hb : b = (some (.fin 0), some (.fin 20)) := by
        rcases hb with ⟨pre, op, post, he, ⟨pid, rfl, _⟩, _⟩ | ⟨hu, _⟩
        · have : FitOp.bound pid b ∈ [FitOp.bound (.str "p_yield") (some (.fin 0), some (.fin 20))] := by rw [he]; simp
          simp at this; exact this.2
        · exact absurd hd (hu (.str "p_yield") (some (.fin 0), some (.fin 20)) (by simp))
      subst hb
      have f0 : c.fix[0]? ≠ some true := by
        rw [c4]
        simp [hnp, WantedFixed, FitFixed]
      have f12 : ∀ k, k = 1 ∨ k = 2 → c.fix[k]? = some true := by
        rintro k (rfl | rfl) <;> rw [c4] <;> simp [hnp, WantedFixed]
      have hlc : c.names.length = 3 := by rw [c3]; exact hlen
      have hform : ∀ y, MFeasible c y → ∃ x : ℝ, 0 ≤ x ∧ y = [.fin x, .fin 0, .fin 0] := by
        rintro y ⟨y1, y2⟩
        rw [hlc] at y1 y2
        have e1 := (y2 1 (by omega)).1 (f12 1 (.inl rfl))
        have e2 := (y2 2 (by omega)).1 (f12 2 (.inr rfl))
        rw [c2] at e1 e2
        match y, y1 with
        | [a, b', d], _ =>
          simp at e1 e2
          subst e1 e2
          have := (y2 0 (by omega)).2 f0 _ _ hc rfl
          have := this.1 _ rfl
          cases a with
          | fin x =>
            refine ⟨x, ?_, rfl⟩
            rcases this with h | h
            · exact le_of_lt h
            · exact le_of_eq h
          | nan => rcases this with h | h <;> exact absurd h id
          | ninf => rcases this with h | h <;> exact absurd h id
          | pinf =>
            have := ((y2 0 (by omega)).2 f0 _ _ hc rfl).2 _ rfl
            rcases this with h | h <;> exact absurd h id
      have hf0 : MFeasible c [.fin 0, .fin 0, .fin 0] := by
        refine ⟨by rw [hlc]; rfl, fun k hk => ?_⟩
        rw [hlc] at hk
        rw [c2]
        match k, hk with
        | 0, _ =>
          refine ⟨fun h => absurd h f0, fun _ b v hb hv => ?_⟩
          rw [hc] at hb
          injection hb with hb
          subst hb
          injection hv with hv
          subst hv
          refine ⟨fun lo hl => ?_, fun hi hh => ?_⟩
          · injection hl with hl; subst hl; right; exact rfl
          · injection hh with hh; subst hh; left; show (0:ℝ) < 20; norm_num
        | 1, _ => exact ⟨fun _ => rfl, fun h => absurd (f12 1 (.inl rfl)) h⟩
        | 2, _ => exact ⟨fun _ => rfl, fun h => absurd (f12 2 (.inr rfl)) h⟩
      constructor
      · refine ⟨⟨⟨true, true, true⟩, ⟨true, true, true⟩, .fin 0, [.fin 0, .fin 0, .fin 0], [.fin 0, .fin 0, .fin 0],
          .ok (Mat.zeros 3 3, Mat.zeros 3 3)⟩, hf0, by rw [c1]; exact Ex.nllZ 0 le_rfl, by simp, ?_, by rw [hlc]; rfl,
          _, _, rfl⟩
        intro y v hy hv
        obtain ⟨x, hx, rfl⟩ := hform y hy
        rw [c1, Ex.nllZ x hx] at hv
        rw [← Except.ok.inj hv]
        exact not_lt.mpr hx
      · rintro r ⟨g1, g2, -, g4, -⟩
        obtain ⟨x, hx, he⟩ := hform _ g1
        rw [he, c1, Ex.nllZ x hx] at g2
        have g2 := Except.ok.inj g2
        have := g4 _ (.fin 0) hf0 (by rw [c1]; exact Ex.nllZ 0 le_rfl)
        rw [← g2] at this
        have : x ≤ 0 := not_lt.mp this
        have : x = 0 := le_antisymm this hx
        subst this
        exact ⟨g2.symm, he⟩)
  refine ⟨r1, hr1, hv1, fun v hv => ?_⟩
  obtain ⟨y, hy, g1, g2⟩ := C71_nonneg_partial Ex.sysZ Ex.sysZ_built Ex.sysZ_hyps.1 Ex.sysZ_hyps.2 "iminuit" lower_iminuit
    _ hk Ex.optMin Ex.optMin_true "p" hp true (by rintro ⟨pid, h, _⟩; simp at h) (by
      intro pid b h _
      simp at h
      rw [h.2]
      refine ⟨fun lo hl => ?_, fun hi hh => ?_⟩
      · injection hl with hl; subst hl; right; exact rfl
      · injection hh with hh; subst hh; left; show (0:ℝ) < 20; norm_num) r1 hr1 0 hv1 v hv
  by_cases hneg : y.lt 0
  · exact .inr ⟨0, le_rfl, g1 hneg⟩
  · obtain ⟨r2, -, ⟨b, -, -, h⟩ | ⟨-, h⟩⟩ := g2 hneg
    · exact .inr ⟨_, Real.sqrt_nonneg _, h⟩
    · exact .inl h

end

end TF.Props
