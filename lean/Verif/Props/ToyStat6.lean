import Verif.Props.ToyStat5

set_option linter.unusedSimpArgs false

namespace TF.Props

open Classical Spec MeasureTheory ProbabilityTheory
open scoped Matrix NNReal

noncomputable section

/-- an optimiser that returns a true minimum of finite value whenever there is one, and raises otherwise -/
def Ex.optFin : Optim where
  minuit := fun c => if h : ∃ r, Ex.IsMin c r ∧ ∃ v : ℝ, r.fval = .fin v then .ok h.choose else .error .runtimeError
  minuitEvals := fun _ => []
  scipy := fun _ => .error .runtimeError
  scipyEvals := fun _ => []
  hessian := fun _ => .error .runtimeError

theorem Ex.optFin_ok : FiniteMin Ex.optFin := by
  constructor
  · intro c r h
    simp only [optFin] at h
    by_cases hc : ∃ r, IsMin c r ∧ ∃ v : ℝ, r.fval = .fin v
    · rw [dif_pos hc] at h
      have := hc.choose_spec.1
      rw [Except.ok.inj h] at this
      exact ⟨this.1, this.2.1, this.2.2.1, this.2.2.2.1⟩
    · rw [dif_neg hc] at h; cases h
  · intro c r h
    simp only [optFin] at h
    by_cases hc : ∃ r, IsMin c r ∧ ∃ v : ℝ, r.fval = .fin v
    · rw [dif_pos hc] at h
      have := hc.choose_spec.2
      rw [Except.ok.inj h] at this
      exact this
    · rw [dif_neg hc] at h; cases h

/-- the fit of a model with one process and data in every bin returns: nothing bounded, nuisance parameters fixed -/
theorem one_fit_free (s : Sys) (h : s.Built) (hne : s.m.channels ≠ []) (S : ℕ → ChanSpec) (hS : ModelIs s S)
    (d : ∀ k, Fin (S k).n → ℝ) (hd : DataIs s S d) (hpos' : ∀ k < s.m.chanIds.length, ∀ i, (1e-100 : ℝ) ≤ d k i)
    (hnc : s.m.constrained = []) (p : String) (hone : s.m.processes = [p]) (hused : AllUsed s S)
    (θ : ∀ k, Fin (S k).K → Fin (S k).n → ℝ) (hT : NonZeroSums s S θ)
    (hg : ∀ k < s.m.chanIds.length, ∀ i, 0 < expectedIn s S (fun _ => 1) θ k i)
    (ν₀ : String → ℝ) (hx0 : s.m.x0 s.w = .ok (paramVec s S ν₀ θ)) (g : Bool) :
    ∃ r, ((Fitter.new "iminuit").doFit Ex.optFin s.w s.m false g true none).1 = .ok r := by
  have hw := reachable_wf h.reachable
  have hal := C51_aligned s h.reachable
  have hpos : ∀ k < s.m.chanIds.length, ∀ i, d k i = 0 ∨ (1e-100 : ℝ) ≤ d k i := fun k hk i => .inr (hpos' k hk i)
  have hN0 : 0 < s.m.chanIds.length := by
    rw [List.length_pos_iff]; simpa [Mct.chanIds] using hne
  have hnp : s.m.numProcesses = 1 := by simp [Mct.numProcesses, hone]
  have hc : ConstraintsAre s (fun _ => 0) (fun _ => 1) := by
    intro p hp; rw [hnc] at hp; cases hp
  have hd0 : ∀ k < s.m.chanIds.length, ∀ i, 0 < d k i := fun k hk i => lt_of_lt_of_le (by norm_num) (hpos' k hk i)
  have hA0 : 0 < ∑ k ∈ Finset.range s.m.chanIds.length, ∑ i, expectedIn s S (fun _ => 1) θ k i := by
    refine Finset.sum_pos (fun k hk => ?_) ⟨0, Finset.mem_range.mpr hN0⟩
    have hk := Finset.mem_range.mp hk
    exact Finset.sum_pos (fun i _ => hg k hk i) ⟨⟨0, (hS k hk).2.1⟩, Finset.mem_univ _⟩
  obtain ⟨hcov, hmin⟩ := one_min hw hS (fun k hk i => (hd0 k hk i).le) hnc hone hg rfl hA0 rfl
  set X : ℝ := (∑ k ∈ Finset.range s.m.chanIds.length, ∑ i, d k i) / ∑ k ∈ Finset.range s.m.chanIds.length, ∑ i, expectedIn s S (fun _ => 1) θ k i with hX
  have hpv : ∀ ν : String → ℝ, paramVec s S ν θ = .fin (ν p) :: (paramVec s S ν₀ θ).drop 1 := by
    intro ν; unfold paramVec; rw [hone]; rfl
  have hlen : ∀ ν, (paramVec s S ν θ).length = (s.m.paramNames s.w).length := by
    intro ν; rw [paramVec_length hw hS ν θ, hal.1]
  obtain ⟨c, c1, c2, c3, c4, c5, c6⟩ := C64_iminuit s h.reachable "iminuit" lower_iminuit [] ⟨by simp, by simp⟩ _ hx0 g true none
  have f1 : ∀ q, 1 ≤ q → q < (s.m.paramNames s.w).length → c.fix[q]? = some true := by
    intro q h1 h2
    rw [c4]
    simp [hnp, WantedFixed, h1, h2]
  have hfX : MFeasible c (paramVec s S (fun _ => X) θ) := by
    refine ⟨by rw [hlen, c3], fun q hq => ?_⟩
    rw [c3] at hq
    rw [c2, hpv fun _ => X, hpv ν₀]
    constructor
    · intro hf
      cases q with
      | zero =>
        rw [c4] at hf
        simp [hnp, WantedFixed, FitFixed, hq] at hf
      | succ q => rfl
    · intro _ b v hb hv
      obtain ⟨b', w1, w2⟩ := c5 q hq (by intro p q b c hb; simp at hb)
      rw [w2] at hb
      cases hb
      have hbb : b = (none, none) := by
        rcases w1 with ⟨_, _, _, he, _⟩ | ⟨_, w1⟩
        · simp at he
        · rw [w1]; split <;> rfl
      rw [hbb]
      exact ⟨fun _ h => (by cases h), fun _ h => (by cases h)⟩
  have hvX := objective_nllAt' h hne hS hd hpos hc hT hcov
  have hmin' : ∀ y v, MFeasible c y → c.fcn y = .ok v → ¬ v.lt (.fin (nllAt s S d (fun _ => 0) (fun _ => 1) θ (fun _ => X))) := by
    intro y v hy hv
    rw [c1] at hv
    have hyl : y.length = s.m.numProcesses + s.m.numNui s.w := by rw [hy.1, c3, hal.1]
    cases v with
    | nan => exact id
    | pinf => exact id
    | ninf => exact absurd hv (objective_not_ninf h hne hS hd hpos' hc y hyl)
    | fin a =>
      refine not_lt.mpr ?_
      obtain ⟨ν, θ', g1, g2, g3⟩ := (C104_domain s h hne S hS d hd hpos _ _ hc hused y hyl).mp ⟨a, hv⟩
      have hth : ∀ k < s.m.chanIds.length, θ' k = θ k := by
        intro k hk
        funext j i
        have h1 := paramVec_nui hw hS ν θ' k hk j i
        have h2 := paramVec_nui hw hS ν₀ θ k hk j i
        have hlt : nuiOffset s k j + i < (s.m.paramNames s.w).length := by
          rw [hal.1, ← paramVec_length hw hS ν θ']
          exact (List.getElem?_eq_some_iff.mp h1).1
        have h3 := (hy.2 _ (by rw [c3]; exact hlt)).1 (f1 _ (by unfold nuiOffset; rw [hone]; simp; omega) hlt)
        rw [g1, c2, h1, h2] at h3
        exact Fl.fin.inj (Option.some.inj h3)
      have hy' : y = paramVec s S (fun _ => ν p) θ := by
        rw [g1]
        unfold paramVec
        rw [hone]
        have : (List.range s.m.chanIds.length).map (fun k => nuiVec (θ' k)) = (List.range s.m.chanIds.length).map (fun k => nuiVec (θ k)) := by
          apply List.map_congr_left
          intro k hk
          rw [hth k (List.mem_range.mp hk)]
        rw [this]
        rfl
      have hE : ∀ k < s.m.chanIds.length, ∀ i, expectedIn s S ν θ' k i = expectedIn s S (fun _ => ν p) θ k i := by
        intro k hk i
        rw [expectedIn_eq, expectedIn_eq]
        refine Finset.sum_congr rfl fun j _ => ?_
        have := procName_mem hw hS k hk j
        rw [hone] at this
        rw [List.mem_singleton.mp this]
        unfold fracIn
        rw [hth k hk]
      have hcx : DataCovered s S d θ (fun _ => ν p) := by
        intro k hk i hdi
        rw [← hE k hk i]; exact g3 k hk i hdi
      have hx : 0 ≤ ν p := by
        have h1 := hcx 0 hN0 ⟨0, (hS 0 hN0).2.1⟩ (hd0 0 hN0 _).ne'
        rw [expectedIn_const] at h1
        exact (pos_of_mul_pos_left h1 (hg 0 hN0 _).le).le
      have := objective_nllAt' h hne hS hd hpos hc hT hcx
      rw [← hy', hv] at this
      rw [Fl.fin.inj (Except.ok.inj this)]
      exact hmin _ hx hcx
  have hex : ∃ r, Ex.IsMin c r ∧ ∃ v : ℝ, r.fval = .fin v :=
    ⟨⟨⟨true, true, true⟩, ⟨true, true, true⟩, .fin (nllAt s S d (fun _ => 0) (fun _ => 1) θ (fun _ => X)),
      paramVec s S (fun _ => X) θ, paramVec s S (fun _ => X) θ, .ok (Mat.zeros 1 1, Mat.zeros 1 1)⟩,
      ⟨hfX, by rw [c1]; exact hvX, by simp, hmin', by show List.length (paramVec s S (fun _ => X) θ) = _; rw [hlen, c3], _, _, rfl⟩, _, rfl⟩
  obtain ⟨C, R, hm⟩ := hex.choose_spec.1.2.2.2.2.2
  exact ⟨_, (c6 Ex.optFin).2 hex.choose C R (by simp only [Ex.optFin]; rw [dif_pos hex]) (by rw [← c3]; exact hex.choose_spec.1.1.1)
    (by rw [← c3]; exact hex.choose_spec.1.2.2.2.2.1) hm⟩

namespace Ex

theorem chanZ (k : ℕ) (hk : k < sysZ.m.chanIds.length) : k = 0 := by simpa [sysZ, mZ, Mct.chanIds] using hk

theorem paramsZ : ParamsAre sysZ SZ (fun _ _ => 2) (fun _ _ _ => 0) := by
  intro k hk j t ht
  obtain rfl := chanZ k hk
  have hj : (j : ℕ) = 0 := by have : (j : ℕ) < 1 := j.2; omega
  rw [hj] at ht
  have e : t = bt "t" 0 ![1, 1] ![1, 1] := by
    have := Option.some.inj ht
    rw [← this]; simp [sysZ, mZ, Mct.chanIds, wZ, chZ, World.chanTmpls]
  rw [e]
  have := bt_params "t" 0 ![1, 1] ![1, 1]
  norm_num at this
  exact this

/-- a toy study of the one-channel example: attempt `k` draws `k + 1` events in each bin -/
def envE : ToyEnv where
  draw := fun k _ _ _ => k + 1
  optim := fun _ => optFin

theorem expZ1 (x : ℝ) : ∀ k (i : Fin (SZ k).n), expectedIn sysZ SZ (fun _ => x) (fun _ _ _ => 0) k i = x / 2 := by
  intro k i
  show ∑ j : Fin 1, x * 1 * ((![1, 1] : Fin 2 → ℝ) i * _ / ∑ i' : Fin 2, (![1, 1] : Fin 2 → ℝ) i' * _) = _
  have : (![1, 1] : Fin 2 → ℝ) i = 1 := by revert i; show ∀ i : Fin 2, _; intro i; fin_cases i <;> rfl
  simp [this, Fin.sum_univ_two]
  norm_num
  ring

theorem sumsZ : NonZeroSums sysZ SZ (fun _ _ _ => 0) := by
  intro k hk j
  show ∑ i : Fin 2, (![1, 1] : Fin 2 → ℝ) i * (1 + 0 * ((![1, 1] : Fin 2 → ℝ) i / (![1, 1] : Fin 2 → ℝ) i)) ≠ 0
  simp [Fin.sum_univ_two]

theorem presentZ : ∀ k (i : Fin (SZ k).n), presentIn SZ (fun _ _ => 2) (fun _ _ _ => 0) k i = 1 := by
  intro k i
  show ∑ j : Fin 1, (2:ℝ) * ((![1, 1] : Fin 2 → ℝ) i * _ / ∑ i' : Fin 2, (![1, 1] : Fin 2 → ℝ) i' * _) = _
  have : (![1, 1] : Fin 2 → ℝ) i = 1 := by revert i; show ∀ i : Fin 2, _; intro i; fin_cases i <;> rfl
  simp [this, Fin.sum_univ_two]
  norm_num

theorem usedZ : AllUsed sysZ SZ := by
  intro p hp
  have : p = "p" := by simpa [sysZ, mZ] using hp
  subst this
  exact .inl ⟨0, by simp [sysZ, mZ, Mct.chanIds], (0 : Fin 1), by simp [procName, sysZ, mZ, Mct.chanIds, wZ, chZ]⟩

theorem toyFitE (k : ℕ) : ∃ v, toyFit envE sysZ.m "iminuit" true sysZ.w k = .ok v := by
  obtain ⟨h, h1, h2, h3, -⟩ := toyZ (envE.draw k)
  have hok : (sysZ.m.addDatasets sysZ.w [("a", h)]).1 = .ok () := by
    simp [Mct.addDatasets, sysZ, mZ, dictGet, World.addData, World.newHist, wZ, chZ, Channel.addData, Channel.checkHist, h2, h3]
  have hx0 : sysZ.m.x0 sysZ.w = .ok (paramVec sysZ SZ (fun _ => 2) fun _ _ _ => 0) := by
    rw [x0Z]
    simp [paramVec, sysZ, mZ, Mct.chanIds, nuiVec, SZ, List.range_succ, List.ofFn_succ, vec]
  obtain ⟨q1, q2, q3, q4, q5, q6, q7⟩ := toy_model sysZ sysZ_built SZ modelZ
    (by simp [sysZ, mZ, Mct.chanIds, wZ, chZ, AllTuple]) _ _ paramsZ sumsZ (fun k _ i => by rw [presentZ]; norm_num) (envE.draw k)
  obtain ⟨n1, n2, n3⟩ := names_same (toy_same sysZ (envE.draw k)) sysZ.m
  have hs : sysZ.step (.addToy (envE.draw k)) = ⟨(sysZ.m.addDatasets sysZ.w [("a", h)]).2, sysZ.m⟩ := by
    simp only [Sys.step, h1]
  rw [hs] at q1 q2 q3 q4 q5 q6 q7 n1 n2 n3
  obtain ⟨r, hr⟩ := one_fit_free _ q1 (by simp [sysZ, mZ]) SZ q3 _ q4 (by
      intro k' _ i
      unfold toyData envE
      simp only
      have : (1:ℝ) ≤ ((k + 1 : ℕ) : ℝ) := by push_cast; linarith [Nat.cast_nonneg (α := ℝ) k]
      refine le_trans ?_ this
      norm_num) (by simp [sysZ, mZ]) "p" (by simp [sysZ, mZ])
    (by unfold AllUsed; simp only [q6]; exact usedZ) (fun _ _ _ => 0) sumsZ (by simp only [q7, expZ1]; intros; norm_num) (fun _ => 2)
    (by rw [q5]; simp only; rw [n3]; exact hx0) true
  refine ⟨(r.params.values, r.params.errors), ?_⟩
  unfold toyFit
  rw [h1]
  simp only [hok]
  have hr : (Fitter.doFit (envE.optim k) (Fitter.new "iminuit") (sysZ.m.addDatasets sysZ.w [("a", h)]).2 sysZ.m false true true none).1 = .ok r := hr
  rw [hr]

theorem expE (n : ℕ) : ((Toy.new sysZ.w "iminuit" 0).doExperiments envE sysZ.m n 1).1 = .ok () := by
  obtain ⟨ks, K', h1, h2, h3 | ⟨h3, e, h4, h5⟩⟩ := C74_retries sysZ sysZ_built envE (Toy.new sysZ.w "iminuit" 0) rfl n 1
  · exact h3.1
  · exfalso
    have hid : (Toy.new sysZ.w "iminuit" 0).minimizerId = "iminuit" := rfl
    rw [hid] at h5
    rcases h5 with ⟨k, -, -, -, h6, h7, -⟩ | ⟨h6, -⟩
    · obtain ⟨v, hv⟩ := toyFitE k
      rw [hv] at h6; cases h6
    · obtain ⟨e, h7, -⟩ := h6 K' (by omega) (by omega)
      obtain ⟨v, hv⟩ := toyFitE K'
      rw [hv] at h7; cases h7

end Ex

/-- non-vacuity of `C137_study`: a toy study of three experiments on the one-channel example, attempt `k` drawing `k + 1` events in each of the two bins. It returns, and every row expects `2k + 2` events. -/
example : ∃ (ps : List Vec) (ks : List ℕ),
    ((Toy.new Ex.sysZ.w "iminuit" 0).doExperiments Ex.envE Ex.sysZ.m 3 1).1 = .ok () ∧
    ((Toy.new Ex.sysZ.w "iminuit" 0).doExperiments Ex.envE Ex.sysZ.m 3 1).2.resultParameters = .ok ps ∧ ps.length = 3 ∧ ks.length = 3 ∧
      ∀ (i k : ℕ) (row : Vec), ks[i]? = some k → ps[i]? = some row → row = [.fin (2 * k + 2), .fin 0, .fin 0] := by
  obtain ⟨ps, ks, K', a1, a2, a3, a4, a5⟩ := C137_study Ex.sysZ Ex.sysZ_built (by simp [Ex.sysZ, Ex.mZ]) Ex.SZ Ex.modelZ
    (by simp [Ex.sysZ, Ex.mZ, Mct.chanIds, Ex.wZ, Ex.chZ, AllTuple]) _ _ Ex.paramsZ Ex.sumsZ (fun k _ i => by rw [Ex.presentZ]; norm_num)
    (by simp [Ex.sysZ, Ex.mZ]) Ex.usedZ (fun _ => 2) (by
      intro p hp
      have : p = "p" := by simpa [Ex.sysZ, Ex.mZ] using hp
      subst this
      obtain ⟨x, h1, h2, h3, -⟩ := (C51_aligned Ex.sysZ Ex.sysZ_built.reachable).2.2.2 ⟨0, by simp [Ex.sysZ, Ex.mZ, Mct.chanIds], by simp [Ex.sysZ, Ex.wZ, Ex.chZ]⟩
      have h1' := h1
      have hz : Ex.sysZ.m.x0 Ex.sysZ.w = .ok [.fin 2, .fin 0, .fin 0] := Ex.x0Z
      rw [hz] at h1'
      obtain rfl := Except.ok.inj h1'
      obtain ⟨y, e1, e2⟩ := h3 0 (by simp [Ex.sysZ, Ex.mZ])
      rw [← Option.some.inj e1] at e2
      exact e2)
    Ex.envE (fun _ => Ex.optFin_ok) (Toy.new Ex.sysZ.w "iminuit" 0) rfl lower_iminuit 3 1 _ (Prod.ext (Ex.expE 3) rfl)
  refine ⟨ps, ks, Ex.expE 3, a1, a2, a4, fun i k row hi hrow => ?_⟩
  obtain ⟨ν, rfl, e⟩ := a5 i k row hi hrow
  have e1 : ν "p" = 2 * k + 2 := by
    rw [eventsExpected_eq _ _ _ _ Ex.sumsZ] at e
    have hl : Ex.sysZ.m.chanIds.length = 1 := by simp [Ex.sysZ, Ex.mZ, Mct.chanIds]
    have hn : ∀ j : Fin 1, procName Ex.sysZ 0 j = "p" := by intro j; simp [procName, Ex.sysZ, Ex.mZ, Mct.chanIds, Ex.wZ, Ex.chZ]
    unfold eventsDrawn at e
    rw [hl, Finset.sum_range_one, Finset.sum_range_one] at e
    have e : ∑ j : Fin 1, ν (procName Ex.sysZ 0 j) * 1 = ((∑ i : Fin 2, (k + 1) : ℕ) : ℝ) := e
    rw [Fin.sum_univ_one, hn] at e
    simp at e
    rw [e]; ring
  simp [paramVec, Ex.sysZ, Ex.mZ, Mct.chanIds, nuiVec, Ex.SZ, List.range_succ, List.ofFn_succ, vec, e1]

end

end TF.Props
