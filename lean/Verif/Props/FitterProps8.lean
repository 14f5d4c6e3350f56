import Verif.Props.FitterProps7

set_option linter.unusedSimpArgs false

/-!
# What `get_significance` does to the model (C72)
-/

namespace TF.Props

open Classical Spec

noncomputable section

/-- the state after `get_significance` -/
theorem signif_world (s : Sys) (h : s.Reachable) (f : Fitter) (o : Optim) (p : String) (hp : p ∈ s.m.processes)
    (fixNui : Bool) (fit1 : Except Err MinResult) (w' : World)
    (h1 : fit1 = (f.doFit o s.w s.m false true fixNui none).1)
    (hw' : w' = (f.getSignificance o s.w s.m p fixNui).2) :
    (∀ e, fit1 = .error e → CacheOnly s.w w') ∧
    ∀ r1, fit1 = .ok r1 → ∃ y, r1.params.getValue (.str (p ++ "_yield")) = .ok y ∧
      (y.lt 0 → CacheOnly s.w w') ∧ (¬ y.lt 0 → CacheOnly (s.m.setYield s.w p 0).2 w') := by
  have hd := (denotes_iff _ _ _).mp (yield_denotes h hp)
  unfold Fitter.getSignificance at hw'
  unfold Fitter.doFit at h1
  generalize ParamId.str (p ++ "_yield") = pid at hd hw' ⊢
  cases hid : minKindOf f.minimizerId with
  | error e =>
    rw [hid] at h1 hw'
    simp only at h1 hw'
    subst h1 hw'
    exact ⟨fun e' he => CacheOnly.refl _, fun r1 hr => by cases hr⟩
  | ok kd =>
    rw [hid] at h1 hw'
    simp only at h1 hw'
    rw [signifSetup_first] at hw'
    cases hz : f.setup kd (s.m.paramNames s.w) s.m.numProcesses (s.m.numNui s.w) fixNui none with
    | error e =>
      rw [hz] at h1 hw'
      simp only at h1 hw'
      subst h1 hw'
      exact ⟨fun e' he => CacheOnly.refl _, fun r1 hr => by cases hr⟩
    | ok z =>
      rw [hz] at h1 hw'
      simp only at h1 hw'
      have hfr := runMinimizer_frame o s.w s.m z true
      obtain ⟨k1, k2, hmw⟩ := signifSetup_second hd hz
      generalize hq : runMinimizer o s.w s.m z true = q at h1 hfr hw'
      obtain ⟨q1, w1⟩ := q
      simp only at hfr
      cases q1 with
      | error e =>
        simp only at h1 hw'
        subst h1 hw'
        exact ⟨fun e' he => hfr, fun r1 hr => by cases hr⟩
      | ok v =>
        obtain ⟨r, z1⟩ := v
        simp only [if_false, Bool.false_eq_true] at h1 hw'
        subst h1
        constructor
        · intro e he; cases he
        intro r1 hr1
        injection hr1 with hr1
        subst hr1
        have hok := runMinimizer_ok hq (by rw [hmw.hv, hmw.hn]) (by rw [hmw.he, hmw.hn])
        have hrn : r.params.names = s.m.paramNames s.w := hok.2.1.trans hmw.hn
        obtain ⟨y, hy1, u, hy2⟩ : ∃ y, r.params.getValue pid = .ok y ∧ ∃ u, r.params.getItem pid = .ok (y, u) := by
          have hl1 := hok.1
          have hl2 := runMinimizer_err_len hq (by rw [hmw.hv, hmw.hn]) (by rw [hmw.he, hmw.hn])
          rw [← hok.2.2] at hl2
          rw [hmw.hn] at hl1 hl2
          have hlt : s.m.processes.idxOf p < (s.m.paramNames s.w).length :=
            denotes_lt ((denotes_iff _ _ _).mpr hd)
          refine ⟨r.params.values[s.m.processes.idxOf p]'(by omega), ?_, r.params.errors[s.m.processes.idxOf p]'(by omega), ?_⟩
          · simp only [Params.getValue, hrn, hd]
            rw [List.getElem?_eq_getElem]
          · simp only [Params.getItem, hrn, hd]
            rw [List.getElem?_eq_getElem, List.getElem?_eq_getElem]
        refine ⟨y, hy1, ?_⟩
        rw [hy2] at hw'
        simp only at hw'
        refine ⟨fun hneg => ?_, fun hpos => ?_⟩
        · rw [if_pos hneg] at hw'
          subst hw'
          exact hfr
        rw [if_neg hpos] at hw'
        have hsy := setYield_cache s.m p 0 hfr
        generalize s.m.setYield w1 p 0 = q2 at hsy hw'
        obtain ⟨q3, w2⟩ := q2
        obtain ⟨-, g2⟩ := hsy
        simp only at g2 hw'
        cases q3 with
        | error e => simp only at hw'; subst hw'; exact g2
        | ok u =>
          simp only at hw'
          cases hz2 : f.signifSetup kd (s.m.paramNames w2) s.m.numProcesses (s.m.numNui w2) fixNui [pid] with
          | error e => rw [hz2] at hw'; simp only at hw'; subst hw'; exact g2
          | ok z' =>
            rw [hz2] at hw'
            simp only at hw'
            have g3 := runMinimizer_frame o w2 s.m z' true
            generalize runMinimizer o w2 s.m z' true = b at hw' g3
            obtain ⟨b1, b2⟩ := b
            simp only at g3
            cases b1 with
            | error e => simp only at hw'; subst hw'; exact g2.trans g3
            | ok v => simp only at hw'; subst hw'; exact g2.trans g3

/-- **C72 (partial).** For every reachable model without shared template objects (finite efficiencies), fitter,
optimiser and process: `get_significance` changes neither histograms nor channels nor the number of objects.
If the nominal fit raises or gives a negative yield no template changes at all. Otherwise the templates of all
other processes are unchanged, and those of `p` keep their nuisance parameters but are **left with yield zero**
(times the efficiency); `get_yield(p)` is 0 afterwards and the other yields are unchanged. Missing: "changes no
template parameter", which is false (`C72_refuted`). -/
theorem C72_partial (s : Sys) (h : s.Reachable) (hu : Unshared s) (hf : FiniteEffs s) (f : Fitter) (o : Optim)
    (p : String) (hp : p ∈ s.m.processes) (fixNui : Bool) (fit1 : Except Err MinResult) (w' : World)
    (h1 : fit1 = (f.doFit o s.w s.m false true fixNui none).1)
    (hw' : w' = (f.getSignificance o s.w s.m p fixNui).2) :
    w'.hists = s.w.hists ∧ w'.nHists = s.w.nHists ∧ w'.chans = s.w.chans ∧ w'.nChans = s.w.nChans ∧
      w'.nTmpls = s.w.nTmpls ∧
    (∀ e, fit1 = .error e → w'.tmpls = s.w.tmpls) ∧
    ∀ r1, fit1 = .ok r1 → ∃ y, r1.params.getValue (.str (p ++ "_yield")) = .ok y ∧
      (y.lt 0 → w'.tmpls = s.w.tmpls) ∧
      (¬ y.lt 0 →
        (∀ t, (∀ c ∈ s.m.chanIds, (p, t) ∉ (s.w.chans c).templates) → w'.tmpls t = s.w.tmpls t) ∧
        (∀ c ∈ s.m.chanIds, ∀ t e, (p, t) ∈ (s.w.chans c).templates → (p, e) ∈ (s.w.chans c).effs →
          w'.tmpls t = { s.w.tmpls t with params := (.fin 0 * e) :: (s.w.tmpls t).params.tail }) ∧
        s.m.getYield w' p = .ok (.fin 0) ∧
        ∀ q ∈ s.m.processes, q ≠ p → s.m.getYield w' q = s.m.getYield s.w q) := by
  obtain ⟨g1, g2⟩ := signif_world s h f o p hp fixNui fit1 w' h1 hw'
  have hpo := setYield_paramOnly s.w s.m p 0
  obtain ⟨-, h50, h51, h52, h53, -⟩ := (C50_yield_partial s h hu hf p 0).2 hp
  rw [← Fl.zero_def] at h50 h51 h52 h53
  have hcases : CacheOnly s.w w' ∨ CacheOnly (s.m.setYield s.w p 0).2 w' := by
    cases hc : fit1 with
    | error e => exact .inl (g1 e hc)
    | ok r1 =>
      obtain ⟨y, -, a, b⟩ := g2 r1 hc
      by_cases hy : y.lt 0
      · exact .inl (a hy)
      · exact .inr (b hy)
  have hparts : w'.hists = s.w.hists ∧ w'.nHists = s.w.nHists ∧ w'.chans = s.w.chans ∧ w'.nChans = s.w.nChans ∧
      w'.nTmpls = s.w.nTmpls := by
    rcases hcases with hc | hc
    · exact ⟨hc.hists, hc.nHists, hc.chans, hc.nChans, hc.nTmpls⟩
    · obtain ⟨F, hF⟩ := hpo
      rw [hF] at hc
      exact ⟨hc.hists, hc.nHists, hc.chans, hc.nChans, hc.nTmpls⟩
  refine ⟨hparts.1, hparts.2.1, hparts.2.2.1, hparts.2.2.2.1, hparts.2.2.2.2, fun e he => (g1 e he).tmpls, ?_⟩
  intro r1 hr1
  obtain ⟨y, hy, a, b⟩ := g2 r1 hr1
  refine ⟨y, hy, fun hn => (a hn).tmpls, fun hn => ?_⟩
  have hc := b hn
  have hyv : ∀ q, s.m.getYield w' q = s.m.getYield (s.m.setYield s.w p 0).2 q := by
    intro q
    unfold Mct.getYield Mct.processYields
    simp only [processYield_cache hc]
  refine ⟨fun t ht => by rw [hc.tmpls]; exact h53 t ht, ?_, by rw [hyv, h50]; simp, ?_⟩
  · intro c hcm t e ht he
    rw [hc.tmpls]
    have := h52 c hcm t e ht he
    obtain ⟨F, hF⟩ := hpo
    rw [hF] at this ⊢
    simp only at this ⊢
    rw [this]
    simp [Fl.zero_def]
  · intro q hq hne
    rw [hyv, h51 q hq hne]

/-- **C72 refuted.** In a model whose process has yield 8, an optimiser that finds the yield 10: after
`get_significance` the model's yield is 0. -/
theorem C72_refuted : ∃ (s : Sys) (f : Fitter) (o : Optim), s.Built ∧ Unshared s ∧ FiniteEffs s ∧
    "p" ∈ s.m.processes ∧
    (∃ r1, (f.doFit o s.w s.m false true false none).1 = .ok r1) ∧
    s.m.getYield s.w "p" = .ok (.fin 8) ∧
    s.m.getYield (f.getSignificance o s.w s.m "p" false).2 "p" = .ok (.fin 0) := by
  have hp : "p" ∈ Ex.sysQ.m.processes := by simp [Ex.sysQ, Ex.mQ]
  obtain ⟨r1, hr1, hn, hv⟩ : ∃ r1, ((fitRun "iminuit" []).doFit Ex.optQ Ex.sysQ.w Ex.sysQ.m false true false none).1 = .ok r1 ∧
      r1.params.names = Ex.sysQ.m.paramNames Ex.sysQ.w ∧
      r1.params.values = [.fin 10, .fin 0, .fin 1, .fin 2, .fin 3] := by
    have hk : KnownIds (Ex.sysQ.m.paramNames Ex.sysQ.w) [] :=
      ⟨fun pid hp => by simp at hp, fun pid b hp => by simp at hp⟩
    obtain ⟨call, _, h2, _, _, _, hh⟩ := C64_iminuit Ex.sysQ Ex.sysQ_built.reachable "iminuit" lower_iminuit
      [] hk _ Ex.x0Q true false none
    obtain ⟨-, hh⟩ := hh Ex.optQ
    have := hh _ _ _ rfl (by rw [show Ex.sysQ.m.paramNames Ex.sysQ.w = _ from Ex.namesQ]; rfl)
      (by rw [show Ex.sysQ.m.paramNames Ex.sysQ.w = _ from Ex.namesQ]; rw [h2]; rfl) rfl
    exact ⟨_, this, rfl, rfl⟩
  refine ⟨Ex.sysQ, fitRun "iminuit" [], Ex.optQ, Ex.sysQ_built, Ex.sysQ_hyps.2.1, Ex.sysQ_hyps.2.2.1, hp, ⟨r1, hr1⟩, ?_, ?_⟩
  · unfold Mct.getYield
    rw [if_neg (by simpa using hp)]
    simp [Ex.sysQ, Ex.mQ, Mct.processYields, Mct.chanIds,
      World.processYield, Ex.wQ, Ex.chQa, Ex.chQb, dictGet, Template.yieldParam, Ex.bt, initParams, Ex.bh, Hist.setBinned,
      npSum, vec, List.ofFn_succ, Fl.zero_def, List.replicate]
    norm_num
  · obtain ⟨-, -, -, -, -, -, g⟩ := C72_partial Ex.sysQ Ex.sysQ_built.reachable Ex.sysQ_hyps.2.1 Ex.sysQ_hyps.2.2.1
      (fitRun "iminuit" []) Ex.optQ "p" hp false _ _ rfl rfl
    obtain ⟨y, hy, -, b⟩ := g r1 hr1
    have hyv : y = .fin 10 := by
      have hpid : "p" ++ "_yield" = "p_yield" := rfl
      rw [hpid] at hy
      simp only [Params.getValue, hn, (denotes_iff _ _ _).mp Ex.denQ, hv, List.getElem?_cons_zero, Except.ok.injEq] at hy
      exact hy.symm
    exact (b (by rw [hyv, Fl.zero_def]; simp [Fl.lt])).2.2.1

end

end TF.Props
