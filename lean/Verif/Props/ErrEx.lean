import Verif.Props.ErrProps
import Verif.Props.PullEx

set_option linter.unusedSimpArgs false
set_option linter.unusedVariables false

/-!
# Non-vacuity of C145
-/

namespace TF.Props

open Classical Spec
open scoped Matrix

noncomputable section

namespace Ex

/-- a fit whose start point is the minimum returns, whatever is held fixed -/
theorem fit_at_start {s : Sys} (hs : s.Reachable) (hist : List FitOp) (hk : KnownIds (s.m.paramNames s.w) hist) (hb : ∀ pid b, FitOp.bound pid b ∉ hist)
    {x0 : Vec} (hx0 : s.m.x0 s.w = .ok x0) (hl : x0.length = s.m.numProcesses + s.m.numNui s.w) {v : ℝ} (h1 : objective s.w s.m x0 = .ok (.fin v))
    (h2 : ∀ x u, x.length = s.m.numProcesses + s.m.numNui s.w → objective s.w s.m x = .ok u → ¬ u.lt (.fin v)) (g fixNui : Bool) :
    ∃ r, ((fitRun "iminuit" hist).doFit optErr s.w s.m false g fixNui none).1 = .ok r := by
  have hal := C51_aligned s hs
  obtain ⟨c, c1, c2, c3, c4, c5, c6⟩ := C64_iminuit s hs "iminuit" lower_iminuit hist hk x0 hx0 g fixNui none
  have hf : MFeasible c x0 := by
    refine ⟨by rw [c3, hl, hal.1], fun q hq => ⟨fun _ => by rw [c2], fun _ b u hb' hu => ?_⟩⟩
    rw [c3] at hq
    obtain ⟨b', w1, w2⟩ := c5 q hq (fun p q' b _ hm _ => absurd hm (hb _ _))
    rw [w2] at hb'
    obtain rfl := Option.some.inj hb'
    have hbb : b' = (none, none) := by
      rcases w1 with ⟨pre, op, post, he, ⟨pid, hop, _⟩, _⟩ | ⟨_, w1⟩
      · exact absurd (show FitOp.bound pid b' ∈ hist by rw [he, hop]; simp) (hb _ _)
      · rw [w1]; split <;> rfl
    rw [hbb]
    exact ⟨fun _ h => (by cases h), fun _ h => (by cases h)⟩
  have hex : ∃ r, IsMin c r ∧ ∃ v : ℝ, r.fval = .fin v :=
    ⟨⟨⟨true, true, true⟩, ⟨true, true, true⟩, .fin v, x0, x0, .ok (Mat.zeros 1 1, Mat.zeros 1 1)⟩,
      ⟨hf, by rw [c1]; exact h1, by simp, fun y u hy hu => h2 y u (by rw [hy.1, c3, hal.1]) (c1 ▸ hu), by show x0.length = _; rw [c3, hl, hal.1], _, _, rfl⟩, _, rfl⟩
  have hm := hex.choose_spec.1
  obtain ⟨C, R, hm2⟩ := hm.2.2.2.2.2
  have hv : hex.choose.values.length = (s.m.paramNames s.w).length := by rw [← c3]; exact hm.1.1
  have hq : optFin.minuit c = .ok hex.choose := by simp only [optFin]; rw [dif_pos hex]
  exact ⟨_, (c6 optErr).2 { hex.choose with errors := (exists_errs c hex.choose).choose } C R (by unfold optErr; simp only [hq]; rfl) hv
    (by rw [← hv]; exact (exists_errs c hex.choose).choose_spec.1) hm2⟩

end Ex

/-- `C145_asimov` and `C145_prior` apply to the Asimov fits of a two-channel model with four nuisance parameters, once with everything
free and once with the nuisance parameters held fixed: the yield error does not grow, and the error of the first nuisance parameter is
positive and at most one. -/
example : ∃ r r', ((fitRun "iminuit" []).doFit Ex.optErr Ex.sysQA.w Ex.sysQA.m false true false none).1 = .ok r ∧
    ((fitRun "iminuit" []).doFit Ex.optErr Ex.sysQA.w Ex.sysQA.m false true true none).1 = .ok r' ∧
    (∃ e e', ErrorIs r 0 e ∧ ErrorIs r' 0 e' ∧ 0 < e' ∧ e' ≤ e) ∧ ∃ e, ErrorIs r 1 e ∧ 0 < e ∧ e ≤ 1 := by
  obtain ⟨q1, q2, q3, q4, q5, q6, q7, q8, q9, q10, q11, d, q12, q13, q14⟩ := asimov_exact Ex.sysQ Ex.sysQ_built
    (by simp [Ex.sysQ, Ex.mQ]) Ex.SQ Ex.modelQ (by simp [Ex.sysQ, Ex.mQ, Mct.chanIds, Ex.wQ, Ex.chQa, Ex.chQb, AllTuple])
    Ex.yQ Ex.paramsQ Ex.sumsQ (fun _ => 8)
    (by simp only [Ex.sysQ]; intro p hp; simp [Ex.mQ] at hp; subst hp; exact Ex.yieldQ) Ex.shareQ
    (fun _ => 0) (fun _ => 1) (by intro p hp; simp [Ex.sysQ, Ex.mQ] at hp) (by intro p hp; simp [Ex.sysQ, Ex.mQ] at hp)
    Ex.posQ Ex.identQ Ex.sysQA rfl
  have hne : Ex.sysQA.m.channels ≠ [] := by rw [q2]; simp [Ex.sysQ, Ex.mQ]
  obtain ⟨m1, m2⟩ := C106_minimum Ex.sysQA q1 hne Ex.SQ q7 d q12 q13 _ _ q9 (fun _ => 8) q8 q14 q10 q11
  have hw := reachable_wf q1.reachable
  have hal := C51_aligned Ex.sysQA q1.reachable
  have hx0 : Ex.sysQA.m.x0 Ex.sysQA.w = .ok (paramVec Ex.sysQA Ex.SQ (fun _ => 8) fun _ _ _ => 0) := by rw [q4, q5, q6]
  have hl := paramVec_length hw q7 (fun _ => 8) (fun _ _ _ => 0)
  have hkn : KnownIds (Ex.sysQA.m.paramNames Ex.sysQA.w) [] := ⟨by simp, by simp⟩
  obtain ⟨r, hr⟩ := Ex.fit_at_start q1.reachable [] hkn (by simp) hx0 hl m1 (fun x u h1 h2 => (m2 x u h1 h2).1) true false
  obtain ⟨r', hr'⟩ := Ex.fit_at_start q1.reachable [] hkn (by simp) hx0 hl m1 (fun x u h1 h2 => (m2 x u h1 h2).1) true true
  have hp1 : Ex.sysQA.m.processes = ["p"] := by rw [q2]; rfl
  have hnp : Ex.sysQA.m.numProcesses = 1 := by simp [Mct.numProcesses, hp1]
  have hids : Ex.sysQA.m.chanIds.length = 2 := by rw [q2]; rfl
  have hpl : 2 ≤ (Ex.sysQA.m.paramNames Ex.sysQA.w).length := by
    rw [hal.1, ← hl]
    simp [paramVec, hp1, hids, nuiVec, List.range_succ, Ex.SQ, List.ofFn_succ, vec]
  have hfree : ∀ q, q < (Ex.sysQA.m.paramNames Ex.sysQA.w).length → FreeParam Ex.sysQA [] false q := fun q hq =>
    ⟨hq, by simp [WantedFixed, FitFixed]⟩
  have hfix0 : FreeParam Ex.sysQA [] true 0 := ⟨by omega, by simp [WantedFixed, FitFixed, hnp]⟩
  refine ⟨r, r', hr, hr', ?_, ?_⟩
  · exact (C145_asimov Ex.sysQA q1 hne Ex.SQ q7 d q12 q13 _ _ q9 (fun _ => 8) hx0 q8 q14 q10 q11 Ex.optErr Ex.optErr Ex.optErr_fin.1 Ex.optErr_fin.1
      Ex.optErr_exact Ex.optErr_exact "iminuit" lower_iminuit [] [] hkn hkn false true false false true true none none (by simp) (by simp)
      (fun q hq => hfree q hq.1) r r' hr hr').2 0 hfix0
  · have := C145_prior Ex.sysQA q1 hne Ex.SQ q7 d q12 q13 _ _ q9 (fun _ => 8) hx0 q8 q14 q10 q11 Ex.optErr Ex.optErr_fin.1
      Ex.optErr_exact "iminuit" lower_iminuit [] hkn false true false none (by simp) (by simp) r hr 1 0 (by omega) (0 : Fin 1) (0 : Fin 2) (hfree 1 (by omega)) (by
        intro ν θ
        simp [paramVec, hp1, hids, nuiVec, List.range_succ, Ex.SQ, List.ofFn_succ, vec])
    obtain ⟨e, e1, e2, e3⟩ := this
    refine ⟨e, e1, e2, e3.trans (le_of_eq ?_)⟩
    rw [show (Ex.SQ 0).R (0 : Fin 1) (0 : Fin 2) (0 : Fin 2) = 1 from Matrix.one_apply_eq 0, Real.sqrt_one]

/-- `C145_constraint_asimov` applies to the Asimov fits of the two-channel model without and with the constraint `8 ± 1` on its yield: both fits return, no error
grows, and the error of the yield is at most one in the second. -/
example : ∃ s' r r', s' = Ex.sysQA.step (.constrain "p" (.fin 8) (.fin 1)) ∧ s'.m.constrained = ["p"] ∧
    ((fitRun "iminuit" []).doFit Ex.optErr Ex.sysQA.w Ex.sysQA.m false true false none).1 = .ok r ∧
    ((fitRun "iminuit" []).doFit Ex.optErr s'.w s'.m false true false none).1 = .ok r' ∧
    (∀ q < (Ex.sysQA.m.paramNames Ex.sysQA.w).length, ∃ e₁ e₂, ErrorIs r q e₁ ∧ ErrorIs r' q e₂ ∧ 0 < e₂ ∧ e₂ ≤ e₁) ∧ ∃ e₂, ErrorIs r' 0 e₂ ∧ 0 < e₂ ∧ e₂ ≤ 1 := by
  obtain ⟨q1, q2, q3, q4, q5, q6, q7, q8, q9, q10, q11, d, q12, q13, q14⟩ := asimov_exact Ex.sysQ Ex.sysQ_built
    (by simp [Ex.sysQ, Ex.mQ]) Ex.SQ Ex.modelQ (by simp [Ex.sysQ, Ex.mQ, Mct.chanIds, Ex.wQ, Ex.chQa, Ex.chQb, AllTuple])
    Ex.yQ Ex.paramsQ Ex.sumsQ (fun _ => 8)
    (by simp only [Ex.sysQ]; intro p hp; simp [Ex.mQ] at hp; subst hp; exact Ex.yieldQ) Ex.shareQ
    (fun _ => 0) (fun _ => 1) (by intro p hp; simp [Ex.sysQ, Ex.mQ] at hp) (by intro p hp; simp [Ex.sysQ, Ex.mQ] at hp)
    Ex.posQ Ex.identQ Ex.sysQA rfl
  have hne : Ex.sysQA.m.channels ≠ [] := by rw [q2]; simp [Ex.sysQ, Ex.mQ]
  obtain ⟨m1, m2⟩ := C106_minimum Ex.sysQA q1 hne Ex.SQ q7 d q12 q13 _ _ q9 (fun _ => 8) q8 q14 q10 q11
  have hw := reachable_wf q1.reachable
  have hal := C51_aligned Ex.sysQA q1.reachable
  have hx0 : Ex.sysQA.m.x0 Ex.sysQA.w = .ok (paramVec Ex.sysQA Ex.SQ (fun _ => 8) fun _ _ _ => 0) := by rw [q4, q5, q6]
  have hl := paramVec_length hw q7 (fun _ => 8) (fun _ _ _ => 0)
  have hkn : KnownIds (Ex.sysQA.m.paramNames Ex.sysQA.w) [] := ⟨by simp, by simp⟩
  obtain ⟨r, hr⟩ := Ex.fit_at_start q1.reachable [] hkn (by simp) hx0 hl m1 (fun x u h1 h2 => (m2 x u h1 h2).1) true false
  have hp1 : Ex.sysQA.m.processes = ["p"] := by rw [q2]; rfl
  have hnp : Ex.sysQA.m.numProcesses = 1 := by simp [Mct.numProcesses, hp1]
  have hids : Ex.sysQA.m.chanIds.length = 2 := by rw [q2]; rfl
  have hpl : 2 ≤ (Ex.sysQA.m.paramNames Ex.sysQA.w).length := by
    rw [hal.1, ← hl]
    simp [paramVec, hp1, hids, nuiVec, List.range_succ, Ex.SQ, List.ofFn_succ, vec]
  have hfree : ∀ q, q < (Ex.sysQA.m.paramNames Ex.sysQA.w).length → FreeParam Ex.sysQA [] false q := fun q hq =>
    ⟨hq, by simp [WantedFixed, FitFixed]⟩
  have hp0 : "p" ∈ Ex.sysQA.m.processes := by rw [hp1]; simp
  have hpc : "p" ∉ Ex.sysQA.m.constrained := by rw [q2]; simp [Ex.sysQ, Ex.mQ]
  have hs2 : Ex.sysQA.step (.constrain "p" (.fin 8) (.fin 1)) = ⟨Ex.sysQA.w, { Ex.sysQA.m with constrained := Ex.sysQA.m.constrained ++ ["p"], cvals := dictSet Ex.sysQA.m.cvals "p" (.fin 8), cerrs := dictSet Ex.sysQA.m.cerrs "p" (.fin 1) }⟩ := by
    simp [Sys.step, Mct.addConstraint, hp0]
  obtain ⟨s', hs'⟩ : ∃ s', s' = Ex.sysQA.step (.constrain "p" (.fin 8) (.fin 1)) := ⟨_, rfl⟩
  have hB : s'.Built := by rw [hs']; exact Sys.Built.step q1 (by simp [Op.structural])
  obtain ⟨c1, c2⟩ := constrain_constraints q9 hp0 hpc 8 one_ne_zero hs'
  have hc0 : Ex.sysQA.m.constrained = [] := by rw [q2]; simp [Ex.sysQ, Ex.mQ]
  rw [hc0, List.nil_append] at c2
  obtain ⟨r', hr'⟩ : ∃ r', ((fitRun "iminuit" []).doFit Ex.optErr s'.w s'.m false true false none).1 = .ok r' := by
    rw [hs2] at hs'
    subst hs'
    obtain ⟨n1, n2⟩ := C106_minimum _ hB hne Ex.SQ q7 d q12 q13 _ _ c1 (fun _ => 8) q8 q14
      (by rw [c2]; intro p' hp'; rw [List.mem_singleton.mp hp', Function.update_self])
      (fun δ h1 h2 => q11 δ h1 fun p' hp' => by rw [hc0] at hp'; cases hp')
    exact Ex.fit_at_start hB.reachable [] hkn (by simp) hx0 hl n1 (fun x u h1 h2 => (n2 x u h1 h2).1) true false
  have hmain := (C145_constraint_asimov Ex.sysQA q1 hne Ex.SQ q7 d q12 q13 _ _ q9 (fun _ => 8) hx0 q8 q14 q10 q11 "p" hp0 hpc 1 one_ne_zero s' hs'
    Ex.optErr Ex.optErr Ex.optErr_fin.1 Ex.optErr_fin.1 Ex.optErr_exact Ex.optErr_exact "iminuit" lower_iminuit [] hkn false true false false true none none (by simp) (by simp)
    r r' hr hr').2
  refine ⟨s', r, r', hs', c2, hr, hr', fun q hq => ?_, ?_⟩
  · obtain ⟨e1, e2, h1, h2, h3, h4, -⟩ := hmain q (hfree q hq)
    exact ⟨e1, e2, h1, h2, h3, h4⟩
  · obtain ⟨e1, e2, h1, h2, h3, h4, h5⟩ := hmain 0 (hfree 0 (by omega))
    exact ⟨e2, h2, h3, by simpa using h5 (by rw [hp1]; simp)⟩

end

end TF.Props
