import Verif.Props.LumiProg
import Verif.Props.ErrEx

set_option linter.unusedSimpArgs false
set_option linter.unusedVariables false

/-!
# Non-vacuity of C146
-/

namespace TF.Props

open Classical Spec
open scoped Matrix

noncomputable section

namespace Ex

theorem sumsQ0 : NonZeroSums sysQ SQ fun _ _ _ => 0 := fun k hk j => by simpa using sumsQ k hk j

theorem expQ (c : ℝ) (hc : 8 ≤ c) : ∀ k < sysQ.m.chanIds.length, ∀ i, (1e-100 : ℝ) ≤ expectedIn sysQ SQ (fun _ => c) (fun _ _ _ => 0) k i := by
  intro k hk i
  have h1 := posQ k hk i
  have h2 : expectedIn sysQ SQ (fun _ => c) (fun _ _ _ => 0) k i = c / 8 * ∑ j, yQ k j * ((SQ k).cnt j i / ∑ i', (SQ k).cnt j i') := by
    rw [expectedIn_eq, Finset.mul_sum]
    refine Finset.sum_congr rfl fun j _ => ?_
    rw [shareQ k hk j]
    unfold fracIn
    simp
    ring
  rw [h2]
  nlinarith

theorem tupQ : ∀ c ∈ sysQ.m.chanIds, AllTuple (sysQ.w.chans c).range := by
  simp [sysQ, mQ, Mct.chanIds, wQ, chQa, chQb, AllTuple]

/-- the Asimov fit at the yield `c` of the two-channel model -/
theorem fitQ (c : ℝ) (hc : 8 ≤ c) (s' : Sys) (hs' : s' = (sysQ.step (.update (paramVec sysQ SQ (fun _ => c) fun _ _ _ => 0))).step (.addAsimov false)) (g fixNui : Bool) :
    ∃ r, ((fitRun "iminuit" []).doFit optErr s'.w s'.m false g fixNui none).1 = .ok r := by
  have hne : sysQ.m.channels ≠ [] := by simp [sysQ, mQ]
  have hfree : sysQ.m.constrained = [] := by simp [sysQ, mQ]
  obtain ⟨a1, a2, a3, a4, a5, a6, a7⟩ := asimov_at sysQ sysQ_built hne SQ modelQ sysQ_hyps.2.1 tupQ sysQ_hyps.2.2.2 hfree sumsQ0 identQ (fun _ => c) (expQ c hc) s' hs'
  have hc0 : ConstraintsAre s' (fun _ => 0) (fun _ => 1) := by intro p hp; rw [a2, hfree] at hp; cases hp
  have hE : ∀ δ k i, expectedIn s' SQ δ (fun _ _ _ => 0) k i = expectedIn sysQ SQ δ (fun _ _ _ => 0) k i := by
    intro δ k i
    rw [expectedIn_eq, expectedIn_eq]
    exact Finset.sum_congr rfl fun j _ => by rw [a4]
  obtain ⟨n1, n2⟩ := C106_minimum s' a1 (by rw [a2]; exact hne) SQ a3 _ a7 (by rw [a2]; exact expQ c hc) _ _ hc0 (fun _ => c) (by unfold NonZeroSums; rw [a2]; exact sumsQ0)
    (fun k _ i => hE _ k i) (by intro p hp; rw [a2, hfree] at hp; cases hp) (fun δ h1 h2 p hp => by
      rw [a2] at hp
      exact identQ δ (fun k hk i => by rw [← hE]; exact h1 k (by rw [a2]; exact hk) i) (by intro p hp; rw [hfree] at hp; cases hp) p hp)
  have hpv : paramVec s' SQ (fun _ => c) (fun _ _ _ => 0) = paramVec sysQ SQ (fun _ => c) (fun _ _ _ => 0) := by unfold paramVec; rw [a2]
  rw [hpv] at n1
  exact fit_at_start a1.reachable [] ⟨by simp, by simp⟩ (by simp) a6
    (by rw [← hpv]; exact paramVec_length (reachable_wf a1.reachable) a3 (fun _ => c) fun _ _ _ => 0) n1 (fun x u h1 h2 => (n2 x u h1 h2).1) g fixNui

end Ex

/-- `C146_program` applies to the two-channel model with four nuisance parameters at the yield 8 and at four times this yield: all four fits return. With the nuisance parameters held fixed the error of
the yield doubles exactly; with everything free it grows by a factor between two and four and the error of the first nuisance parameter does not grow. -/
example : ∃ s₁ s₂ : Sys, s₁ = (Ex.sysQ.step (.update (paramVec Ex.sysQ Ex.SQ (fun _ => 8) fun _ _ _ => 0))).step (.addAsimov false) ∧
    s₂ = (Ex.sysQ.step (.update (paramVec Ex.sysQ Ex.SQ (fun _ => 4 * 8) fun _ _ _ => 0))).step (.addAsimov false) ∧
    (∃ r₁ r₂, ((fitRun "iminuit" []).doFit Ex.optErr s₁.w s₁.m false true true none).1 = .ok r₁ ∧ ((fitRun "iminuit" []).doFit Ex.optErr s₂.w s₂.m false true true none).1 = .ok r₂ ∧
      ∃ e, ErrorIs r₁ 0 e ∧ 0 < e ∧ ErrorIs r₂ 0 (2 * e)) ∧
    ∃ r₁ r₂, ((fitRun "iminuit" []).doFit Ex.optErr s₁.w s₁.m false true false none).1 = .ok r₁ ∧ ((fitRun "iminuit" []).doFit Ex.optErr s₂.w s₂.m false true false none).1 = .ok r₂ ∧
      (∃ e₁ e₂, ErrorIs r₁ 0 e₁ ∧ ErrorIs r₂ 0 e₂ ∧ 0 < e₁ ∧ 2 * e₁ ≤ e₂ ∧ e₂ ≤ 4 * e₁) ∧ ∃ e₁ e₂, ErrorIs r₁ 1 e₁ ∧ ErrorIs r₂ 1 e₂ ∧ 0 < e₂ ∧ e₂ ≤ e₁ := by
  have hne : Ex.sysQ.m.channels ≠ [] := by simp [Ex.sysQ, Ex.mQ]
  have hfree : Ex.sysQ.m.constrained = [] := by simp [Ex.sysQ, Ex.mQ]
  have h2 : √(4 : ℝ) = 2 := by rw [show (4 : ℝ) = 2 ^ 2 by norm_num]; exact Real.sqrt_sq (by norm_num)
  have hnp : Ex.sysQ.m.numProcesses = 1 := by simp [Mct.numProcesses, Ex.sysQ, Ex.mQ]
  have hal := C51_aligned Ex.sysQ Ex.sysQ_built.reachable
  have hpl : 2 ≤ (Ex.sysQ.m.paramNames Ex.sysQ.w).length := by
    rw [hal.1, ← paramVec_length (reachable_wf Ex.sysQ_built.reachable) Ex.modelQ (fun _ => 8) fun _ _ _ => 0]
    simp [paramVec, Ex.sysQ, Ex.mQ, Mct.chanIds, nuiVec, List.range_succ, Ex.SQ, List.ofFn_succ, vec]
  obtain ⟨s₁, hs₁⟩ : ∃ s₁, s₁ = (Ex.sysQ.step (.update (paramVec Ex.sysQ Ex.SQ (fun _ => 8) fun _ _ _ => 0))).step (.addAsimov false) := ⟨_, rfl⟩
  obtain ⟨s₂, hs₂⟩ : ∃ s₂, s₂ = (Ex.sysQ.step (.update (paramVec Ex.sysQ Ex.SQ (fun _ => 4 * 8) fun _ _ _ => 0))).step (.addAsimov false) := ⟨_, rfl⟩
  have key := fun (fixNui : Bool) (r₁ r₂ : MinResult) h1 h2 => (C146_program Ex.sysQ Ex.sysQ_built hne Ex.SQ Ex.modelQ Ex.sysQ_hyps.2.1 Ex.tupQ Ex.sysQ_hyps.2.2.2 hfree Ex.sumsQ0 Ex.identQ (fun _ => 8) (Ex.expQ 8 le_rfl)
    4 (by norm_num) s₁ s₂ hs₁ hs₂ Ex.optErr Ex.optErr Ex.optErr_fin.1 Ex.optErr_fin.1 Ex.optErr_exact Ex.optErr_exact "iminuit" lower_iminuit [] ⟨by simp, by simp⟩ (by simp) false true fixNui false true
    r₁ r₂ h1 h2).2.2
  simp only [h2, hnp] at key
  refine ⟨s₁, s₂, hs₁, hs₂, ?_, ?_⟩
  · obtain ⟨r₁, hr₁⟩ := Ex.fitQ 8 le_rfl s₁ hs₁ true true
    obtain ⟨r₂, hr₂⟩ := Ex.fitQ (4 * 8) (by norm_num) s₂ hs₂ true true
    refine ⟨r₁, r₂, hr₁, hr₂, ?_⟩
    obtain ⟨e₁, e₂, k1, k2, k3, k4, k5, k6, k7⟩ := key true r₁ r₂ hr₁ hr₂ 0 ⟨by omega, by simp [WantedFixed, FitFixed, hnp]⟩
    refine ⟨e₁, k1, k3, ?_⟩
    rw [← k7 fun q hq => ?_]
    · exact k2
    · by_contra hcon
      exact hq.2 (by
        have := hq.1
        simp [WantedFixed, FitFixed, hnp]; omega)
  · obtain ⟨r₁, hr₁⟩ := Ex.fitQ 8 le_rfl s₁ hs₁ true false
    obtain ⟨r₂, hr₂⟩ := Ex.fitQ (4 * 8) (by norm_num) s₂ hs₂ true false
    have hF : ∀ q, q < 2 → FreeParam Ex.sysQ [] false q := fun q hq => ⟨by omega, by simp [WantedFixed, FitFixed]⟩
    refine ⟨r₁, r₂, hr₁, hr₂, ?_, ?_⟩
    · obtain ⟨e₁, e₂, k1, k2, k3, k4, k5, -, -⟩ := key false r₁ r₂ hr₁ hr₂ 0 (hF 0 (by omega))
      exact ⟨e₁, e₂, k1, k2, k3, k5 (by omega)⟩
    · obtain ⟨e₁, e₂, k1, k2, k3, k4, -, k6, -⟩ := key false r₁ r₂ hr₁ hr₂ 1 (hF 1 (by omega))
      exact ⟨e₁, e₂, k1, k2, k4, k6 (by omega)⟩

end

end TF.Props
