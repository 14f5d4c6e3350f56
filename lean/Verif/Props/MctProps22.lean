import Verif.Props.MctProps21

set_option linter.unusedSimpArgs false

/-!
# More about the likelihood as a function of all parameters
-/

namespace TF.Props

open Classical Spec
open scoped Matrix

noncomputable section

/-- **C105, exactly.** For models with data in every channel, positive nominal template contents with non-zero relative
errors and positive efficiencies: the likelihood is bounded below exactly if every bin of every channel contains data. -/
theorem C105_iff (s : Sys) (h : s.Built) (hne : s.m.channels ≠ []) (S : ℕ → ChanSpec) (hS : ModelIs s S)
    (d : ∀ k, Fin (S k).n → ℝ) (hd : DataIs s S d)
    (hpos : ∀ k < s.m.chanIds.length, ∀ i, d k i = 0 ∨ (1e-100 : ℝ) ≤ d k i)
    (V E : String → ℝ) (hc : ConstraintsAre s V E) (hused : AllUsed s S)
    (hcnt : ∀ k < s.m.chanIds.length, ∀ j i, 0 < (S k).cnt j i ∧ (S k).ε j i ≠ 0)
    (heff : ∀ k < s.m.chanIds.length, ∀ j, 0 < (S k).eff j)
    (hdat : ∀ k < s.m.chanIds.length, ∃ i, d k i ≠ 0) :
    (∃ B : ℝ, ∀ x a, x.length = s.m.numProcesses + s.m.numNui s.w → objective s.w s.m x = .ok (.fin a) → B ≤ a) ↔
      ∀ k < s.m.chanIds.length, ∀ i, d k i ≠ 0 := by
  constructor
  · rintro ⟨B, hB⟩ k hk i hempty
    obtain ⟨i₁, h1⟩ := hdat k hk
    have hK : 0 < (S k).K := (hS k hk).1
    have hn : ∀ k < s.m.chanIds.length, ∀ j i, 0 < (S k).cnt j i * (1 + 0 * (S k).ε j i) := by
      intro k hk j i; rw [zero_mul, add_zero, mul_one]; exact (hcnt k hk j i).1
    have hs : ∀ k < s.m.chanIds.length, ∀ j, 0 < ∑ i, (S k).cnt j i * (1 + 0 * (S k).ε j i) := by
      intro k hk j
      exact Finset.sum_pos (fun i _ => hn k hk j i) ⟨⟨0, (hS k hk).2.1⟩, Finset.mem_univ _⟩
    have hcov : DataCovered s S d (fun _ _ _ => 0) (fun _ => 1) := by
      intro k hk i _
      rw [expectedIn_eq]
      refine Finset.sum_pos (fun j _ => ?_) ⟨⟨0, (hS k hk).1⟩, Finset.mem_univ _⟩
      have := heff k hk j
      have h2 : 0 < fracIn S (fun _ _ _ => 0) k j i := div_pos (hn k hk j i) (hs k hk j)
      positivity
    obtain ⟨τ, a, h2, h3⟩ := C113_unbounded s h hne S hS d hd hpos V E hc (fun _ => 1) (fun _ _ _ => 0)
      (fun k hk j => (hs k hk j).ne') hcov k hk ⟨0, hK⟩ i i₁ hempty h1 (by rw [one_mul]; exact heff k hk _)
      (hs k hk _) (fun i _ => (hn k hk _ i).le) (hn k hk _ i₁) (mul_ne_zero (hcnt k hk _ i).1.ne' (hcnt k hk _ i).2) B
    exact absurd (hB _ a (paramVec_length (reachable_wf h.reachable) hS _ _) h2) (not_le.mpr h3)
  · intro hall
    refine ⟨0, fun x a hx ha => ?_⟩
    obtain ⟨ν, θ, -, -, -, h0⟩ := C105_nonneg_partial s h hne S hS d hd hpos V E hc hused x hx a ha
    exact h0 fun k hk i hz => absurd hz (hall k hk i)

/-- non-vacuity of `C105_iff`, positive side: data (3, 5) -/
example : ∃ B : ℝ, ∀ x a, x.length = Ex.sys35.m.numProcesses + Ex.sys35.m.numNui Ex.sys35.w →
    objective Ex.sys35.w Ex.sys35.m x = .ok (.fin a) → B ≤ a := by
  have hd : ∀ k, ∀ i, Ex.d35 k i ≠ 0 := by
    intro k i
    have : ∀ i : Fin 2, (![3, 5] : Fin 2 → ℝ) i ≠ 0 := by intro i; fin_cases i <;> norm_num
    exact this i
  refine (C105_iff Ex.sys35 Ex.sys35_built (by simp [Ex.sys35, Ex.mZ]) Ex.SZ Ex.model35 Ex.d35 Ex.data35
    (fun k _ i => Ex.d35_pos k i) (fun _ => 0) (fun _ => 1) (by intro p hp; simp [Ex.sys35, Ex.mZ] at hp) ?_ ?_
    (fun k _ j => one_pos) (fun k _ => ⟨(0 : Fin 2), hd k _⟩)).2 (fun k _ i => hd k i)
  · intro p hp
    have : p = "p" := by simpa [Ex.sys35, Ex.mZ] using hp
    subst this
    exact Or.inl ⟨0, by simp [Ex.sys35, Ex.mZ, Mct.chanIds], (0 : Fin 1), by
      simp [procName, Ex.sys35, Ex.mZ, Mct.chanIds, Ex.w35, Ex.chZ]⟩
  · intro k _ j i
    have : ∀ i : Fin 2, 0 < (![1, 1] : Fin 2 → ℝ) i ∧ (![1, 1] : Fin 2 → ℝ) i / (![1, 1] : Fin 2 → ℝ) i ≠ 0 := by
      intro i; fin_cases i <;> simp
    exact this i

/-- non-vacuity of `C105_iff`, negative side: data (0, 4) -/
example : ¬ ∃ B : ℝ, ∀ x a, x.length = Ex.sys04.m.numProcesses + Ex.sys04.m.numNui Ex.sys04.w →
    objective Ex.sys04.w Ex.sys04.m x = .ok (.fin a) → B ≤ a := by
  rw [C105_iff Ex.sys04 Ex.sys04_built (by simp [Ex.sys04, Ex.mZ]) Ex.SZ Ex.model04 Ex.d04 Ex.data04
    (fun k _ i => Ex.d04_pos k i) (fun _ => 0) (fun _ => 1) (by intro p hp; simp [Ex.sys04, Ex.mZ] at hp) ?_ ?_
    (fun k _ j => one_pos) (fun k _ => ⟨(1 : Fin 2), by show (![0, 4] : Fin 2 → ℝ) 1 ≠ 0; norm_num⟩)]
  · intro h
    exact h 0 (by simp [Ex.sys04, Ex.mZ, Mct.chanIds]) (0 : Fin 2) (by show (![0, 4] : Fin 2 → ℝ) 0 = 0; simp)
  · intro p hp
    have : p = "p" := by simpa [Ex.sys04, Ex.mZ] using hp
    subst this
    exact Or.inl ⟨0, by simp [Ex.sys04, Ex.mZ, Mct.chanIds], (0 : Fin 1), by
      simp [procName, Ex.sys04, Ex.mZ, Mct.chanIds, Ex.w04, Ex.chZ]⟩
  · intro k _ j i
    have : ∀ i : Fin 2, 0 < (![1, 1] : Fin 2 → ℝ) i ∧ (![1, 1] : Fin 2 → ℝ) i / (![1, 1] : Fin 2 → ℝ) i ≠ 0 := by
      intro i; fin_cases i <;> simp
    exact this i

end

end TF.Props
