import Verif.Lemmas.PoissonClt
import Verif.Props.CovEvents
import Verif.Props.Consist2

set_option linter.unusedSimpArgs false
set_option linter.unusedVariables false

/-!
# Coverage of the reported errors (C143)
-/

namespace TF.Spec

open TF Classical MeasureTheory ProbabilityTheory

noncomputable section

/-- a scipy fit of the system `s` (configuration `ops`, exact minimization and differentiation) returned `r` with a finite value, every fitted yield free to move in both directions and every bin expected to
be populated -/
def ScipyFit (s : Sys) (S : ℕ → ChanSpec) (id : String) (ops : List FitOp) (o : Optim) (up fixNui : Bool) (lim : Option Bounds) (r : MinResult) : Prop :=
  TrueMinScipy o ∧ ExactHesse o (objective s.w s.m) ∧ ((fitRun id ops).doFit o s.w s.m up true fixNui lim).1 = .ok r ∧ (∃ v : ℝ, r.fval = .fin v) ∧
    ∀ ν θ, r.params.values = paramVec s S ν θ →
      (∀ p ∈ s.m.processes, MayMove s ops fixNui lim (s.m.processes.idxOf p) (ν p)) ∧ ∀ k < s.m.chanIds.length, ∀ i, 0 < expectedIn s S ν θ k i

/-- the configuration holds at most one parameter fixed (more than one are not handled correctly with scipy, see C60) -/
def OneFixed (s : Sys) (ops : List FitOp) (fixNui : Bool) : Prop :=
  ∀ j k, j < (s.m.paramNames s.w).length → k < (s.m.paramNames s.w).length →
    WantedFixed (s.m.paramNames s.w) ops s.m.numProcesses fixNui j → WantedFixed (s.m.paramNames s.w) ops s.m.numProcesses fixNui k → j = k

/-- the probability that a Poisson number `N` of mean `M` is within `t √N` of its mean -/
def poissonCoverage (t M : ℝ) : ℝ := (poissonMeasure M.toNNReal).real {k : ℕ | |(k:ℝ) - M| ≤ t * √(k:ℝ)}

/-- the probability that a standard normal number is within `t` of zero (68.3 % for `t = 1`) -/
def normalCoverage (t : ℝ) : ℝ := (gaussianReal 0 1).real (Set.Icc (-t) t)

end

end TF.Spec

namespace TF.Props

open Classical Spec MeasureTheory ProbabilityTheory
open scoped Matrix NNReal ENNReal

noncomputable section

/-- the fit of a toy data set in terms of the model that generated it -/
theorem scipyFit_toy {s : Sys} (h : s.Built) {S : ℕ → ChanSpec} (hS : ModelIs s S) (htup : ∀ c ∈ s.m.chanIds, AllTuple (s.w.chans c).range)
    {y : ∀ k, Fin (S k).K → ℝ} {θ₀ : ∀ k, Fin (S k).K → Fin (S k).n → ℝ} (hp : ParamsAre s S y θ₀) (hT₀ : NonZeroSums s S θ₀)
    (hnn : ∀ k < s.m.chanIds.length, ∀ i, 0 ≤ presentIn S y θ₀ k i) (draw : ℕ → Vec → ℕ → ℕ)
    {id : String} {ops : List FitOp} {o : Optim} {up fixNui : Bool} {lim : Option Bounds} {r : MinResult}
    (hf : ScipyFit (s.step (.addToy draw)) S id ops o up fixNui lim r) (ν : String → ℝ) (θ : ∀ k, Fin (S k).K → Fin (S k).n → ℝ)
    (he : r.params.values = paramVec s S ν θ) :
    (∀ p ∈ s.m.processes, MayMove s ops fixNui lim (s.m.processes.idxOf p) (ν p)) ∧ ∀ k < s.m.chanIds.length, ∀ i, 0 < expectedIn s S ν θ k i := by
  obtain ⟨q1, q2, q3, q4, q5, q6, q7⟩ := toy_model s h S hS htup y θ₀ hp hT₀ hnn draw
  have hnm : (s.step (.addToy draw)).m.paramNames (s.step (.addToy draw)).w = s.m.paramNames s.w := by rw [q2]; exact (names_same (toy_same s draw) s.m).1
  have := hf.2.2.2.2 ν θ (by rw [q5]; exact he)
  simp only [q7] at this
  unfold MayMove at this ⊢
  rw [hnm, q2] at this
  exact this

/-- the two probabilities differ by at most the probability of the exceptional set -/
theorem prob_near {Ω : Type} [MeasurableSpace Ω] {P : Measure Ω} [IsProbabilityMeasure P] {A B E : Set Ω} {η : ℝ}
    (hE : P.real E ≤ η) (h : ∀ ω, ω ∉ E → (ω ∈ A ↔ ω ∈ B)) : |P.real A - P.real B| ≤ η := by
  have h1 : P.real A ≤ P.real B + P.real E :=
    (measureReal_mono (fun ω hω => by by_cases hω' : ω ∈ E; exacts [.inr hω', .inl ((h ω hω').mp hω)])).trans (measureReal_union_le _ _)
  have h2 : P.real B ≤ P.real A + P.real E :=
    (measureReal_mono (fun ω hω => by by_cases hω' : ω ∈ E; exacts [.inr hω', .inl ((h ω hω').mpr hω)])).trans (measureReal_union_le _ _)
  rw [abs_le]; constructor <;> linarith

theorem law_real {Ω : Type} [MeasurableSpace Ω] {P : Measure Ω} {X : Ω → ℕ} {r : ℝ≥0} (h : HasLaw X (poissonMeasure r) P) (K : Set ℕ) :
    P.real {ω | X ω ∈ K} = (poissonMeasure r).real K := by
  rw [← h.map_eq, map_measureReal_apply_of_aemeasurable h.aemeasurable (MeasurableSet.of_discrete)]
  rfl

/-- **C143, exact.** Fit toy data sets of mutually independent Poisson numbers, generated from a model without constraints, with scipy (exact minimization and differentiation); let `F` be the total number of
events the fitted model expects and `V` the variance that the reported covariance gives this number. Let `M` be the true total. Whatever the model, the probability that the true total is covered by
`F ± t √V` is the one of a Poisson number of mean `M` being within `t √N` of `M`, up to the probability that the fit fails (or ends at a boundary). -/
theorem C143_exact (s : Sys) (h : s.Built) (hne : s.m.channels ≠ []) (S : ℕ → ChanSpec) (hS : ModelIs s S)
    (htup : ∀ c ∈ s.m.chanIds, AllTuple (s.w.chans c).range)
    (y : ∀ k, Fin (S k).K → ℝ) (θ₀ : ∀ k, Fin (S k).K → Fin (S k).n → ℝ) (hp : ParamsAre s S y θ₀) (hT₀ : NonZeroSums s S θ₀)
    (hnn : ∀ k < s.m.chanIds.length, ∀ i, 0 ≤ presentIn S y θ₀ k i) (hnc : s.m.constrained = []) (hused : AllUsed s S)
    {Ω : Type} [MeasurableSpace Ω] (P : Measure Ω) (draw : Ω → ℕ → Vec → ℕ → ℕ)
    (hd : PoissonLaw P s S (presentIn S y θ₀) draw) (hi : MutuallyIndep P s S (presentIn S y θ₀) draw)
    (id : String) (hid : id.toLower = "scipy") (ops : List FitOp)
    (hk : KnownIds (s.m.paramNames s.w) ops) (hone : ∀ k < (s.m.paramNames s.w).length, OneId (s.m.paramNames s.w) ops k)
    (up fixNui : Bool) (lim : Option Bounds) (h1 : OneFixed s ops fixNui)
    (o : Ω → Optim) (r : Ω → MinResult) (η : ℝ) (hr : P.real {ω | ¬ ScipyFit (s.step (.addToy (draw ω))) S id ops (o ω) up fixNui lim (r ω)} ≤ η)
    (F V : Ω → ℝ) (hF : ∀ ω ν θ, (r ω).params.values = paramVec s S ν θ → F ω = eventsExpected s S ν θ)
    (hV : ∀ ω C, IsReal (r ω).params.cov C →
      V ω = acceptances s S (s.m.paramNames s.w).length ⬝ᵥ C.mulVec (acceptances s S (s.m.paramNames s.w).length))
    (M : ℝ) (hM : M = ∑ k ∈ Finset.range s.m.chanIds.length, ∑ j, y k j) (t : ℝ) :
    |P.real {ω | |F ω - M| ≤ t * √(V ω)} - poissonCoverage t M| ≤ η := by
  obtain ⟨hP, hl⟩ := drawn_law s hne S hS y θ₀ hT₀ hnn P draw hd hi
  rw [← hM] at hl
  have e := law_real hl {k : ℕ | |(k:ℝ) - M| ≤ t * √(k:ℝ)}
  unfold poissonCoverage
  rw [← e]
  refine prob_near hr fun ω hω => ?_
  have hω : ScipyFit (s.step (.addToy (draw ω))) S id ops (o ω) up fixNui lim (r ω) := not_not.mp hω
  obtain ⟨ν, θ, C, c1, c2, c3, c4⟩ := C139_toys s h hne S hS htup y θ₀ hp hT₀ hnn hnc hused (draw ω) _ rfl id hid ops hk hone (o ω) hω.1 hω.2.1 up fixNui lim h1
    (r ω) hω.2.2.1 hω.2.2.2.1.choose hω.2.2.2.1.choose_spec (fun ν θ he => scipyFit_toy h hS htup hp hT₀ hnn (draw ω) hω ν θ he)
  have e1 : F ω = eventsDrawn s S (presentIn S y θ₀) (draw ω) := (hF ω ν θ c1).trans c4
  have e2 : V ω = eventsDrawn s S (presentIn S y θ₀) (draw ω) := (hV ω C c2).trans c3
  simp only [Set.mem_ofPred, e1, e2]

/-- **C143, many events.** For all `t > 0` and `ε > 0` there is a number `M₀` such that, whatever the model with at least `M₀` expected events, whatever the fit configuration: the probability that
`F ± t √V` covers the true total `M` is the probability of `[-t, t]` under the standard normal distribution up to `ε` and the probability that the fit fails. -/
theorem C143_total (t ε : ℝ) (ht : 0 < t) (hε : 0 < ε) : ∃ M₀ : ℝ, ∀ (s : Sys) (h : s.Built) (hne : s.m.channels ≠ []) (S : ℕ → ChanSpec) (hS : ModelIs s S)
    (htup : ∀ c ∈ s.m.chanIds, AllTuple (s.w.chans c).range)
    (y : ∀ k, Fin (S k).K → ℝ) (θ₀ : ∀ k, Fin (S k).K → Fin (S k).n → ℝ) (hp : ParamsAre s S y θ₀) (hT₀ : NonZeroSums s S θ₀)
    (hnn : ∀ k < s.m.chanIds.length, ∀ i, 0 ≤ presentIn S y θ₀ k i) (hnc : s.m.constrained = []) (hused : AllUsed s S)
    {Ω : Type} [MeasurableSpace Ω] (P : Measure Ω) (draw : Ω → ℕ → Vec → ℕ → ℕ)
    (hd : PoissonLaw P s S (presentIn S y θ₀) draw) (hi : MutuallyIndep P s S (presentIn S y θ₀) draw)
    (id : String) (hid : id.toLower = "scipy") (ops : List FitOp)
    (hk : KnownIds (s.m.paramNames s.w) ops) (hone : ∀ k < (s.m.paramNames s.w).length, OneId (s.m.paramNames s.w) ops k)
    (up fixNui : Bool) (lim : Option Bounds) (h1 : OneFixed s ops fixNui)
    (o : Ω → Optim) (r : Ω → MinResult) (η : ℝ) (hr : P.real {ω | ¬ ScipyFit (s.step (.addToy (draw ω))) S id ops (o ω) up fixNui lim (r ω)} ≤ η)
    (F V : Ω → ℝ) (hF : ∀ ω ν θ, (r ω).params.values = paramVec s S ν θ → F ω = eventsExpected s S ν θ)
    (hV : ∀ ω C, IsReal (r ω).params.cov C →
      V ω = acceptances s S (s.m.paramNames s.w).length ⬝ᵥ C.mulVec (acceptances s S (s.m.paramNames s.w).length))
    (M : ℝ) (hM : M = ∑ k ∈ Finset.range s.m.chanIds.length, ∑ j, y k j) (hM0 : M₀ ≤ M),
    |P.real {ω | |F ω - M| ≤ t * √(V ω)} - normalCoverage t| ≤ ε + η := by
  obtain ⟨M₀, hM₀⟩ := poisson_coverage ht hε
  refine ⟨max 0 M₀, ?_⟩
  intro s h hne S hS htup y θ₀ hp hT₀ hnn hnc hused Ω mΩ P draw hd hi id hid ops hk hone up fixNui lim h1 o r η hr F V hF hV M hM hM0
  have := C143_exact s h hne S hS htup y θ₀ hp hT₀ hnn hnc hused P draw hd hi id hid ops hk hone up fixNui lim h1 o r η hr F V hF hV M hM t
  have hM0' : (M.toNNReal : ℝ) = M := Real.coe_toNNReal _ ((le_max_left _ _).trans hM0)
  have h2 := hM₀ M.toNNReal (by rw [hM0']; exact (le_max_right _ _).trans hM0)
  rw [hM0'] at h2
  have e : normalCoverage t = normalWithin t := rfl
  have e' : (poissonMeasure M.toNNReal).real {k : ℕ | |(k:ℝ) - M| ≤ t * √(k:ℝ)} = poissonCoverage t M := rfl
  rw [e'] at h2
  rw [e]
  rw [abs_le] at *
  constructor <;> linarith [this.1, this.2, h2.1, h2.2]

/-- **C143, one process.** In a model with one process the interval `yield ± t · error` reported by the fit covers the true yield `ν₀` of the toy data sets with the Poisson coverage probability of the number of
accepted events `ν₀ A`, up to the probability that the fit fails. -/
theorem C143_yield_exact (s : Sys) (h : s.Built) (hne : s.m.channels ≠ []) (S : ℕ → ChanSpec) (hS : ModelIs s S)
    (htup : ∀ c ∈ s.m.chanIds, AllTuple (s.w.chans c).range)
    (y : ∀ k, Fin (S k).K → ℝ) (θ₀ : ∀ k, Fin (S k).K → Fin (S k).n → ℝ) (hp : ParamsAre s S y θ₀) (hT₀ : NonZeroSums s S θ₀)
    (hnn : ∀ k < s.m.chanIds.length, ∀ i, 0 ≤ presentIn S y θ₀ k i) (hnc : s.m.constrained = []) (hused : AllUsed s S)
    (p : String) (hone' : s.m.processes = [p]) (ν₀ : ℝ) (hy : ∀ k < s.m.chanIds.length, ∀ j, y k j = ν₀ * (S k).eff j)
    (hA0 : 0 < acceptance s S p)
    {Ω : Type} [MeasurableSpace Ω] (P : Measure Ω) (draw : Ω → ℕ → Vec → ℕ → ℕ)
    (hd : PoissonLaw P s S (presentIn S y θ₀) draw) (hi : MutuallyIndep P s S (presentIn S y θ₀) draw)
    (id : String) (hid : id.toLower = "scipy") (ops : List FitOp)
    (hk : KnownIds (s.m.paramNames s.w) ops) (hone : ∀ k < (s.m.paramNames s.w).length, OneId (s.m.paramNames s.w) ops k)
    (up fixNui : Bool) (lim : Option Bounds) (h1 : OneFixed s ops fixNui)
    (o : Ω → Optim) (r : Ω → MinResult) (η : ℝ) (hr : P.real {ω | ¬ ScipyFit (s.step (.addToy (draw ω))) S id ops (o ω) up fixNui lim (r ω)} ≤ η)
    (Y σ : Ω → ℝ) (hY : ∀ ω x, (r ω).params.values[0]? = some (.fin x) → Y ω = x) (hσ : ∀ ω x, (r ω).params.errors[0]? = some (.fin x) → σ ω = x) (t : ℝ) :
    |P.real {ω | |Y ω - ν₀| ≤ t * σ ω} - poissonCoverage t (ν₀ * acceptance s S p)| ≤ η := by
  have hw := reachable_wf h.reachable
  have hproc : ∀ k < s.m.chanIds.length, ∀ j : Fin (S k).K, procName s k j = p := by
    intro k hk j
    have := procName_mem hw hS k hk j
    rw [hone'] at this
    simpa using this
  have hacc : acceptance s S p = ∑ k ∈ Finset.range s.m.chanIds.length, ∑ j : Fin (S k).K, (S k).eff j := by
    unfold acceptance
    refine Finset.sum_congr rfl fun k hk => Finset.sum_congr rfl fun j _ => ?_
    rw [if_pos (hproc k (Finset.mem_range.mp hk) j)]
  have hsum : ∑ k ∈ Finset.range s.m.chanIds.length, ∑ j, y k j = ν₀ * acceptance s S p := by
    rw [hacc, Finset.mul_sum]
    refine Finset.sum_congr rfl fun k hk => ?_
    rw [Finset.mul_sum]
    exact Finset.sum_congr rfl fun j _ => hy k (Finset.mem_range.mp hk) j
  obtain ⟨hP, hl⟩ := drawn_law s hne S hS y θ₀ hT₀ hnn P draw hd hi
  rw [hsum] at hl
  have e := law_real hl {k : ℕ | |(k:ℝ) - ν₀ * acceptance s S p| ≤ t * √(k:ℝ)}
  unfold poissonCoverage
  rw [← e]
  refine prob_near hr fun ω hω => ?_
  have hω : ScipyFit (s.step (.addToy (draw ω))) S id ops (o ω) up fixNui lim (r ω) := not_not.mp hω
  obtain ⟨q1, q2, q3, q4, q5, q6, q7⟩ := toy_model s h S hS htup y θ₀ hp hT₀ hnn (draw ω)
  have hnm : (s.step (.addToy (draw ω))).m.paramNames (s.step (.addToy (draw ω))).w = s.m.paramNames s.w := by
    rw [q2]; exact (names_same (toy_same s (draw ω)) s.m).1
  have hac : acceptance (s.step (.addToy (draw ω))) S p = acceptance s S p := by
    unfold acceptance
    simp only [q2, q6]
  have hN : (eventsDrawn s S (presentIn S y θ₀) (draw ω) : ℝ) =
      ∑ k ∈ Finset.range (s.step (.addToy (draw ω))).m.chanIds.length, ∑ i, toyData s S (presentIn S y θ₀) (draw ω) k i := by
    rw [eventsDrawn_eq, q2]
  obtain ⟨c1, c2, -⟩ := C139_yield _ q1 (by rw [q2]; exact hne) S q3 _ q4 (fun k _ i => toyData_floor k i) (by rw [q2]; exact hnc)
    (by unfold AllUsed; simp only [q2, q6]; exact hused) p (by rw [q2]; exact hone') (by rw [hac]; exact hA0) id hid ops (by rw [hnm]; exact hk) (by rw [hnm]; exact hone)
    (o ω) hω.1 hω.2.1 up fixNui lim (by rw [hnm, q2]; exact h1) (r ω) hω.2.2.1 hω.2.2.2.1.choose hω.2.2.2.1.choose_spec hω.2.2.2.2 _ hN
  rw [hac] at c1 c2
  have e1 := hY ω _ c1
  have e2 := hσ ω _ c2
  have e3 : (eventsDrawn s S (presentIn S y θ₀) (draw ω) : ℝ) / acceptance s S p - ν₀ =
      ((eventsDrawn s S (presentIn S y θ₀) (draw ω) : ℝ) - ν₀ * acceptance s S p) / acceptance s S p := by
    field_simp
  simp only [Set.mem_ofPred, e1, e2, e3]
  rw [abs_div, abs_of_pos hA0, ← mul_div_assoc, div_le_div_iff_of_pos_right hA0]

/-- **C143, one process with many events.** For all `t > 0` and `ε > 0` there is a number `M₀` such that in every model with one process and at least `M₀` expected accepted events the interval `yield ± t · error`
reported by the fit covers the true yield with the probability of `[-t, t]` under the standard normal distribution, up to `ε` and the probability that the fit fails. -/
theorem C143_yield (t ε : ℝ) (ht : 0 < t) (hε : 0 < ε) : ∃ M₀ : ℝ, ∀ (s : Sys) (h : s.Built) (hne : s.m.channels ≠ []) (S : ℕ → ChanSpec) (hS : ModelIs s S)
    (htup : ∀ c ∈ s.m.chanIds, AllTuple (s.w.chans c).range)
    (y : ∀ k, Fin (S k).K → ℝ) (θ₀ : ∀ k, Fin (S k).K → Fin (S k).n → ℝ) (hp : ParamsAre s S y θ₀) (hT₀ : NonZeroSums s S θ₀)
    (hnn : ∀ k < s.m.chanIds.length, ∀ i, 0 ≤ presentIn S y θ₀ k i) (hnc : s.m.constrained = []) (hused : AllUsed s S)
    (p : String) (hone' : s.m.processes = [p]) (ν₀ : ℝ) (hy : ∀ k < s.m.chanIds.length, ∀ j, y k j = ν₀ * (S k).eff j)
    (hA0 : 0 < acceptance s S p) (hM0 : M₀ ≤ ν₀ * acceptance s S p)
    {Ω : Type} [MeasurableSpace Ω] (P : Measure Ω) (draw : Ω → ℕ → Vec → ℕ → ℕ)
    (hd : PoissonLaw P s S (presentIn S y θ₀) draw) (hi : MutuallyIndep P s S (presentIn S y θ₀) draw)
    (id : String) (hid : id.toLower = "scipy") (ops : List FitOp)
    (hk : KnownIds (s.m.paramNames s.w) ops) (hone : ∀ k < (s.m.paramNames s.w).length, OneId (s.m.paramNames s.w) ops k)
    (up fixNui : Bool) (lim : Option Bounds) (h1 : OneFixed s ops fixNui)
    (o : Ω → Optim) (r : Ω → MinResult) (η : ℝ) (hr : P.real {ω | ¬ ScipyFit (s.step (.addToy (draw ω))) S id ops (o ω) up fixNui lim (r ω)} ≤ η)
    (Y σ : Ω → ℝ) (hY : ∀ ω x, (r ω).params.values[0]? = some (.fin x) → Y ω = x) (hσ : ∀ ω x, (r ω).params.errors[0]? = some (.fin x) → σ ω = x),
    |P.real {ω | |Y ω - ν₀| ≤ t * σ ω} - normalCoverage t| ≤ ε + η := by
  obtain ⟨M₀, hM₀⟩ := poisson_coverage ht hε
  refine ⟨max 0 M₀, ?_⟩
  intro s h hne S hS htup y θ₀ hp hT₀ hnn hnc hused p hone' ν₀ hy hA0 hM0 Ω mΩ P draw hd hi id hid ops hk hone up fixNui lim h1 o r η hr Y σ hY hσ
  have := C143_yield_exact s h hne S hS htup y θ₀ hp hT₀ hnn hnc hused p hone' ν₀ hy hA0 P draw hd hi id hid ops hk hone up fixNui lim h1 o r η hr Y σ hY hσ t
  have hM0' : ((ν₀ * acceptance s S p).toNNReal : ℝ) = ν₀ * acceptance s S p := Real.coe_toNNReal _ ((le_max_left _ _).trans hM0)
  have h2 := hM₀ (ν₀ * acceptance s S p).toNNReal (by rw [hM0']; exact (le_max_right _ _).trans hM0)
  rw [hM0'] at h2
  have e : normalCoverage t = normalWithin t := rfl
  have e' : (poissonMeasure (ν₀ * acceptance s S p).toNNReal).real {k : ℕ | |(k:ℝ) - ν₀ * acceptance s S p| ≤ t * √(k:ℝ)} = poissonCoverage t (ν₀ * acceptance s S p) := rfl
  rw [e'] at h2
  rw [e]
  rw [abs_le] at *
  constructor <;> linarith [this.1, this.2, h2.1, h2.2]

/-- the scipy fit (nothing fixed or bounded) that starts at parameters with which the model expects exactly the data -/
theorem Ex.exact_fit (s : Sys) (h : s.Built) (hne : s.m.channels ≠ []) (S : ℕ → ChanSpec) (hS : ModelIs s S)
    (d : ∀ k, Fin (S k).n → ℝ) (hd : DataIs s S d) (hpos : ∀ k < s.m.chanIds.length, ∀ i, (1e-100 : ℝ) ≤ d k i)
    (hnc : s.m.constrained = []) (ν : String → ℝ) (hT0 : NonZeroSums s S fun _ _ _ => 0)
    (hdata : ∀ k < s.m.chanIds.length, ∀ i, expectedIn s S ν (fun _ _ _ => 0) k i = d k i) (hid : Identifiable s S)
    (hx0 : s.m.x0 s.w = .ok (paramVec s S ν fun _ _ _ => 0)) :
    ∃ r, ScipyFit s S "scipy" [] (Ex.optExact (objective s.w s.m)) false false none r := by
  have hc : ConstraintsAre s (fun _ => 0) (fun _ => 1) := by
    intro p hp; rw [hnc] at hp; cases hp
  have hV : ∀ p ∈ s.m.constrained, (fun _ => 0 : String → ℝ) p = ν p := by
    intro p hp; rw [hnc] at hp; cases hp
  have hkn : KnownIds (s.m.paramNames s.w) [] := ⟨by simp, by simp⟩
  obtain ⟨m1, m2⟩ := C106_minimum s h hne S hS d hd hpos _ _ hc ν hT0 hdata hV hid
  have hw := reachable_wf h.reachable
  have hal := C51_aligned s h.reachable
  have hl := paramVec_length hw hS ν (fun _ _ _ => 0)
  have hf := start_sfeasible h hS ν (fun _ _ _ => 0) "scipy" (hist := []) (by simp) false
  obtain ⟨r', h1, h2⟩ := Ex.optMinS_ok (c := (minRun .scipy (s.m.paramNames s.w)
    (setupOps (fitRun "scipy" []) s.m.numProcesses (s.m.numNui s.w) false none)).scipyCall
      (objective s.w s.m) (paramVec s S ν fun _ _ _ => 0)) (r := ⟨true, _, .fin 0⟩)
    ⟨rfl, hf, m1, by simp, fun y v hy hv => (m2 y v (by rw [hy.1]; exact hl) hv).1⟩
  have hql : r'.x.length = s.m.numProcesses + s.m.numNui s.w := by rw [h2.2.1.1]; exact hl
  have hrx : r'.x = paramVec s S ν fun _ _ _ => 0 := by
    obtain ⟨m3, m4⟩ := m2 r'.x r'.fval hql h2.2.2.1
    have hcmp := h2.2.2.2.2 _ _ hf m1
    refine m4 ?_
    cases hfv : r'.fval with
    | nan => exact absurd hfv h2.2.2.2.1
    | ninf => rw [hfv] at m3; exact absurd trivial m3
    | pinf => rw [hfv] at hcmp; exact absurd trivial hcmp
    | fin b =>
      rw [hfv] at hcmp m3
      have h1 : b ≤ 0 := not_lt.mp hcmp
      have h2 : 0 ≤ b := not_lt.mp m3
      rw [le_antisymm h1 h2]
  obtain ⟨x, hx⟩ := paramVec_real s S ν (fun _ _ _ => 0) (n := (s.m.paramNames s.w).length) (by rw [hl, hal.1])
  have h0 : ∀ k < s.m.chanIds.length, ∀ i, 0 < d k i := fun k hk i => lt_of_lt_of_le (by norm_num) (hpos k hk i)
  obtain ⟨A, hA⟩ := C131_hesse_exists s h hne S hS d hd (fun k hk i => Or.inr (hpos k hk i)) _ _ hc ν (fun _ _ _ => 0) hT0
    (fun k hk i => by rw [hdata k hk i]; exact h0 k hk i) x hx
  have hpd := C131_hesse_posdef s h hne S hS d hd hpos _ _ hc ν hT0 hdata hid x hx A hA
  obtain ⟨H, hH1, hH2⟩ := Ex.optExact_hesse (objective s.w s.m) _ x A hA
  obtain ⟨res, e1, -, -, -⟩ := C62_hessian (s.m.paramNames s.w) rfl
    (setupOps (fitRun "scipy" []) s.m.numProcesses (s.m.numNui s.w) false none)
    (Ex.optExact (objective s.w s.m)) (objective s.w s.m) _ r' h1 h2.1 (by rw [hql, hal.1]) H A (by rw [hrx, hx]; exact hH1) hH2 hpd
  have hr := doFit_of_minimize (by rw [fitRun_id]; exact minKind_scipy lower_scipy) (setup_eq (kd := .scipy) (id := "scipy") hal.1.symm hkn false none) hx0 e1
  have hfx : ∀ q, ¬ WantedFixed (s.m.paramNames s.w) [] s.m.numProcesses false q := by
    rintro q (⟨pid, hp, -⟩ | ⟨hp, -⟩)
    · simp at hp
    · cases hp
  have hbd : ∀ q b, WantedBounds (s.m.paramNames s.w) [] s.m.numProcesses none q b → b = (none, none) := by
    rintro q b (⟨pre, op, post, he, -⟩ | ⟨-, hb⟩)
    · simp at he
    · rw [hb]; split <;> rfl
  have hval := C106_scipy s h hne S hS d hd hpos _ _ hc ν hx0 hT0 hdata hV hid
    (Ex.optExact (objective s.w s.m)) (Ex.optExact_min _) "scipy" lower_scipy [] hkn false true false none (by simp) (by simp) res hr
  have hvals : paramVec s S ν (fun _ _ _ => 0) = res.params.values := by
    have := hval.2
    rw [hx0] at this
    exact Except.ok.inj this
  refine ⟨res, Ex.optExact_min _, Ex.optExact_hesse _, hr, ⟨0, hval.1⟩, ?_⟩
  intro ν' θ he
  rw [← hvals] at he
  obtain ⟨e1, e2⟩ := paramVec_expected hw hS he
  refine ⟨fun p _ => ⟨⟨hfx _, fun b hi hb hh => by rw [hbd _ b hb] at hh; cases hh⟩, ⟨hfx _, fun b hi hb hh => by rw [hbd _ b hb] at hh; cases hh⟩⟩, ?_⟩
  intro k hk i
  rw [← e2 k hk i, hdata k hk i]
  exact h0 k hk i

/-- non-vacuity of C143: toy data sets of the two-channel example with 8 expected events, fitted with scipy, nothing fixed or bounded. The fits of those toys that agree with the expectation return, which has a
positive probability (so that `η < 1`). -/
example (t : ℝ) : ∃ (Ω : Type) (_ : MeasurableSpace Ω) (P : Measure Ω) (draw : Ω → ℕ → Vec → ℕ → ℕ) (o : Ω → Optim) (r : Ω → MinResult) (η : ℝ), η < 1 ∧
    P.real {ω | ¬ ScipyFit (Ex.sysQ.step (.addToy (draw ω))) Ex.SQ "scipy" [] (o ω) false false none (r ω)} ≤ η ∧
    ∀ Y σ : Ω → ℝ, (∀ ω x, (r ω).params.values[0]? = some (.fin x) → Y ω = x) → (∀ ω x, (r ω).params.errors[0]? = some (.fin x) → σ ω = x) →
      |P.real {ω | |Y ω - 8| ≤ t * σ ω} - poissonCoverage t 8| ≤ η := by
  have hw := reachable_wf Ex.sysQ_built.reachable
  obtain ⟨Ω, mΩ, P, draw, h1, h2⟩ := poisson_gen_all Ex.sysQ hw Ex.SQ (presentIn Ex.SQ Ex.yQ fun _ _ _ => 0)
  have hpn : ∀ k < 2, ∀ j : Fin (Ex.SQ k).K, procName Ex.sysQ k j = "p" := by
    intro k hk j
    have := procName_mem hw Ex.modelQ k (by rw [Ex.q_len]; exact hk) j
    rw [Ex.q_one] at this; simpa using this
  have hacc : acceptance Ex.sysQ Ex.SQ "p" = 1 := by
    unfold acceptance
    rw [Ex.q_len, Finset.sum_range_succ, Finset.sum_range_one]
    rw [Finset.sum_congr rfl fun j _ => if_pos (hpn 0 (by norm_num) j), Finset.sum_congr rfl fun j _ => if_pos (hpn 1 (by norm_num) j)]
    show (∑ j : Fin 1, (1 / 4 : ℝ)) + ∑ j : Fin 1, (3 / 4 : ℝ) = 1
    norm_num
  have hpe : ∀ k < Ex.sysQ.m.chanIds.length, ∀ i, presentIn Ex.SQ Ex.yQ (fun _ _ _ => 0) k i = expectedIn Ex.sysQ Ex.SQ (fun _ => 8) (fun _ _ _ => 0) k i := by
    intro k hk i
    rw [expectedIn_eq]
    unfold presentIn fracIn
    refine Finset.sum_congr rfl fun j _ => ?_
    rw [Ex.shareQ k hk j]
  have hint : ∀ k < Ex.sysQ.m.chanIds.length, ∀ i, ∃ n : ℕ, (n : ℝ) = presentIn Ex.SQ Ex.yQ (fun _ _ _ => 0) k i := by
    intro k hk
    rcases Ex.chanQ k hk with rfl | rfl
    · show ∀ i : Fin 2, ∃ n : ℕ, (n : ℝ) = ∑ j : Fin 1, 2 * ((![1, 1] : Fin 2 → ℝ) i * (1 + 0 * _) / ∑ i', (![1, 1] : Fin 2 → ℝ) i' * (1 + 0 * _))
      intro i
      exact ⟨1, by fin_cases i <;> simp [Fin.sum_univ_two] <;> norm_num⟩
    · show ∀ i : Fin 2, ∃ n : ℕ, (n : ℝ) = ∑ j : Fin 1, 6 * ((![2, 4] : Fin 2 → ℝ) i * (1 + 0 * _) / ∑ i', (![2, 4] : Fin 2 → ℝ) i' * (1 + 0 * _))
      intro i
      fin_cases i
      · exact ⟨2, by simp [Fin.sum_univ_two]; norm_num⟩
      · exact ⟨4, by simp [Fin.sum_univ_two]; norm_num⟩
  have hN0 : 0 < Ex.sysQ.m.chanIds.length := by rw [Ex.q_len]; norm_num
  have hP : IsProbabilityMeasure P := law_prob (h1 0 hN0 ⟨0, (Ex.modelQ 0 hN0).2.1⟩)
  choose! N hN using hint
  -- the good event
  let G : Set Ω := {ω | ∀ q : Σ k : Fin Ex.sysQ.m.chanIds.length, Fin (Ex.SQ k).n, draw ω Ex.sysQ.m.chanIds[q.1] (vec (presentIn Ex.SQ Ex.yQ (fun _ _ _ => 0) q.1)) q.2 = N q.1 q.2}
  have hlaw := fun q : Σ k : Fin Ex.sysQ.m.chanIds.length, Fin (Ex.SQ k).n => h1 q.1 q.1.2 q.2
  have hG0 : 0 < P G := by
    have e := h2.measure_inter_preimage_eq_mul Finset.univ (sets := fun q => {N q.1 q.2}) (fun q _ => MeasurableSet.of_discrete)
    have hGe : G = ⋂ q ∈ (Finset.univ : Finset (Σ k : Fin Ex.sysQ.m.chanIds.length, Fin (Ex.SQ k).n)), (fun ω => draw ω Ex.sysQ.m.chanIds[q.1] (vec (presentIn Ex.SQ Ex.yQ (fun _ _ _ => 0) q.1)) q.2) ⁻¹' {N q.1 q.2} := by
      ext ω; simp [G]
    rw [hGe, e]
    refine pos_iff_ne_zero.mpr (Finset.prod_ne_zero_iff.mpr fun q _ => ne_of_gt ?_)
    have e0 : P ((fun ω => draw ω Ex.sysQ.m.chanIds[q.1] (vec (presentIn Ex.SQ Ex.yQ (fun _ _ _ => 0) q.1)) q.2) ⁻¹' {N q.1 q.2}) =
        poissonMeasure (presentIn Ex.SQ Ex.yQ (fun _ _ _ => 0) q.1 q.2).toNNReal {N q.1 q.2} := by
      rw [← (hlaw q).map_eq, Measure.map_apply_of_aemeasurable (hlaw q).aemeasurable MeasurableSet.of_discrete]
      rfl
    rw [e0, poissonMeasure_singleton, ENNReal.ofReal_pos]
    have : 0 < (presentIn Ex.SQ Ex.yQ (fun _ _ _ => 0) q.1 q.2).toNNReal := Real.toNNReal_pos.mpr (Ex.q_pos q.1 q.1.2 q.2)
    positivity
  have hGm : NullMeasurableSet G P := by
    have hGe : G = ⋂ q : (Σ k : Fin Ex.sysQ.m.chanIds.length, Fin (Ex.SQ k).n), (fun ω => draw ω Ex.sysQ.m.chanIds[q.1] (vec (presentIn Ex.SQ Ex.yQ (fun _ _ _ => 0) q.1)) q.2) ⁻¹' {N q.1 q.2} := by
      ext ω; simp [G]
    rw [hGe]
    exact NullMeasurableSet.iInter fun q => (hlaw q).aemeasurable.nullMeasurable MeasurableSet.of_discrete
  -- the fits
  have hfit : ∀ ω, ∃ r, ω ∈ G → ScipyFit (Ex.sysQ.step (.addToy (draw ω))) Ex.SQ "scipy" [] (Ex.optExact (objective (Ex.sysQ.step (.addToy (draw ω))).w (Ex.sysQ.step (.addToy (draw ω))).m)) false false none r := by
    intro ω
    by_cases hω : ω ∈ G
    · obtain ⟨q1, q2, q3, q4, q5, q6, q7⟩ := toy_model Ex.sysQ Ex.sysQ_built Ex.SQ Ex.modelQ Ex.q_tup Ex.yQ _ Ex.paramsQ Ex.q_sums (fun k hk i => (Ex.q_pos k hk i).le) (draw ω)
      obtain ⟨n1, n2, n3⟩ := names_same (toy_same Ex.sysQ (draw ω)) Ex.sysQ.m
      have hx0 := x0_eq Ex.sysQ Ex.sysQ_built.reachable Ex.q_ne Ex.SQ Ex.modelQ Ex.yQ _ Ex.paramsQ (fun _ => 8) Ex.q_yield
      rw [← q5 (fun _ => 8) (fun _ _ _ => 0)] at hx0
      have hdat : ∀ k < Ex.sysQ.m.chanIds.length, ∀ i, toyData Ex.sysQ Ex.SQ (presentIn Ex.SQ Ex.yQ fun _ _ _ => 0) (draw ω) k i = presentIn Ex.SQ Ex.yQ (fun _ _ _ => 0) k i := by
        intro k hk i
        rw [toyData_eq hk, ← hN k hk i]
        exact congrArg _ (hω ⟨⟨k, hk⟩, i⟩)
      obtain ⟨r, hr⟩ := Ex.exact_fit (Ex.sysQ.step (.addToy (draw ω))) q1 (by rw [q2]; exact Ex.q_ne) Ex.SQ q3 _ q4 (by
          rw [q2]; intro k hk i; rw [hdat k hk i]
          refine (Ex.posQ k hk i).trans_eq ?_
          simp [presentIn]) (by rw [q2]; exact Ex.q_nc) (fun _ => 8) (by unfold NonZeroSums; rw [q2]; exact Ex.q_sums)
        (by rw [q2]; intro k hk i; rw [q7, hdat k hk i, hpe k hk i]) (by
          unfold Identifiable
          simp only [q2, q7]
          exact Ex.identQ) (by rw [q2, n3]; exact hx0)
      exact ⟨r, fun _ => hr⟩
    · exact ⟨⟨.nan, Params.new [], false⟩, fun h => absurd h hω⟩
  choose r hr using hfit
  have hη : P.real {ω | ¬ ScipyFit (Ex.sysQ.step (.addToy (draw ω))) Ex.SQ "scipy" [] (Ex.optExact (objective (Ex.sysQ.step (.addToy (draw ω))).w (Ex.sysQ.step (.addToy (draw ω))).m)) false false none (r ω)} ≤ P.real Gᶜ :=
    measureReal_mono fun ω hω hG => hω (hr ω hG)
  refine ⟨Ω, mΩ, P, draw, _, r, P.real Gᶜ, ?_, hη, fun Y σ hY hσ => ?_⟩
  · rw [measureReal_def, prob_compl_eq_one_sub₀ hGm]
    have : 1 - P G < 1 := ENNReal.sub_lt_self (by simp) (by simp) hG0.ne'
    have := (ENNReal.toReal_lt_toReal (this.ne_top) (by simp)).mpr this
    simpa using this
  · have := C143_yield_exact Ex.sysQ Ex.sysQ_built Ex.q_ne Ex.SQ Ex.modelQ Ex.q_tup Ex.yQ _ Ex.paramsQ Ex.q_sums (fun k hk i => (Ex.q_pos k hk i).le) Ex.q_nc
      (allUsed_of_identifiable Ex.identQ) "p" Ex.q_one 8 (fun k hk j => Ex.shareQ k hk j) (by rw [hacc]; norm_num) P draw h1 h2 "scipy" lower_scipy [] ⟨by simp, by simp⟩
      (by intro k _ p q b c hb; simp at hb) false false none (by
        rintro j k _ _ (⟨pid, hp, -⟩ | ⟨hp, -⟩)
        · simp at hp
        · cases hp) _ r _ hη Y σ hY hσ t
    rw [hacc, mul_one] at this
    exact this

end
end TF.Props
