import Verif.Props.ToyStat
import Verif.Props.StatsProps

set_option linter.unusedSimpArgs false

/-!
# Goodness of fit and event numbers of toy data sets (C136)
-/

namespace TF.Props

open Classical Spec MeasureTheory ProbabilityTheory
open scoped Matrix NNReal

noncomputable section

/-- the generated data sets of one channel -/
theorem channel_sets (s : Sys) (h : s.Reachable) (S : ℕ → ChanSpec) (hS : ModelIs s S)
    (y : ∀ k, Fin (S k).K → ℝ) (θ : ∀ k, Fin (S k).K → Fin (S k).n → ℝ) (hp : ParamsAre s S y θ) (hT : NonZeroSums s S θ)
    (k : ℕ) (hk : k < s.m.chanIds.length) (hnn : ∀ i, 0 ≤ presentIn S y θ k i) (draw : Vec → ℕ → ℕ) :
    (∃ hh, s.w.toy s.m.chanIds[k] draw = .ok hh ∧
      hh.counts.data = vec (fun i : Fin (S k).n => ((draw (vec (presentIn S y θ k)) i : ℕ) : ℝ))) ∧
    ∃ hh, s.w.asimov s.m.chanIds[k] false = .ok hh ∧ hh.counts.data = vec (presentIn S y θ k) ∧
      hh.binErrors.data = vec fun i => Real.sqrt (presentIn S y θ k i) := by
  have hw := reachable_wf h
  obtain ⟨a1, a2, a3, a4⟩ := hS k hk
  obtain ⟨T, hT1, hT2⟩ := a4.tmpls
  have hcm : s.m.chanIds[k] ∈ s.m.chanIds := List.getElem_mem hk
  obtain ⟨q, hq, eq⟩ := List.mem_map.mp hcm
  have hb : ∀ n ∈ (s.w.chans s.m.chanIds[k]).bins, 1 ≤ n := by
    have hprod := (chanIs_numBins hw hcm a1 a4).1
    intro n hn
    by_contra h0
    have : n = 0 := by omega
    rw [this] at hn
    rw [List.prod_eq_zero hn] at hprod
    omega
  have hq' : (q.1, s.m.chanIds[k]) ∈ s.m.channels := by rw [← eq]; exact hq
  constructor
  · obtain ⟨a, e2, e3, -⟩ := C83_toy s h q.1 _ hq' hb a1 T hT1 (S k).cnt (S k).ε (y k) (θ k)
      (fun j => (hT2 j).1) (fun j => hp k hk j (T j) (by rw [hT1]; simp)) (hT k hk) draw
    obtain rfl : a = presentIn S y θ k := funext fun i => e2 i
    obtain ⟨hh, e1, e4, -⟩ := e3 hnn
    exact ⟨hh, e1, e4⟩
  · obtain ⟨hh, a, e1, e2, e3, e4, e5⟩ := C39_asimov s h q.1 _ hq' hb a1 T hT1 (S k).cnt (S k).ε (y k) (θ k)
      (fun j => (hT2 j).1) (fun j => hp k hk j (T j) (by rw [hT1]; simp)) (hT k hk) false
    obtain rfl : a = presentIn S y θ k := funext fun i => e2 i
    exact ⟨hh, e1, by simpa using e3, by simpa using e4 hnn⟩

section law

variable {Ω : Type} [MeasurableSpace Ω] {P : Measure Ω} {X : Ω → ℕ} {r : ℝ≥0}

theorem chi_bin (h : HasLaw X (poissonMeasure r) P) (hr : 0 < r) :
    MemLp (fun ω => ((X ω : ℝ) - r) ^ 2 / r) 2 P ∧ ∫ ω, ((X ω : ℝ) - r) ^ 2 / r ∂P = 1 ∧
      Var[fun ω => ((X ω : ℝ) - r) ^ 2 / r; P] = 2 + 1 / r := by
  have hr' : (r:ℝ) ≠ 0 := by exact_mod_cast hr.ne'
  have hP := law_prob h
  have e4 : (fun ω => (((X ω : ℝ) - r) ^ 2 / r) ^ 2) = fun ω => (fun n : ℕ => ((n : ℝ) - r) ^ 4 / (r:ℝ) ^ 2) (X ω) := by
    funext ω
    simp only
    rw [div_pow, ← pow_mul]
  have hm : MemLp (fun ω => ((X ω : ℝ) - r) ^ 2 / r) 2 P := by
    rw [memLp_two_iff_integrable_sq, e4]
    · exact law_integrable h ((poisson_quart_integrable r).div_const _)
    · exact (Measurable.of_discrete (f := fun n : ℕ => ((n : ℝ) - r) ^ 2 / r)).comp_aemeasurable h.aemeasurable |>.aestronglyMeasurable
  have h1 : ∫ ω, ((X ω : ℝ) - r) ^ 2 / r ∂P = 1 := by
    rw [law_integral h (fun n : ℕ => ((n : ℝ) - r) ^ 2 / r), integral_div, (poisson_central r).2, div_self hr']
  refine ⟨hm, h1, ?_⟩
  rw [variance_eq_sub hm, h1]
  have : ∫ ω, ((fun ω => ((X ω : ℝ) - r) ^ 2 / r) ^ 2) ω ∂P = (3 * (r:ℝ) ^ 2 + r) / (r:ℝ) ^ 2 := by
    show ∫ ω, (((X ω : ℝ) - r) ^ 2 / r) ^ 2 ∂P = _
    rw [e4, law_integral h (fun n : ℕ => ((n : ℝ) - r) ^ 4 / (r:ℝ) ^ 2), integral_div, poisson_quart]
  rw [this]
  field_simp
  ring

end law

/-- **C136, Pearson's statistic of toy data.** In every reachable model with positive expectations, for every channel: compare the toy data sets
(independent Poisson numbers) with the Asimov data set by `pearson_chi2_test`, or by `default_chi2_test` with the errors of the Asimov data set. Both return the same
statistic; its average over toy data sets is exactly the number of bins, and its variance is `Σ (2 + 1/λ_i)`. -/
theorem C136_pearson (s : Sys) (h : s.Reachable) (S : ℕ → ChanSpec) (hS : ModelIs s S)
    (y : ∀ k, Fin (S k).K → ℝ) (θ : ∀ k, Fin (S k).K → Fin (S k).n → ℝ) (hp : ParamsAre s S y θ) (hT : NonZeroSums s S θ)
    (k : ℕ) (hk : k < s.m.chanIds.length) (hpos : ∀ i, 0 < presentIn S y θ k i)
    {Ω : Type} [MeasurableSpace Ω] (P : Measure Ω) (draw : Ω → ℕ → Vec → ℕ → ℕ)
    (hd : PoissonLaw P s S (presentIn S y θ) draw) (hi : IndepBins P s S (presentIn S y θ) draw)
    (pval : Fl → Fl → Fl) (dof : ℝ) (hdof : dof ≠ 0) :
    ∃ (hA : Hist) (H : Ω → Hist) (X : Ω → ℝ), s.w.asimov s.m.chanIds[k] false = .ok hA ∧
      (∀ ω, s.w.toy s.m.chanIds[k] (draw ω s.m.chanIds[k]) = .ok (H ω)) ∧
      (∀ ω, pearsonChi2Test pval (H ω).counts.data hA.counts.data (.fin dof) =
        .ok (.fin (X ω), .fin (X ω / dof), pval (.fin (X ω)) (.fin dof))) ∧
      (∀ ω, defaultChi2Test pval (H ω).counts.data hA.counts.data hA.binErrors.data (.fin dof) =
        .ok (.fin (X ω), .fin (X ω / dof), pval (.fin (X ω)) (.fin dof))) ∧
      MemLp X 2 P ∧ ∫ ω, X ω ∂P = (S k).n ∧ Var[X; P] = ∑ i, (2 + 1 / presentIn S y θ k i) := by
  set a := presentIn S y θ with ha
  have hP : IsProbabilityMeasure P := law_prob (hd k hk ⟨0, (hS k hk).2.1⟩)
  obtain ⟨-, hA, A1, A2, A3⟩ := channel_sets s h S hS y θ hp hT k hk (fun i => (hpos i).le) (fun _ _ => 0)
  have hH : ∀ ω, ∃ hh, s.w.toy s.m.chanIds[k] (draw ω s.m.chanIds[k]) = .ok hh ∧
      hh.counts.data = vec (fun i : Fin (S k).n => ((draw ω s.m.chanIds[k] (vec (a k)) i : ℕ) : ℝ)) :=
    fun ω => (channel_sets s h S hS y θ hp hT k hk (fun i => (hpos i).le) (draw ω s.m.chanIds[k])).1
  choose H H1 H2 using hH
  let Z : Fin (S k).n → Ω → ℝ := fun i ω => (((draw ω s.m.chanIds[k] (vec (a k)) i : ℕ) : ℝ) - a k i) ^ 2 / a k i
  have hr : ∀ i, ((a k i).toNNReal : ℝ) = a k i ∧ 0 < (a k i).toNNReal :=
    fun i => ⟨Real.coe_toNNReal _ (hpos i).le, Real.toNNReal_pos.mpr (hpos i)⟩
  have hZ : ∀ i, MemLp (Z i) 2 P ∧ ∫ ω, Z i ω ∂P = 1 ∧ Var[Z i; P] = 2 + 1 / a k i := by
    intro i
    have := chi_bin (hd k hk i) (hr i).2
    rw [(hr i).1] at this
    exact this
  have hind : Set.Pairwise (↑(Finset.univ : Finset (Fin (S k).n)) : Set (Fin (S k).n)) fun p q => Z p ⟂ᵢ[P] Z q := by
    intro p _ q _ hpq
    have := hi k hk k hk p q (Or.inr fun e => hpq (Fin.ext e))
    exact this.comp (φ := fun n : ℕ => ((n : ℝ) - a k p) ^ 2 / a k p) (ψ := fun n : ℕ => ((n : ℝ) - a k q) ^ 2 / a k q) .of_discrete .of_discrete
  have hX : (fun ω => ∑ i, Z i ω) = ∑ i, Z i := by funext ω; rw [Finset.sum_apply]
  refine ⟨hA, H, fun ω => ∑ i, Z i ω, A1, H1, fun ω => ?_, fun ω => ?_, ?_, ?_, ?_⟩
  · rw [H2, A2]
    obtain ⟨chi, c1, c2, -⟩ := C17_pearson pval (fun i : Fin (S k).n => ((draw ω s.m.chanIds[k] (vec (a k)) i : ℕ) : ℝ)) (a k) dof hpos hdof
    rw [c1, c2]
  · rw [H2, A2, A3]
    obtain ⟨chi, c1, c2, -⟩ := C17_default pval (fun i : Fin (S k).n => ((draw ω s.m.chanIds[k] (vec (a k)) i : ℕ) : ℝ)) (a k)
      (fun i => Real.sqrt (a k i)) dof (fun i => (Real.sqrt_pos.mpr (hpos i)).ne') hdof
    have : chi = ∑ i, Z i ω := by
      rw [c2]
      refine Finset.sum_congr rfl fun i _ => ?_
      rw [div_pow, Real.sq_sqrt (hpos i).le]
    rw [c1, this]
  · rw [hX]
    exact memLp_finsetSum' _ fun i _ => (hZ i).1
  · rw [integral_finsetSum _ fun i _ => (hZ i).1.integrable (by norm_num), Finset.sum_congr rfl fun i _ => (hZ i).2.1]
    simp
  · rw [hX, IndepFun.variance_sum (fun i _ => (hZ i).1) hind, Finset.sum_congr rfl fun i _ => (hZ i).2.2]

/-- sums of independent Poisson variables -/
theorem poisson_sum {Ω : Type} [MeasurableSpace Ω] {P : Measure Ω} [IsProbabilityMeasure P] {ι : Type} {X : ι → Ω → ℕ} {r : ι → ℝ≥0}
    (hX : ∀ i, HasLaw (X i) (poissonMeasure (r i)) P) (hi : iIndepFun X P) (t : Finset ι) :
    HasLaw (fun ω => ∑ i ∈ t, X i ω) (poissonMeasure (∑ i ∈ t, r i)) P := by
  induction t using Finset.induction_on with
  | empty =>
    have e : poissonMeasure (0 : ℝ≥0) = Measure.dirac 0 := by
      refine Measure.ext_of_singleton fun n => ?_
      rw [poissonMeasure_singleton]
      rcases n with _ | n <;> simp
    simp only [Finset.sum_empty, e]
    exact hasLaw_dirac_of_ae_eq (Filter.Eventually.of_forall fun _ => rfl)
  | insert i t hit ih =>
    have h1 : IndepFun (X i) (fun ω => ∑ j ∈ t, X j ω) P := by
      have := (hi.indepFun_finsetSum_of_notMem₀ (fun i => (hX i).aemeasurable) hit).symm
      have e : (∑ j ∈ t, X j) = fun ω => ∑ j ∈ t, X j ω := by funext ω; rw [Finset.sum_apply]
      rw [e] at this
      exact this
    have h2 := h1.hasLaw_add_poissonMeasure (hX i) ih
    rw [Finset.sum_insert hit]
    have e : (fun ω => ∑ j ∈ insert i t, X j ω) = X i + fun ω => ∑ j ∈ t, X j ω := by
      funext ω; rw [Finset.sum_insert hit]; rfl
    rw [e]
    exact h2

/-- **C136, event numbers.** In every reachable model whose expectations are not negative, for every channel: if the generator returns mutually independent Poisson numbers,
the total number of events of the toy data set is a Poisson number whose mean is the sum of the yields of the templates of the channel. -/
theorem C136_total (s : Sys) (h : s.Reachable) (S : ℕ → ChanSpec) (hS : ModelIs s S)
    (y : ∀ k, Fin (S k).K → ℝ) (θ : ∀ k, Fin (S k).K → Fin (S k).n → ℝ) (hp : ParamsAre s S y θ) (hT : NonZeroSums s S θ)
    (k : ℕ) (hk : k < s.m.chanIds.length) (hnn : ∀ i, 0 ≤ presentIn S y θ k i)
    {Ω : Type} [MeasurableSpace Ω] (P : Measure Ω) (draw : Ω → ℕ → Vec → ℕ → ℕ)
    (hd : PoissonLaw P s S (presentIn S y θ) draw)
    (hi : iIndepFun (fun (i : Fin (S k).n) ω => draw ω s.m.chanIds[k] (vec (presentIn S y θ k)) i) P) :
    ∃ (H : Ω → Hist) (N : Ω → ℕ), (∀ ω, s.w.toy s.m.chanIds[k] (draw ω s.m.chanIds[k]) = .ok (H ω)) ∧
      (∀ ω, npSum (H ω).counts.data = .fin (N ω)) ∧ HasLaw N (poissonMeasure (∑ j, y k j).toNNReal) P := by
  set a := presentIn S y θ with ha
  have hP : IsProbabilityMeasure P := law_prob (hd k hk ⟨0, (hS k hk).2.1⟩)
  have hH : ∀ ω, ∃ hh, s.w.toy s.m.chanIds[k] (draw ω s.m.chanIds[k]) = .ok hh ∧
      hh.counts.data = vec (fun i : Fin (S k).n => ((draw ω s.m.chanIds[k] (vec (a k)) i : ℕ) : ℝ)) :=
    fun ω => (channel_sets s h S hS y θ hp hT k hk hnn (draw ω s.m.chanIds[k])).1
  choose H H1 H2 using hH
  refine ⟨H, fun ω => ∑ i : Fin (S k).n, draw ω s.m.chanIds[k] (vec (a k)) i, H1, fun ω => ?_, ?_⟩
  · rw [H2, npSum, vec_sum]
    push_cast
    rfl
  · have h1 := poisson_sum (fun i => hd k hk i) hi Finset.univ
    have e : ∑ i, (a k i).toNNReal = (∑ j, y k j).toNNReal := by
      rw [← Real.toNNReal_sum_of_nonneg fun i _ => hnn i]
      congr 1
      rw [ha]
      unfold presentIn
      rw [Finset.sum_comm]
      refine Finset.sum_congr rfl fun j _ => ?_
      rw [← Finset.mul_sum, ← Finset.sum_div, div_self (hT k hk j), mul_one]
    rw [e] at h1
    exact h1

/-- non-vacuity of C136: the second channel of the two-channel example (template 2, 4 with yield 6), with a generator of independent Poisson numbers: the average of
Pearson's statistic is 2, its variance `2 + 1/2 + 2 + 1/4`, and the number of events is Poisson with mean 6 -/
example : ∃ (Ω : Type) (_ : MeasurableSpace Ω) (P : Measure Ω) (draw : Ω → ℕ → Vec → ℕ → ℕ) (hA : Hist) (H : Ω → Hist) (X : Ω → ℝ) (N : Ω → ℕ),
    Ex.sysQ.w.asimov 1 false = .ok hA ∧ (∀ ω, Ex.sysQ.w.toy 1 (draw ω 1) = .ok (H ω)) ∧
    (∀ ω, pearsonChi2Test (fun _ _ => .fin 0) (H ω).counts.data hA.counts.data (.fin 2) = .ok (.fin (X ω), .fin (X ω / 2), .fin 0)) ∧
    ∫ ω, X ω ∂P = 2 ∧ Var[X; P] = (2 + 1 / 2) + (2 + 1 / 4) ∧
    (∀ ω, npSum (H ω).counts.data = .fin (N ω)) ∧ HasLaw N (poissonMeasure 6) P := by
  obtain ⟨Ω, mΩ, P, draw, h1, h2, h3⟩ := poisson_gen Ex.sysQ (reachable_wf Ex.sysQ_built.reachable) Ex.SQ (presentIn Ex.SQ Ex.yQ fun _ _ _ => 0)
  have hT0 : NonZeroSums Ex.sysQ Ex.SQ (fun _ _ _ => 0) := by
    intro k hk j
    simpa using Ex.sumsQ k hk j
  have hk : 1 < Ex.sysQ.m.chanIds.length := by simp [Ex.sysQ, Ex.mQ, Mct.chanIds]
  have hc1 : Ex.sysQ.m.chanIds[1] = 1 := by simp [Ex.sysQ, Ex.mQ, Mct.chanIds]
  have hval : ∀ i : Fin 2, presentIn Ex.SQ Ex.yQ (fun _ _ _ => 0) 1 i = (![2, 4] : Fin 2 → ℝ) i := by
    intro i
    show ∑ j : Fin 1, 6 * ((![2, 4] : Fin 2 → ℝ) i * (1 + 0 * _) / ∑ i', (![2, 4] : Fin 2 → ℝ) i' * (1 + 0 * _)) = _
    fin_cases i <;> simp [Fin.sum_univ_two] <;> norm_num
  have hpos : ∀ i : Fin 2, 0 < presentIn Ex.SQ Ex.yQ (fun _ _ _ => 0) 1 i := by
    intro i; rw [hval]; fin_cases i <;> simp
  obtain ⟨hA, H, X, a1, a2, a3, -, -, a6, a7⟩ := C136_pearson Ex.sysQ Ex.sysQ_built.reachable Ex.SQ Ex.modelQ Ex.yQ _ Ex.paramsQ hT0 1 hk hpos P draw h1 h2
    (fun _ _ => .fin 0) 2 two_ne_zero
  obtain ⟨H', N, b1, b2, b3⟩ := C136_total Ex.sysQ Ex.sysQ_built.reachable Ex.SQ Ex.modelQ Ex.yQ _ Ex.paramsQ hT0 1 hk (fun i => (hpos i).le) P draw h1 (h3 1 hk)
  rw [hc1] at a1
  simp only [hc1] at a2 b1
  have hHH : ∀ ω, H' ω = H ω := fun ω => Except.ok.inj ((b1 ω).symm.trans (a2 ω))
  refine ⟨Ω, mΩ, P, draw, hA, H, X, N, a1, a2, a3, by rw [a6]; rfl, ?_, fun ω => by rw [← hHH]; exact b2 ω, ?_⟩
  · rw [a7]
    have : ∀ f : Fin 2 → ℝ, (∀ i, f i = (![2, 4] : Fin 2 → ℝ) i) → ∑ i : Fin 2, (2 + 1 / f i) = (2 + 1 / 2) + (2 + 1 / 4) := by
      intro f hf
      rw [Fin.sum_univ_two, hf, hf]
      simp
    exact this _ hval
  · have : (∑ j, Ex.yQ 1 j).toNNReal = 6 := by
      show (∑ j : Fin 1, (6:ℝ)).toNNReal = 6
      simp
    rw [this] at b3
    exact b3

end

end TF.Props
