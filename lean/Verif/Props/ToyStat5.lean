import Verif.Props.ToyStat4

set_option linter.unusedSimpArgs false

namespace TF.Props

open Classical Spec MeasureTheory ProbabilityTheory
open scoped Matrix NNReal

noncomputable section

theorem expectedIn_const {s : Sys} {S : ℕ → ChanSpec} {θ : ∀ k, Fin (S k).K → Fin (S k).n → ℝ} (x : ℝ) (k : ℕ) (i : Fin (S k).n) :
    expectedIn s S (fun _ => x) θ k i = x * expectedIn s S (fun _ => 1) θ k i := by
  have := expectedIn_comb s S (fun _ => 1) (fun _ => 1) θ x 0 k i
  simp only [mul_one, zero_mul, add_zero] at this
  exact this

/-- one process: the likelihood with fixed nuisance parameters is smallest at the number of events divided by the acceptance -/
theorem one_min {s : Sys} (hw : SysWF s) {S : ℕ → ChanSpec} (hS : ModelIs s S)
    {d : ∀ k, Fin (S k).n → ℝ} (hd0 : ∀ k < s.m.chanIds.length, ∀ i, 0 ≤ d k i)
    (hnc : s.m.constrained = []) {p : String} (hone : s.m.processes = [p])
    {θ : ∀ k, Fin (S k).K → Fin (S k).n → ℝ} (hg : ∀ k < s.m.chanIds.length, ∀ i, 0 < expectedIn s S (fun _ => 1) θ k i)
    {A N : ℝ} (hA : A = ∑ k ∈ Finset.range s.m.chanIds.length, ∑ i, expectedIn s S (fun _ => 1) θ k i) (hA0 : 0 < A)
    (hN : N = ∑ k ∈ Finset.range s.m.chanIds.length, ∑ i, d k i) :
    DataCovered s S d θ (fun _ => N / A) ∧ ∀ x, 0 ≤ x → DataCovered s S d θ (fun _ => x) →
      nllAt s S d (fun _ => 0) (fun _ => 1) θ (fun _ => N / A) ≤ nllAt s S d (fun _ => 0) (fun _ => 1) θ (fun _ => x) := by
  have hN0 : 0 ≤ N := by
    rw [hN]; exact Finset.sum_nonneg fun k hk => Finset.sum_nonneg fun i _ => hd0 k (Finset.mem_range.mp hk) i
  have hle : ∀ k < s.m.chanIds.length, ∀ i, d k i ≤ N := by
    intro k hk i
    rw [hN]
    refine le_trans ?_ (Finset.single_le_sum (f := fun k => ∑ i, d k i) (fun k hk => Finset.sum_nonneg fun i _ => hd0 k (Finset.mem_range.mp hk) i) (Finset.mem_range.mpr hk))
    exact Finset.single_le_sum (f := fun i => d k i) (fun i _ => hd0 k hk i) (Finset.mem_univ i)
  have hcov : DataCovered s S d θ (fun _ => N / A) := by
    intro k hk i hdi
    rw [expectedIn_const]
    have h1 := lt_of_lt_of_le (lt_of_le_of_ne (hd0 k hk i) (Ne.symm hdi)) (hle k hk i)
    have := hg k hk i
    positivity
  refine ⟨hcov, fun x hx hcx => ?_⟩
  have hall : ∀ x, 0 ≤ x → DataCovered s S d θ (fun _ => x) → Allowed s S d θ (fun _ => x) := by
    intro x hx hc k hk i
    by_cases h0 : d k i = 0
    · rcases hx.lt_or_eq with h1 | h1
      · left; rw [expectedIn_const]; exact mul_pos h1 (hg k hk i)
      · right; refine ⟨h0, ?_⟩; rw [expectedIn_const, ← h1, zero_mul]
    · left; exact hc k hk i h0
  have hc : ConstraintsAre s (fun _ => 0) (fun _ => 1) := by
    intro p hp; rw [hnc] at hp; cases hp
  have ht := nllAt_tangent hw hS hd0 hc (hall _ (div_nonneg hN0 hA0.le) hcov) (hall x hx hcx)
  have hsl := slope_by_process hw hS (d := d) hc (θ := θ) (fun _ => N / A) (fun _ => 1)
  rw [hone] at ht hsl
  simp only [hnc, List.map_nil, List.sum_nil, add_zero, List.toFinset_cons, List.toFinset_nil, insert_empty_eq, Finset.sum_singleton, one_mul] at ht hsl
  rw [← hsl] at ht
  refine le_trans (le_add_of_nonneg_right ?_) ht
  rcases hN0.lt_or_eq with h1 | h1
  · have : ∑ k ∈ Finset.range s.m.chanIds.length, ∑ i, (1 - d k i / expectedIn s S (fun _ => N / A) θ k i) * expectedIn s S (fun _ => 1) θ k i = 0 := by
      have e : ∀ k ∈ Finset.range s.m.chanIds.length, ∑ i, (1 - d k i / expectedIn s S (fun _ => N / A) θ k i) * expectedIn s S (fun _ => 1) θ k i =
          ∑ i, expectedIn s S (fun _ => 1) θ k i - (∑ i, d k i) * (A / N) := by
        intro k hk
        rw [Finset.sum_mul, ← Finset.sum_sub_distrib]
        refine Finset.sum_congr rfl fun i _ => ?_
        have := hg k (Finset.mem_range.mp hk) i
        rw [expectedIn_const (N / A)]
        field_simp
      rw [Finset.sum_congr rfl e, Finset.sum_sub_distrib, ← hA, ← Finset.sum_mul, ← hN]
      field_simp
      ring
    rw [this, mul_zero]
  · rw [← h1, zero_div, sub_zero]
    refine mul_nonneg hx (Finset.sum_nonneg fun k hk => Finset.sum_nonneg fun i _ => ?_)
    have hk := Finset.mem_range.mp hk
    have : d k i = 0 := le_antisymm (h1 ▸ hle k hk i) (hd0 k hk i)
    rw [this, zero_div, sub_zero, one_mul]
    exact (hg k hk i).le

/-- … and the fit returns there: with the yield bounded from below by zero, the nuisance parameters fixed, and an optimiser that finds the minimum whenever there is one -/
theorem one_fit_at (s : Sys) (h : s.Built) (hne : s.m.channels ≠ []) (S : ℕ → ChanSpec) (hS : ModelIs s S)
    (d : ∀ k, Fin (S k).n → ℝ) (hd : DataIs s S d) (hpos : ∀ k < s.m.chanIds.length, ∀ i, d k i = 0 ∨ (1e-100 : ℝ) ≤ d k i)
    (hnc : s.m.constrained = []) (p : String) (hone : s.m.processes = [p]) (hused : AllUsed s S)
    (heff : ∀ k < s.m.chanIds.length, ∀ j, 0 ≤ (S k).eff j)
    (θ : ∀ k, Fin (S k).K → Fin (S k).n → ℝ) (hT : NonZeroSums s S θ) (hfr : ∀ k < s.m.chanIds.length, ∀ j i, 0 ≤ fracIn S θ k j i)
    (hg : ∀ k < s.m.chanIds.length, ∀ i, 0 < expectedIn s S (fun _ => 1) θ k i)
    (ν₀ : String → ℝ) (hx0 : s.m.x0 s.w = .ok (paramVec s S ν₀ θ))
    (pid : ParamId) (hden : Denotes (s.m.paramNames s.w) pid 0) :
    ∃ r, ((fitRun "iminuit" [.bound pid (some (.fin 0), none)]).doFit Ex.optMin s.w s.m false true true none).1 = .ok r ∧ (∃ v : ℝ, r.fval = .fin v) ∧
      ∃ x : ℝ, 0 ≤ x ∧ r.params.values = paramVec s S (fun _ => x) θ := by
  have hw := reachable_wf h.reachable
  have hal := C51_aligned s h.reachable
  have hN0 : 0 < s.m.chanIds.length := by
    rw [List.length_pos_iff]; simpa [Mct.chanIds] using hne
  have hnp : s.m.numProcesses = 1 := by simp [Mct.numProcesses, hone]
  have hk : KnownIds (s.m.paramNames s.w) [.bound pid (some (.fin 0), none)] := by
    constructor
    · intro pid h; simp at h
    · intro q b h
      simp at h
      exact ⟨0, by rw [h.1]; exact hden⟩
  have hc : ConstraintsAre s (fun _ => 0) (fun _ => 1) := by
    intro p hp; rw [hnc] at hp; cases hp
  have hd0 : ∀ k < s.m.chanIds.length, ∀ i, 0 ≤ d k i := by
    intro k hk i
    rcases hpos k hk i with h1 | h1
    · exact h1.ge
    · exact le_trans (by norm_num) h1
  have hA0 : 0 < ∑ k ∈ Finset.range s.m.chanIds.length, ∑ i, expectedIn s S (fun _ => 1) θ k i := by
    refine Finset.sum_pos (fun k hk => ?_) ⟨0, Finset.mem_range.mpr hN0⟩
    have hk := Finset.mem_range.mp hk
    exact Finset.sum_pos (fun i _ => hg k hk i) ⟨⟨0, (hS k hk).2.1⟩, Finset.mem_univ _⟩
  obtain ⟨hcov, hmin⟩ := one_min hw hS hd0 hnc hone hg rfl hA0 rfl
  set X : ℝ := (∑ k ∈ Finset.range s.m.chanIds.length, ∑ i, d k i) / ∑ k ∈ Finset.range s.m.chanIds.length, ∑ i, expectedIn s S (fun _ => 1) θ k i with hX
  have hX0 : 0 ≤ X := div_nonneg (Finset.sum_nonneg fun k hk => Finset.sum_nonneg fun i _ => hd0 k (Finset.mem_range.mp hk) i) hA0.le
  have hpv : ∀ ν : String → ℝ, paramVec s S ν θ = .fin (ν p) :: (paramVec s S ν₀ θ).drop 1 := by
    intro ν; unfold paramVec; rw [hone]; rfl
  have hlen : ∀ ν, (paramVec s S ν θ).length = (s.m.paramNames s.w).length := by
    intro ν; rw [paramVec_length hw hS ν θ, hal.1]
  obtain ⟨c, c1, c2, c3, c4, c5, c6⟩ := C64_iminuit s h.reachable "iminuit" lower_iminuit _ hk _ hx0 true true none
  have hn0 : 0 < (s.m.paramNames s.w).length := by rw [← hlen ν₀, hpv]; simp
  obtain ⟨b, hb, hcb⟩ := c5 0 hn0 (by intro p q b c hp hq _ _; simp at hp hq; rw [hp.1, hq.1])
  have hb : b = (some (.fin 0), none) := by
    rcases hb with ⟨pre, op, post, he, ⟨pid', rfl, _⟩, _⟩ | ⟨hu, _⟩
    · have : FitOp.bound pid' b ∈ [FitOp.bound pid (some (.fin 0), none)] := by rw [he]; simp
      simp at this; exact this.2
    · exact absurd hden (hu pid (some (.fin 0), none) (by simp))
  subst hb
  have f0 : c.fix[0]? ≠ some true := by
    rw [c4]
    simp [hnp, WantedFixed, FitFixed]
    intro x hx
    have := (List.getElem?_eq_some_iff.mp hx).2
    simpa using this.symm
  have f1 : ∀ q, 1 ≤ q → q < (s.m.paramNames s.w).length → c.fix[q]? = some true := by
    intro q h1 h2
    rw [c4]
    simp [hnp, WantedFixed, h1, h2]
  have hform : ∀ y, MFeasible c y → ∃ v, y = v :: (paramVec s S ν₀ θ).drop 1 ∧ (v = .pinf ∨ ∃ x : ℝ, 0 ≤ x ∧ v = .fin x) := by
    rintro y ⟨y1, y2⟩
    rw [c3] at y1 y2
    match y, y1 with
    | [], y1 => simp at y1; omega
    | v :: ys, y1 =>
      refine ⟨v, ?_, ?_⟩
      · congr 1
        apply List.ext_getElem?
        intro q
        rw [List.getElem?_drop]
        by_cases hq : 1 + q < (s.m.paramNames s.w).length
        · have := (y2 (1 + q) hq).1 (f1 (1 + q) (by omega) hq)
          rw [c2, Nat.add_comm 1 q, List.getElem?_cons_succ] at this
          rw [this, Nat.add_comm]
        · rw [List.getElem?_eq_none (by simp at y1; omega), List.getElem?_eq_none (by rw [hlen]; omega)]
      · have := ((y2 0 hn0).2 f0 _ _ hcb rfl).1 _ rfl
        cases v with
        | fin x =>
          right
          refine ⟨x, ?_, rfl⟩
          rcases this with h | h
          · exact le_of_lt h
          · exact le_of_eq h
        | nan => rcases this with h | h <;> exact absurd h id
        | ninf => rcases this with h | h <;> exact absurd h id
        | pinf => left; rfl
  have hfX : MFeasible c (paramVec s S (fun _ => X) θ) := by
    refine ⟨by rw [hlen, c3], fun q hq => ?_⟩
    rw [c3] at hq
    rw [c2, hpv fun _ => X, hpv ν₀]
    cases q with
    | zero =>
      refine ⟨fun h => absurd h f0, fun _ b v hb hv => ?_⟩
      rw [hcb] at hb
      injection hb with hb
      subst hb
      injection hv with hv
      subst hv
      refine ⟨fun lo hl => ?_, fun hi hh => by cases hh⟩
      injection hl with hl; subst hl
      rcases hX0.lt_or_eq with h1 | h1
      · exact Or.inl h1
      · exact Or.inr h1
    | succ q => exact ⟨fun _ => rfl, fun h => absurd (f1 (q + 1) (by omega) hq) h⟩
  have hvX := objective_nllAt' h hne hS hd hpos hc hT hcov
  -- what the likelihood can be at an admissible point
  have hval : ∀ y v, MFeasible c y → objective s.w s.m y = .ok v → v = .nan ∨ v = .pinf ∨
      ∃ a : ℝ, v = .fin a ∧ nllAt s S d (fun _ => 0) (fun _ => 1) θ (fun _ => X) ≤ a := by
    intro y v hy hv
    obtain ⟨u, e1, e2⟩ := hform y hy
    have hyl : y.length = s.m.numProcesses + s.m.numNui s.w := by rw [hy.1, c3, hal.1]
    cases v with
    | nan => exact .inl rfl
    | pinf => exact .inr (.inl rfl)
    | ninf =>
      exfalso
      refine C105_not_ninf s h hne S hS d hd hpos _ _ hc heff θ hT hfr y hyl ?_ ?_ hv
      · rw [hnp, e1, hpv fun _ => 0]; rfl
      · rw [hnp, e1]
        rcases e2 with rfl | ⟨x, -, rfl⟩ <;> simp
    | fin a =>
      right; right
      refine ⟨a, rfl, ?_⟩
      obtain ⟨ν, θ', g1, g2, g3⟩ := (C104_domain s h hne S hS d hd hpos _ _ hc hused y hyl).mp ⟨a, hv⟩
      have hu : y[0]? = some (.fin (ν p)) := by
        rw [g1]; unfold paramVec; rw [hone]; simp
      rw [e1] at hu
      simp only [List.getElem?_cons_zero, Option.some.injEq] at hu
      rcases e2 with rfl | ⟨x, hx, rfl⟩
      · cases hu
      · have e1' : y = paramVec s S (fun _ => x) θ := by rw [e1, hpv fun _ => x]
        have hcx : DataCovered s S d θ (fun _ => x) := by
          have hth : ∀ k < s.m.chanIds.length, θ' k = θ k := by
            intro k hk
            funext j i
            have h1 := paramVec_nui hw hS ν θ' k hk j i
            have h2 := paramVec_nui hw hS (fun _ => x) θ k hk j i
            rw [← g1, e1', h2] at h1
            exact (Fl.fin.inj (Option.some.inj h1)).symm
          have hνx : ∀ k < s.m.chanIds.length, ∀ j : Fin (S k).K, ν (procName s k j) = x := by
            intro k hk j
            have := procName_mem hw hS k hk j
            rw [hone] at this
            rw [List.mem_singleton.mp this]
            exact (Fl.fin.inj hu).symm
          intro k hk i hdi
          have h1 := g3 k hk i hdi
          rw [expectedIn_eq] at h1 ⊢
          refine lt_of_lt_of_eq h1 (Finset.sum_congr rfl fun j _ => ?_)
          rw [hνx k hk j]
          unfold fracIn
          rw [hth k hk]
        have := objective_nllAt' h hne hS hd hpos hc hT hcx
        rw [← e1', hv] at this
        rw [Fl.fin.inj (Except.ok.inj this)]
        exact hmin x hx hcx
  obtain ⟨r', g1, g2⟩ := Ex.optMin_ok (c := c) (r := ⟨⟨true, true, true⟩, ⟨true, true, true⟩, .fin (nllAt s S d (fun _ => 0) (fun _ => 1) θ (fun _ => X)),
      paramVec s S (fun _ => X) θ, paramVec s S (fun _ => X) θ, .ok (Mat.zeros 1 1, Mat.zeros 1 1)⟩) (by
    refine ⟨hfX, by rw [c1]; exact hvX, by simp, ?_, by show List.length (paramVec s S (fun _ => X) θ) = _; rw [hlen, c3], _, _, rfl⟩
    intro y v hy hv
    rw [c1] at hv
    rcases hval y v hy hv with rfl | rfl | ⟨a, rfl, ha⟩
    · exact id
    · exact id
    · exact not_lt.mpr ha)
  obtain ⟨C, R, hm⟩ := g2.2.2.2.2.2
  have hfit := (c6 Ex.optMin).2 r' C R g1 (by rw [← c3]; exact g2.1.1) (by rw [← c3]; exact g2.2.2.2.2.1) hm
  have hv' := g2.2.1
  rw [c1] at hv'
  have hfv : ∃ a : ℝ, r'.fval = .fin a := by
    rcases hval _ _ g2.1 hv' with e | e | ⟨a, e, -⟩
    · exact absurd e g2.2.2.1
    · have := g2.2.2.2.1 _ _ hfX (by rw [c1]; exact hvX)
      rw [e] at this
      exact absurd trivial this
    · exact ⟨a, e⟩
  refine ⟨_, hfit, hfv, ?_⟩
  obtain ⟨u, e1, e2⟩ := hform _ g2.1
  rcases e2 with rfl | ⟨x, hx, rfl⟩
  · exfalso
    obtain ⟨a, ha⟩ := hfv
    rw [ha] at hv'
    obtain ⟨ν, θ', k1, -⟩ := (C104_domain s h hne S hS d hd hpos _ _ hc hused _ (by rw [g2.1.1, c3, hal.1])).mp ⟨a, hv'⟩
    have hu : r'.values[0]? = some (.fin (ν p)) := by
      rw [k1]; unfold paramVec; rw [hone]; simp
    rw [e1] at hu
    simp at hu
  · exact ⟨x, hx, by show r'.values = _; rw [e1, hpv fun _ => x]⟩

theorem one_fit (s : Sys) (h : s.Built) (hne : s.m.channels ≠ []) (S : ℕ → ChanSpec) (hS : ModelIs s S)
    (d : ∀ k, Fin (S k).n → ℝ) (hd : DataIs s S d) (hpos : ∀ k < s.m.chanIds.length, ∀ i, d k i = 0 ∨ (1e-100 : ℝ) ≤ d k i)
    (hnc : s.m.constrained = []) (p : String) (hone : s.m.processes = [p]) (hused : AllUsed s S)
    (heff : ∀ k < s.m.chanIds.length, ∀ j, 0 ≤ (S k).eff j)
    (θ : ∀ k, Fin (S k).K → Fin (S k).n → ℝ) (hT : NonZeroSums s S θ) (hfr : ∀ k < s.m.chanIds.length, ∀ j i, 0 ≤ fracIn S θ k j i)
    (hg : ∀ k < s.m.chanIds.length, ∀ i, 0 < expectedIn s S (fun _ => 1) θ k i)
    (ν₀ : String → ℝ) (hx0 : s.m.x0 s.w = .ok (paramVec s S ν₀ θ))
    (pid : ParamId) (hden : Denotes (s.m.paramNames s.w) pid 0) :
    ∃ r, ((fitRun "iminuit" [.bound pid (some (.fin 0), none)]).doFit Ex.optMin s.w s.m false true true none).1 = .ok r ∧ (∃ v : ℝ, r.fval = .fin v) ∧
      ∃ x : ℝ, 0 ≤ x ∧ r.params.values[0]? = some (.fin x) := by
  obtain ⟨r, h1, h2, x, h3, h4⟩ := one_fit_at s h hne S hS d hd hpos hnc p hone hused heff θ hT hfr hg ν₀ hx0 pid hden
  refine ⟨r, h1, h2, x, h3, ?_⟩
  rw [h4]; unfold paramVec; rw [hone]; rfl

/-- such generators exist: mutually independent Poisson numbers with any requested means -/
theorem poisson_gen_all (s : Sys) (hw : SysWF s) (S : ℕ → ChanSpec) (a : ∀ k, Fin (S k).n → ℝ) :
    ∃ (Ω : Type) (_ : MeasurableSpace Ω) (P : Measure Ω) (draw : Ω → ℕ → Vec → ℕ → ℕ), PoissonLaw P s S a draw ∧ MutuallyIndep P s S a draw := by
  let rr : ℕ → ℕ → ℝ≥0 := fun k j => if hi : j < (S k).n then (a k ⟨j, hi⟩).toNNReal else 0
  let r : ℕ × ℕ → ℝ≥0 := fun q => rr (s.m.chanIds.idxOf q.1) q.2
  have hnd : s.m.chanIds.Nodup := hw.chIds
  have hr : ∀ k (hk : k < s.m.chanIds.length) (i : Fin (S k).n), r (s.m.chanIds[k], i) = (a k i).toNNReal := by
    intro k hk i
    have e : s.m.chanIds.idxOf s.m.chanIds[k] = k := List.Nodup.idxOf_getElem hnd k hk
    show rr (s.m.chanIds.idxOf s.m.chanIds[k]) i = _
    rw [e]
    simp only [rr, i.2, dite_true]
  refine ⟨ℕ × ℕ → ℕ, inferInstance, Measure.infinitePi fun q => poissonMeasure (r q), fun ω c _ i => ω (c, i), ?_, ?_⟩
  · intro k hk i
    rw [← hr k hk i]
    exact (measurePreserving_eval_infinitePi (fun q => poissonMeasure (r q)) (s.m.chanIds[k], (i:ℕ))).hasLaw
  · have := iIndepFun_infinitePi (P := fun q : ℕ × ℕ => poissonMeasure (r q)) (X := fun _ => id) (fun _ => measurable_id)
    refine this.precomp (g := fun q : Σ k : Fin s.m.chanIds.length, Fin (S k).n => (s.m.chanIds[q.1], (q.2:ℕ))) ?_
    rintro ⟨k, i⟩ ⟨k', i'⟩ e
    simp only [Prod.mk.injEq] at e
    obtain ⟨e1, e2⟩ := e
    have : k = k' := Fin.ext ((List.Nodup.getElem_inj_iff hnd).mp e1)
    subst this
    rw [Fin.ext e2]

/-- non-vacuity of C137: the two-channel example with the true yield 8, the fitted yield bounded from below by 0, and an optimiser that finds every minimum. The fit of every toy data set returns,
and the fitted yield has the average 8 and the variance 8. -/
example : ∃ (Ω : Type) (_ : MeasurableSpace Ω) (P : Measure Ω) (draw : Ω → ℕ → Vec → ℕ → ℕ) (r : Ω → MinResult) (Y : Ω → ℝ),
    (∀ ω, ((fitRun "iminuit" [.bound (.str "p_yield") (some (.fin 0), none)]).doFit Ex.optMin (Ex.sysQ.step (.addToy (draw ω))).w
      (Ex.sysQ.step (.addToy (draw ω))).m false true true none).1 = .ok (r ω)) ∧
    (∀ᵐ ω ∂P, (r ω).params.values[0]? = some (.fin (Y ω))) ∧ ∫ ω, Y ω ∂P = 8 ∧ Var[Y; P] = 8 := by
  obtain ⟨Ω, mΩ, P, draw, h1, h2⟩ := poisson_gen_all Ex.sysQ (reachable_wf Ex.sysQ_built.reachable) Ex.SQ (presentIn Ex.SQ Ex.yQ fun _ _ _ => 0)
  have htup : ∀ c ∈ Ex.sysQ.m.chanIds, AllTuple (Ex.sysQ.w.chans c).range := by
    simp [Ex.sysQ, Ex.mQ, Mct.chanIds, Ex.wQ, Ex.chQa, Ex.chQb, AllTuple]
  have hne : Ex.sysQ.m.channels ≠ [] := by simp [Ex.sysQ, Ex.mQ]
  have hnc : Ex.sysQ.m.constrained = [] := by simp [Ex.sysQ, Ex.mQ]
  have hone : Ex.sysQ.m.processes = ["p"] := by simp [Ex.sysQ, Ex.mQ]
  have hT0 : NonZeroSums Ex.sysQ Ex.SQ (fun _ _ _ => 0) := by
    intro k hk j
    simpa using Ex.sumsQ k hk j
  have hpos' : ∀ k < Ex.sysQ.m.chanIds.length, ∀ i, 0 < presentIn Ex.SQ Ex.yQ (fun _ _ _ => 0) k i := by
    intro k hk i
    refine lt_of_lt_of_le (by norm_num : (0:ℝ) < 1e-100) ((Ex.posQ k hk i).trans_eq ?_)
    simp [presentIn]
  have hν : ∀ p ∈ Ex.sysQ.m.processes, Ex.sysQ.m.getYield Ex.sysQ.w p = .ok (.fin ((fun _ => 8 : String → ℝ) p)) := by
    simp only [Ex.sysQ]; intro p hp; simp [Ex.mQ] at hp; subst hp; exact Ex.yieldQ
  have hused := allUsed_of_identifiable Ex.identQ
  have hg : ∀ k < Ex.sysQ.m.chanIds.length, ∀ i, 0 < expectedIn Ex.sysQ Ex.SQ (fun _ => 1) (fun _ _ _ => 0) k i := by
    intro k hk i
    have e : expectedIn Ex.sysQ Ex.SQ (fun _ => 1) (fun _ _ _ => 0) k i = 1 / 8 * presentIn Ex.SQ Ex.yQ (fun _ _ _ => 0) k i := by
      rw [expectedIn_eq]
      unfold presentIn fracIn
      rw [Finset.mul_sum]
      refine Finset.sum_congr rfl fun j _ => ?_
      rw [Ex.shareQ k hk j]
      ring
    rw [e]
    have := hpos' k hk i
    positivity
  have heff : ∀ k < Ex.sysQ.m.chanIds.length, ∀ j, 0 ≤ (Ex.SQ k).eff j := by
    intro k hk
    rcases Ex.chanQ k hk with rfl | rfl
    · intro j; show (0:ℝ) ≤ 1/4; norm_num
    · intro j; show (0:ℝ) ≤ 3/4; norm_num
  have hfr : ∀ k < Ex.sysQ.m.chanIds.length, ∀ j i, 0 ≤ fracIn Ex.SQ (fun _ _ _ => 0) k j i := by
    intro k hk
    rcases Ex.chanQ k hk with rfl | rfl
    · intro j
      show ∀ i : Fin 2, 0 ≤ (![1, 1] : Fin 2 → ℝ) i * (1 + 0 * ((![1, 1] : Fin 2 → ℝ) i / (![1, 1] : Fin 2 → ℝ) i)) /
        ∑ i' : Fin 2, (![1, 1] : Fin 2 → ℝ) i' * (1 + 0 * ((![1, 1] : Fin 2 → ℝ) i' / (![1, 1] : Fin 2 → ℝ) i'))
      intro i
      fin_cases i <;> simp <;> norm_num
    · intro j i
      unfold fracIn
      have hc : ∀ i, 0 ≤ (Ex.SQ 1).cnt j i := by
        show ∀ i : Fin 2, 0 ≤ (![2, 4] : Fin 2 → ℝ) i
        intro i; fin_cases i <;> simp
      simp only [zero_mul, add_zero, mul_one]
      exact div_nonneg (hc i) (Finset.sum_nonneg fun i _ => hc i)
  have hfit : ∀ ω, ∃ r, ((fitRun "iminuit" [.bound (.str "p_yield") (some (.fin 0), none)]).doFit Ex.optMin (Ex.sysQ.step (.addToy (draw ω))).w
      (Ex.sysQ.step (.addToy (draw ω))).m false true true none).1 = .ok r ∧ (∃ v : ℝ, r.fval = .fin v) ∧
      ∃ x : ℝ, 0 ≤ x ∧ r.params.values[0]? = some (.fin x) := by
    intro ω
    obtain ⟨q1, q2, q3, q4, q5, q6, q7⟩ := toy_model Ex.sysQ Ex.sysQ_built Ex.SQ Ex.modelQ htup Ex.yQ _ Ex.paramsQ hT0 (fun k hk i => (hpos' k hk i).le) (draw ω)
    obtain ⟨n1, n2, n3⟩ := names_same (toy_same Ex.sysQ (draw ω)) Ex.sysQ.m
    refine one_fit _ q1 (by rw [q2]; exact hne) Ex.SQ q3 _ q4 (fun k _ i => toyData_floor k i) (by rw [q2]; exact hnc) "p" (by rw [q2]; exact hone)
      (by unfold AllUsed; simp only [q2, q6]; exact hused) (by rw [q2]; exact heff) (fun _ _ _ => 0) (by unfold NonZeroSums; rw [q2]; exact hT0) (by rw [q2]; exact hfr)
      (by rw [q2]; simp only [q7]; exact hg) (fun _ => 8) ?_ _ (by rw [q2, n1]; exact Ex.denQ)
    rw [q2, n3, q5]
    exact x0_eq Ex.sysQ Ex.sysQ_built.reachable hne Ex.SQ Ex.modelQ Ex.yQ _ Ex.paramsQ (fun _ => 8) hν
  choose r r1 r2 r3 using hfit
  have hmove : ∀ x : ℝ, 0 < x → MayMove Ex.sysQ [.bound (.str "p_yield") (some (.fin 0), none)] true none 0 x := by
    intro x hx
    have hbd : ∀ b, WantedBounds (Ex.sysQ.m.paramNames Ex.sysQ.w) [.bound (.str "p_yield") (some (.fin 0), none)] Ex.sysQ.m.numProcesses none 0 b →
        b = (some (.fin 0), none) := by
      rintro b (⟨pre, op, post, he, ⟨pid, rfl, _⟩, _⟩ | ⟨hu, _⟩)
      · have : FitOp.bound pid b ∈ [FitOp.bound (.str "p_yield") (some (.fin 0), none)] := by rw [he]; simp
        simp at this; exact this.2
      · exact absurd Ex.denQ (hu (.str "p_yield") (some (.fin 0), none) (by simp))
    have hfx : ¬ WantedFixed (Ex.sysQ.m.paramNames Ex.sysQ.w) [.bound (.str "p_yield") (some (.fin 0), none)] Ex.sysQ.m.numProcesses true 0 := by
      rintro (⟨pid, hp, -⟩ | ⟨-, hp⟩)
      · simp at hp
      · simp [Mct.numProcesses, hone] at hp
    refine ⟨⟨hfx, fun b hi hb hh => by rw [hbd b hb] at hh; cases hh⟩, ⟨hfx, fun b lo hb hh => ?_⟩⟩
    rw [hbd b hb] at hh
    rw [← Option.some.inj hh]
    exact hx
  obtain ⟨Y, y1, -, -, y4, y5⟩ := C137_yield Ex.sysQ Ex.sysQ_built hne Ex.SQ Ex.modelQ htup Ex.yQ _ Ex.paramsQ hT0 (fun k hk i => (hpos' k hk i).le) hnc "p" hone 8 Ex.shareQ
    1 (by
      have : Ex.sysQ.m.chanIds.length = 2 := by simp [Ex.sysQ, Ex.mQ, Mct.chanIds]
      rw [this, Finset.sum_range_succ, Finset.sum_range_one]
      show (1:ℝ) = (∑ j : Fin 1, 1/4) + ∑ j : Fin 1, 3/4
      simp; norm_num) one_pos P draw h1 h2 "iminuit" lower_iminuit [.bound (.str "p_yield") (some (.fin 0), none)]
    ⟨by simp, by intro q b h; simp at h; exact ⟨0, by rw [h.1]; exact Ex.denQ⟩⟩
    (by intro k _ p q b c hp hq _ _; simp at hp hq; rw [hp.1, hq.1]) (fun _ => Ex.optMin) (fun _ => Ex.optMin_true) false true true none r
    (Filter.Eventually.of_forall fun ω => ⟨r1 ω, r2 ω, fun x hx => by
      obtain ⟨x', h0, hx'⟩ := r3 ω
      rw [hx'] at hx
      obtain rfl := Fl.fin.inj (Option.some.inj hx)
      rcases h0.lt_or_eq with h | h
      · exact .inr (hmove _ h)
      · exact .inl h.symm⟩)
  exact ⟨Ω, mΩ, P, draw, r, Y, r1, y1, y4, by rw [y5]; norm_num⟩

end

end TF.Props
