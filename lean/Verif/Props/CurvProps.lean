import Verif.Props.MctProps16
import Verif.Props.FitterProps9
import Verif.Props.FitterProps17

set_option linter.unusedSimpArgs false

/-!
# Second derivatives of the likelihood (C131)
-/

namespace TF.Spec

open TF Classical
open scoped Matrix Topology

noncomputable section

/-- near `0`, `F` is a number with a derivative, and that derivative has the derivative `c` at `0`: `c` is the second derivative -/
def HasCurvature (F : ℝ → Except Err Fl) (c : ℝ) : Prop :=
  ∃ f g : ℝ → ℝ, (∀ᶠ t in 𝓝 0, F t = .ok (.fin (f t))) ∧ (∀ᶠ t in 𝓝 0, HasDerivAt f (g t) t) ∧ HasDerivAt g c 0

/-- change of the varied total of template `j` of channel `k` along `η`: `Σ_i c_i e_i η_i` -/
def totalSlope (S : ℕ → ChanSpec) (η : ∀ k, Fin (S k).K → Fin (S k).n → ℝ) (k : ℕ) (j : Fin (S k).K) : ℝ :=
  ∑ i, (S k).cnt j i * (S k).ε j i * η k j i

/-- varied total of template `j` of channel `k` -/
def totalOf (S : ℕ → ChanSpec) (θ : ∀ k, Fin (S k).K → Fin (S k).n → ℝ) (k : ℕ) (j : Fin (S k).K) : ℝ :=
  ∑ i, (S k).cnt j i * (1 + θ k j i * (S k).ε j i)

/-- derivative of the fraction `f_i = c_i (1 + θ_i e_i) / T` along `η`: `(c_i e_i η_i - f_i T') / T` -/
def fracSlope (S : ℕ → ChanSpec) (θ η : ∀ k, Fin (S k).K → Fin (S k).n → ℝ) (k : ℕ) (j : Fin (S k).K) (i : Fin (S k).n) : ℝ :=
  ((S k).cnt j i * (S k).ε j i * η k j i - fracIn S θ k j i * totalSlope S η k j) / totalOf S θ k j

/-- derivative of the expectation in bin `i` of channel `k` when the yields change by `δ` and the nuisance parameters by `η` -/
def slopeIn (s : Sys) (S : ℕ → ChanSpec) (ν δ : String → ℝ) (θ η : ∀ k, Fin (S k).K → Fin (S k).n → ℝ) (k : ℕ) (i : Fin (S k).n) : ℝ :=
  ∑ j : Fin (S k).K, (S k).eff j * (δ (procName s k j) * fracIn S θ k j i + ν (procName s k j) * fracSlope S θ η k j i)

/-- second derivative of the expectation -/
def bendIn (s : Sys) (S : ℕ → ChanSpec) (ν δ : String → ℝ) (θ η : ∀ k, Fin (S k).K → Fin (S k).n → ℝ) (k : ℕ) (i : Fin (S k).n) : ℝ :=
  ∑ j : Fin (S k).K, 2 * (S k).eff j * fracSlope S θ η k j i *
    (δ (procName s k j) - ν (procName s k j) * totalSlope S η k j / totalOf S θ k j)

/-- the textbook information in the direction `(δ, η)`: `Σ_bins n (λ'/λ)² + Σ_templates ηᵀ R⁻¹ η + Σ_constraints (δ/e)²` -/
def information (s : Sys) (S : ℕ → ChanSpec) (d : ∀ k, Fin (S k).n → ℝ) (E : String → ℝ) (ν δ : String → ℝ)
    (θ η : ∀ k, Fin (S k).K → Fin (S k).n → ℝ) : ℝ :=
  ∑ k ∈ Finset.range s.m.channels.length,
    ((∑ i, d k i * (slopeIn s S ν δ θ η k i / expectedIn s S ν θ k i) ^ 2) +
      ∑ j, (η k j) ⬝ᵥ (((S k).R j)⁻¹.mulVec (η k j))) +
  (s.m.constrained.map fun p => (δ p / E p) ^ 2).sum

/-- `A` is the matrix of second derivatives of `F` at `x`: symmetric, and along every straight line through `x` the second derivative
is `vᵀ A v` -/
def IsHesse {n : ℕ} (F : Vec → Except Err Fl) (x : Fin n → ℝ) (A : Matrix (Fin n) (Fin n) ℝ) : Prop :=
  A.IsSymm ∧ ∀ v : Fin n → ℝ, HasCurvature (fun t => F (vec fun i => x i + t * v i)) (v ⬝ᵥ A.mulVec v)

end

end TF.Spec

namespace TF.Props

open Classical Spec
open scoped Matrix Topology

noncomputable section

/-- the second derivative is unique -/
theorem HasCurvature_unique {F : ℝ → Except Err Fl} {c c' : ℝ} (h : HasCurvature F c) (h' : HasCurvature F c') : c = c' := by
  obtain ⟨f, g, h1, h2, h3⟩ := h
  obtain ⟨f', g', h1', h2', h3'⟩ := h'
  have e : f =ᶠ[𝓝 0] f' := by
    filter_upwards [h1, h1'] with t a b
    rw [a] at b
    exact Fl.fin.inj (Except.ok.inj b)
  have e2 : g =ᶠ[𝓝 0] g' := by
    filter_upwards [h2, h2', e.eventuallyEq_nhds] with t a b c
    exact a.unique (b.congr_of_eventuallyEq c)
  exact h3.unique (h3'.congr_of_eventuallyEq e2)

theorem expected_slope (s : Sys) (S : ℕ → ChanSpec) (ν δ : String → ℝ)
    (θ η : ∀ k, Fin (S k).K → Fin (S k).n → ℝ) (k : ℕ) (t : ℝ)
    (hT : ∀ j, totalOf S (fun k j i => θ k j i + t * η k j i) k j ≠ 0) (i : Fin (S k).n) :
    HasDerivAt (fun t : ℝ => expectedIn s S (fun p => ν p + t * δ p) (fun k j i => θ k j i + t * η k j i) k i)
      (slopeIn s S (fun p => ν p + t * δ p) δ (fun k j i => θ k j i + t * η k j i) η k i) t := by
  have h := expected_hasDeriv s S (fun p => ν p + t * δ p) δ (fun k j i => θ k j i + t * η k j i) η k hT i
  have h2 : HasDerivAt (fun u : ℝ => u - t) 1 t := by simpa using (hasDerivAt_id t).sub_const t
  have h0 : t - t = 0 := sub_self t
  have h3 := HasDerivAt.scomp t (h := fun u : ℝ => u - t) (by rw [h0]; exact h) h2
  have e : ((fun u => expectedIn s S (fun p => (ν p + t * δ p) + u * δ p) (fun k j i => (θ k j i + t * η k j i) + u * η k j i) k i) ∘ fun u : ℝ => u - t)
      = fun u : ℝ => expectedIn s S (fun p => ν p + u * δ p) (fun k j i => θ k j i + u * η k j i) k i := by
    funext u
    simp only [Function.comp]
    congr 1
    · funext p; ring
    · funext k j i; ring
  rw [e] at h3
  refine h3.congr_deriv ?_
  rw [one_smul]
  unfold slopeIn fracSlope totalSlope totalOf
  exact Finset.sum_congr rfl fun j _ => by ring

/-- the slope of the expectation changes at the rate `bendIn` -/
theorem slope_hasDeriv (s : Sys) (S : ℕ → ChanSpec) (ν δ : String → ℝ) (θ η : ∀ k, Fin (S k).K → Fin (S k).n → ℝ) (k : ℕ)
    (hT : ∀ j, totalOf S θ k j ≠ 0) (i : Fin (S k).n) :
    HasDerivAt (fun t : ℝ => slopeIn s S (fun p => ν p + t * δ p) δ (fun k j i => θ k j i + t * η k j i) η k i)
      (bendIn s S ν δ θ η k i) 0 := by
  unfold slopeIn bendIn
  apply HasDerivAt.fun_sum
  intro j _
  have hv : ∀ i', HasDerivAt (fun t : ℝ => (S k).cnt j i' * (1 + (θ k j i' + t * η k j i') * (S k).ε j i'))
      ((S k).cnt j i' * (S k).ε j i' * η k j i') 0 := by
    intro i'
    have h1 : HasDerivAt (fun t : ℝ => θ k j i' + t * η k j i') (η k j i') 0 := by
      simpa using ((hasDerivAt_id (0:ℝ)).mul_const (η k j i')).const_add (θ k j i')
    have h2 := ((h1.mul_const ((S k).ε j i')).const_add 1).const_mul ((S k).cnt j i')
    refine h2.congr_deriv (Eq.symm ?_)
    ring
  have hs : HasDerivAt (fun t : ℝ => totalOf S (fun k j i => θ k j i + t * η k j i) k j) (totalSlope S η k j) 0 :=
    HasDerivAt.fun_sum (u := Finset.univ) fun i' _ => hv i'
  have e0 : totalOf S (fun k j i => θ k j i + 0 * η k j i) k j = totalOf S θ k j := by simp
  have hf : HasDerivAt (fun t : ℝ => fracIn S (fun k j i => θ k j i + t * η k j i) k j i) (fracSlope S θ η k j i) 0 := by
    have h := (hv i).fun_div hs (by rw [e0]; exact hT j)
    refine h.congr_deriv (Eq.symm ?_)
    rw [e0]
    have := hT j
    simp only [zero_mul, add_zero]
    unfold fracSlope fracIn
    rw [← totalOf]
    field_simp
  have hfs : HasDerivAt (fun t : ℝ => fracSlope S (fun k j i => θ k j i + t * η k j i) η k j i)
      (-2 * fracSlope S θ η k j i * totalSlope S η k j / totalOf S θ k j) 0 := by
    have h := ((hf.mul_const (totalSlope S η k j)).const_sub ((S k).cnt j i * (S k).ε j i * η k j i)).fun_div hs (by rw [e0]; exact hT j)
    refine h.congr_deriv (Eq.symm ?_)
    rw [e0]
    have := hT j
    have e1 : fracIn S (fun k j i => θ k j i + 0 * η k j i) k j i = fracIn S θ k j i := by simp [fracIn]
    rw [e1]
    have e2 : (S k).cnt j i * (S k).ε j i * η k j i - fracIn S θ k j i * totalSlope S η k j =
        fracSlope S θ η k j i * totalOf S θ k j := by
      unfold fracSlope; rw [div_mul_cancel₀ _ this]
    rw [e2]
    field_simp
    ring
  have hn : HasDerivAt (fun t : ℝ => ν (procName s k j) + t * δ (procName s k j)) (δ (procName s k j)) 0 := by
    simpa using ((hasDerivAt_id (0:ℝ)).mul_const (δ (procName s k j))).const_add (ν (procName s k j))
  have h := ((hf.const_mul (δ (procName s k j))).fun_add (hn.fun_mul hfs)).const_mul ((S k).eff j)
  refine h.congr_deriv (Eq.symm ?_)
  have e1 : fracSlope S (fun k j i => θ k j i + 0 * η k j i) η k j i = fracSlope S θ η k j i := by
    simp [fracSlope, fracIn, totalOf]
  rw [e1]
  simp only [zero_mul, add_zero]
  ring

/-- derivative of the closed form at distance `t` along the line -/
def lineSlope (s : Sys) (S : ℕ → ChanSpec) (d : ∀ k, Fin (S k).n → ℝ) (V E : String → ℝ) (ν δ : String → ℝ)
    (θ η : ∀ k, Fin (S k).K → Fin (S k).n → ℝ) (t : ℝ) : ℝ :=
  ∑ k ∈ Finset.range s.m.chanIds.length,
    ((∑ i, (1 - d k i / expectedIn s S (fun p => ν p + t * δ p) (fun k j i => θ k j i + t * η k j i) k i) *
        slopeIn s S (fun p => ν p + t * δ p) δ (fun k j i => θ k j i + t * η k j i) η k i) +
      ∑ j, ∑ i, η k j i * ((S k).R j)⁻¹.mulVec (fun i => θ k j i + t * η k j i) i) +
  (s.m.constrained.map fun p => (ν p + t * δ p - V p) / E p ^ 2 * δ p).sum

theorem nllAt_line {s : Sys} {S : ℕ → ChanSpec} (hS : ModelIs s S)
    (d : ∀ k, Fin (S k).n → ℝ) {V E : String → ℝ} (hc : ConstraintsAre s V E)
    (ν δ : String → ℝ) (θ η : ∀ k, Fin (S k).K → Fin (S k).n → ℝ) (t : ℝ)
    (hT : ∀ k < s.m.chanIds.length, ∀ j, totalOf S (fun k j i => θ k j i + t * η k j i) k j ≠ 0)
    (hE : ∀ k < s.m.chanIds.length, ∀ i, d k i ≠ 0 →
      expectedIn s S (fun p => ν p + t * δ p) (fun k j i => θ k j i + t * η k j i) k i ≠ 0) :
    HasDerivAt (fun t => nllAt s S d V E (fun k j i => θ k j i + t * η k j i) (fun p => ν p + t * δ p))
      (lineSlope s S d V E ν δ θ η t) t := by
  unfold nllAt lineSlope
  refine HasDerivAt.fun_add (HasDerivAt.fun_sum fun k hk => ?_) (hasDerivAt_list_sum _ _ _ _ fun p hp => ?_)
  · have hk := Finset.mem_range.mp hk
    refine HasDerivAt.fun_add (HasDerivAt.fun_sum fun i _ => ?_) ?_
    · exact poissonBin_hasDeriv (d k i) (expected_slope s S ν δ θ η k t (hT k hk) i) (hE k hk i)
    · have h := penalty_hasDeriv (hS k hk).2.2.1 (fun j i => θ k j i + t * η k j i) (η k)
      have h2 : HasDerivAt (fun u : ℝ => u - t) 1 t := by simpa using (hasDerivAt_id t).sub_const t
      have h3 := HasDerivAt.scomp t (h := fun u : ℝ => u - t) (by rw [sub_self]; exact h) h2
      have e : ((fun u => penalty (S k).R fun j i => (θ k j i + t * η k j i) + u * η k j i) ∘ fun u : ℝ => u - t) =
          fun u => penalty (S k).R fun j i => θ k j i + u * η k j i := by
        funext u
        simp only [Function.comp]
        congr 1
        funext j i; ring
      rw [e, one_smul] at h3
      exact h3
  · have h1 : HasDerivAt (fun t : ℝ => ν p + t * δ p - V p) (δ p) t := by
      simpa using (((hasDerivAt_id t).mul_const (δ p)).const_add (ν p)).sub_const (V p)
    have h2 := (h1.fun_pow 2).div_const (2 * E p ^ 2)
    refine h2.congr_deriv (Eq.symm ?_)
    have := (hc p hp).2.2.2
    push_cast
    field_simp

theorem lineSlope_hasDeriv {s : Sys} {S : ℕ → ChanSpec}
    (d : ∀ k, Fin (S k).n → ℝ) {V E : String → ℝ} 
    (ν δ : String → ℝ) (θ η : ∀ k, Fin (S k).K → Fin (S k).n → ℝ) (hT : NonZeroSums s S θ)
    (hE : ∀ k < s.m.chanIds.length, ∀ i, 0 < expectedIn s S ν θ k i) :
    HasDerivAt (lineSlope s S d V E ν δ θ η)
      (information s S d E ν δ θ η + ∑ k ∈ Finset.range s.m.channels.length, ∑ i,
        (1 - d k i / expectedIn s S ν θ k i) * bendIn s S ν δ θ η k i) 0 := by
  have hlen : s.m.channels.length = s.m.chanIds.length := by simp [Mct.chanIds]
  have e0 : (fun p => ν p + 0 * δ p) = ν := by funext p; ring
  have e1 : (fun k j i => θ k j i + 0 * η k j i) = θ := by funext k j i; ring
  have hk1 : ∀ k ∈ Finset.range s.m.chanIds.length, HasDerivAt (fun t : ℝ =>
      ((∑ i, (1 - d k i / expectedIn s S (fun p => ν p + t * δ p) (fun k j i => θ k j i + t * η k j i) k i) *
        slopeIn s S (fun p => ν p + t * δ p) δ (fun k j i => θ k j i + t * η k j i) η k i) +
      ∑ j, ∑ i, η k j i * ((S k).R j)⁻¹.mulVec (fun i => θ k j i + t * η k j i) i))
      ((∑ i, (d k i * (slopeIn s S ν δ θ η k i / expectedIn s S ν θ k i) ^ 2 +
          (1 - d k i / expectedIn s S ν θ k i) * bendIn s S ν δ θ η k i)) +
        ∑ j, (η k j) ⬝ᵥ (((S k).R j)⁻¹.mulVec (η k j))) 0 := by
    intro k hk
    have hk := Finset.mem_range.mp hk
    refine HasDerivAt.fun_add (HasDerivAt.fun_sum fun i _ => ?_) ?_
    · have h1 := expected_slope s S ν δ θ η k 0 (by rw [e1]; exact hT k hk) i
      have h2 := slope_hasDeriv s S ν δ θ η k (hT k hk) i
      simp only [e0, e1] at h1
      have hne : expectedIn s S (fun p => ν p + 0 * δ p) (fun k j i => θ k j i + 0 * η k j i) k i ≠ 0 := by
        simp only [e0, e1]; exact (hE k hk i).ne'
      have h3 := ((((h1.fun_inv hne).const_mul (d k i)).const_sub 1).fun_mul h2)
      simp only [e0, e1] at h3
      have hfun : (fun t : ℝ => (1 - d k i / expectedIn s S (fun p => ν p + t * δ p) (fun k j i => θ k j i + t * η k j i) k i) *
          slopeIn s S (fun p => ν p + t * δ p) δ (fun k j i => θ k j i + t * η k j i) η k i) =
          fun t : ℝ => (1 - d k i * (expectedIn s S (fun p => ν p + t * δ p) (fun k j i => θ k j i + t * η k j i) k i)⁻¹) *
          slopeIn s S (fun p => ν p + t * δ p) δ (fun k j i => θ k j i + t * η k j i) η k i := by
        funext t; rw [div_eq_mul_inv]
      rw [hfun]
      refine h3.congr_deriv (Eq.symm ?_)
      have := (hE k hk i).ne'
      field_simp
    · refine HasDerivAt.fun_sum fun j _ => ?_
      simp only [dotProduct]
      refine HasDerivAt.fun_sum fun i _ => ?_
      refine HasDerivAt.const_mul (η k j i) ?_
      have e : (fun t : ℝ => ((S k).R j)⁻¹.mulVec (fun i => θ k j i + t * η k j i) i) =
          fun t => ((S k).R j)⁻¹.mulVec (θ k j) i + t * ((S k).R j)⁻¹.mulVec (η k j) i := by
        funext t
        have : (fun i => θ k j i + t * η k j i) = θ k j + t • η k j := by funext i; simp
        rw [this, Matrix.mulVec_add, Matrix.mulVec_smul]
        simp
      rw [e]
      simpa using ((hasDerivAt_id (0:ℝ)).mul_const (((S k).R j)⁻¹.mulVec (η k j) i)).const_add (((S k).R j)⁻¹.mulVec (θ k j) i)
  have hk2 := HasDerivAt.fun_sum hk1
  have hcs := hasDerivAt_list_sum s.m.constrained (fun p t => (ν p + t * δ p - V p) / E p ^ 2 * δ p)
    (fun p => (δ p / E p) ^ 2) 0 (by
      intro p _
      have h1 : HasDerivAt (fun t : ℝ => ν p + t * δ p - V p) (δ p) 0 := by
        simpa using (((hasDerivAt_id (0:ℝ)).mul_const (δ p)).const_add (ν p)).sub_const (V p)
      refine ((h1.div_const (E p ^ 2)).mul_const (δ p)).congr_deriv (Eq.symm ?_)
      rw [div_pow]; ring)
  have h := hk2.fun_add hcs
  unfold lineSlope
  refine h.congr_deriv (Eq.symm ?_)
  unfold information
  rw [hlen, add_right_comm, ← Finset.sum_add_distrib]
  congr 1
  apply Finset.sum_congr rfl
  intro k _
  rw [Finset.sum_add_distrib]
  ring

/-- **C131, second derivatives.** At every point with positive expectations and non-zero template totals, along every straight line in the space of all
parameters: the likelihood is twice differentiable, and its second derivative is the information `Σ n (λ'/λ)² + Σ ηᵀ R⁻¹ η + Σ (δ/e)²` plus
`Σ (1 - n/λ) λ''`. -/
theorem C131_curvature (s : Sys) (h : s.Built) (hne : s.m.channels ≠ []) (S : ℕ → ChanSpec) (hS : ModelIs s S)
    (d : ∀ k, Fin (S k).n → ℝ) (hd : DataIs s S d)
    (hpos : ∀ k < s.m.chanIds.length, ∀ i, d k i = 0 ∨ (1e-100 : ℝ) ≤ d k i)
    (V E : String → ℝ) (hc : ConstraintsAre s V E)
    (ν : String → ℝ) (θ : ∀ k, Fin (S k).K → Fin (S k).n → ℝ) (hT : NonZeroSums s S θ)
    (hE : ∀ k < s.m.chanIds.length, ∀ i, 0 < expectedIn s S ν θ k i)
    (δ : String → ℝ) (η : ∀ k, Fin (S k).K → Fin (S k).n → ℝ) :
    HasCurvature (fun t => objective s.w s.m (paramVec s S (fun p => ν p + t * δ p) (fun k j i => θ k j i + t * η k j i)))
      (information s S d E ν δ θ η + ∑ k ∈ Finset.range s.m.channels.length, ∑ i,
        (1 - d k i / expectedIn s S ν θ k i) * bendIn s S ν δ θ η k i) := by
  have e0 : (fun p => ν p + 0 * δ p) = ν := by funext p; ring
  have e1 : (fun k j i => θ k j i + 0 * η k j i) = θ := by funext k j i; ring
  have h1 : ∀ᶠ t in nhds (0:ℝ), ∀ k ∈ Finset.range s.m.chanIds.length, ∀ i,
      0 < expectedIn s S (fun p => ν p + t * δ p) (fun k j i => θ k j i + t * η k j i) k i := by
    rw [Filter.eventually_all_finset]
    intro k hk
    have hk := Finset.mem_range.mp hk
    rw [Filter.eventually_all]
    intro i
    refine (expected_hasDeriv s S ν δ θ η k (hT k hk) i).continuousAt.eventually_const_lt ?_
    simp only [e0, e1]; exact hE k hk i
  have h2 : ∀ᶠ t in nhds (0:ℝ), ∀ k ∈ Finset.range s.m.chanIds.length, ∀ j,
      ∑ i, (S k).cnt j i * (1 + (θ k j i + t * η k j i) * (S k).ε j i) ≠ 0 := by
    rw [Filter.eventually_all_finset]
    intro k hk
    have hk := Finset.mem_range.mp hk
    rw [Filter.eventually_all]
    intro j
    have : Continuous (fun t : ℝ => ∑ i, (S k).cnt j i * (1 + (θ k j i + t * η k j i) * (S k).ε j i)) := by fun_prop
    refine this.continuousAt.eventually_ne ?_
    simpa using hT k hk j
  refine ⟨fun t => nllAt s S d V E (fun k j i => θ k j i + t * η k j i) (fun p => ν p + t * δ p),
    lineSlope s S d V E ν δ θ η, ?_, ?_, lineSlope_hasDeriv d ν δ θ η hT hE⟩
  · filter_upwards [h1, h2] with t a b
    exact objective_nllAt h hne hS hd hpos hc (fun k hk => b k (Finset.mem_range.mpr hk))
      (fun k hk i => Or.inl (a k (Finset.mem_range.mpr hk) i))
  · filter_upwards [h1, h2] with t a b
    exact nllAt_line hS d hc ν δ θ η t (fun k hk => b k (Finset.mem_range.mpr hk))
      (fun k hk i _ => (a k (Finset.mem_range.mpr hk) i).ne')

/-- **C131, yields.** With the nuisance parameters held, the second derivative in the direction `δ` of the yields is
`Σ n (λ_δ/λ)² + Σ (δ/e)²` where `λ_δ` is the expectation with yields `δ`; it is never negative. -/
theorem C131_yields (s : Sys) (h : s.Built) (hne : s.m.channels ≠ []) (S : ℕ → ChanSpec) (hS : ModelIs s S)
    (d : ∀ k, Fin (S k).n → ℝ) (hd : DataIs s S d)
    (hpos : ∀ k < s.m.chanIds.length, ∀ i, d k i = 0 ∨ (1e-100 : ℝ) ≤ d k i)
    (V E : String → ℝ) (hc : ConstraintsAre s V E)
    (ν : String → ℝ) (θ : ∀ k, Fin (S k).K → Fin (S k).n → ℝ) (hT : NonZeroSums s S θ)
    (hE : ∀ k < s.m.chanIds.length, ∀ i, 0 < expectedIn s S ν θ k i) (δ : String → ℝ) :
    ∃ c, HasCurvature (fun t => objective s.w s.m (paramVec s S (fun p => ν p + t * δ p) θ)) c ∧ 0 ≤ c ∧
      c = (∑ k ∈ Finset.range s.m.channels.length, ∑ i, d k i * (expectedIn s S δ θ k i / expectedIn s S ν θ k i) ^ 2) +
        (s.m.constrained.map fun p => (δ p / E p) ^ 2).sum := by
  have hlen : s.m.channels.length = s.m.chanIds.length := by simp [Mct.chanIds]
  have hcur := C131_curvature s h hne S hS d hd hpos V E hc ν θ hT hE δ (fun _ _ _ => 0)
  have hts : ∀ k j, totalSlope S (fun _ _ _ => 0) k j = 0 := fun k j => by simp [totalSlope]
  have hfs : ∀ k j i, fracSlope S θ (fun _ _ _ => 0) k j i = 0 := fun k j i => by simp [fracSlope, hts]
  have hb : ∀ k i, bendIn s S ν δ θ (fun _ _ _ => 0) k i = 0 := fun k i => by simp [bendIn, hfs]
  have hsl : ∀ k i, slopeIn s S ν δ θ (fun _ _ _ => 0) k i = expectedIn s S δ θ k i := by
    intro k i
    unfold slopeIn expectedIn
    exact Finset.sum_congr rfl fun j _ => by rw [hfs, fracIn]; ring
  simp only [hb, mul_zero, Finset.sum_const_zero, add_zero] at hcur
  refine ⟨_, hcur, ?_, ?_⟩
  · unfold information
    refine add_nonneg (Finset.sum_nonneg fun k hk => add_nonneg (Finset.sum_nonneg fun i _ => mul_nonneg ?_ (sq_nonneg _)) ?_) ?_
    · rcases hpos k (hlen ▸ Finset.mem_range.mp hk) i with e | e
      · rw [e]
      · exact le_trans (by norm_num) e
    · exact Finset.sum_nonneg fun j _ => by simp [dotProduct]
    · exact List.sum_nonneg fun x hx => by obtain ⟨p, -, rfl⟩ := List.mem_map.mp hx; exact sq_nonneg _
  · unfold information
    congr 1
    refine Finset.sum_congr rfl fun k _ => ?_
    simp only [hsl]
    rw [add_eq_left]
    exact Finset.sum_eq_zero fun j _ => by simp [dotProduct]

/-- **C131, data equal to the expectation.** Where the data equal the expectations, the second derivative is the information. -/
theorem C131_asimov (s : Sys) (h : s.Built) (hne : s.m.channels ≠ []) (S : ℕ → ChanSpec) (hS : ModelIs s S)
    (d : ∀ k, Fin (S k).n → ℝ) (hd : DataIs s S d) (hpos : ∀ k < s.m.chanIds.length, ∀ i, (1e-100 : ℝ) ≤ d k i)
    (V E : String → ℝ) (hc : ConstraintsAre s V E)
    (ν : String → ℝ) (θ : ∀ k, Fin (S k).K → Fin (S k).n → ℝ) (hT : NonZeroSums s S θ)
    (hdata : ∀ k < s.m.chanIds.length, ∀ i, expectedIn s S ν θ k i = d k i)
    (δ : String → ℝ) (η : ∀ k, Fin (S k).K → Fin (S k).n → ℝ) :
    HasCurvature (fun t => objective s.w s.m (paramVec s S (fun p => ν p + t * δ p) (fun k j i => θ k j i + t * η k j i)))
      (information s S d E ν δ θ η) := by
  have hlen : s.m.channels.length = s.m.chanIds.length := by simp [Mct.chanIds]
  have h0 : ∀ k < s.m.chanIds.length, ∀ i, 0 < d k i := fun k hk i => lt_of_lt_of_le (by norm_num) (hpos k hk i)
  have hcur := C131_curvature s h hne S hS d hd (fun k hk i => Or.inr (hpos k hk i)) V E hc ν θ hT
    (fun k hk i => by rw [hdata k hk i]; exact h0 k hk i) δ η
  have : (∑ k ∈ Finset.range s.m.channels.length, ∑ i,
        (1 - d k i / expectedIn s S ν θ k i) * bendIn s S ν δ θ η k i) = 0 := by
    refine Finset.sum_eq_zero fun k hk => Finset.sum_eq_zero fun i _ => ?_
    have hk := hlen ▸ Finset.mem_range.mp hk
    rw [hdata k hk i, div_self (h0 k hk i).ne', sub_self, zero_mul]
  rwa [this, add_zero] at hcur

theorem list_sum_zero (l : List ℝ) (h : ∀ x ∈ l, 0 ≤ x) (hz : l.sum = 0) : ∀ x ∈ l, x = 0 := by
  induction l with
  | nil => intro x hx; cases hx
  | cons a l ih =>
    have h1 := h a (by simp)
    have h2 := List.sum_nonneg fun x hx => h x (List.mem_cons_of_mem a hx)
    rw [List.sum_cons] at hz
    intro x hx
    rcases List.mem_cons.mp hx with rfl | hx
    · linarith
    · exact ih (fun x hx => h x (List.mem_cons_of_mem a hx)) (by linarith) x hx

/-- **C131, no flat direction.** Data equal to the expectations at zero nuisance parameters and identifiable yields: the second
derivative is positive in every direction that changes the yield of a process or a nuisance parameter. -/
theorem C131_no_flat (s : Sys) (S : ℕ → ChanSpec) (hS : ModelIs s S)
    (d : ∀ k, Fin (S k).n → ℝ) (hpos : ∀ k < s.m.chanIds.length, ∀ i, 0 < d k i)
    (V E : String → ℝ) (hc : ConstraintsAre s V E) (ν : String → ℝ)
    (hdata : ∀ k < s.m.chanIds.length, ∀ i, expectedIn s S ν (fun _ _ _ => 0) k i = d k i) (hid : Identifiable s S)
    (δ : String → ℝ) (η : ∀ k, Fin (S k).K → Fin (S k).n → ℝ)
    (hdir : (∃ p ∈ s.m.processes, δ p ≠ 0) ∨ ∃ k < s.m.chanIds.length, ∃ j i, η k j i ≠ 0) :
    0 < information s S d E ν δ (fun _ _ _ => 0) η := by
  have hlen : s.m.channels.length = s.m.chanIds.length := by simp [Mct.chanIds]
  have n1 : ∀ k ∈ Finset.range s.m.channels.length, ∀ i,
      0 ≤ d k i * (slopeIn s S ν δ (fun _ _ _ => 0) η k i / expectedIn s S ν (fun _ _ _ => 0) k i) ^ 2 :=
    fun k hk i => mul_nonneg (hpos k (hlen ▸ Finset.mem_range.mp hk) i).le (sq_nonneg _)
  have n2 : ∀ k ∈ Finset.range s.m.channels.length, ∀ j, 0 ≤ (η k j) ⬝ᵥ (((S k).R j)⁻¹.mulVec (η k j)) := by
    intro k hk j
    have := ((hS k (hlen ▸ Finset.mem_range.mp hk)).2.2.1 j).inv.posSemidef.dotProduct_mulVec_nonneg (η k j)
    simpa using this
  have n3 : ∀ x ∈ s.m.constrained.map (fun p => (δ p / E p) ^ 2), 0 ≤ x := by
    intro x hx; obtain ⟨p, -, rfl⟩ := List.mem_map.mp hx; exact sq_nonneg _
  have m1 : 0 ≤ ∑ k ∈ Finset.range s.m.channels.length,
    ((∑ i, d k i * (slopeIn s S ν δ (fun _ _ _ => 0) η k i / expectedIn s S ν (fun _ _ _ => 0) k i) ^ 2) +
      ∑ j, (η k j) ⬝ᵥ (((S k).R j)⁻¹.mulVec (η k j))) :=
    Finset.sum_nonneg fun k hk => add_nonneg (Finset.sum_nonneg fun i _ => n1 k hk i) (Finset.sum_nonneg fun j _ => n2 k hk j)
  have m3 := List.sum_nonneg n3
  unfold information
  refine lt_of_le_of_ne (add_nonneg m1 m3) fun hz => ?_
  have z1 : ∑ k ∈ Finset.range s.m.channels.length,
    ((∑ i, d k i * (slopeIn s S ν δ (fun _ _ _ => 0) η k i / expectedIn s S ν (fun _ _ _ => 0) k i) ^ 2) +
      ∑ j, (η k j) ⬝ᵥ (((S k).R j)⁻¹.mulVec (η k j))) = 0 := by linarith
  have z3 : (s.m.constrained.map fun p => (δ p / E p) ^ 2).sum = 0 := by linarith
  have z1 := (Finset.sum_eq_zero_iff_of_nonneg fun k hk =>
    add_nonneg (Finset.sum_nonneg fun i _ => n1 k hk i) (Finset.sum_nonneg fun j _ => n2 k hk j)).mp z1
  have hη : ∀ k < s.m.chanIds.length, ∀ j, η k j = 0 := by
    intro k hk j
    have hk' := Finset.mem_range.mpr (hlen ▸ hk)
    have h1 := z1 k hk'
    have h2 := Finset.sum_nonneg (s := Finset.univ) fun i _ => n1 k hk' i
    have h3 := Finset.sum_nonneg (s := Finset.univ) fun j _ => n2 k hk' j
    have h4 := (Finset.sum_eq_zero_iff_of_nonneg (s := Finset.univ) fun j _ => n2 k hk' j).mp (by linarith) j (Finset.mem_univ _)
    by_contra hj
    have := ((hS k hk).2.2.1 j).inv.dotProduct_mulVec_pos hj
    simp only [star_trivial] at this
    linarith
  have hsl : ∀ k < s.m.chanIds.length, ∀ i, slopeIn s S ν δ (fun _ _ _ => 0) η k i = expectedIn s S δ (fun _ _ _ => 0) k i := by
    intro k hk i
    unfold slopeIn expectedIn
    refine Finset.sum_congr rfl fun j _ => ?_
    have : fracSlope S (fun _ _ _ => 0) η k j i = 0 := by simp [fracSlope, totalSlope, hη k hk j]
    rw [this, fracIn]; ring
  have hδ : ∀ p ∈ s.m.processes, δ p = 0 := by
    refine hid δ (fun k hk i => ?_) fun p hp => ?_
    · have hk' := Finset.mem_range.mpr (hlen ▸ hk)
      have h1 := z1 k hk'
      have h2 := Finset.sum_nonneg (s := Finset.univ) fun i _ => n1 k hk' i
      have h3 := Finset.sum_nonneg (s := Finset.univ) fun j _ => n2 k hk' j
      have h4 := (Finset.sum_eq_zero_iff_of_nonneg (s := Finset.univ) fun i _ => n1 k hk' i).mp (by linarith) i (Finset.mem_univ _)
      rcases mul_eq_zero.mp h4 with e | e
      · exact absurd e (hpos k hk i).ne'
      · have e := pow_eq_zero_iff (two_ne_zero) |>.mp e
        rcases div_eq_zero_iff.mp e with e | e
        · rw [← hsl k hk i]; exact e
        · rw [hdata k hk i] at e; exact absurd e (hpos k hk i).ne'
    · have := list_sum_zero _ n3 z3 _ (List.mem_map_of_mem hp)
      have e := pow_eq_zero_iff (two_ne_zero) |>.mp this
      rcases div_eq_zero_iff.mp e with e | e
      · exact e
      · exact absurd e (hc p hp).2.2.2
  rcases hdir with ⟨p, hp, e⟩ | ⟨k, hk, j, i, e⟩
  · exact e (hδ p hp)
  · exact e (by rw [hη k hk j]; rfl)

/-! ### the matrix of second derivatives -/

def IsLin {n : ℕ} (f : (Fin n → ℝ) → ℝ) : Prop := ∃ a : Fin n → ℝ, ∀ v, f v = a ⬝ᵥ v

def IsQuad {n : ℕ} (Q : (Fin n → ℝ) → ℝ) : Prop := ∃ A : Matrix (Fin n) (Fin n) ℝ, A.IsSymm ∧ ∀ v, Q v = v ⬝ᵥ A.mulVec v

theorem IsLin.add {n : ℕ} {f g : (Fin n → ℝ) → ℝ} (hf : IsLin f) (hg : IsLin g) : IsLin fun v => f v + g v := by
  obtain ⟨a, ha⟩ := hf; obtain ⟨b, hb⟩ := hg
  exact ⟨a + b, fun v => by show _ = _; beta_reduce; rw [ha, hb, add_dotProduct]⟩

theorem IsLin.cmul {n : ℕ} {f : (Fin n → ℝ) → ℝ} (c : ℝ) (hf : IsLin f) : IsLin fun v => c * f v := by
  obtain ⟨a, ha⟩ := hf
  exact ⟨c • a, fun v => by show _ = _; beta_reduce; rw [ha, smul_dotProduct, smul_eq_mul]⟩

theorem IsLin.zero {n : ℕ} : IsLin fun _ : Fin n → ℝ => (0:ℝ) := ⟨0, fun v => by simp⟩

theorem IsLin.sum {n : ℕ} {α : Type} (t : Finset α) {f : α → (Fin n → ℝ) → ℝ} (hf : ∀ a ∈ t, IsLin (f a)) : IsLin fun v => ∑ a ∈ t, f a v := by
  induction t using Finset.induction_on with
  | empty => simpa using IsLin.zero
  | insert a t ha ih =>
    simp only [Finset.sum_insert ha]
    exact (hf a (by simp)).add (ih fun b hb => hf b (by simp [hb]))

theorem IsLin.mul {n : ℕ} {f g : (Fin n → ℝ) → ℝ} (hf : IsLin f) (hg : IsLin g) : IsQuad fun v => f v * g v := by
  obtain ⟨a, ha⟩ := hf; obtain ⟨b, hb⟩ := hg
  refine ⟨(1/2:ℝ) • (Matrix.vecMulVec a b + Matrix.vecMulVec b a), ?_, fun v => ?_⟩
  · ext i j
    simp [Matrix.vecMulVec_apply]
    ring
  · beta_reduce
    rw [ha, hb, Matrix.smul_mulVec, Matrix.add_mulVec, Matrix.vecMulVec_mulVec, Matrix.vecMulVec_mulVec, dotProduct_smul,
      dotProduct_add, dotProduct_comm a v, dotProduct_comm b v]
    simp [dotProduct_comm]
    ring

theorem IsQuad.add {n : ℕ} {f g : (Fin n → ℝ) → ℝ} (hf : IsQuad f) (hg : IsQuad g) : IsQuad fun v => f v + g v := by
  obtain ⟨a, ha', ha⟩ := hf; obtain ⟨b, hb', hb⟩ := hg
  exact ⟨a + b, ha'.add hb', fun v => by show _ = _; beta_reduce; rw [ha, hb, Matrix.add_mulVec, dotProduct_add]⟩

theorem IsQuad.cmul {n : ℕ} {f : (Fin n → ℝ) → ℝ} (c : ℝ) (hf : IsQuad f) : IsQuad fun v => c * f v := by
  obtain ⟨a, ha', ha⟩ := hf
  exact ⟨c • a, ha'.smul c, fun v => by show _ = _; beta_reduce; rw [ha, Matrix.smul_mulVec, dotProduct_smul, smul_eq_mul]⟩

theorem IsQuad.zero {n : ℕ} : IsQuad fun _ : Fin n → ℝ => (0:ℝ) := ⟨0, Matrix.isSymm_zero, fun v => by simp⟩

theorem IsQuad.sum {n : ℕ} {α : Type} (t : Finset α) {f : α → (Fin n → ℝ) → ℝ} (hf : ∀ a ∈ t, IsQuad (f a)) : IsQuad fun v => ∑ a ∈ t, f a v := by
  induction t using Finset.induction_on with
  | empty => simpa using IsQuad.zero
  | insert a t ha ih =>
    simp only [Finset.sum_insert ha]
    exact (hf a (by simp)).add (ih fun b hb => hf b (by simp [hb]))

theorem IsQuad.listSum {n : ℕ} {α : Type} (t : List α) {f : α → (Fin n → ℝ) → ℝ} (hf : ∀ a ∈ t, IsQuad (f a)) :
    IsQuad fun v => (t.map fun a => f a v).sum := by
  induction t with
  | nil => simpa using IsQuad.zero
  | cons a t ih =>
    simp only [List.map_cons, List.sum_cons]
    exact (hf a (by simp)).add (ih fun b hb => hf b (by simp [hb]))

/-- entry of a real vector, `0` outside -/
def vget {n : ℕ} (v : Fin n → ℝ) (q : ℕ) : ℝ := if h : q < n then v ⟨q, h⟩ else 0

theorem vget_lin {n : ℕ} (q : ℕ) : IsLin fun v : Fin n → ℝ => vget v q := by
  unfold vget
  by_cases h : q < n
  · exact ⟨Pi.single ⟨q, h⟩ 1, fun v => by simp [h]⟩
  · simpa [h] using IsLin.zero

/-- position of a parameter in the parameter vector -/
def slotIdx (s : Sys) (S : ℕ → ChanSpec) (σ : String ⊕ (Σ k, Fin (S k).K × Fin (S k).n)) : ℕ :=
  @List.idxOf _ (@instBEqOfDecidableEq _ (Classical.decEq _)) σ (pslots s S)

theorem slotIdx_get {s : Sys} (hw : SysWF s) (S : ℕ → ChanSpec) (q : ℕ) (hq : q < (pslots s S).length) :
    slotIdx s S (pslots s S)[q] = q := by
  exact @List.Nodup.idxOf_getElem _ (@instBEqOfDecidableEq _ (Classical.decEq _))
    (@instLawfulBEq _ (Classical.decEq _)) _ (pslots_nodup hw S) q hq

/-- the yields in a parameter vector -/
def yieldsOf (s : Sys) (S : ℕ → ChanSpec) {n : ℕ} (v : Fin n → ℝ) (p : String) : ℝ := vget v (slotIdx s S (.inl p))

/-- the nuisance parameters in a parameter vector -/
def nuisOf (s : Sys) (S : ℕ → ChanSpec) {n : ℕ} (v : Fin n → ℝ) (k : ℕ) (j : Fin (S k).K) (i : Fin (S k).n) : ℝ :=
  vget v (slotIdx s S (.inr ⟨k, j, i⟩))

theorem paramVec_of {s : Sys} (hw : SysWF s) (S : ℕ → ChanSpec) {n : ℕ} {x v : Fin n → ℝ} {ν : String → ℝ}
    {θ : ∀ k, Fin (S k).K → Fin (S k).n → ℝ} (hx : paramVec s S ν θ = vec x) (t : ℝ) :
    vec (fun i => x i + t * v i) = paramVec s S (fun p => ν p + t * yieldsOf s S v p) (fun k j i => θ k j i + t * nuisOf s S v k j i) := by
  have hl : (pslots s S).length = n := by
    have := congrArg List.length hx
    rw [paramVec_slots] at this
    simpa [vec] using this
  apply List.ext_getElem
  · rw [paramVec_slots]; simp [vec, hl]
  intro q h1 h2
  have hq : q < n := by simpa [vec] using h1
  have hxq : (vec x)[q]'(by simpa [vec] using hq) = .fin (x ⟨q, hq⟩) := by simp [vec]
  simp only [← hx, paramVec_slots, List.getElem_map] at hxq
  simp only [paramVec_slots, List.getElem_map]
  have hidx := slotIdx_get hw S q (hl ▸ hq)
  generalize (pslots s S)[q]'(hl ▸ hq) = σ at hxq hidx
  rcases σ with p | ⟨k, j, i⟩
  · simp only [pval, Fl.fin.injEq] at hxq ⊢
    simp [vec, yieldsOf, hidx, vget, hq, hxq]
  · simp only [pval, Fl.fin.injEq] at hxq ⊢
    simp [vec, nuisOf, hidx, vget, hq, hxq]

theorem slope_lin (s : Sys) (S : ℕ → ChanSpec) (ν : String → ℝ) (θ : ∀ k, Fin (S k).K → Fin (S k).n → ℝ) (n k : ℕ) :
    (∀ j, IsLin fun v : Fin n → ℝ => totalSlope S (nuisOf s S v) k j) ∧
    (∀ j i, IsLin fun v : Fin n → ℝ => fracSlope S θ (nuisOf s S v) k j i) ∧
    ∀ i, IsLin fun v : Fin n → ℝ => slopeIn s S ν (yieldsOf s S v) θ (nuisOf s S v) k i := by
  have hts : ∀ j, IsLin fun v : Fin n → ℝ => totalSlope S (nuisOf s S v) k j :=
    fun j => IsLin.sum _ fun i _ => (vget_lin _).cmul _
  have hfs : ∀ j i, IsLin fun v : Fin n → ℝ => fracSlope S θ (nuisOf s S v) k j i := by
    intro j i
    have h := (((vget_lin (n := n) (slotIdx s S (.inr ⟨k, j, i⟩))).cmul ((S k).cnt j i * (S k).ε j i)).add
      ((hts j).cmul (-fracIn S θ k j i))).cmul (totalOf S θ k j)⁻¹
    convert h using 2 with v
    unfold fracSlope nuisOf
    ring
  refine ⟨hts, hfs, fun i => IsLin.sum _ fun j _ => IsLin.cmul _ ?_⟩
  have h := ((vget_lin (n := n) (slotIdx s S (.inl (procName s k j)))).cmul (fracIn S θ k j i)).add
    ((hfs j i).cmul (ν (procName s k j)))
  convert h using 2 with v
  unfold yieldsOf
  ring

/-- **C131, the matrix of second derivatives exists.** At every point with positive expectations and non-zero template totals. -/
theorem C131_hesse_exists (s : Sys) (h : s.Built) (hne : s.m.channels ≠ []) (S : ℕ → ChanSpec) (hS : ModelIs s S)
    (d : ∀ k, Fin (S k).n → ℝ) (hd : DataIs s S d)
    (hpos : ∀ k < s.m.chanIds.length, ∀ i, d k i = 0 ∨ (1e-100 : ℝ) ≤ d k i)
    (V E : String → ℝ) (hc : ConstraintsAre s V E)
    (ν : String → ℝ) (θ : ∀ k, Fin (S k).K → Fin (S k).n → ℝ) (hT : NonZeroSums s S θ)
    (hE : ∀ k < s.m.chanIds.length, ∀ i, 0 < expectedIn s S ν θ k i)
    {n : ℕ} (x : Fin n → ℝ) (hx : paramVec s S ν θ = vec x) :
    ∃ A : Matrix (Fin n) (Fin n) ℝ, IsHesse (objective s.w s.m) x A := by
  have hw := reachable_wf h.reachable
  have hq : IsQuad fun v : Fin n → ℝ => information s S d E ν (yieldsOf s S v) θ (nuisOf s S v) +
      ∑ k ∈ Finset.range s.m.channels.length, ∑ i,
        (1 - d k i / expectedIn s S ν θ k i) * bendIn s S ν (yieldsOf s S v) θ (nuisOf s S v) k i := by
    refine IsQuad.add (IsQuad.add (IsQuad.sum _ fun k _ => IsQuad.add (IsQuad.sum _ fun i _ => ?_) (IsQuad.sum _ fun j _ => ?_))
      (IsQuad.listSum _ fun p _ => ?_)) (IsQuad.sum _ fun k _ => IsQuad.sum _ fun i _ => IsQuad.cmul _ (IsQuad.sum _ fun j _ => ?_))
    · have hl := ((slope_lin s S ν θ n k).2.2 i).cmul (expectedIn s S ν θ k i)⁻¹
      convert (hl.mul hl).cmul (d k i) using 2 with v
      ring
    · exact IsQuad.sum _ fun i _ => IsLin.mul (vget_lin (slotIdx s S (.inr ⟨k, j, i⟩)))
        (IsLin.sum Finset.univ (f := fun i' v => ((S k).R j)⁻¹ i i' * nuisOf s S v k j i') fun i' _ => (vget_lin (slotIdx s S (.inr ⟨k, j, i'⟩))).cmul _)
    · have hl := (vget_lin (n := n) (slotIdx s S (.inl p))).cmul (E p)⁻¹
      convert hl.mul hl using 2 with v
      unfold yieldsOf
      ring
    · have h1 := ((slope_lin s S ν θ n k).2.1 j i).cmul (2 * (S k).eff j)
      have h2 := (vget_lin (n := n) (slotIdx s S (.inl (procName s k j)))).add
        (((slope_lin s S ν θ n k).1 j).cmul (-(ν (procName s k j) / totalOf S θ k j)))
      convert h1.mul h2 using 2 with v
      unfold yieldsOf
      ring
  obtain ⟨A, hA, hq⟩ := hq
  refine ⟨A, hA, fun v => ?_⟩
  rw [← hq v]
  simp only [paramVec_of hw S hx]
  exact C131_curvature s h hne S hS d hd hpos V E hc ν θ hT hE _ _

/-- … and there is only one. -/
theorem C131_hesse_unique {n : ℕ} {F : Vec → Except Err Fl} {x : Fin n → ℝ} {A B : Matrix (Fin n) (Fin n) ℝ}
    (hA : IsHesse F x A) (hB : IsHesse F x B) : A = B := by
  have hq : ∀ v : Fin n → ℝ, v ⬝ᵥ A.mulVec v = v ⬝ᵥ B.mulVec v := fun v => HasCurvature_unique (hA.2 v) (hB.2 v)
  have hd : ∀ i, A i i = B i i := fun i => by simpa using hq (Pi.single i 1)
  ext i j
  have h := hq (Pi.single i 1 + Pi.single j 1)
  have hAs : A j i = A i j := congrFun (congrFun hA.1 i) j
  have hBs : B j i = B i j := congrFun (congrFun hB.1 i) j
  simp only [Matrix.mulVec_add, add_dotProduct, dotProduct_add, Matrix.mulVec_single_one, single_one_dotProduct, Matrix.col_apply,
    hAs, hBs, hd i, hd j] at h
  linarith

/-- **C131, positive definite.** Data equal to the expectations at zero nuisance parameters and identifiable yields: the matrix of
second derivatives there is positive definite. -/
theorem C131_hesse_posdef (s : Sys) (h : s.Built) (hne : s.m.channels ≠ []) (S : ℕ → ChanSpec) (hS : ModelIs s S)
    (d : ∀ k, Fin (S k).n → ℝ) (hd : DataIs s S d) (hpos : ∀ k < s.m.chanIds.length, ∀ i, (1e-100 : ℝ) ≤ d k i)
    (V E : String → ℝ) (hc : ConstraintsAre s V E) (ν : String → ℝ) (hT : NonZeroSums s S fun _ _ _ => 0)
    (hdata : ∀ k < s.m.chanIds.length, ∀ i, expectedIn s S ν (fun _ _ _ => 0) k i = d k i) (hid : Identifiable s S)
    {n : ℕ} (x : Fin n → ℝ) (hx : paramVec s S ν (fun _ _ _ => 0) = vec x) (A : Matrix (Fin n) (Fin n) ℝ)
    (hA : IsHesse (objective s.w s.m) x A) : A.PosDef := by
  have hw := reachable_wf h.reachable
  have h0 : ∀ k < s.m.chanIds.length, ∀ i, 0 < d k i := fun k hk i => lt_of_lt_of_le (by norm_num) (hpos k hk i)
  refine Matrix.PosDef.of_dotProduct_mulVec_pos ?_ fun v hv => ?_
  · rw [Matrix.IsHermitian, Matrix.conjTranspose_eq_transpose_of_trivial]; exact hA.1
  have hcur := C131_asimov s h hne S hS d hd hpos V E hc ν (fun _ _ _ => 0) hT hdata (yieldsOf s S v) (nuisOf s S v)
  have h1 := hA.2 v
  simp only [paramVec_of hw S hx] at h1
  rw [star_trivial, HasCurvature_unique h1 hcur]
  refine C131_no_flat s S hS d h0 V E hc ν hdata hid _ _ ?_
  have hl : (pslots s S).length = n := by
    have := congrArg List.length hx
    rw [paramVec_slots] at this
    simpa [vec] using this
  obtain ⟨q, hq⟩ := Function.ne_iff.mp hv
  have hidx := slotIdx_get hw S q (hl ▸ q.2)
  have hmem : (pslots s S)[(q:ℕ)]'(hl ▸ q.2) ∈ pslots s S := List.getElem_mem _
  obtain ⟨σ, hσ⟩ : ∃ σ, σ = (pslots s S)[(q:ℕ)]'(hl ▸ q.2) := ⟨_, rfl⟩
  rw [← hσ] at hidx hmem
  unfold pslots at hmem
  rcases List.mem_append.mp hmem with hm | hm
  · obtain ⟨p, hp, rfl⟩ := List.mem_map.mp hm
    exact .inl ⟨p, hp, by simpa [yieldsOf, hidx, vget] using hq⟩
  · obtain ⟨k, hk, hm⟩ := List.mem_flatMap.mp hm
    obtain ⟨j, -, hm⟩ := List.mem_flatMap.mp hm
    obtain ⟨i, -, rfl⟩ := List.mem_map.mp hm
    exact .inr ⟨k, List.mem_range.mp hk, j, i, by simpa [nuisOf, hidx, vget] using hq⟩

end

end TF.Props
