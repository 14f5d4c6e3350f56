import Verif.Props.MctProps12
import Mathlib.Analysis.SpecialFunctions.Log.Deriv
import Mathlib.Analysis.Calculus.ContDiff.Operations

set_option linter.unusedSimpArgs false

/-!
# The likelihood is smooth, and its derivatives (C100)
-/

namespace TF.Props

open Classical Spec
open scoped Matrix

noncomputable section

/-- expected events as a function of smooth coordinates -/
theorem expected_contDiff {E : Type} [NormedAddCommGroup E] [NormedSpace ℝ E] {N : WithTop ℕ∞} {e0 : E}
    (s : Sys) (S : ℕ → ChanSpec) (ν : E → String → ℝ) (θ : E → ∀ k, Fin (S k).K → Fin (S k).n → ℝ) (k : ℕ)
    (hν : ∀ j : Fin (S k).K, ContDiffAt ℝ N (fun e => ν e (procName s k j)) e0)
    (hθ : ∀ j i, ContDiffAt ℝ N (fun e => θ e k j i) e0)
    (hT : ∀ j, ∑ i, (S k).cnt j i * (1 + θ e0 k j i * (S k).ε j i) ≠ 0) (i : Fin (S k).n) :
    ContDiffAt ℝ N (fun e => expectedIn s S (ν e) (θ e) k i) e0 := by
  unfold expectedIn expected
  apply ContDiffAt.sum
  intro j _
  have hv : ∀ i, ContDiffAt ℝ N (fun e => (S k).cnt j i * (1 + θ e k j i * (S k).ε j i)) e0 := fun i =>
    contDiffAt_const.mul (contDiffAt_const.add ((hθ j i).mul contDiffAt_const))
  exact ((hν j).mul contDiffAt_const).mul ((hv i).div (ContDiffAt.sum fun i _ => hv i) (hT j))

theorem poissonBin_contDiff {E : Type} [NormedAddCommGroup E] [NormedSpace ℝ E] {N : WithTop ℕ∞} {e0 : E}
    (n : ℝ) {l : E → ℝ} (hl : ContDiffAt ℝ N l e0) (h0 : l e0 ≠ 0) : ContDiffAt ℝ N (fun e => poissonBin n (l e)) e0 := by
  unfold poissonBin
  by_cases h : n = 0
  · simpa [h] using hl
  · simp only [h, if_false]
    exact (hl.sub contDiffAt_const).sub (contDiffAt_const.mul ((hl.div_const n).log (div_ne_zero h0 h)))

theorem penalty_contDiff {E : Type} [NormedAddCommGroup E] [NormedSpace ℝ E] {N : WithTop ℕ∞} {e0 : E} {K n : ℕ}
    (R : Fin K → Matrix (Fin n) (Fin n) ℝ) {θ : E → Fin K → Fin n → ℝ}
    (hθ : ∀ j i, ContDiffAt ℝ N (fun e => θ e j i) e0) : ContDiffAt ℝ N (fun e => penalty R (θ e)) e0 := by
  unfold penalty
  apply contDiffAt_const.mul
  apply ContDiffAt.sum
  intro j _
  simp only [dotProduct, Matrix.mulVec]
  apply ContDiffAt.sum
  intro i _
  apply (hθ j i).mul
  apply ContDiffAt.sum
  intro i' _
  exact contDiffAt_const.mul (hθ j i')

theorem list_sum_contDiff {E α : Type} [NormedAddCommGroup E] [NormedSpace ℝ E] {N : WithTop ℕ∞} {e0 : E}
    (l : List α) (f : α → E → ℝ) (h : ∀ a ∈ l, ContDiffAt ℝ N (f a) e0) :
    ContDiffAt ℝ N (fun e => (l.map fun a => f a e).sum) e0 := by
  induction l with
  | nil => simpa using contDiffAt_const
  | cons a l ih =>
    simp only [List.map_cons, List.sum_cons]
    exact (h a (by simp)).add (ih fun a ha => h a (by simp [ha]))

/-- **C100, smoothness.** Let yields and nuisance parameters depend on coordinates in any normed space, `N` times
continuously differentiably (`N` may be `∞` or `ω`). Around every point where all expectations are positive and no
template's varied contents sum to zero, the likelihood is a number, and `N` times continuously differentiable in those
coordinates. -/
theorem C100_smooth (s : Sys) (h : s.Built) (hne : s.m.channels ≠ []) (S : ℕ → ChanSpec) (hS : ModelIs s S)
    (d : ∀ k, Fin (S k).n → ℝ) (hd : DataIs s S d)
    (hpos : ∀ k < s.m.chanIds.length, ∀ i, d k i = 0 ∨ (1e-100 : ℝ) ≤ d k i)
    (V E : String → ℝ) (hc : ConstraintsAre s V E)
    {X : Type} [NormedAddCommGroup X] [NormedSpace ℝ X] (N : WithTop ℕ∞) (x0 : X)
    (ν : X → String → ℝ) (hν : ∀ p ∈ s.m.processes, ContDiffAt ℝ N (fun x => ν x p) x0)
    (θ : X → ∀ k, Fin (S k).K → Fin (S k).n → ℝ)
    (hθ : ∀ k < s.m.chanIds.length, ∀ j i, ContDiffAt ℝ N (fun x => θ x k j i) x0)
    (hT : NonZeroSums s S (θ x0)) (hE : ∀ k < s.m.chanIds.length, ∀ i, 0 < expectedIn s S (ν x0) (θ x0) k i) :
    ∃ f : X → ℝ, ContDiffAt ℝ N f x0 ∧
      ∀ᶠ x in nhds x0, objective s.w s.m (paramVec s S (ν x) (θ x)) = .ok (.fin (f x)) := by
  have hw := reachable_wf h.reachable
  have hexp : ∀ k < s.m.chanIds.length, ∀ i, ContDiffAt ℝ N (fun x => expectedIn s S (ν x) (θ x) k i) x0 :=
    fun k hk i => expected_contDiff s S ν θ k (fun j => hν _ (procName_mem hw hS k hk j)) (hθ k hk) (hT k hk) i
  refine ⟨fun x => nllAt s S d V E (θ x) (ν x), ?_, ?_⟩
  · unfold nllAt
    apply ContDiffAt.add
    · apply ContDiffAt.sum
      intro k hk
      have hk := Finset.mem_range.mp hk
      apply ContDiffAt.add
      · exact ContDiffAt.sum fun i _ => poissonBin_contDiff _ (hexp k hk i) (hE k hk i).ne'
      · exact penalty_contDiff _ (hθ k hk)
    · apply list_sum_contDiff s.m.constrained (fun p x => (ν x p - V p) ^ 2 / (2 * E p ^ 2))
      intro p hp
      exact (((hν p (hc p hp).1).sub contDiffAt_const).pow 2).div_const _
  · have h1 : ∀ᶠ x in nhds x0, ∀ k ∈ Finset.range s.m.chanIds.length, ∀ i, 0 < expectedIn s S (ν x) (θ x) k i := by
      rw [Filter.eventually_all_finset]
      intro k hk
      have hk := Finset.mem_range.mp hk
      rw [Filter.eventually_all]
      intro i
      exact (hexp k hk i).continuousAt.eventually_const_lt (hE k hk i)
    have h2 : ∀ᶠ x in nhds x0, ∀ k ∈ Finset.range s.m.chanIds.length, ∀ j,
        ∑ i, (S k).cnt j i * (1 + θ x k j i * (S k).ε j i) ≠ 0 := by
      rw [Filter.eventually_all_finset]
      intro k hk
      have hk := Finset.mem_range.mp hk
      rw [Filter.eventually_all]
      intro j
      have : ContDiffAt ℝ N (fun x => ∑ i, (S k).cnt j i * (1 + θ x k j i * (S k).ε j i)) x0 :=
        ContDiffAt.sum fun i _ => contDiffAt_const.mul (contDiffAt_const.add ((hθ k hk j i).mul contDiffAt_const))
      exact this.continuousAt.eventually_ne (hT k hk j)
    filter_upwards [h1, h2] with x a b
    exact objective_nllAt h hne hS hd hpos hc (fun k hk => b k (Finset.mem_range.mpr hk))
      (fun k hk i => Or.inl (a k (Finset.mem_range.mpr hk) i))

end

end TF.Props
namespace TF.Spec

open Classical
open scoped Matrix

noncomputable section

/-- derivative of the likelihood with respect to the nuisance parameter of bin `i` of template `j` of channel `k`:
`ν_p ε_{kj} (c_i e_i / Σ c (1 + θ e)) ((1 - n_i/λ_i) - Σ_{i'} f_{i'} (1 - n_{i'}/λ_{i'})) + (R⁻¹ θ)_i` -/
def nuiScore (s : Sys) (S : ℕ → ChanSpec) (d : ∀ k, Fin (S k).n → ℝ) (ν : String → ℝ)
    (θ : ∀ k, Fin (S k).K → Fin (S k).n → ℝ) (k : ℕ) (j : Fin (S k).K) (i : Fin (S k).n) : ℝ :=
  ν (procName s k j) * (S k).eff j * ((S k).cnt j i * (S k).ε j i /
      ∑ i', (S k).cnt j i' * (1 + θ k j i' * (S k).ε j i')) *
    ((1 - d k i / expectedIn s S ν θ k i) - ∑ i', fracIn S θ k j i' * (1 - d k i' / expectedIn s S ν θ k i')) +
  ((S k).R j)⁻¹.mulVec (θ k j) i

end

end TF.Spec

namespace TF.Props

open Classical Spec
open scoped Matrix

noncomputable section

theorem hasDerivAt_list_sum {α : Type} (l : List α) (f : α → ℝ → ℝ) (f' : α → ℝ) (t : ℝ)
    (h : ∀ a ∈ l, HasDerivAt (f a) (f' a) t) : HasDerivAt (fun u => (l.map fun a => f a u).sum) (l.map f').sum t := by
  induction l with
  | nil => simpa using hasDerivAt_const t (0:ℝ)
  | cons a l ih =>
    simp only [List.map_cons, List.sum_cons]
    exact (h a (by simp)).fun_add (ih fun a ha => h a (by simp [ha]))

theorem poissonBin_hasDeriv (n : ℝ) {l : ℝ → ℝ} {l' t : ℝ} (hl : HasDerivAt l l' t) (h0 : n ≠ 0 → l t ≠ 0) :
    HasDerivAt (fun u => poissonBin n (l u)) ((1 - n / l t) * l') t := by
  unfold poissonBin
  by_cases h : n = 0
  · simpa [h] using hl
  · simp only [h, if_false]
    have h1 := (hl.div_const n).log (div_ne_zero (h0 h) h)
    have h2 := (hl.sub_const n).fun_sub (h1.const_mul n)
    refine h2.congr_deriv (Eq.symm ?_)
    have e : l' / n / (l t / n) = l' / l t := by field_simp
    rw [e]; ring

/-- derivative of an expected content along a line -/
theorem expected_hasDeriv (s : Sys) (S : ℕ → ChanSpec) (ν δ : String → ℝ)
    (θ η : ∀ k, Fin (S k).K → Fin (S k).n → ℝ) (k : ℕ)
    (hT : ∀ j, ∑ i, (S k).cnt j i * (1 + θ k j i * (S k).ε j i) ≠ 0) (i : Fin (S k).n) :
    HasDerivAt (fun t : ℝ => expectedIn s S (fun p => ν p + t * δ p) (fun k j i => θ k j i + t * η k j i) k i)
      (∑ j : Fin (S k).K, (δ (procName s k j) * (S k).eff j * fracIn S θ k j i +
        ν (procName s k j) * (S k).eff j * (((S k).cnt j i * (S k).ε j i * η k j i -
          fracIn S θ k j i * ∑ i', (S k).cnt j i' * (S k).ε j i' * η k j i') /
          ∑ i', (S k).cnt j i' * (1 + θ k j i' * (S k).ε j i')))) 0 := by
  unfold expectedIn expected
  apply HasDerivAt.fun_sum
  intro j _
  have hv : ∀ i', HasDerivAt (fun t : ℝ => (S k).cnt j i' * (1 + (θ k j i' + t * η k j i') * (S k).ε j i'))
      ((S k).cnt j i' * (S k).ε j i' * η k j i') 0 := by
    intro i'
    have h1 : HasDerivAt (fun t : ℝ => θ k j i' + t * η k j i') (η k j i') 0 := by
      simpa using ((hasDerivAt_id (0:ℝ)).mul_const (η k j i')).const_add (θ k j i')
    have h2 := ((h1.mul_const ((S k).ε j i')).const_add 1).const_mul ((S k).cnt j i')
    refine h2.congr_deriv (Eq.symm ?_)
    ring
  have hs := HasDerivAt.fun_sum (u := Finset.univ) fun i' _ => hv i'
  have hn : HasDerivAt (fun t : ℝ => (ν (procName s k j) + t * δ (procName s k j)) * (S k).eff j)
      (δ (procName s k j) * (S k).eff j) 0 := by
    simpa using (((hasDerivAt_id (0:ℝ)).mul_const (δ (procName s k j))).const_add (ν (procName s k j))).mul_const ((S k).eff j)
  have hT' : ∑ i', (S k).cnt j i' * (1 + (θ k j i' + 0 * η k j i') * (S k).ε j i') ≠ 0 := by simpa using hT j
  have h := hn.fun_mul ((hv i).fun_div hs hT')
  refine h.congr_deriv (Eq.symm ?_)
  simp only [zero_mul, add_zero]
  unfold fracIn
  have := hT j
  field_simp

theorem quadForm_hasDeriv {n : ℕ} {A : Matrix (Fin n) (Fin n) ℝ} (hA : A.IsSymm) (x y : Fin n → ℝ) :
    HasDerivAt (fun t : ℝ => (fun i => x i + t * y i) ⬝ᵥ A.mulVec (fun i => x i + t * y i)) (2 * y ⬝ᵥ A.mulVec x) 0 := by
  have e : (fun t : ℝ => (fun i => x i + t * y i) ⬝ᵥ A.mulVec (fun i => x i + t * y i)) =
      fun t => x ⬝ᵥ A.mulVec x + t * (2 * y ⬝ᵥ A.mulVec x) + t ^ 2 * (y ⬝ᵥ A.mulVec y) := by
    funext t
    have h1 : (fun i => x i + t * y i) = x + t • y := by funext i; simp
    have h2 : x ⬝ᵥ A.mulVec y = y ⬝ᵥ A.mulVec x := by
      rw [Matrix.dotProduct_mulVec, ← Matrix.mulVec_transpose, hA.eq, dotProduct_comm]
    rw [h1, Matrix.mulVec_add, Matrix.mulVec_smul, add_dotProduct, dotProduct_add, dotProduct_add,
      smul_dotProduct, smul_dotProduct, dotProduct_smul, dotProduct_smul, h2]
    simp only [smul_eq_mul]
    ring
  rw [e]
  have h1 := ((hasDerivAt_id (0:ℝ)).mul_const (2 * y ⬝ᵥ A.mulVec x)).const_add (x ⬝ᵥ A.mulVec x)
  have h2 := (hasDerivAt_pow 2 (0:ℝ)).mul_const (y ⬝ᵥ A.mulVec y)
  refine (h1.fun_add h2).congr_deriv ?_
  simp

theorem penalty_hasDeriv {K n : ℕ} {R : Fin K → Matrix (Fin n) (Fin n) ℝ} (hR : ∀ j, (R j).PosDef)
    (x y : Fin K → Fin n → ℝ) :
    HasDerivAt (fun t : ℝ => penalty R (fun j i => x j i + t * y j i)) (∑ j, ∑ i, y j i * (R j)⁻¹.mulVec (x j) i) 0 := by
  unfold penalty
  have h := (HasDerivAt.fun_sum (u := Finset.univ) fun j _ =>
    quadForm_hasDeriv (A := (R j)⁻¹) (by
      have := (hR j).inv.isHermitian
      rw [Matrix.IsHermitian, Matrix.conjTranspose_eq_transpose_of_trivial] at this
      exact this) (x j) (y j)).const_mul (1/2 : ℝ)
  refine h.congr_deriv (Eq.symm ?_)
  rw [Finset.mul_sum]
  apply Finset.sum_congr rfl
  intro j _
  simp only [dotProduct, Finset.mul_sum]
  exact Finset.sum_congr rfl fun i _ => by ring

/-- the closed form of the likelihood along a line: its derivative wherever the bins with data have positive expectations -/
theorem nllAt_hasDeriv {s : Sys} (hw : SysWF s) {S : ℕ → ChanSpec} (hS : ModelIs s S)
    (d : ∀ k, Fin (S k).n → ℝ) {V E : String → ℝ} (hc : ConstraintsAre s V E)
    (ν : String → ℝ) (θ : ∀ k, Fin (S k).K → Fin (S k).n → ℝ) (hT : NonZeroSums s S θ)
    (hE : ∀ k < s.m.chanIds.length, ∀ i, d k i ≠ 0 → 0 < expectedIn s S ν θ k i)
    (δ : String → ℝ) (η : ∀ k, Fin (S k).K → Fin (S k).n → ℝ) :
    HasDerivAt (fun t => nllAt s S d V E (fun k j i => θ k j i + t * η k j i) (fun p => ν p + t * δ p))
      ((∑ p ∈ s.m.processes.toFinset, δ p * score s S d V E ν θ p) +
        ∑ k ∈ Finset.range s.m.channels.length, ∑ j, ∑ i, η k j i * nuiScore s S d ν θ k j i) 0 := by
  have hlen : s.m.channels.length = s.m.chanIds.length := by simp [Mct.chanIds]
  have e0 : (fun p => ν p + 0 * δ p) = ν := by funext p; ring
  have e1 : (fun k j i => θ k j i + 0 * η k j i) = θ := by funext k j i; ring
  rw [← slope_by_process hw hS hc ν δ, hlen]
  unfold nllAt
  have hk1 : ∀ k ∈ Finset.range s.m.chanIds.length, HasDerivAt (fun t : ℝ =>
      (∑ i, poissonBin (d k i) (expectedIn s S (fun p => ν p + t * δ p) (fun k j i => θ k j i + t * η k j i) k i)) +
        penalty (S k).R (fun j i => θ k j i + t * η k j i))
      ((∑ i, (1 - d k i / expectedIn s S ν θ k i) * expectedIn s S δ θ k i) +
        ∑ j, ∑ i, η k j i * nuiScore s S d ν θ k j i) 0 := by
    intro k hk
    have hk := Finset.mem_range.mp hk
    have hp := HasDerivAt.fun_sum (u := Finset.univ) fun i (_ : i ∈ Finset.univ) =>
      poissonBin_hasDeriv (d k i) (expected_hasDeriv s S ν δ θ η k (hT k hk) i)
        (fun hz => by simp only [e0, e1]; exact (hE k hk i hz).ne')
    have hq := penalty_hasDeriv (hS k hk).2.2.1 (θ k) (η k)
    have hpq := hp.fun_add hq
    simp only [e0, e1] at hpq
    refine hpq.congr_deriv (Eq.symm ?_)
    have key : ∀ j, ∑ i, η k j i * nuiScore s S d ν θ k j i =
        (∑ i, (1 - d k i / expectedIn s S ν θ k i) * (ν (procName s k j) * (S k).eff j *
          (((S k).cnt j i * (S k).ε j i * η k j i - fracIn S θ k j i *
            ∑ i', (S k).cnt j i' * (S k).ε j i' * η k j i') /
          ∑ i', (S k).cnt j i' * (1 + θ k j i' * (S k).ε j i')))) +
        ∑ i, η k j i * ((S k).R j)⁻¹.mulVec (θ k j) i := by
      intro j
      unfold nuiScore
      generalize ∑ i', (S k).cnt j i' * (1 + θ k j i' * (S k).ε j i') = T
      generalize ν (procName s k j) * (S k).eff j = a
      have l1 : ∑ i, η k j i * (a * ((S k).cnt j i * (S k).ε j i / T) *
          ((1 - d k i / expectedIn s S ν θ k i) - ∑ i', fracIn S θ k j i' * (1 - d k i' / expectedIn s S ν θ k i'))) =
          a / T * (∑ i, (S k).cnt j i * (S k).ε j i * η k j i * (1 - d k i / expectedIn s S ν θ k i)) -
          a / T * (∑ i', fracIn S θ k j i' * (1 - d k i' / expectedIn s S ν θ k i')) *
            ∑ i, (S k).cnt j i * (S k).ε j i * η k j i := by
        rw [Finset.mul_sum, Finset.mul_sum, ← Finset.sum_sub_distrib]
        exact Finset.sum_congr rfl fun i _ => by ring
      have l2 : ∑ i, (1 - d k i / expectedIn s S ν θ k i) * (a * (((S k).cnt j i * (S k).ε j i * η k j i -
          fracIn S θ k j i * ∑ i', (S k).cnt j i' * (S k).ε j i' * η k j i') / T)) =
          a / T * (∑ i, (S k).cnt j i * (S k).ε j i * η k j i * (1 - d k i / expectedIn s S ν θ k i)) -
          a / T * (∑ i', fracIn S θ k j i' * (1 - d k i' / expectedIn s S ν θ k i')) *
            ∑ i, (S k).cnt j i * (S k).ε j i * η k j i := by
        rw [Finset.mul_sum, mul_assoc, Finset.sum_mul, Finset.mul_sum, ← Finset.sum_sub_distrib]
        exact Finset.sum_congr rfl fun i _ => by ring
      rw [l2, ← l1, ← Finset.sum_add_distrib]
      exact Finset.sum_congr rfl fun i _ => by ring
    rw [Finset.sum_congr rfl fun j _ => key j, Finset.sum_add_distrib, ← add_assoc]
    congr 1
    rw [Finset.sum_comm, ← Finset.sum_add_distrib]
    apply Finset.sum_congr rfl
    intro i _
    rw [expectedIn_eq s S δ θ k i, ← Finset.mul_sum, ← mul_add, ← Finset.sum_add_distrib]
  have hk2 := HasDerivAt.fun_sum hk1
  have hcs := hasDerivAt_list_sum s.m.constrained (fun p t => (ν p + t * δ p - V p) ^ 2 / (2 * E p ^ 2))
    (fun p => (ν p - V p) / E p ^ 2 * δ p) 0 (by
      intro p _
      have h1 : HasDerivAt (fun t : ℝ => ν p + t * δ p - V p) (δ p) 0 := by
        simpa using (((hasDerivAt_id (0:ℝ)).mul_const (δ p)).const_add (ν p)).sub_const (V p)
      have h2 := (h1.fun_pow 2).div_const (2 * E p ^ 2)
      refine h2.congr_deriv (Eq.symm ?_)
      simp only [zero_mul, add_zero]
      by_cases he : E p = 0
      · simp [he]
      · push_cast; field_simp)
  have := hk2.fun_add hcs
  refine this.congr_deriv (Eq.symm ?_)
  rw [Finset.sum_add_distrib]
  ring

/-- **C100, gradient.** At every point where all expectations are positive and no template's varied contents sum to zero:
the likelihood along any straight line through the point is a number near it, with derivative
`Σ_p δ_p score_p + Σ_{k,j,i} η_{kji} nuiScore_{kji}`. So `score` and `nuiScore` are the partial derivatives with respect
to the yields and to the nuisance parameters. -/
theorem C100_gradient (s : Sys) (h : s.Built) (hne : s.m.channels ≠ []) (S : ℕ → ChanSpec) (hS : ModelIs s S)
    (d : ∀ k, Fin (S k).n → ℝ) (hd : DataIs s S d)
    (hpos : ∀ k < s.m.chanIds.length, ∀ i, d k i = 0 ∨ (1e-100 : ℝ) ≤ d k i)
    (V E : String → ℝ) (hc : ConstraintsAre s V E)
    (ν : String → ℝ) (θ : ∀ k, Fin (S k).K → Fin (S k).n → ℝ) (hT : NonZeroSums s S θ)
    (hE : ∀ k < s.m.chanIds.length, ∀ i, 0 < expectedIn s S ν θ k i)
    (δ : String → ℝ) (η : ∀ k, Fin (S k).K → Fin (S k).n → ℝ) :
    ∃ f : ℝ → ℝ,
      (∀ᶠ t in nhds 0, objective s.w s.m
        (paramVec s S (fun p => ν p + t * δ p) (fun k j i => θ k j i + t * η k j i)) = .ok (.fin (f t))) ∧
      HasDerivAt f ((∑ p ∈ s.m.processes.toFinset, δ p * score s S d V E ν θ p) +
        ∑ k ∈ Finset.range s.m.channels.length, ∑ j, ∑ i, η k j i * nuiScore s S d ν θ k j i) 0 := by
  have hw := reachable_wf h.reachable
  have e0 : (fun p => ν p + 0 * δ p) = ν := by funext p; ring
  have e1 : (fun k j i => θ k j i + 0 * η k j i) = θ := by funext k j i; ring
  -- the closed form agrees with `f` near zero
  have hexp : ∀ k < s.m.chanIds.length, ∀ i, ContinuousAt
      (fun t : ℝ => expectedIn s S (fun p => ν p + t * δ p) (fun k j i => θ k j i + t * η k j i) k i) 0 :=
    fun k hk i => (expected_hasDeriv s S ν δ θ η k (hT k hk) i).continuousAt
  refine ⟨fun t => nllAt s S d V E (fun k j i => θ k j i + t * η k j i) (fun p => ν p + t * δ p), ?_, ?_⟩
  · have h1 : ∀ᶠ t in nhds (0:ℝ), ∀ k ∈ Finset.range s.m.chanIds.length, ∀ i,
        0 < expectedIn s S (fun p => ν p + t * δ p) (fun k j i => θ k j i + t * η k j i) k i := by
      rw [Filter.eventually_all_finset]
      intro k hk
      have hk := Finset.mem_range.mp hk
      rw [Filter.eventually_all]
      intro i
      refine (hexp k hk i).eventually_const_lt ?_
      simp only [e0, e1]; exact hE k hk i
    have h2 : ∀ᶠ t in nhds (0:ℝ), ∀ k ∈ Finset.range s.m.chanIds.length, ∀ j,
        ∑ i, (S k).cnt j i * (1 + (θ k j i + t * η k j i) * (S k).ε j i) ≠ 0 := by
      rw [Filter.eventually_all_finset]
      intro k hk
      have hk := Finset.mem_range.mp hk
      rw [Filter.eventually_all]
      intro j
      have : Continuous (fun t : ℝ => ∑ i, (S k).cnt j i * (1 + (θ k j i + t * η k j i) * (S k).ε j i)) := by fun_prop
      refine this.continuousAt.eventually_ne ?_
      simpa using hT k hk j
    filter_upwards [h1, h2] with t a b
    exact objective_nllAt h hne hS hd hpos hc (fun k hk => b k (Finset.mem_range.mpr hk))
      (fun k hk i => Or.inl (a k (Finset.mem_range.mpr hk) i))
  · exact nllAt_hasDeriv hw hS d hc ν θ hT (fun k hk i _ => hE k hk i) δ η

end

end TF.Props

namespace TF.Props

open Classical Spec
open scoped Matrix

noncomputable section

/-- **C100, stationarity.** At a local minimum of the likelihood in all parameters together (yields and nuisance
parameters), with positive expectations and non-zero template sums, every partial derivative vanishes: the score of every
process and of every nuisance parameter is zero. -/
theorem C100_stationary (s : Sys) (h : s.Built) (hne : s.m.channels ≠ []) (S : ℕ → ChanSpec) (hS : ModelIs s S)
    (d : ∀ k, Fin (S k).n → ℝ) (hd : DataIs s S d)
    (hpos : ∀ k < s.m.chanIds.length, ∀ i, d k i = 0 ∨ (1e-100 : ℝ) ≤ d k i)
    (V E : String → ℝ) (hc : ConstraintsAre s V E)
    (ν : String → ℝ) (θ : ∀ k, Fin (S k).K → Fin (S k).n → ℝ) (hT : NonZeroSums s S θ)
    (hE : ∀ k < s.m.chanIds.length, ∀ i, 0 < expectedIn s S ν θ k i) (r : ℝ) (hr : 0 < r)
    (hloc : ∀ ν' θ', (∀ p ∈ s.m.processes, |ν' p - ν p| < r) →
      (∀ k < s.m.chanIds.length, ∀ j i, |θ' k j i - θ k j i| < r) → NonZeroSums s S θ' →
      (∀ k < s.m.chanIds.length, ∀ i, 0 < expectedIn s S ν' θ' k i) →
      NllLe s (paramVec s S ν θ) (paramVec s S ν' θ')) :
    (∀ p ∈ s.m.processes, score s S d V E ν θ p = 0) ∧
    ∀ k < s.m.chanIds.length, ∀ j i, nuiScore s S d ν θ k j i = 0 := by
  have hlen : s.m.channels.length = s.m.chanIds.length := by simp [Mct.chanIds]
  have e0 : ∀ δ : String → ℝ, (fun p => ν p + 0 * δ p) = ν := fun δ => by funext p; ring
  have e1 : ∀ η : ∀ k, Fin (S k).K → Fin (S k).n → ℝ, (fun k j i => θ k j i + 0 * η k j i) = θ :=
    fun η => by funext k j i; ring
  -- along every bounded direction the derivative vanishes
  have main : ∀ (δ : String → ℝ) (η : ∀ k, Fin (S k).K → Fin (S k).n → ℝ), (∀ p, |δ p| ≤ 1) → (∀ k j i, |η k j i| ≤ 1) →
      (∑ p ∈ s.m.processes.toFinset, δ p * score s S d V E ν θ p) +
        ∑ k ∈ Finset.range s.m.channels.length, ∑ j, ∑ i, η k j i * nuiScore s S d ν θ k j i = 0 := by
    intro δ η hδ hη
    obtain ⟨f, hf, hder⟩ := C100_gradient s h hne S hS d hd hpos V E hc ν θ hT hE δ η
    have f0 := hf.self_of_nhds
    rw [e0, e1] at f0
    have h1 : ∀ᶠ t in nhds (0:ℝ), ∀ k ∈ Finset.range s.m.chanIds.length, ∀ i,
        0 < expectedIn s S (fun p => ν p + t * δ p) (fun k j i => θ k j i + t * η k j i) k i := by
      rw [Filter.eventually_all_finset]
      intro k hk
      have hk := Finset.mem_range.mp hk
      rw [Filter.eventually_all]
      intro i
      refine (expected_hasDeriv s S ν δ θ η k (hT k hk) i).continuousAt.eventually_const_lt ?_
      simp only [e0, e1]; exact hE k hk i
    have h2 : ∀ᶠ t in nhds (0:ℝ), ∀ k ∈ Finset.range s.m.chanIds.length, ∀ j,
        ∑ i, (S k).cnt j i * (1 + (θ k j i + t * η k j i) * (S k).ε j i) ≠ 0 := by
      rw [Filter.eventually_all_finset]
      intro k hk
      have hk := Finset.mem_range.mp hk
      rw [Filter.eventually_all]
      intro j
      have : Continuous (fun t : ℝ => ∑ i, (S k).cnt j i * (1 + (θ k j i + t * η k j i) * (S k).ε j i)) := by fun_prop
      refine this.continuousAt.eventually_ne ?_
      simpa using hT k hk j
    have h3 : ∀ᶠ t in nhds (0:ℝ), |t| < r := by
      have : ContinuousAt (fun u : ℝ => |u|) 0 := by fun_prop
      apply this.eventually_lt_const
      simpa using hr
    have hmin : IsLocalMin f 0 := by
      filter_upwards [hf, h1, h2, h3] with t a b c g
      have hb : ∀ x y : ℝ, |y| ≤ 1 → |x + t * y - x| < r := by
        intro x y hy
        have : x + t * y - x = t * y := by ring
        rw [this, abs_mul]
        nlinarith [abs_nonneg t]
      obtain ⟨u, v, hu, hv, huv⟩ := hloc (fun p => ν p + t * δ p) (fun k j i => θ k j i + t * η k j i)
        (fun p _ => hb _ _ (hδ p)) (fun k _ j i => hb _ _ (hη k j i)) (fun k hk => c k (Finset.mem_range.mpr hk))
        (fun k hk => b k (Finset.mem_range.mpr hk))
      rw [f0] at hu; rw [a] at hv
      rw [Fl.fin.inj (Except.ok.inj hu), Fl.fin.inj (Except.ok.inj hv)]
      exact huv
    exact hmin.hasDerivAt_eq_zero hder
  constructor
  · intro p hp
    have := main (fun q => if q = p then 1 else 0) (fun _ _ _ => 0) (fun q => by split <;> simp) (fun _ _ _ => by simp)
    simp only [zero_mul, Finset.sum_const_zero, add_zero, ite_mul, one_mul] at this
    rwa [Finset.sum_ite_eq', if_pos (List.mem_toFinset.mpr hp)] at this
  · intro k hk j i
    have := main (fun _ => 0) (fun k' j' i' => if k' = k ∧ j'.1 = j.1 ∧ i'.1 = i.1 then 1 else 0) (fun q => by simp)
      (fun _ _ _ => by split <;> simp)
    simp only [zero_mul, Finset.sum_const_zero, zero_add, ite_mul, one_mul] at this
    rw [Finset.sum_eq_single k] at this
    · rw [Finset.sum_eq_single j, Finset.sum_eq_single i] at this
      · simpa using this
      · intro i' _ hi'
        rw [if_neg]; rintro ⟨-, -, e⟩; exact hi' (Fin.ext e)
      · intro h; exact absurd (Finset.mem_univ _) h
      · intro j' _ hj'
        apply Finset.sum_eq_zero
        intro i' _
        rw [if_neg]; rintro ⟨-, e, -⟩; exact hj' (Fin.ext e)
      · intro h; exact absurd (Finset.mem_univ _) h
    · intro k' _ hk'
      apply Finset.sum_eq_zero; intro j' _
      apply Finset.sum_eq_zero; intro i' _
      rw [if_neg]; rintro ⟨e, -⟩; exact hk' e
    · intro h; rw [Finset.mem_range, hlen] at h; exact absurd hk h

/-- non-vacuity of C100: in the example of C88 (one template with contents 1 ± 1, 1 ± 1 and data 3, 5) at yield 8 and
nuisance parameters zero, the derivative with respect to the first nuisance parameter is 1, and with respect to the
yield 0 -/
example : nuiScore Ex.sys35 Ex.SZ Ex.d35 (fun _ => 8) (fun _ _ _ => 0) 0 (0 : Fin 1) (0 : Fin 2) = 1 ∧
    ∃ f : ℝ → ℝ, (∀ᶠ t in nhds 0, objective Ex.sys35.w Ex.sys35.m
        (paramVec Ex.sys35 Ex.SZ (fun _ => 8 + t * 1) (fun _ _ _ => 0 + t * 0)) = .ok (.fin (f t))) ∧
      HasDerivAt f 0 0 := by
  constructor
  · unfold nuiScore
    simp only [Ex.exp35]
    rw [show expectedIn Ex.sys35 Ex.SZ (fun _ => 8) (fun _ _ _ => 0) 0 (0 : Fin 2) = 8 / 2 from Ex.exp35 8 0 (0 : Fin 2)]
    show (8:ℝ) * 1 * ((![1, 1] : Fin 2 → ℝ) 0 * ((![1, 1] : Fin 2 → ℝ) 0 / (![1, 1] : Fin 2 → ℝ) 0) /
        ∑ i' : Fin 2, (![1, 1] : Fin 2 → ℝ) i' * (1 + 0 * ((![1, 1] : Fin 2 → ℝ) i' / (![1, 1] : Fin 2 → ℝ) i'))) *
      ((1 - (![3, 5] : Fin 2 → ℝ) 0 / (8 / 2)) - ∑ i' : Fin 2, fracIn Ex.SZ (fun _ _ _ => 0) 0 (0 : Fin 1) i' *
        (1 - (![3, 5] : Fin 2 → ℝ) i' / (8 / 2))) + ((1 : Matrix (Fin 2) (Fin 2) ℝ)⁻¹.mulVec fun _ => 0) 0 = 1
    rw [Fin.sum_univ_two, Fin.sum_univ_two, Ex.frac35, Ex.frac35]
    simp
    norm_num
  · obtain ⟨f, h1, h2⟩ := C100_gradient Ex.sys35 Ex.sys35_built (by simp [Ex.sys35, Ex.mZ]) Ex.SZ Ex.model35 Ex.d35 Ex.data35
      (fun k _ i => Ex.d35_pos k i) (fun _ => 0) (fun _ => 1) (by intro p hp; simp [Ex.sys35, Ex.mZ] at hp)
      (fun _ => 8) _ Ex.sums35 (fun k _ i => by rw [Ex.exp35]; norm_num) (fun _ => 1) (fun _ _ _ => 0)
    refine ⟨f, h1, h2.congr_deriv ?_⟩
    rw [Finset.sum_eq_zero fun p hp => by rw [Ex.score35 p (List.mem_toFinset.mp hp), mul_zero]]
    simp

end

end TF.Props
