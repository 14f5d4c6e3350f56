import Verif.Props.CurvProps
import Verif.Props.FitterProps12

set_option linter.unusedSimpArgs false

/-!
# Covariances of scipy fits are inverse information matrices (C131)
-/

namespace TF.Spec

open TF Classical
open scoped Matrix Topology

noncomputable section

/-- a numerical differentiation that returns the exact matrix of second derivatives of `F` wherever there is one -/
def ExactHesse (o : Optim) (F : Vec → Except Err Fl) : Prop :=
  ∀ (n : ℕ) (x : Fin n → ℝ) (A : Matrix (Fin n) (Fin n) ℝ), IsHesse F x A → ∃ H, o.hessian (vec x) = .ok H ∧ IsReal H A

end

end TF.Spec

namespace TF.Props

open Classical Spec
open scoped Matrix Topology

noncomputable section

/-- what a fit returns is what the minimizer returned -/
theorem doFit_minimize {f : Fitter} {o : Optim} {w : World} {m : Mct} {up g fixNui : Bool} {lim : Option Bounds} {k : MinKind}
    {z : Minimizer} (hid : minKindOf f.minimizerId = .ok k)
    (hz : f.setup k (m.paramNames w) m.numProcesses (m.numNui w) fixNui lim = .ok z)
    {r : MinResult} (hr : (f.doFit o w m up g fixNui lim).1 = .ok r) {x0 : Vec} (hx : m.x0 w = .ok x0) :
    (z.minimize o (objective w m) x0 g).1 = .ok r := by
  unfold Fitter.doFit at hr
  rw [hid] at hr
  simp only at hr
  rw [hz] at hr
  simp only at hr
  unfold runMinimizer at hr
  rw [hx] at hr
  simp only at hr
  rcases hm : z.minimize o (objective w m) x0 g with ⟨e | q, z'⟩
  · rw [hm] at hr; simp at hr
  · rw [hm] at hr
    cases up with
    | false => simpa using hr
    | true =>
      simp only [if_true] at hr
      split at hr
      · cases hr
      · simpa using hr

theorem doFit_of_minimize {f : Fitter} {o : Optim} {w : World} {m : Mct} {g fixNui : Bool} {lim : Option Bounds} {k : MinKind}
    {z : Minimizer} (hid : minKindOf f.minimizerId = .ok k)
    (hz : f.setup k (m.paramNames w) m.numProcesses (m.numNui w) fixNui lim = .ok z)
    {r : MinResult} {x0 : Vec} (hx : m.x0 w = .ok x0) (hr : (z.minimize o (objective w m) x0 g).1 = .ok r) :
    (f.doFit o w m false g fixNui lim).1 = .ok r := by
  unfold Fitter.doFit
  rw [hid]
  simp only
  rw [hz]
  simp only
  unfold runMinimizer
  rw [hx]
  simp only
  rcases hm : z.minimize o (objective w m) x0 g with ⟨e | q, z'⟩
  · rw [hm] at hr; simp at hr
  · rw [hm] at hr
    simpa using hr

/-- a parameter vector is a vector of real numbers -/
theorem paramVec_real (s : Sys) (S : ℕ → ChanSpec) (ν : String → ℝ) (θ : ∀ k, Fin (S k).K → Fin (S k).n → ℝ) {n : ℕ}
    (hn : (paramVec s S ν θ).length = n) : ∃ x : Fin n → ℝ, paramVec s S ν θ = vec x := by
  subst hn
  have hall : ∀ b ∈ paramVec s S ν θ, ∃ a : ℝ, b = .fin a := by
    rw [paramVec_slots]
    intro b hb
    obtain ⟨σ, -, rfl⟩ := List.mem_map.mp hb
    rcases σ with p | ⟨k, j, i⟩
    · exact ⟨_, rfl⟩
    · exact ⟨_, rfl⟩
  have : ∀ q : Fin (paramVec s S ν θ).length, ∃ a : ℝ, (paramVec s S ν θ)[q] = .fin a := fun q => hall _ (List.getElem_mem _)
  choose x hx using this
  refine ⟨x, ?_⟩
  apply List.ext_getElem
  · simp [vec]
  intro q h1 h2
  have := hx ⟨q, h1⟩
  simp only [Fin.getElem_fin] at this
  rw [this]
  simp [vec]

/-- **C131, fit errors.** A fit with scipy to data that equal the expectations of the current parameters, with every fitter
configuration whose bounds contain them: the returned covariance is the inverse of the matrix of second derivatives of the
likelihood at the returned point, this matrix is positive definite, and the errors are the (positive) roots of the diagonal of
the covariance — for exact minimization and differentiation. -/
theorem C131_fit (s : Sys) (h : s.Built) (hne : s.m.channels ≠ []) (S : ℕ → ChanSpec) (hS : ModelIs s S)
    (d : ∀ k, Fin (S k).n → ℝ) (hd : DataIs s S d) (hpos : ∀ k < s.m.chanIds.length, ∀ i, (1e-100 : ℝ) ≤ d k i)
    (V E : String → ℝ) (hc : ConstraintsAre s V E)
    (ν : String → ℝ) (hx0 : s.m.x0 s.w = .ok (paramVec s S ν fun _ _ _ => 0))
    (hT0 : NonZeroSums s S fun _ _ _ => 0)
    (hdata : ∀ k < s.m.chanIds.length, ∀ i, expectedIn s S ν (fun _ _ _ => 0) k i = d k i)
    (hV : ∀ p ∈ s.m.constrained, V p = ν p) (hid : Identifiable s S)
    (o : Optim) (ho : TrueMinScipy o) (hH : ExactHesse o (objective s.w s.m))
    (id : String) (hmin : id.toLower = "scipy") (hist : List FitOp)
    (hk : KnownIds (s.m.paramNames s.w) hist) (up fixNui : Bool) (lim : Option Bounds)
    (hb : ∀ pid b, FitOp.bound pid b ∈ hist → ∀ k v, Denotes (s.m.paramNames s.w) pid k →
      (paramVec s S ν fun _ _ _ => 0)[k]? = some v → InBounds b v)
    (hlim : ∀ b, lim = some b → InBounds b 0)
    (r : MinResult) (hr : ((fitRun id hist).doFit o s.w s.m up true fixNui lim).1 = .ok r) :
    ∃ (x : Fin (s.m.paramNames s.w).length → ℝ) (A : Matrix (Fin (s.m.paramNames s.w).length) (Fin (s.m.paramNames s.w).length) ℝ),
      r.params.values = vec x ∧ IsHesse (objective s.w s.m) x A ∧ A.PosDef ∧ IsReal r.params.cov A⁻¹ ∧
      r.params.errors = vec (fun i => Real.sqrt (A⁻¹ i i)) ∧ (∀ i, 0 < Real.sqrt (A⁻¹ i i)) ∧ IsReal r.params.corr (corrOf A⁻¹) := by
  have hw := reachable_wf h.reachable
  have hal := C51_aligned s h.reachable
  have hz := setup_eq (kd := .scipy) (id := id) hal.1.symm hk fixNui lim
  have hzw := minRun_wf .scipy (s.m.paramNames s.w)
    (setupOps (fitRun id hist) s.m.numProcesses (s.m.numNui s.w) fixNui lim)
  have hm1 : minKindOf (fitRun id hist).minimizerId = .ok .scipy := by rw [fitRun_id]; exact minKind_scipy hmin
  obtain ⟨x1, q, hx1, hq, hsucc, hf, hval⟩ := doFit_scipy_inv hm1 hz hzw.hk hr
  obtain ⟨-, hvals⟩ := C106_scipy s h hne S hS d hd hpos V E hc ν hx0 hT0 hdata hV hid o ho id hmin hist hk up true fixNui lim hb hlim r hr
  rw [hx0] at hvals
  have hvals := (Except.ok.inj hvals).symm
  have hplen : (paramVec s S ν fun _ _ _ => 0).length = (s.m.paramNames s.w).length := by
    rw [paramVec_length hw hS, hal.1]
  obtain ⟨x, hx⟩ := paramVec_real s S ν (fun _ _ _ => 0) hplen
  have h0 : ∀ k < s.m.chanIds.length, ∀ i, 0 < d k i := fun k hk i => lt_of_lt_of_le (by norm_num) (hpos k hk i)
  obtain ⟨A, hA⟩ := C131_hesse_exists s h hne S hS d hd (fun k hk i => Or.inr (hpos k hk i)) V E hc ν (fun _ _ _ => 0) hT0
    (fun k hk i => by rw [hdata k hk i]; exact h0 k hk i) x hx
  have hpd := C131_hesse_posdef s h hne S hS d hd hpos V E hc ν hT0 hdata hid x hx A hA
  obtain ⟨H, hH1, hH2⟩ := hH _ x A hA
  have hqx : q.x = vec x := by rw [← hval, hvals, hx]
  obtain ⟨res, e1, e2, e3, e4⟩ := C62_hessian (s.m.paramNames s.w) rfl
    (setupOps (fitRun id hist) s.m.numProcesses (s.m.numNui s.w) fixNui lim) o (objective s.w s.m) x1 q hq hsucc
    (by rw [hqx]; simp [vec]) H A (by rw [hqx]; exact hH1) hH2 hpd
  have e5 := doFit_minimize hm1 hz hr hx1
  rw [e1] at e5
  obtain rfl := Except.ok.inj e5
  exact ⟨x, A, by rw [hvals, hx], hA, hpd, e2, e3, fun i => Real.sqrt_pos.mpr hpd.inv.diag_pos, e4⟩


/-- **C132, the configuration does not matter.** Two such fits of the same model report the same covariance and errors, whatever is held
fixed in either. -/
theorem C132_same_partial (s : Sys) (h : s.Built) (hne : s.m.channels ≠ []) (S : ℕ → ChanSpec) (hS : ModelIs s S)
    (d : ∀ k, Fin (S k).n → ℝ) (hd : DataIs s S d) (hpos : ∀ k < s.m.chanIds.length, ∀ i, (1e-100 : ℝ) ≤ d k i)
    (V E : String → ℝ) (hc : ConstraintsAre s V E)
    (ν : String → ℝ) (hx0 : s.m.x0 s.w = .ok (paramVec s S ν fun _ _ _ => 0))
    (hT0 : NonZeroSums s S fun _ _ _ => 0)
    (hdata : ∀ k < s.m.chanIds.length, ∀ i, expectedIn s S ν (fun _ _ _ => 0) k i = d k i)
    (hV : ∀ p ∈ s.m.constrained, V p = ν p) (hid : Identifiable s S)
    (o : Optim) (ho : TrueMinScipy o) (hH : ExactHesse o (objective s.w s.m))
    (id : String) (hmin : id.toLower = "scipy") (hist hist' : List FitOp)
    (hk : KnownIds (s.m.paramNames s.w) hist) (hk' : KnownIds (s.m.paramNames s.w) hist')
    (hb : ∀ pid b, FitOp.bound pid b ∉ hist) (hb' : ∀ pid b, FitOp.bound pid b ∉ hist') (up up' fixNui fixNui' : Bool)
    (r r' : MinResult) (hr : ((fitRun id hist).doFit o s.w s.m up true fixNui none).1 = .ok r)
    (hr' : ((fitRun id hist').doFit o s.w s.m up' true fixNui' none).1 = .ok r') :
    r.params.values = r'.params.values ∧ r.params.errors = r'.params.errors ∧
      ∃ C : Matrix (Fin (s.m.paramNames s.w).length) (Fin (s.m.paramNames s.w).length) ℝ, IsReal r.params.cov C ∧ IsReal r'.params.cov C := by
  obtain ⟨x, A, a1, a2, -, a4, a5, -, -⟩ := C131_fit s h hne S hS d hd hpos V E hc ν hx0 hT0 hdata hV hid o ho hH id hmin hist hk up
    fixNui none (fun pid b hm => absurd hm (hb pid b)) (fun b hb => by cases hb) r hr
  obtain ⟨x', A', b1, b2, -, b4, b5, -, -⟩ := C131_fit s h hne S hS d hd hpos V E hc ν hx0 hT0 hdata hV hid o ho hH id hmin hist' hk' up'
    fixNui' none (fun pid b hm => absurd hm (hb' pid b)) (fun b hb => by cases hb) r' hr'
  have hx : r.params.values = r'.params.values := by
    have e1 := (C106_scipy s h hne S hS d hd hpos V E hc ν hx0 hT0 hdata hV hid o ho id hmin hist hk up true fixNui none
      (fun pid b hm => absurd hm (hb pid b)) (fun b hb => by cases hb) r hr).2
    have e2 := (C106_scipy s h hne S hS d hd hpos V E hc ν hx0 hT0 hdata hV hid o ho id hmin hist' hk' up' true fixNui' none
      (fun pid b hm => absurd hm (hb' pid b)) (fun b hb => by cases hb) r' hr').2
    rw [e1] at e2
    exact Except.ok.inj e2
  have hxx : x = x' := by
    rw [a1, b1] at hx
    have := List.ofFn_injective hx
    funext i
    exact Fl.fin.inj (congrFun this i)
  subst hxx
  obtain rfl := C131_hesse_unique a2 b2
  exact ⟨hx, by rw [a5, b5], _, a4, b4⟩

/-! ### the errors with the fixed parameters held -/

/-- for a positive definite matrix: `2 v_i - vᵀ A v ≤ (A⁻¹)_ii`, with equality only for `v = A⁻¹ e_i` -/
theorem posDef_dual {n : ℕ} {A : Matrix (Fin n) (Fin n) ℝ} (hA : A.PosDef) (v : Fin n → ℝ) (i : Fin n) :
    2 * v i - v ⬝ᵥ A.mulVec v ≤ A⁻¹ i i ∧ ((∃ q, v q ≠ A⁻¹ q i) → 2 * v i - v ⬝ᵥ A.mulVec v < A⁻¹ i i) := by
  have hdet : IsUnit A.det := (Matrix.isUnit_iff_isUnit_det _).mp hA.isUnit
  set u : Fin n → ℝ := A⁻¹.mulVec (Pi.single i 1) with hu
  have hAu : A.mulVec u = Pi.single i 1 := by
    rw [hu, Matrix.mulVec_mulVec, Matrix.mul_nonsing_inv _ hdet, Matrix.one_mulVec]
  have hsym : Aᵀ = A := by
    have := hA.isHermitian
    rwa [Matrix.IsHermitian, Matrix.conjTranspose_eq_transpose_of_trivial] at this
  have huq : ∀ q, u q = A⁻¹ q i := fun q => by rw [hu]; simp
  have h1 : v ⬝ᵥ A.mulVec u = v i := by rw [hAu]; simp
  have h2 : u ⬝ᵥ A.mulVec v = v i := by
    rw [Matrix.dotProduct_mulVec, ← Matrix.mulVec_transpose, hsym, hAu]; simp
  have h3 : u ⬝ᵥ A.mulVec u = A⁻¹ i i := by rw [hAu]; simp [huq]
  have key : (v - u) ⬝ᵥ A.mulVec (v - u) = v ⬝ᵥ A.mulVec v - 2 * v i + A⁻¹ i i := by
    rw [Matrix.mulVec_sub, sub_dotProduct, dotProduct_sub, dotProduct_sub, h1, h2, h3]; ring
  refine ⟨?_, fun ⟨q, hq⟩ => ?_⟩
  · have := hA.posSemidef.dotProduct_mulVec_nonneg (v - u)
    rw [star_trivial, key] at this
    linarith
  · have hne : v - u ≠ 0 := fun h => hq (by
      have := congrFun h q
      rw [Pi.sub_apply, Pi.zero_apply, huq] at this
      linarith)
    have := hA.dotProduct_mulVec_pos hne
    rw [star_trivial, key] at this
    linarith

/-- **C132, never underestimated.** `A` the second derivatives for all parameters, `e` numbering the ones that are not held fixed: the
reported variance `(A⁻¹)_ii` of each of these is at least the variance `(A_free⁻¹)_ii` one gets by inverting the second derivatives of
the free parameters alone, and strictly greater as soon as the parameter has a non-zero reported covariance with a fixed one. -/
theorem C132_overestimate_partial {n m : ℕ} (A : Matrix (Fin n) (Fin n) ℝ) (hA : A.PosDef) (e : Fin m ↪ Fin n) (i : Fin m) :
    0 < (A.submatrix e e)⁻¹ i i ∧ (A.submatrix e e)⁻¹ i i ≤ A⁻¹ (e i) (e i) ∧
      ((∃ q, q ∉ Set.range e ∧ A⁻¹ q (e i) ≠ 0) → (A.submatrix e e)⁻¹ i i < A⁻¹ (e i) (e i)) := by
  have hB : (A.submatrix e e).PosDef := hA.submatrix e.injective
  have hdet : IsUnit (A.submatrix e e).det := (Matrix.isUnit_iff_isUnit_det _).mp hB.isUnit
  set u : Fin m → ℝ := (A.submatrix e e)⁻¹.mulVec (Pi.single i 1) with hu
  have hui : u i = (A.submatrix e e)⁻¹ i i := by rw [hu]; simp
  set v : Fin n → ℝ := Function.extend e u 0 with hv
  have hve : ∀ j, v (e j) = u j := fun j => e.injective.extend_apply _ _ _
  have hvo : ∀ q, q ∉ Set.range e → v q = 0 := fun q hq => by
    rw [hv, Function.extend_apply' _ _ _ (by simpa using hq)]; rfl
  have hsum : ∀ f : Fin n → ℝ, (∀ q, q ∉ Set.range e → f q = 0) → ∑ q, f q = ∑ j, f (e j) := by
    intro f hf
    rw [← Finset.sum_map Finset.univ e f]
    refine (Finset.sum_subset (Finset.subset_univ _) fun q _ hq => hf q ?_).symm
    simpa using hq
  have hq : v ⬝ᵥ A.mulVec v = u i := by
    have h1 : v ⬝ᵥ A.mulVec v = u ⬝ᵥ (A.submatrix e e).mulVec u := by
      unfold dotProduct
      rw [hsum _ fun q hq => by rw [hvo q hq, zero_mul]]
      refine Finset.sum_congr rfl fun j _ => ?_
      rw [hve]
      congr 1
      show ∑ q, A (e j) q * v q = ∑ q, A (e j) (e q) * u q
      rw [hsum _ fun q hq => by rw [hvo q hq, mul_zero]]
      exact Finset.sum_congr rfl fun q _ => by rw [hve]
    rw [h1, hu, Matrix.mulVec_mulVec, Matrix.mul_nonsing_inv _ hdet, Matrix.one_mulVec]
    simp
  obtain ⟨d1, d2⟩ := posDef_dual hA v (e i)
  rw [hq, hve, hui] at d1 d2
  refine ⟨hB.inv.diag_pos, by linarith, fun ⟨q, hq1, hq2⟩ => ?_⟩
  have := d2 ⟨q, by rw [hvo q hq1]; exact hq2.symm⟩
  linarith

/-! ### a case -/

/-- the start point is admissible for scipy if no bounds are set -/
theorem start_sfeasible {s : Sys} (h : s.Built) {S : ℕ → ChanSpec} (hS : ModelIs s S) (ν : String → ℝ)
    (θ : ∀ k, Fin (S k).K → Fin (S k).n → ℝ) (id : String) {hist : List FitOp} (hb : ∀ pid b, FitOp.bound pid b ∉ hist) (fixNui : Bool) :
    SFeasible ((minRun .scipy (s.m.paramNames s.w) (setupOps (fitRun id hist) s.m.numProcesses (s.m.numNui s.w) fixNui none)).scipyCall
      (objective s.w s.m) (paramVec s S ν θ)) (paramVec s S ν θ) := by
  have hw := reachable_wf h.reachable
  have hal := C51_aligned s h.reachable
  have hplen := paramVec_length hw hS ν θ
  obtain ⟨x, hx⟩ := paramVec_real s S ν θ rfl
  refine ⟨rfl, fun k b v hbb hv => ?_, ?_⟩
  · have hkn : k < (s.m.paramNames s.w).length := by
      rw [hal.1, ← hplen]; exact (List.getElem?_eq_some_iff.mp hv).1
    rcases setup_bounds_mem' hkn hbb with rfl | ⟨pid, hp1, hp2⟩ | ⟨hl, hle⟩
    · exact ⟨fun _ h => (by cases h), fun _ h => (by cases h)⟩
    · exact absurd hp1 (hb pid b)
    · cases hl
  · rw [feasible_iff]
    right
    generalize ((minRun .scipy (s.m.paramNames s.w) (setupOps (fitRun id hist) s.m.numProcesses (s.m.numNui s.w) fixNui none))).fixedIdx.getLastD 0 = l
    rw [List.getD_eq_getElem?_getD]
    cases hl : (paramVec s S ν θ)[l]? with
    | none => exact ⟨0, rfl, rfl⟩
    | some v =>
      have hm := List.mem_of_getElem? hl
      rw [hx] at hm
      obtain ⟨a, rfl⟩ := List.mem_ofFn.mp hm
      exact ⟨_, rfl, rfl⟩

namespace Ex

/-- the scipy that finds true minima, with a numerical differentiation that is exact for `F` -/
def optExact (F : Vec → Except Err Fl) : Optim :=
  { optMinS with
    hessian := fun v => if h : ∃ (x : Fin v.length → ℝ) (A : Matrix (Fin v.length) (Fin v.length) ℝ), v = vec x ∧ IsHesse F x A then
      .ok (Mat.ofMatrix h.choose_spec.choose) else .error .valueError }

theorem optExact_min (F : Vec → Except Err Fl) : TrueMinScipy (optExact F) := optMinS_true

theorem optExact_hesse (F : Vec → Except Err Fl) : ExactHesse (optExact F) F := by
  intro n x A hA
  have hl : (vec x).length = n := by simp [vec]
  have : ∀ (v : Vec) (hv : v = vec x), ∃ H, (optExact F).hessian v = .ok H ∧ IsReal H A := by
    intro v hv
    have hlv : v.length = n := by rw [hv, hl]
    subst hlv
    have h : ∃ (x : Fin v.length → ℝ) (A : Matrix (Fin v.length) (Fin v.length) ℝ), v = vec x ∧ IsHesse F x A := ⟨x, A, hv, hA⟩
    refine ⟨Mat.ofMatrix h.choose_spec.choose, ?_, ?_⟩
    · show (if h : _ then _ else _) = _
      rw [dif_pos h]
    · obtain ⟨e1, e2⟩ := h.choose_spec.choose_spec
      have ex : h.choose = x := by
        have := List.ofFn_injective (e1.symm.trans hv)
        funext i
        exact Fl.fin.inj (congrFun this i)
      have hA' : IsHesse F h.choose A := by rw [ex]; exact hA
      rw [C131_hesse_unique hA' e2]
      exact isReal_ofMatrix _
  exact this _ rfl

/-- a fit with this optimizer to the Asimov data of the two-channel example returns, whatever is held fixed -/
theorem fitQA (hist : List FitOp) (hk : KnownIds (sysQA.m.paramNames sysQA.w) hist) (hb : ∀ pid b, FitOp.bound pid b ∉ hist) (fixNui : Bool) :
    sysQA.Built ∧ ∃ r, ((fitRun "scipy" hist).doFit (optExact (objective sysQA.w sysQA.m)) sysQA.w sysQA.m false true fixNui none).1 = .ok r ∧
      r.params.errors.length = (sysQA.m.paramNames sysQA.w).length ∧ ∀ e ∈ r.params.errors, ∃ a : ℝ, 0 < a ∧ e = .fin a := by
  obtain ⟨q1, q2, q3, q4, q5, q6, q7, q8, q9, q10, q11, d, q12, q13, q14⟩ := asimov_exact Ex.sysQ Ex.sysQ_built
    (by simp [Ex.sysQ, Ex.mQ]) Ex.SQ Ex.modelQ (by simp [Ex.sysQ, Ex.mQ, Mct.chanIds, Ex.wQ, Ex.chQa, Ex.chQb, AllTuple])
    Ex.yQ Ex.paramsQ Ex.sumsQ (fun _ => 8)
    (by simp only [Ex.sysQ]; intro p hp; simp [Ex.mQ] at hp; subst hp; exact Ex.yieldQ) Ex.shareQ
    (fun _ => 0) (fun _ => 1) (by intro p hp; simp [Ex.sysQ, Ex.mQ] at hp) (by intro p hp; simp [Ex.sysQ, Ex.mQ] at hp)
    Ex.posQ Ex.identQ Ex.sysQA rfl
  refine ⟨q1, ?_⟩
  have hne : Ex.sysQA.m.channels ≠ [] := by rw [q2]; simp [Ex.sysQ, Ex.mQ]
  obtain ⟨m1, m2⟩ := C106_minimum Ex.sysQA q1 hne Ex.SQ q7 d q12 q13 _ _ q9 (fun _ => 8) q8 q14 q10 q11
  have hw := reachable_wf q1.reachable
  have hal := C51_aligned Ex.sysQA q1.reachable
  have hx0 : Ex.sysQA.m.x0 Ex.sysQA.w = .ok (paramVec Ex.sysQA Ex.SQ (fun _ => 8) fun _ _ _ => 0) := by rw [q4, q5, q6]
  have hl := paramVec_length hw q7 (fun _ => 8) (fun _ _ _ => 0)
  have hf := start_sfeasible q1 q7 (fun _ => 8) (fun _ _ _ => 0) "scipy" hb fixNui
  obtain ⟨r', h1, h2⟩ := optMinS_ok (c := (minRun .scipy (sysQA.m.paramNames sysQA.w)
    (setupOps (fitRun "scipy" hist) sysQA.m.numProcesses (sysQA.m.numNui sysQA.w) fixNui none)).scipyCall
      (objective sysQA.w sysQA.m) (paramVec sysQA SQ (fun _ => 8) fun _ _ _ => 0)) (r := ⟨true, _, .fin 0⟩)
    ⟨rfl, hf, m1, by simp, fun y v hy hv => (m2 y v (by rw [hy.1]; exact hl) hv).1⟩
  have hql : r'.x.length = sysQA.m.numProcesses + sysQA.m.numNui sysQA.w := by rw [h2.2.1.1]; exact hl
  -- the minimum is the start point
  have hrx : r'.x = paramVec sysQA SQ (fun _ => 8) fun _ _ _ => 0 := by
    obtain ⟨m3, m4⟩ := m2 r'.x r'.fval hql h2.2.2.1
    have hcmp := h2.2.2.2.2 _ _ hf m1
    refine m4 ?_
    cases hfv : r'.fval with
    | nan => exact absurd hfv h2.2.2.2.1
    | ninf => rw [hfv] at m3; exact absurd trivial m3
    | pinf => rw [hfv] at hcmp; exact absurd trivial hcmp
    | fin b =>
      rw [hfv] at hcmp m3
      have h1 : b ≤ 0 := not_lt.mp hcmp
      have h2 : 0 ≤ b := not_lt.mp m3
      rw [le_antisymm h1 h2]
  obtain ⟨x, hx⟩ := paramVec_real sysQA SQ (fun _ => 8) (fun _ _ _ => 0) (n := (sysQA.m.paramNames sysQA.w).length) (by rw [hl, hal.1])
  have h0 : ∀ k < sysQA.m.chanIds.length, ∀ i, 0 < d k i := fun k hk i => lt_of_lt_of_le (by norm_num) (q13 k hk i)
  obtain ⟨A, hA⟩ := C131_hesse_exists sysQA q1 hne SQ q7 d q12 (fun k hk i => Or.inr (q13 k hk i)) _ _ q9 (fun _ => 8) (fun _ _ _ => 0) q8
    (fun k hk i => by rw [q14 k hk i]; exact h0 k hk i) x hx
  have hpd := C131_hesse_posdef sysQA q1 hne SQ q7 d q12 q13 _ _ q9 (fun _ => 8) q8 q14 q11 x hx A hA
  obtain ⟨H, hH1, hH2⟩ := optExact_hesse (objective sysQA.w sysQA.m) _ x A hA
  obtain ⟨res, e1, -, e3, -⟩ := C62_hessian (sysQA.m.paramNames sysQA.w) rfl
    (setupOps (fitRun "scipy" hist) sysQA.m.numProcesses (sysQA.m.numNui sysQA.w) fixNui none)
    (optExact (objective sysQA.w sysQA.m)) (objective sysQA.w sysQA.m) _ r' h1 h2.1 (by rw [hql, hal.1]) H A (by rw [hrx, hx]; exact hH1) hH2 hpd
  refine ⟨res, doFit_of_minimize (by rw [fitRun_id]; exact minKind_scipy lower_scipy) (setup_eq (kd := .scipy) (id := "scipy") hal.1.symm hk fixNui none)
    hx0 e1, by rw [e3]; simp [vec], fun e he => ?_⟩
  rw [e3] at he
  obtain ⟨i, rfl⟩ := List.mem_ofFn.mp he
  exact ⟨_, Real.sqrt_pos.mpr hpd.inv.diag_pos, rfl⟩

end Ex

/-- **C132 is false.** With exact minimization and differentiation, a scipy fit of a model to its own Asimov data with its only yield
held fixed, and one with all nuisance parameters held fixed, report a positive error for every parameter, also the fixed ones. -/
theorem C132_refuted : ∃ (s : Sys) (o : Optim), s.Built ∧ TrueMinScipy o ∧ ExactHesse o (objective s.w s.m) ∧
    Denotes (s.m.paramNames s.w) (.str "p_yield") 0 ∧
    (∃ r, ((fitRun "scipy" [.fix (.str "p_yield")]).doFit o s.w s.m false true false none).1 = .ok r ∧
      ∃ e : ℝ, 0 < e ∧ r.params.errors[0]? = some (.fin e)) ∧
    ∃ r, ((fitRun "scipy" []).doFit o s.w s.m false true true none).1 = .ok r ∧
      r.params.errors.length = (s.m.paramNames s.w).length ∧ ∀ e ∈ r.params.errors, ∃ a : ℝ, 0 < a ∧ e = .fin a := by
  have hB := (Ex.fitQA [] ⟨by simp, by simp⟩ (by simp) true).1
  have hden : Denotes (Ex.sysQA.m.paramNames Ex.sysQA.w) (.str "p_yield") 0 := by
    have q2 : Ex.sysQA.m.processes = ["p"] := by
      simp only [Ex.sysQA, Sys.step, Ex.sysQ, Ex.mQ]
      split <;> rfl
    have hp : "p" ∈ Ex.sysQA.m.processes := by rw [q2]; simp
    have := yield_denotes hB.reachable hp
    rw [show Ex.sysQA.m.processes.idxOf "p" = 0 by rw [q2]; simp] at this
    exact this
  refine ⟨Ex.sysQA, Ex.optExact (objective Ex.sysQA.w Ex.sysQA.m), hB, Ex.optExact_min _, Ex.optExact_hesse _, hden, ?_,
    (Ex.fitQA [] ⟨by simp, by simp⟩ (by simp) true).2⟩
  obtain ⟨-, r, h1, h2, h3⟩ := Ex.fitQA [.fix (.str "p_yield")] ⟨by simp; exact ⟨0, hden⟩, by simp⟩ (by simp) false
  refine ⟨r, h1, ?_⟩
  have hlt : 0 < r.params.errors.length := by
    rw [h2]
    exact (List.getElem?_eq_some_iff.mp (hden : _ ∧ _).1).1
  obtain ⟨a, ha, e⟩ := h3 _ (List.getElem_mem hlt)
  exact ⟨a, ha, by rw [List.getElem?_eq_getElem hlt, e]⟩

/-- non-vacuity of C131: in the one-channel example with data 3 and 5, one process with equal fractions and the yield 8 the likelihood has
the second derivative 1/8 in the yield (so that its statistical error is √8) -/
example : HasCurvature (fun t => objective Ex.sys35.w Ex.sys35.m (paramVec Ex.sys35 Ex.SZ (fun _ => 8 + t * 1) fun _ _ _ => 0)) (1/8) := by
  obtain ⟨c, h1, -, h3⟩ := C131_yields Ex.sys35 Ex.sys35_built (by simp [Ex.sys35, Ex.mZ]) Ex.SZ Ex.model35 Ex.d35 Ex.data35
    (fun k _ i => Ex.d35_pos k i) (fun _ => 0) (fun _ => 1) (by intro p hp; simp [Ex.sys35, Ex.mZ] at hp) (fun _ => 8) (fun _ _ _ => 0)
    Ex.sums35 (fun k _ i => by rw [Ex.exp35]; norm_num) (fun _ => 1)
  have hl : Ex.sys35.m.channels.length = 1 := by simp [Ex.sys35, Ex.mZ]
  have hco : Ex.sys35.m.constrained = [] := rfl
  have : c = 1/8 := by
    rw [h3, hl, Finset.sum_range_one, hco]
    simp only [Ex.exp35]
    show (∑ i : Fin 2, (![3, 5] : Fin 2 → ℝ) i * ((1 / 2 : ℝ) / (8 / 2)) ^ 2) + _ = _
    rw [Fin.sum_univ_two]
    norm_num
  rwa [this] at h1

/-- non-vacuity of C131, C132: the fits of the two-channel example to its own Asimov data return -/
example : TrueMinScipy (Ex.optExact (objective Ex.sysQA.w Ex.sysQA.m)) ∧
    ExactHesse (Ex.optExact (objective Ex.sysQA.w Ex.sysQA.m)) (objective Ex.sysQA.w Ex.sysQA.m) ∧
    ∃ r, ((fitRun "scipy" []).doFit (Ex.optExact (objective Ex.sysQA.w Ex.sysQA.m)) Ex.sysQA.w Ex.sysQA.m false true false none).1 = .ok r :=
  ⟨Ex.optExact_min _, Ex.optExact_hesse _, (Ex.fitQA [] ⟨by simp, by simp⟩ (by simp) false).2.imp fun _ h => h.1⟩

end

end TF.Props
