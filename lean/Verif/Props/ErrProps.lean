import Verif.Props.PullProps
import Verif.Props.CurvProps2

set_option linter.unusedSimpArgs false
set_option linter.unusedVariables false

/-!
# How fixings, constraints and priors change the errors of an iminuit fit (C145)
-/

namespace TF.Spec

open TF Classical

noncomputable section

/-- parameter number `q` is the nuisance parameter of bin `i` of template `j` of channel `k` -/
def IsNui (s : Sys) (S : ℕ → ChanSpec) (q k : ℕ) (j : Fin (S k).K) (i : Fin (S k).n) : Prop :=
  ∀ ν θ, (paramVec s S ν θ)[q]? = some (.fin (θ k j i))

/-- parameter number `q` is not held fixed by the fit of the model `s` with the calls `ops` on the fitter -/
def FreeParam (s : Sys) (ops : List FitOp) (fixNui : Bool) (q : ℕ) : Prop :=
  q < (s.m.paramNames s.w).length ∧ ¬ WantedFixed (s.m.paramNames s.w) ops s.m.numProcesses fixNui q

/-- the fit `r` reports the error `e` for parameter number `q` -/
def ErrorIs (r : MinResult) (q : ℕ) (e : ℝ) : Prop := r.params.errors[q]? = some (.fin e)

end

end TF.Spec

namespace TF.Props

open Classical Spec
open scoped Matrix Topology

noncomputable section

/-! ### the variances of the free parameters -/

/-- the variance of parameter `i` when the parameters outside `P` are held -/
def freeVar {n : ℕ} (A : Matrix (Fin n) (Fin n) ℝ) (P : Fin n → Prop) (i : {q : Fin n // P q}) : ℝ :=
  (A.submatrix (Subtype.val : {q : Fin n // P q} → Fin n) (Subtype.val : {q : Fin n // P q} → Fin n))⁻¹ i i

/-- for a positive definite matrix `A` the free variance is the maximum of `2 v_i - vᵀ A v` over the `v` that vanish outside `P` -/
theorem free_dual {n : ℕ} {A : Matrix (Fin n) (Fin n) ℝ} (hA : A.PosDef) (P : Fin n → Prop) (i : {q : Fin n // P q}) :
    (∀ v : Fin n → ℝ, (∀ q, ¬ P q → v q = 0) → 2 * v i.1 - v ⬝ᵥ A.mulVec v ≤ freeVar A P i) ∧
    (∃ v : Fin n → ℝ, (∀ q, ¬ P q → v q = 0) ∧ 2 * v i.1 - v ⬝ᵥ A.mulVec v = freeVar A P i) ∧ 0 < freeVar A P i := by
  set B := A.submatrix (Subtype.val : {q : Fin n // P q} → Fin n) (Subtype.val : {q : Fin n // P q} → Fin n) with hBdef
  have hB : B.PosDef := hA.submatrix Subtype.val_injective
  have hdet : IsUnit B.det := (Matrix.isUnit_iff_isUnit_det _).mp hB.isUnit
  have hsym : Bᵀ = B := by
    have := hB.isHermitian
    rwa [Matrix.IsHermitian, Matrix.conjTranspose_eq_transpose_of_trivial] at this
  set u : {q : Fin n // P q} → ℝ := B⁻¹.mulVec (Pi.single i 1) with hu
  have hBu : B.mulVec u = Pi.single i 1 := by
    rw [hu, Matrix.mulVec_mulVec, Matrix.mul_nonsing_inv _ hdet, Matrix.one_mulVec]
  have hui : u i = freeVar A P i := by rw [hu]; simp [freeVar, hBdef]
  have hsum : ∀ f : Fin n → ℝ, (∀ q, ¬ P q → f q = 0) → ∑ q, f q = ∑ j : {q : Fin n // P q}, f j.1 := by
    intro f hf
    exact (Finset.sum_filter_of_ne (s := Finset.univ) (f := f) (p := P) (fun q _ h => by_contra fun hP => h (hf q hP))).symm.trans
      (Finset.sum_subtype _ (by simp) f)
  have hq : ∀ v : Fin n → ℝ, (∀ q, ¬ P q → v q = 0) → v ⬝ᵥ A.mulVec v = (fun j : {q : Fin n // P q} => v j.1) ⬝ᵥ B.mulVec (fun j => v j.1) := by
    intro v hv
    unfold dotProduct
    rw [hsum _ fun q hq => by rw [hv q hq, zero_mul]]
    refine Finset.sum_congr rfl fun j _ => ?_
    congr 1
    show ∑ q, A j.1 q * v q = ∑ q : {q : Fin n // P q}, A j.1 q.1 * v q.1
    exact hsum _ fun q hq => by rw [hv q hq, mul_zero]
  refine ⟨fun v hv => ?_, ⟨fun q => if h : P q then u ⟨q, h⟩ else 0, fun q hq => dif_neg hq, ?_⟩, hB.inv.diag_pos⟩
  · rw [hq v hv]
    set w : {q : Fin n // P q} → ℝ := fun j => v j.1 with hw
    have h1 : w ⬝ᵥ B.mulVec u = w i := by rw [hBu]; simp
    have h2 : u ⬝ᵥ B.mulVec w = w i := by
      rw [Matrix.dotProduct_mulVec, ← Matrix.mulVec_transpose, hsym, hBu]; simp
    have h3 : u ⬝ᵥ B.mulVec u = freeVar A P i := by rw [hBu]; simp [hui]
    have key : (w - u) ⬝ᵥ B.mulVec (w - u) = w ⬝ᵥ B.mulVec w - 2 * w i + freeVar A P i := by
      rw [Matrix.mulVec_sub, sub_dotProduct, dotProduct_sub, dotProduct_sub, h1, h2, h3]; ring
    have := hB.posSemidef.dotProduct_mulVec_nonneg (w - u)
    rw [star_trivial, key] at this
    show 2 * w i - _ ≤ _
    linarith
  · rw [hq _ fun q hq => dif_neg hq]
    have : (fun j : {q : Fin n // P q} => (fun q => if h : P q then u ⟨q, h⟩ else 0) j.1) = u := by
      funext j; exact dif_pos j.2
    rw [this, hBu]
    simp only [dif_pos i.2, Subtype.coe_eta, dotProduct_single, mul_one, hui]
    ring

/-- more free parameters or a smaller matrix: larger variances -/
theorem free_mono {n : ℕ} {A B : Matrix (Fin n) (Fin n) ℝ} (hA : A.PosDef) (hB : B.PosDef) {P Q : Fin n → Prop} (hPQ : ∀ q, Q q → P q)
    (hAB : ∀ v : Fin n → ℝ, v ⬝ᵥ A.mulVec v ≤ v ⬝ᵥ B.mulVec v) (i : Fin n) (hi : Q i) :
    freeVar B Q ⟨i, hi⟩ ≤ freeVar A P ⟨i, hPQ i hi⟩ := by
  obtain ⟨v, h1, h2⟩ := (free_dual hB Q ⟨i, hi⟩).2.1
  have := (free_dual hA P ⟨i, hPQ i hi⟩).1 v fun q hq => h1 q fun h => hq (hPQ q h)
  rw [← h2]
  have h3 := hAB v
  simp only at this ⊢
  linarith

/-- a lower bound `c v_i²` of the quadratic form bounds the variance by `1 / c` -/
theorem free_bound {n : ℕ} {A : Matrix (Fin n) (Fin n) ℝ} (hA : A.PosDef) (P : Fin n → Prop) (i : {q : Fin n // P q}) (b : ℝ)
    (h : ∀ v : Fin n → ℝ, 2 * v i.1 - v ⬝ᵥ A.mulVec v ≤ b) : freeVar A P i ≤ b := by
  obtain ⟨v, h1, h2⟩ := (free_dual hA P i).2.1
  rw [← h2]; exact h v

/-! ### fits -/

/-- the errors of a fit with Minuit -/
theorem fit_errors {s : Sys} (hs : s.Reachable) {id : String} (hid : id.toLower = "iminuit") {ops : List FitOp} (hk : KnownIds (s.m.paramNames s.w) ops)
    {o : Optim} (he : ExactErrors o) {up g fixNui : Bool} {lim : Option Bounds}
    {r : MinResult} (hr : ((fitRun id ops).doFit o s.w s.m up g fixNui lim).1 = .ok r)
    {x : Fin (s.m.paramNames s.w).length → ℝ} (hx : r.params.values = vec x)
    {A : Matrix (Fin (s.m.paramNames s.w).length) (Fin (s.m.paramNames s.w).length) ℝ} (hA : IsHesse (objective s.w s.m) x A)
    (q : Fin (s.m.paramNames s.w).length) (hq : FreeParam s ops fixNui q) :
    ErrorIs r q (√(freeVar A (fun q => FreeParam s ops fixNui q) ⟨q, hq⟩)) := by
  have hn := (C51_aligned s hs).1.symm
  set z := minRun .iminuit (s.m.paramNames s.w) (setupOps (fitRun id ops) s.m.numProcesses (s.m.numNui s.w) fixNui lim) with hz
  have hw : MinWF z .iminuit (s.m.paramNames s.w) := minRun_wf _ _ _
  have hm1 : minKindOf (fitRun id ops).minimizerId = .ok .iminuit := by rw [fitRun_id]; exact minKind_iminuit hid
  have hset := setup_eq (kd := .iminuit) (id := id) hn hk fixNui lim
  obtain ⟨x0, -, hx0, -⟩ := doFit_minuit_inv' hm1 hset hw.hk hr
  have h1 := doFit_minimize hm1 hset hr hx0
  simp only [Minimizer.minimize, hw.hk, ← hz] at h1
  have hfix : ∀ k : Fin (s.m.paramNames s.w).length, (z.minuitCall (objective s.w s.m) x0).fix[(k : ℕ)]? ≠ some true ↔ FreeParam s ops fixNui k := by
    intro k
    rw [hz, C58_iminuit]
    simp only [List.getElem?_map, List.getElem?_range k.2, Option.map_some, ne_eq, Option.some.injEq, decide_eq_true_eq]
    rw [setup_fixed hn fixNui lim k k.2]
    exact ⟨fun h => ⟨k.2, h⟩, fun h => h.2⟩
  rcases minuit_cases o z (objective s.w s.m) x0 with ⟨e, hee, hh⟩ | ⟨rr, hrr, hh⟩
  · rw [hh] at h1; cases h1
  · rcases hh with ⟨_, hh⟩ | ⟨_, _, hh⟩ | ⟨_, _, ⟨e, _, hh⟩ | ⟨C, R, _, hh⟩⟩
    · rw [hh] at h1; cases h1
    · rw [hh] at h1; cases h1
    · rw [hh] at h1; cases h1
    · rw [hh] at h1
      obtain rfl := Except.ok.inj h1
      have := he _ rr hrr _ x A hx hA ⟨q, (hfix q).mpr hq⟩
      unfold ErrorIs
      simp only at this ⊢
      rw [this]
      have hP : (fun k : Fin (s.m.paramNames s.w).length => (z.minuitCall (objective s.w s.m) x0).fix[(k : ℕ)]? ≠ some true) = fun q : Fin (s.m.paramNames s.w).length => FreeParam s ops fixNui (q : ℕ) := by
        funext k; exact propext (hfix k)
      have gen : ∀ (P Q : Fin (s.m.paramNames s.w).length → Prop) (h : P = Q) (hp : P q) (hq : Q q), freeVar A P ⟨q, hp⟩ = freeVar A Q ⟨q, hq⟩ := by
        intro P Q h hp hq; subst h; rfl
      have e := gen _ _ hP ((hfix q).mpr hq) hq
      rw [← e]
      unfold freeVar
      congr!

/-- **C145, fixed parameters.** Two iminuit fits of the same model with exact errors that end at the same parameters, the second one holding at least the parameters fixed that the first one holds fixed. Where the matrix of
second derivatives is positive definite, every parameter that both leave free has in the second fit an error that is positive and at most the one of the first fit. -/
theorem C145_fixing (s : Sys) (h : s.Reachable) (id : String) (hid : id.toLower = "iminuit") (ops ops' : List FitOp)
    (hk : KnownIds (s.m.paramNames s.w) ops) (hk' : KnownIds (s.m.paramNames s.w) ops') (o o' : Optim) (he : ExactErrors o) (he' : ExactErrors o')
    (up g fixNui up' g' fixNui' : Bool) (lim lim' : Option Bounds) (hsub : ∀ q, FreeParam s ops' fixNui' q → FreeParam s ops fixNui q)
    (r r' : MinResult) (hr : ((fitRun id ops).doFit o s.w s.m up g fixNui lim).1 = .ok r)
    (hr' : ((fitRun id ops').doFit o' s.w s.m up' g' fixNui' lim').1 = .ok r')
    (hv : r'.params.values = r.params.values) (x : Fin (s.m.paramNames s.w).length → ℝ) (hx : r.params.values = vec x)
    (A : Matrix (Fin (s.m.paramNames s.w).length) (Fin (s.m.paramNames s.w).length) ℝ) (hA : IsHesse (objective s.w s.m) x A) (hpd : A.PosDef)
    (q : ℕ) (hq : FreeParam s ops' fixNui' q) :
    ∃ e e', ErrorIs r q e ∧ ErrorIs r' q e' ∧ 0 < e' ∧ e' ≤ e :=
  ⟨_, _, fit_errors h hid hk he hr hx hA ⟨q, hq.1⟩ (hsub q hq), fit_errors h hid hk' he' hr' (hv.trans hx) hA ⟨q, hq.1⟩ hq,
    Real.sqrt_pos.mpr (free_dual hpd _ _).2.2, Real.sqrt_le_sqrt (free_mono hpd hpd (fun q hq => hsub q hq) (fun v => le_rfl) ⟨q, hq.1⟩ hq)⟩

/-! ### the second derivatives -/

theorem dictGet_dictSet {κ ν : Type} [DecidableEq κ] (d : List (κ × ν)) (k : κ) (v : ν) (k' : κ) :
    dictGet (dictSet d k v) k' = if k' = k then some v else dictGet d k' := by
  induction d with
  | nil =>
    by_cases h : k' = k
    · subst h; simp [dictSet, dictGet]
    · simp [dictSet, dictGet, h, Ne.symm h]
  | cons x d ih =>
    obtain ⟨a, b⟩ := x
    by_cases h1 : a = k
    · subst h1
      by_cases h : k' = a
      · subst h; simp [dictSet, dictGet]
      · simp [dictSet, dictGet, h, Ne.symm h]
    · by_cases h : k' = a
      · subst h
        simp [dictSet, dictGet, h1]
      · simp [dictSet, dictGet, h1, Ne.symm h] at ih ⊢
        exact ih

theorem hesse_form (s : Sys) (h : s.Built) (hne : s.m.channels ≠ []) (S : ℕ → ChanSpec) (hS : ModelIs s S)
    (d : ∀ k, Fin (S k).n → ℝ) (hd : DataIs s S d) (hpos : ∀ k < s.m.chanIds.length, ∀ i, d k i = 0 ∨ (1e-100 : ℝ) ≤ d k i)
    (V E : String → ℝ) (hc : ConstraintsAre s V E) (ν : String → ℝ) (θ : ∀ k, Fin (S k).K → Fin (S k).n → ℝ) (hT : NonZeroSums s S θ)
    (hE : ∀ k < s.m.chanIds.length, ∀ i, 0 < expectedIn s S ν θ k i)
    {n : ℕ} (x : Fin n → ℝ) (hx : paramVec s S ν θ = vec x) (A : Matrix (Fin n) (Fin n) ℝ) (hA : IsHesse (objective s.w s.m) x A) (v : Fin n → ℝ) :
    v ⬝ᵥ A.mulVec v = information s S d E ν (yieldsOf s S v) θ (nuisOf s S v) +
      ∑ k ∈ Finset.range s.m.channels.length, ∑ i, (1 - d k i / expectedIn s S ν θ k i) * bendIn s S ν (yieldsOf s S v) θ (nuisOf s S v) k i := by
  have h1 := hA.2 v
  simp only [paramVec_of (reachable_wf h.reachable) S hx] at h1
  exact HasCurvature_unique h1 (C131_curvature s h hne S hS d hd hpos _ _ hc ν θ hT hE _ _)

theorem nuis_at {s : Sys} (hw : SysWF s) {S : ℕ → ChanSpec} {n : ℕ} (hl : (pslots s S).length = n) {q : Fin n} {k : ℕ} {j : Fin (S k).K} {i : Fin (S k).n}
    (hq : IsNui s S q k j i) (v : Fin n → ℝ) : nuisOf s S v k j i = v q := by
  have hq' : (q : ℕ) < (pslots s S).length := hl ▸ q.2
  have hσ : (pslots s S)[(q : ℕ)] = .inr ⟨k, j, i⟩ := by
    have h1 := hq (fun _ => 0) (fun k' j' i' => if (⟨k', j', i'⟩ : Σ k, Fin (S k).K × Fin (S k).n) = ⟨k, j, i⟩ then 1 else 0)
    rw [paramVec_slots, List.getElem?_map, List.getElem?_eq_getElem hq'] at h1
    simp only [Option.map_some, Option.some.injEq] at h1
    generalize (pslots s S)[(q : ℕ)] = σ at h1
    rcases σ with p | ⟨k', j', i'⟩
    · simp [pval] at h1
    · simp only [pval, Fl.fin.injEq, if_true] at h1
      by_cases hh : (⟨k', j', i'⟩ : Σ k, Fin (S k).K × Fin (S k).n) = ⟨k, j, i⟩
      · rw [hh]
      · rw [if_neg hh] at h1; norm_num at h1
  have hi := slotIdx_get hw S (q : ℕ) hq'
  rw [hσ] at hi
  unfold nuisOf
  rw [hi]
  simp [vget]

/-- an exact fit with Minuit to data equal to the expectations at zero nuisance parameters: where it ends, the second derivatives there are positive definite -/
theorem asimov_hesse (s : Sys) (h : s.Built) (hne : s.m.channels ≠ []) (S : ℕ → ChanSpec) (hS : ModelIs s S)
    (d : ∀ k, Fin (S k).n → ℝ) (hd : DataIs s S d) (hpos : ∀ k < s.m.chanIds.length, ∀ i, (1e-100 : ℝ) ≤ d k i)
    (V E : String → ℝ) (hc : ConstraintsAre s V E)
    (ν : String → ℝ) (hT0 : NonZeroSums s S fun _ _ _ => 0)
    (hdata : ∀ k < s.m.chanIds.length, ∀ i, expectedIn s S ν (fun _ _ _ => 0) k i = d k i) (hid : Identifiable s S) :
    ∃ (x : Fin (s.m.paramNames s.w).length → ℝ) (A : Matrix (Fin (s.m.paramNames s.w).length) (Fin (s.m.paramNames s.w).length) ℝ),
      paramVec s S ν (fun _ _ _ => 0) = vec x ∧ IsHesse (objective s.w s.m) x A ∧ A.PosDef := by
  have hw := reachable_wf h.reachable
  have hal := C51_aligned s h.reachable
  have hplen : (paramVec s S ν fun _ _ _ => 0).length = (s.m.paramNames s.w).length := by
    rw [paramVec_length hw hS, hal.1]
  obtain ⟨x, hx⟩ := paramVec_real s S ν (fun _ _ _ => 0) hplen
  have h0 : ∀ k < s.m.chanIds.length, ∀ i, 0 < d k i := fun k hk i => lt_of_lt_of_le (by norm_num) (hpos k hk i)
  obtain ⟨A, hA⟩ := C131_hesse_exists s h hne S hS d hd (fun k hk i => Or.inr (hpos k hk i)) V E hc ν (fun _ _ _ => 0) hT0
    (fun k hk i => by rw [hdata k hk i]; exact h0 k hk i) x hx
  exact ⟨x, A, hx, hA, C131_hesse_posdef s h hne S hS d hd hpos V E hc ν hT0 hdata hid x hx A hA⟩

/-- **C145, fixed parameters, Asimov data.** Data equal to the expectations of an identifiable model at its present yields and zero nuisance parameters, minimizers that return true minima and exact errors, two configurations
of the fitter that admit the start, the second one holding at least the parameters fixed that the first one holds fixed. Both fits end at the same parameters, and every parameter free in both has in the second fit a
positive error that is at most the one in the first fit. -/
theorem C145_asimov (s : Sys) (h : s.Built) (hne : s.m.channels ≠ []) (S : ℕ → ChanSpec) (hS : ModelIs s S)
    (d : ∀ k, Fin (S k).n → ℝ) (hd : DataIs s S d) (hpos : ∀ k < s.m.chanIds.length, ∀ i, (1e-100 : ℝ) ≤ d k i)
    (V E : String → ℝ) (hc : ConstraintsAre s V E)
    (ν : String → ℝ) (hx0 : s.m.x0 s.w = .ok (paramVec s S ν fun _ _ _ => 0)) (hT0 : NonZeroSums s S fun _ _ _ => 0)
    (hdata : ∀ k < s.m.chanIds.length, ∀ i, expectedIn s S ν (fun _ _ _ => 0) k i = d k i)
    (hV : ∀ p ∈ s.m.constrained, V p = ν p) (hid : Identifiable s S)
    (o o' : Optim) (ho : TrueMin o) (ho' : TrueMin o') (he : ExactErrors o) (he' : ExactErrors o') (id : String) (hmin : id.toLower = "iminuit") (ops ops' : List FitOp)
    (hk : KnownIds (s.m.paramNames s.w) ops) (hk' : KnownIds (s.m.paramNames s.w) ops') (up g fixNui up' g' fixNui' : Bool) (lim lim' : Option Bounds)
    (hb : ∀ pid b, FitOp.bound pid b ∈ ops ∨ FitOp.bound pid b ∈ ops' → ∀ k v, Denotes (s.m.paramNames s.w) pid k →
      (paramVec s S ν fun _ _ _ => 0)[k]? = some v → InBounds b v)
    (hlim : ∀ b, lim = some b ∨ lim' = some b → InBounds b 0)
    (hsub : ∀ q, FreeParam s ops' fixNui' q → FreeParam s ops fixNui q) (r r' : MinResult)
    (hr : ((fitRun id ops).doFit o s.w s.m up g fixNui lim).1 = .ok r) (hr' : ((fitRun id ops').doFit o' s.w s.m up' g' fixNui' lim').1 = .ok r') :
    r'.params.values = r.params.values ∧ ∀ q, FreeParam s ops' fixNui' q → ∃ e e', ErrorIs r q e ∧ ErrorIs r' q e' ∧ 0 < e' ∧ e' ≤ e := by
  obtain ⟨x, A, hx, hA, hpd⟩ := asimov_hesse s h hne S hS d hd hpos V E hc ν hT0 hdata hid
  have v1 := (C106_exact s h hne S hS d hd hpos V E hc ν hx0 hT0 hdata hV hid o ho id hmin ops hk up g fixNui lim
    (fun pid b hm => hb pid b (.inl hm)) (fun b hb => hlim b (.inl hb)) r hr).2
  have v2 := (C106_exact s h hne S hS d hd hpos V E hc ν hx0 hT0 hdata hV hid o' ho' id hmin ops' hk' up' g' fixNui' lim'
    (fun pid b hm => hb pid b (.inr hm)) (fun b hb => hlim b (.inr hb)) r' hr').2
  rw [hx0] at v1 v2
  have v1 := (Except.ok.inj v1).symm
  have v2 := (Except.ok.inj v2).symm
  exact ⟨v2.trans v1.symm, fun q hq => C145_fixing s h.reachable id hmin ops ops' hk hk' o o' he he' up g fixNui up' g' fixNui' lim lim' hsub r r' hr hr' (v2.trans v1.symm)
    x (v1.trans hx) A hA hpd q hq⟩

/-- **C145, nuisance parameters.** A fit as in `C145_asimov`: the error of every free nuisance parameter is positive and at most the square root of the diagonal entry of the correlation matrix of the template, that is at most one. -/
theorem C145_prior (s : Sys) (h : s.Built) (hne : s.m.channels ≠ []) (S : ℕ → ChanSpec) (hS : ModelIs s S)
    (d : ∀ k, Fin (S k).n → ℝ) (hd : DataIs s S d) (hpos : ∀ k < s.m.chanIds.length, ∀ i, (1e-100 : ℝ) ≤ d k i)
    (V E : String → ℝ) (hc : ConstraintsAre s V E)
    (ν : String → ℝ) (hx0 : s.m.x0 s.w = .ok (paramVec s S ν fun _ _ _ => 0)) (hT0 : NonZeroSums s S fun _ _ _ => 0)
    (hdata : ∀ k < s.m.chanIds.length, ∀ i, expectedIn s S ν (fun _ _ _ => 0) k i = d k i)
    (hV : ∀ p ∈ s.m.constrained, V p = ν p) (hid : Identifiable s S)
    (o : Optim) (ho : TrueMin o) (he : ExactErrors o) (id : String) (hmin : id.toLower = "iminuit") (ops : List FitOp)
    (hk : KnownIds (s.m.paramNames s.w) ops) (up g fixNui : Bool) (lim : Option Bounds)
    (hb : ∀ pid b, FitOp.bound pid b ∈ ops → ∀ k v, Denotes (s.m.paramNames s.w) pid k → (paramVec s S ν fun _ _ _ => 0)[k]? = some v → InBounds b v)
    (hlim : ∀ b, lim = some b → InBounds b 0) (r : MinResult) (hr : ((fitRun id ops).doFit o s.w s.m up g fixNui lim).1 = .ok r)
    (q k : ℕ) (hkk : k < s.m.chanIds.length) (j : Fin (S k).K) (i : Fin (S k).n) (hq : FreeParam s ops fixNui q) (hn : IsNui s S q k j i) :
    ∃ e, ErrorIs r q e ∧ 0 < e ∧ e ≤ √((S k).R j i i) := by
  have hw := reachable_wf h.reachable
  have hlen : s.m.channels.length = s.m.chanIds.length := by simp [Mct.chanIds]
  obtain ⟨x, A, hx, hA, hpd⟩ := asimov_hesse s h hne S hS d hd hpos V E hc ν hT0 hdata hid
  have v1 := (C106_exact s h hne S hS d hd hpos V E hc ν hx0 hT0 hdata hV hid o ho id hmin ops hk up g fixNui lim hb hlim r hr).2
  rw [hx0] at v1
  have v1 := (Except.ok.inj v1).symm
  refine ⟨_, fit_errors h.reachable hmin hk he hr (v1.trans hx) hA ⟨q, hq.1⟩ hq, Real.sqrt_pos.mpr (free_dual hpd _ _).2.2,
    Real.sqrt_le_sqrt (free_bound hpd _ _ _ fun v => ?_)⟩
  have hl : (pslots s S).length = (s.m.paramNames s.w).length := by
    have := congrArg List.length hx
    rw [paramVec_slots] at this
    simpa [vec] using this
  have h0 : ∀ k < s.m.chanIds.length, ∀ i, 0 < d k i := fun k hk i => lt_of_lt_of_le (by norm_num) (hpos k hk i)
  have hf := hesse_form s h hne S hS d hd (fun k hk i => Or.inr (hpos k hk i)) V E hc ν (fun _ _ _ => 0) hT0 (fun k hk i => by rw [hdata k hk i]; exact h0 k hk i) x hx A hA v
  have hz : (∑ k ∈ Finset.range s.m.channels.length, ∑ i, (1 - d k i / expectedIn s S ν (fun _ _ _ => 0) k i) *
      bendIn s S ν (yieldsOf s S v) (fun _ _ _ => 0) (nuisOf s S v) k i) = 0 := by
    refine Finset.sum_eq_zero fun k hk => Finset.sum_eq_zero fun i _ => ?_
    have hk := hlen ▸ Finset.mem_range.mp hk
    rw [hdata k hk i, div_self (h0 k hk i).ne', sub_self, zero_mul]
  rw [hz, add_zero] at hf
  have n2 : ∀ k < s.m.chanIds.length, ∀ j, 0 ≤ (nuisOf s S v k j) ⬝ᵥ (((S k).R j)⁻¹.mulVec (nuisOf s S v k j)) := by
    intro k hk j
    have := ((hS k hk).2.2.1 j).inv.posSemidef.dotProduct_mulVec_nonneg (nuisOf s S v k j)
    simpa using this
  have hge : (nuisOf s S v k j) ⬝ᵥ (((S k).R j)⁻¹.mulVec (nuisOf s S v k j)) ≤ v ⬝ᵥ A.mulVec v := by
    rw [hf]
    unfold information
    have n1 : ∀ k' < s.m.chanIds.length, ∀ i, 0 ≤ d k' i * (slopeIn s S ν (yieldsOf s S v) (fun _ _ _ => 0) (nuisOf s S v) k' i / expectedIn s S ν (fun _ _ _ => 0) k' i) ^ 2 :=
      fun k' hk' i => mul_nonneg (h0 k' hk' i).le (sq_nonneg _)
    have n3 : 0 ≤ (s.m.constrained.map fun p => (yieldsOf s S v p / E p) ^ 2).sum :=
      List.sum_nonneg (by intro x hx; obtain ⟨p, -, rfl⟩ := List.mem_map.mp hx; exact sq_nonneg _)
    have m1 := Finset.single_le_sum (s := Finset.range s.m.channels.length) (f := fun k => (∑ i, d k i * (slopeIn s S ν (yieldsOf s S v) (fun _ _ _ => 0) (nuisOf s S v) k i / expectedIn s S ν (fun _ _ _ => 0) k i) ^ 2) +
      ∑ j, (nuisOf s S v k j) ⬝ᵥ (((S k).R j)⁻¹.mulVec (nuisOf s S v k j)))
      (fun k' hk' => add_nonneg (Finset.sum_nonneg fun i _ => n1 k' (hlen ▸ Finset.mem_range.mp hk') i) (Finset.sum_nonneg fun j _ => n2 k' (hlen ▸ Finset.mem_range.mp hk') j))
      (Finset.mem_range.mpr (hlen ▸ hkk))
    have m2 := Finset.single_le_sum (s := Finset.univ) (f := fun j => (nuisOf s S v k j) ⬝ᵥ (((S k).R j)⁻¹.mulVec (nuisOf s S v k j)))
      (fun j _ => n2 k hkk j) (Finset.mem_univ j)
    have m3 : 0 ≤ ∑ i, d k i * (slopeIn s S ν (yieldsOf s S v) (fun _ _ _ => 0) (nuisOf s S v) k i / expectedIn s S ν (fun _ _ _ => 0) k i) ^ 2 :=
      Finset.sum_nonneg fun i _ => n1 k hkk i
    simp only at m1 m2
    linarith
  have hR := (hS k hkk).2.2.1 j
  have h2 := (posDef_dual hR.inv (nuisOf s S v k j) i).1
  rw [Matrix.nonsing_inv_nonsing_inv _ ((Matrix.isUnit_iff_isUnit_det _).mp hR.isUnit), nuis_at hw hl (q := ⟨q, hq.1⟩) hn] at h2
  show 2 * v ⟨q, hq.1⟩ - _ ≤ _
  linarith

/-- the constraints after one more `add_gaussian_constraint_on_yield` -/
theorem constrain_constraints {s : Sys} {V E : String → ℝ} (hc : ConstraintsAre s V E) {p : String} (hp : p ∈ s.m.processes) (hpc : p ∉ s.m.constrained) (c : ℝ) {e : ℝ} (he0 : e ≠ 0)
    {s' : Sys} (hs' : s' = s.step (.constrain p (.fin c) (.fin e))) :
    ConstraintsAre s' (Function.update V p c) (Function.update E p e) ∧ s'.m.constrained = s.m.constrained ++ [p] := by
  have hs2 : s' = ⟨s.w, { s.m with constrained := s.m.constrained ++ [p], cvals := dictSet s.m.cvals p (.fin c), cerrs := dictSet s.m.cerrs p (.fin e) }⟩ := by
    rw [hs']; simp [Sys.step, Mct.addConstraint, hp]
  refine ⟨?_, by rw [hs2]⟩
  subst hs2
  set s' : Sys := ⟨s.w, { s.m with constrained := s.m.constrained ++ [p], cvals := dictSet s.m.cvals p (.fin c), cerrs := dictSet s.m.cerrs p (.fin e) }⟩ with hs2
  intro p' hp'
  by_cases hpp : p' = p
  · subst hpp
    refine ⟨hp, ?_, ?_, ?_⟩
    · simp [hs2, dictGet_dictSet]
    · simp [hs2, dictGet_dictSet]
    · simpa using he0
  · have hm : p' ∈ s.m.constrained := by
      have : p' ∈ s.m.constrained ++ [p] := hp'
      simpa [hpp] using this
    obtain ⟨c1, c2, c3, c4⟩ := hc p' hm
    refine ⟨c1, ?_, ?_, ?_⟩
    · simp [hs2, dictGet_dictSet, hpp, c2]
    · simp [hs2, dictGet_dictSet, hpp, c3]
    · simpa [hpp] using c4

/-- **C145, constraints.** `s'` is the model `s` with a Gaussian constraint of width `e` on the yield of one more process `p`. Two iminuit fits with exact errors, of `s` and of `s'`, with the same fixed parameters, that end at the
same parameters with positive expectations; the matrix of second derivatives of `s` there is positive definite. Then every free parameter has in the fit of `s'` a positive error that is at most the one in the fit of
`s`, and the error of the yield of `p` is at most the width of the constraint. -/
theorem C145_constraint (s : Sys) (h : s.Built) (hne : s.m.channels ≠ []) (S : ℕ → ChanSpec) (hS : ModelIs s S)
    (d : ∀ k, Fin (S k).n → ℝ) (hd : DataIs s S d) (hpos : ∀ k < s.m.chanIds.length, ∀ i, d k i = 0 ∨ (1e-100 : ℝ) ≤ d k i)
    (V E : String → ℝ) (hc : ConstraintsAre s V E) (p : String) (hp : p ∈ s.m.processes) (hpc : p ∉ s.m.constrained) (c e : ℝ) (he0 : e ≠ 0)
    (s' : Sys) (hs' : s' = s.step (.constrain p (.fin c) (.fin e)))
    (id : String) (hid : id.toLower = "iminuit") (ops : List FitOp) (hk : KnownIds (s.m.paramNames s.w) ops) (o o' : Optim) (he : ExactErrors o) (he' : ExactErrors o')
    (up g fixNui up' g' : Bool) (lim lim' : Option Bounds) (r r' : MinResult) (hr : ((fitRun id ops).doFit o s.w s.m up g fixNui lim).1 = .ok r)
    (hr' : ((fitRun id ops).doFit o' s'.w s'.m up' g' fixNui lim').1 = .ok r')
    (ν : String → ℝ) (θ : ∀ k, Fin (S k).K → Fin (S k).n → ℝ) (hv : r.params.values = paramVec s S ν θ) (hv' : r'.params.values = paramVec s S ν θ) (hT : NonZeroSums s S θ)
    (hE : ∀ k < s.m.chanIds.length, ∀ i, 0 < expectedIn s S ν θ k i)
    (x : Fin (s.m.paramNames s.w).length → ℝ) (hx : r.params.values = vec x)
    (A : Matrix (Fin (s.m.paramNames s.w).length) (Fin (s.m.paramNames s.w).length) ℝ) (hA : IsHesse (objective s.w s.m) x A) (hpd : A.PosDef)
    (q : ℕ) (hq : FreeParam s ops fixNui q) :
    ∃ e₁ e₂, ErrorIs r q e₁ ∧ ErrorIs r' q e₂ ∧ 0 < e₂ ∧ e₂ ≤ e₁ ∧ (q = s.m.processes.idxOf p → e₂ ≤ |e|) := by
  have hw := reachable_wf h.reachable
  have hB : s'.Built := by rw [hs']; exact Sys.Built.step h (by simp [Op.structural])
  have hs2 : s' = ⟨s.w, { s.m with constrained := s.m.constrained ++ [p], cvals := dictSet s.m.cvals p (.fin c), cerrs := dictSet s.m.cerrs p (.fin e) }⟩ := by
    rw [hs']; simp [Sys.step, Mct.addConstraint, hp]
  subst hs2
  set s' : Sys := ⟨s.w, { s.m with constrained := s.m.constrained ++ [p], cvals := dictSet s.m.cvals p (.fin c), cerrs := dictSet s.m.cerrs p (.fin e) }⟩ with hs2
  have hc' : ConstraintsAre s' (Function.update V p c) (Function.update E p e) := (constrain_constraints hc hp hpc c he0 (hs2.trans (by simp [Sys.step, Mct.addConstraint, hp]))).1
  have hxx : paramVec s S ν θ = vec x := hv ▸ hx
  obtain ⟨A', hA'⟩ := C131_hesse_exists s' hB hne S hS d hd hpos _ _ hc' ν θ hT hE x hxx
  have hform : ∀ v : Fin (s.m.paramNames s.w).length → ℝ, v ⬝ᵥ A'.mulVec v = v ⬝ᵥ A.mulVec v + (yieldsOf s S v p / e) ^ 2 := by
    intro v
    rw [hesse_form s h hne S hS d hd hpos V E hc ν θ hT hE x hxx A hA v]
    have := hesse_form s' hB hne S hS d hd hpos _ _ hc' ν θ hT hE x hxx A' hA' v
    rw [this]
    have hi : information s' S d (Function.update E p e) ν (yieldsOf s' S v) θ (nuisOf s' S v) =
        information s S d E ν (yieldsOf s S v) θ (nuisOf s S v) + (yieldsOf s S v p / e) ^ 2 := by
      unfold information
      show _ + ((s.m.constrained ++ [p]).map fun p' => (yieldsOf s S v p' / Function.update E p e p') ^ 2).sum = _
      rw [List.map_append, List.sum_append, List.map_congr_left (g := fun p' => (yieldsOf s S v p' / E p') ^ 2) (fun p' hp' => by
        rw [Function.update_of_ne (show p' ≠ p from fun hh => hpc (hh ▸ hp'))])]
      simp only [List.map_cons, List.map_nil, List.sum_cons, List.sum_nil, Function.update_self, add_zero]
      rw [← add_assoc]
      rfl
    rw [hi]
    rw [add_right_comm]
    rfl
  have hle : ∀ v : Fin (s.m.paramNames s.w).length → ℝ, v ⬝ᵥ A.mulVec v ≤ v ⬝ᵥ A'.mulVec v := fun v => by
    rw [hform]; linarith [sq_nonneg (yieldsOf s S v p / e)]
  have hpd' : A'.PosDef := by
    refine Matrix.PosDef.of_dotProduct_mulVec_pos ?_ fun v hv => ?_
    · rw [Matrix.IsHermitian, Matrix.conjTranspose_eq_transpose_of_trivial]; exact hA'.1
    · have := hpd.dotProduct_mulVec_pos hv
      rw [star_trivial] at this ⊢
      exact lt_of_lt_of_le this (hle v)
  refine ⟨_, _, fit_errors h.reachable hid hk he hr hx hA ⟨q, hq.1⟩ hq,
    fit_errors (s := s') hB.reachable hid hk he' hr' (hv'.trans hxx) hA' ⟨q, hq.1⟩ hq,
    Real.sqrt_pos.mpr (free_dual hpd' _ _).2.2, Real.sqrt_le_sqrt (free_mono hpd hpd' (fun q hq => hq) hle ⟨q, hq.1⟩ hq), fun hqp => ?_⟩
  rw [← Real.sqrt_sq_eq_abs]
  refine Real.sqrt_le_sqrt (free_bound hpd' _ _ _ fun v => ?_)
  rw [hform]
  have hvq : yieldsOf s S v p = v ⟨q, hq.1⟩ := by
    unfold yieldsOf vget
    rw [slotIdx_yield hw S hp]
    subst hqp
    rw [dif_pos hq.1]
  rw [hvq]
  have h1 := hpd.posSemidef.dotProduct_mulVec_nonneg v
  rw [star_trivial] at h1
  have h2 : 2 * v ⟨q, hq.1⟩ - (v ⟨q, hq.1⟩ / e) ^ 2 ≤ e ^ 2 := by
    have : (v ⟨q, hq.1⟩ / e - e) ^ 2 = (v ⟨q, hq.1⟩ / e) ^ 2 - 2 * v ⟨q, hq.1⟩ + e ^ 2 := by field_simp; ring
    nlinarith [sq_nonneg (v ⟨q, hq.1⟩ / e - e)]
  show 2 * v ⟨q, hq.1⟩ - _ ≤ _
  linarith

/-- **C145, constraints, closure fits.** A model whose data are its own expectation at the present yields (an Asimov data set), as in `C145_asimov`; `s'` is `s` with a Gaussian constraint on the yield of one more
process `p`, at its present yield and of width `e`. Two iminuit fits with exact minimization and errors of `s` and of `s'`, with the same fixed parameters, return the same parameters; every free parameter has a positive
error in the fit of `s'`, at most the one in the fit of `s`, and the error of the yield of `p` is at most the width of the constraint. -/
theorem C145_constraint_asimov (s : Sys) (h : s.Built) (hne : s.m.channels ≠ []) (S : ℕ → ChanSpec) (hS : ModelIs s S)
    (d : ∀ k, Fin (S k).n → ℝ) (hd : DataIs s S d) (hpos : ∀ k < s.m.chanIds.length, ∀ i, (1e-100 : ℝ) ≤ d k i)
    (V E : String → ℝ) (hc : ConstraintsAre s V E)
    (ν : String → ℝ) (hx0 : s.m.x0 s.w = .ok (paramVec s S ν fun _ _ _ => 0)) (hT0 : NonZeroSums s S fun _ _ _ => 0)
    (hdata : ∀ k < s.m.chanIds.length, ∀ i, expectedIn s S ν (fun _ _ _ => 0) k i = d k i)
    (hV : ∀ p ∈ s.m.constrained, V p = ν p) (hid : Identifiable s S)
    (p : String) (hp : p ∈ s.m.processes) (hpc : p ∉ s.m.constrained) (e : ℝ) (he0 : e ≠ 0) (s' : Sys) (hs' : s' = s.step (.constrain p (.fin (ν p)) (.fin e)))
    (o o' : Optim) (ho : TrueMin o) (ho' : TrueMin o') (he : ExactErrors o) (he' : ExactErrors o') (id : String) (hmin : id.toLower = "iminuit") (ops : List FitOp)
    (hk : KnownIds (s.m.paramNames s.w) ops) (up g fixNui up' g' : Bool) (lim lim' : Option Bounds)
    (hb : ∀ pid b, FitOp.bound pid b ∈ ops → ∀ k v, Denotes (s.m.paramNames s.w) pid k → (paramVec s S ν fun _ _ _ => 0)[k]? = some v → InBounds b v)
    (hlim : ∀ b, lim = some b ∨ lim' = some b → InBounds b 0) (r r' : MinResult) (hr : ((fitRun id ops).doFit o s.w s.m up g fixNui lim).1 = .ok r)
    (hr' : ((fitRun id ops).doFit o' s'.w s'.m up' g' fixNui lim').1 = .ok r') :
    r'.params.values = r.params.values ∧ ∀ q, FreeParam s ops fixNui q →
      ∃ e₁ e₂, ErrorIs r q e₁ ∧ ErrorIs r' q e₂ ∧ 0 < e₂ ∧ e₂ ≤ e₁ ∧ (q = s.m.processes.idxOf p → e₂ ≤ |e|) := by
  obtain ⟨x, A, hx, hA, hpd⟩ := asimov_hesse s h hne S hS d hd hpos V E hc ν hT0 hdata hid
  have hB : s'.Built := by rw [hs']; exact Sys.Built.step h (by simp [Op.structural])
  have hs2 : s' = ⟨s.w, { s.m with constrained := s.m.constrained ++ [p], cvals := dictSet s.m.cvals p (.fin (ν p)), cerrs := dictSet s.m.cerrs p (.fin e) }⟩ := by
    rw [hs']; simp [Sys.step, Mct.addConstraint, hp]
  obtain ⟨hc', hV'⟩ := constrain_constraints hc hp hpc (ν p) he0 hs'
  have hV2 : ∀ p' ∈ s'.m.constrained, Function.update V p (ν p) p' = ν p' := by
    intro p' hp'
    by_cases hpp : p' = p
    · rw [hpp, Function.update_self]
    · rw [Function.update_of_ne hpp]
      refine hV p' ?_
      have : p' ∈ s.m.constrained ++ [p] := by rw [hs2] at hp'; exact hp'
      simpa [hpp] using this
  have v1 := (C106_exact s h hne S hS d hd hpos V E hc ν hx0 hT0 hdata hV hid o ho id hmin ops hk up g fixNui lim
    hb (fun b hb => hlim b (.inl hb)) r hr).2
  have v2 : s'.m.x0 s'.w = .ok r'.params.values := by
    have h0 : s'.m.x0 s'.w = .ok (paramVec s' S ν fun _ _ _ => 0) := by rw [hs2]; exact hx0
    subst hs2
    exact (C106_exact _ hB hne S hS d hd hpos _ _ hc' ν h0 hT0 hdata hV2 (fun δ h1 h2 => hid δ h1 fun p' hp' => h2 p' (List.mem_append_left _ hp')) o' ho' id hmin ops hk up' g' fixNui lim'
      hb (fun b hb => hlim b (.inr hb)) r' hr').2
  have e2 : s'.m.x0 s'.w = s.m.x0 s.w := by rw [hs2]; rfl
  rw [e2, hx0] at v2
  rw [hx0] at v1
  have v1 := (Except.ok.inj v1).symm
  have v2 := (Except.ok.inj v2).symm
  have h0 : ∀ k < s.m.chanIds.length, ∀ i, 0 < d k i := fun k hk i => lt_of_lt_of_le (by norm_num) (hpos k hk i)
  exact ⟨v2.trans v1.symm, fun q hq => C145_constraint s h hne S hS d hd (fun k hk i => .inr (hpos k hk i)) V E hc p hp hpc (ν p) e he0 s' hs' id hmin ops hk o o' he he'
    up g fixNui up' g' lim lim' r r' hr hr' ν _ v1 v2 hT0 (fun k hk i => by rw [hdata k hk i]; exact h0 k hk i) x (v1.trans hx) A hA hpd q hq⟩

end

end TF.Props
