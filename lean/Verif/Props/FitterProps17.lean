import Verif.Props.FitterProps16
import Verif.Props.MctProps16

set_option linter.unusedSimpArgs false

/-!
# Fit results satisfy the likelihood equations (C123)
-/

namespace TF.Spec

open TF Classical

noncomputable section

/-- the user's configuration lets the value `v` of parameter number `q` increase: it is not fixed and below its upper bound -/
def CanRaise (names : List String) (nproc : ℕ) (h : List FitOp) (fixNui : Bool) (lim : Option Bounds) (q : ℕ) (v : ℝ) : Prop :=
  ¬ WantedFixed names h nproc fixNui q ∧ ∀ b hi, WantedBounds names h nproc lim q b → b.2 = some hi → (Fl.fin v).lt hi

/-- … or decrease -/
def CanLower (names : List String) (nproc : ℕ) (h : List FitOp) (fixNui : Bool) (lim : Option Bounds) (q : ℕ) (v : ℝ) : Prop :=
  ¬ WantedFixed names h nproc fixNui q ∧ ∀ b lo, WantedBounds names h nproc lim q b → b.1 = some lo → lo.lt (Fl.fin v)

/-- The likelihood equations at yields `ν` and nuisance parameters `θ`: the partial derivative of the likelihood with respect to a
parameter that may increase is not negative, with respect to one that may decrease not positive (so zero for a free parameter
strictly inside its bounds). -/
def LikelihoodEquations (s : Sys) (S : ℕ → ChanSpec) (d : ∀ k, Fin (S k).n → ℝ) (V E : String → ℝ) (h : List FitOp) (fixNui : Bool)
    (lim : Option Bounds) (ν : String → ℝ) (θ : ∀ k, Fin (S k).K → Fin (S k).n → ℝ) : Prop :=
  (∀ p ∈ s.m.processes,
    (CanRaise (s.m.paramNames s.w) s.m.numProcesses h fixNui lim (s.m.processes.idxOf p) (ν p) → 0 ≤ score s S d V E ν θ p) ∧
    (CanLower (s.m.paramNames s.w) s.m.numProcesses h fixNui lim (s.m.processes.idxOf p) (ν p) → score s S d V E ν θ p ≤ 0)) ∧
  ∀ k < s.m.chanIds.length, ∀ (j : Fin (S k).K) (i : Fin (S k).n),
    (CanRaise (s.m.paramNames s.w) s.m.numProcesses h fixNui lim (nuiOffset s k j + i) (θ k j i) → 0 ≤ nuiScore s S d ν θ k j i) ∧
    (CanLower (s.m.paramNames s.w) s.m.numProcesses h fixNui lim (nuiOffset s k j + i) (θ k j i) → nuiScore s S d ν θ k j i ≤ 0)

end

end TF.Spec

namespace TF.Props

open Classical Spec
open scoped Matrix Topology

noncomputable section

theorem deriv_nonneg_right {f : ℝ → ℝ} {D : ℝ} (hf : HasDerivAt f D 0) (h : ∀ᶠ t in 𝓝[>] (0:ℝ), f 0 ≤ f t) : 0 ≤ D := by
  have ht := hf.tendsto_slope_zero_right
  refine ge_of_tendsto ht ?_
  filter_upwards [h, self_mem_nhdsWithin] with t h1 h2
  have h2 : 0 < t := h2
  simp only [zero_add, smul_eq_mul]
  exact mul_nonneg (inv_nonneg.mpr h2.le) (sub_nonneg.mpr h1)

/-- **C123, any direction.** At a best point with a finite value, the derivative of the likelihood in every direction of parameter
space in which the point can be moved a little without leaving the allowed region is not negative. -/
theorem C123_direction (s : Sys) (h : s.Built) (hne : s.m.channels ≠ []) (S : ℕ → ChanSpec) (hS : ModelIs s S)
    (d : ∀ k, Fin (S k).n → ℝ) (hd : DataIs s S d)
    (hpos : ∀ k < s.m.chanIds.length, ∀ i, d k i = 0 ∨ (1e-100 : ℝ) ≤ d k i)
    (V E : String → ℝ) (hc : ConstraintsAre s V E) (hused : AllUsed s S)
    (allowed : Vec → Prop) (y : Vec) (v : ℝ) (hy : y.length = s.m.numProcesses + s.m.numNui s.w)
    (hb : BestPoint s allowed y (.fin v)) :
    ∃ ν θ, y = paramVec s S ν θ ∧ NonZeroSums s S θ ∧ DataCovered s S d θ ν ∧
      ∀ (δ : String → ℝ) (η : ∀ k, Fin (S k).K → Fin (S k).n → ℝ),
        (∀ᶠ t in 𝓝[>] (0:ℝ), allowed (paramVec s S (fun p => ν p + t * δ p) (fun k j i => θ k j i + t * η k j i))) →
        0 ≤ (∑ p ∈ s.m.processes.toFinset, δ p * score s S d V E ν θ p) +
          ∑ k ∈ Finset.range s.m.channels.length, ∑ j, ∑ i, η k j i * nuiScore s S d ν θ k j i := by
  have hw := reachable_wf h.reachable
  obtain ⟨b1, b2, -, b3⟩ := hb
  obtain ⟨ν, θ, rfl, hT, hE⟩ := (C104_domain s h hne S hS d hd hpos V E hc hused y hy).mp ⟨v, b2⟩
  refine ⟨ν, θ, rfl, hT, hE, fun δ η hal => ?_⟩
  have e0 : (fun p => ν p + 0 * δ p) = ν := by funext p; ring
  have e1 : (fun k j i => θ k j i + 0 * η k j i) = θ := by funext k j i; ring
  have hv : v = nllAt s S d V E θ ν := by
    have := objective_nllAt' h hne hS hd hpos hc hT hE
    have h2 : objective s.w s.m (paramVec s S ν θ) = .ok (.fin v) := b2
    rw [this] at h2
    exact (Fl.fin.inj (Except.ok.inj h2)).symm
  refine deriv_nonneg_right (nllAt_hasDeriv hw hS d hc ν θ hT hE δ η) ?_
  have h1 : ∀ᶠ t in 𝓝 (0:ℝ), DataCovered s S d (fun k j i => θ k j i + t * η k j i) (fun p => ν p + t * δ p) := by
    have : ∀ᶠ t in 𝓝 (0:ℝ), ∀ k ∈ Finset.range s.m.chanIds.length, ∀ i, d k i ≠ 0 →
        0 < expectedIn s S (fun p => ν p + t * δ p) (fun k j i => θ k j i + t * η k j i) k i := by
      rw [Filter.eventually_all_finset]
      intro k hk
      have hk := Finset.mem_range.mp hk
      rw [Filter.eventually_all]
      intro i
      rw [Filter.eventually_imp_distrib_left]
      intro hz
      refine (expected_hasDeriv s S ν δ θ η k (hT k hk) i).continuousAt.eventually_const_lt ?_
      simp only [e0, e1]; exact hE k hk i hz
    filter_upwards [this] with t ht k hk
    exact ht k (Finset.mem_range.mpr hk)
  have h2 : ∀ᶠ t in 𝓝 (0:ℝ), NonZeroSums s S (fun k j i => θ k j i + t * η k j i) := by
    have : ∀ᶠ t in 𝓝 (0:ℝ), ∀ k ∈ Finset.range s.m.chanIds.length, ∀ j,
        ∑ i, (S k).cnt j i * (1 + (θ k j i + t * η k j i) * (S k).ε j i) ≠ 0 := by
      rw [Filter.eventually_all_finset]
      intro k hk
      have hk := Finset.mem_range.mp hk
      rw [Filter.eventually_all]
      intro j
      have : Continuous (fun t : ℝ => ∑ i, (S k).cnt j i * (1 + (θ k j i + t * η k j i) * (S k).ε j i)) := by fun_prop
      refine this.continuousAt.eventually_ne ?_
      simpa using hT k hk j
    filter_upwards [this] with t ht k hk
    exact ht k (Finset.mem_range.mpr hk)
  filter_upwards [hal, nhdsWithin_le_nhds h1, nhdsWithin_le_nhds h2] with t ha hc1 hc2
  have ho := objective_nllAt' h hne hS hd hpos hc hc2 hc1
  have := b3 _ _ ha ho
  simp only [e0, e1, ← hv]
  exact not_lt.mp this

/-! ### coordinates -/

/-- the parameters in the order of the parameter vector -/
def pslots (s : Sys) (S : ℕ → ChanSpec) : List (String ⊕ (Σ k, Fin (S k).K × Fin (S k).n)) :=
  s.m.processes.map Sum.inl ++ (List.range s.m.chanIds.length).flatMap fun k =>
    (List.finRange (S k).K).flatMap fun j => (List.finRange (S k).n).map fun i => Sum.inr ⟨k, j, i⟩

def pval {S : ℕ → ChanSpec} (ν : String → ℝ) (θ : ∀ k, Fin (S k).K → Fin (S k).n → ℝ) :
    String ⊕ (Σ k, Fin (S k).K × Fin (S k).n) → Fl
  | .inl p => .fin (ν p)
  | .inr ⟨k, j, i⟩ => .fin (θ k j i)

theorem paramVec_slots (s : Sys) (S : ℕ → ChanSpec) (ν : String → ℝ) (θ : ∀ k, Fin (S k).K → Fin (S k).n → ℝ) :
    paramVec s S ν θ = (pslots s S).map (pval ν θ) := by
  unfold paramVec pslots
  rw [List.map_append, List.map_map, List.map_flatMap, ← List.flatMap_def]
  congr 1
  apply List.flatMap_congr
  intro k _
  unfold nuiVec
  rw [List.ofFn_eq_map, ← List.flatMap_def, List.map_flatMap]
  apply List.flatMap_congr
  intro j _
  unfold vec
  rw [List.ofFn_eq_map, List.map_map]
  rfl

theorem pslots_nodup {s : Sys} (hw : SysWF s) (S : ℕ → ChanSpec) : (pslots s S).Nodup := by
  unfold pslots
  rw [List.nodup_append]
  refine ⟨hw.procs.map Sum.inl_injective, ?_, ?_⟩
  · rw [List.nodup_flatMap]
    constructor
    · intro k _
      rw [List.nodup_flatMap]
      constructor
      · intro j _
        refine (List.nodup_finRange _).map ?_
        intro a b hab
        simpa using hab
      · refine (List.nodup_finRange _).imp ?_
        intro a b hab x hx hy
        obtain ⟨i, -, rfl⟩ := List.mem_map.mp hx
        obtain ⟨i', -, e⟩ := List.mem_map.mp hy
        simp at e
        exact hab e.1.symm
    · refine List.nodup_range.imp ?_
      intro a b hab x hx hy
      obtain ⟨j, -, hx⟩ := List.mem_flatMap.mp hx
      obtain ⟨j', -, hy⟩ := List.mem_flatMap.mp hy
      obtain ⟨i, -, rfl⟩ := List.mem_map.mp hx
      obtain ⟨i', -, e⟩ := List.mem_map.mp hy
      simp at e
      exact hab e.1.symm
  · intro a ha b hb e
    obtain ⟨p, -, rfl⟩ := List.mem_map.mp ha
    obtain ⟨k, -, hb⟩ := List.mem_flatMap.mp hb
    obtain ⟨j, -, hb⟩ := List.mem_flatMap.mp hb
    obtain ⟨i, -, rfl⟩ := List.mem_map.mp hb
    cases e

theorem pslots_yield {s : Sys} (S : ℕ → ChanSpec) {p : String} (hp : p ∈ s.m.processes) :
    (pslots s S)[s.m.processes.idxOf p]? = some (.inl p) := by
  have hlt := List.idxOf_lt_length_iff.mpr hp
  unfold pslots
  rw [List.getElem?_append_left (by simpa using hlt), List.getElem?_map, List.getElem?_eq_getElem hlt]
  simp

theorem flatten_const_get {α : Type} {n : ℕ} : ∀ (l : List (List α)), (∀ b ∈ l, b.length = n) → ∀ (j i : ℕ) (b : List α),
    l[j]? = some b → i < n → l.flatten[j * n + i]? = b[i]? := by
  intro l
  induction l with
  | nil => intro _ j i b h; simp at h
  | cons a l ih =>
    intro hl j i b h hi
    have ha := hl a (by simp)
    cases j with
    | zero =>
      simp only [List.getElem?_cons_zero, Option.some.injEq] at h
      subst h
      rw [List.flatten_cons, List.getElem?_append_left (by omega)]
      simp
    | succ j =>
      rw [List.getElem?_cons_succ] at h
      rw [List.flatten_cons, List.getElem?_append_right (by rw [ha, Nat.succ_mul]; omega)]
      rw [← ih (fun b hb => hl b (by simp [hb])) j i b h hi]
      congr 1
      rw [ha, Nat.succ_mul]; omega

theorem nuiVec_get {K n : ℕ} (θ : Fin K → Fin n → ℝ) (j : Fin K) (i : Fin n) :
    (nuiVec θ)[(j : ℕ) * n + i]? = some (.fin (θ j i)) := by
  unfold nuiVec
  rw [flatten_const_get (List.ofFn fun k => vec (θ k)) (by
    intro b hb
    obtain ⟨k, rfl⟩ := (List.mem_ofFn' _ _).mp hb
    simp [vec]) j i (vec (θ j)) (by simp) i.2]
  simp [vec]

theorem paramVec_nui {s : Sys} (hw : SysWF s) {S : ℕ → ChanSpec} (hS : ModelIs s S) (ν : String → ℝ)
    (θ : ∀ k, Fin (S k).K → Fin (S k).n → ℝ) (k : ℕ) (hk : k < s.m.chanIds.length) (j : Fin (S k).K) (i : Fin (S k).n) :
    (paramVec s S ν θ)[nuiOffset s k j + i]? = some (.fin (θ k j i)) := by
  have hb := paramVec_block hw hS ν θ k hk
  have hg := nuiVec_get (θ k) j i
  have hoff : nuiOffset s k j + i = nuiOffset s k 0 + ((j : ℕ) * (S k).n + i) := by
    obtain ⟨a, -, -, b⟩ := hS k hk
    have hn := (chanIs_numBins hw (List.getElem_mem hk) a b).1
    unfold nuiOffset
    rw [List.getD_eq_getElem?_getD, List.getElem?_eq_getElem hk, Option.getD_some]
    rw [hn]
    omega
  rw [← hb, List.getElem?_take] at hg
  split at hg
  · rw [hoff, ← List.getElem?_drop]; exact hg
  · cases hg

theorem pslots_nui {s : Sys} (hw : SysWF s) {S : ℕ → ChanSpec} (hS : ModelIs s S) (k : ℕ) (hk : k < s.m.chanIds.length)
    (j : Fin (S k).K) (i : Fin (S k).n) : (pslots s S)[nuiOffset s k j + i]? = some (.inr ⟨k, j, i⟩) := by
  have h := paramVec_nui hw hS (fun _ => 0) (fun k' j' i' => if (⟨k', j', i'⟩ : Σ k, Fin (S k).K × Fin (S k).n) = ⟨k, j, i⟩ then 1 else 0) k hk j i
  rw [paramVec_slots, List.getElem?_map] at h
  obtain ⟨σ, h1, h2⟩ := Option.map_eq_some_iff.mp h
  rw [h1]
  rcases σ with p | ⟨k', j', i'⟩
  · simp [pval] at h2
  · simp only [pval, if_true, Fl.fin.injEq] at h2
    by_cases e : (⟨k', j', i'⟩ : Σ k, Fin (S k).K × Fin (S k).n) = ⟨k, j, i⟩
    · rw [e]
    · rw [if_neg e] at h2; norm_num at h2

/-- moving one parameter keeps the others -/
theorem allows_move {names : List String} {nproc : ℕ} {h : List FitOp} {fixNui : Bool} {lim : Option Bounds} {x0 y y' : Vec}
    (hy : FitAllows names nproc h fixNui lim x0 y) (hl : y'.length = y.length) (q : ℕ) (v' : Fl) (hq : y'[q]? = some v')
    (hoth : ∀ q', q' ≠ q → y'[q']? = y[q']?) (hfree : ¬ WantedFixed names h nproc fixNui q)
    (hin : ∀ b, WantedBounds names h nproc lim q b → InBounds b v') : FitAllows names nproc h fixNui lim x0 y' := by
  refine ⟨hl.trans hy.1, fun k hk => ?_⟩
  by_cases e : k = q
  · subst e
    refine ⟨fun hf => absurd hf hfree, fun _ b v hb hv => ?_⟩
    rw [hq] at hv
    rw [← Option.some.inj hv]
    exact hin b hb
  · rw [hoth k e]
    exact hy.2 k hk

theorem pslots_move {s : Sys} (hw : SysWF s) {S : ℕ → ChanSpec} {q : ℕ} {σ : String ⊕ (Σ k, Fin (S k).K × Fin (S k).n)}
    (hq : (pslots s S)[q]? = some σ) (ν ν' : String → ℝ) (θ θ' : ∀ k, Fin (S k).K → Fin (S k).n → ℝ)
    (hsame : ∀ τ, τ ≠ σ → pval ν' θ' τ = pval ν θ τ) : 
    (paramVec s S ν' θ').length = (paramVec s S ν θ).length ∧ (paramVec s S ν' θ')[q]? = some (pval ν' θ' σ) ∧
      ∀ q', q' ≠ q → (paramVec s S ν' θ')[q']? = (paramVec s S ν θ)[q']? := by
  simp only [paramVec_slots, List.length_map, List.getElem?_map, hq, Option.map_some, true_and]
  intro q' hne
  cases hq' : (pslots s S)[q']? with
  | none => rfl
  | some τ =>
    simp only [Option.map_some, Option.some.injEq]
    apply hsame
    rintro rfl
    obtain ⟨h1, e1⟩ := List.getElem?_eq_some_iff.mp hq
    obtain ⟨h2, e2⟩ := List.getElem?_eq_some_iff.mp hq'
    exact hne ((List.Nodup.getElem_inj_iff (pslots_nodup hw S)).mp (e2.trans e1.symm))

/-- raising one value a little stays within the bounds -/
theorem raise_inBounds {b : Bounds} {v : ℝ} (hin : InBounds b (.fin v)) (hr : ∀ hi, b.2 = some hi → (Fl.fin v).lt hi) :
    ∀ᶠ t in 𝓝[>] (0:ℝ), InBounds b (.fin (v + t)) := by
  have h1 : ∀ᶠ t in 𝓝[>] (0:ℝ), ∀ lo, b.1 = some lo → lo.lt (.fin (v + t)) := by
    filter_upwards [self_mem_nhdsWithin] with t ht lo hlo
    have ht : 0 < t := ht
    rcases hin.1 lo hlo with h | h
    · cases lo <;> simp_all [Fl.lt]
      linarith
    · cases lo <;> simp_all [Fl.lt, Fl.beq]
  have h2 : ∀ᶠ t in 𝓝[>] (0:ℝ), ∀ hi, b.2 = some hi → (Fl.fin (v + t)).lt hi := by
    cases hb : b.2 with
    | none => exact Filter.Eventually.of_forall fun t hi h => by cases h
    | some hi =>
      have := hr hi hb
      cases hi with
      | fin a =>
        have hlt : v < a := this
        have : ∀ᶠ t in 𝓝 (0:ℝ), v + t < a := by
          have hc : Continuous fun t : ℝ => v + t := by fun_prop
          exact hc.continuousAt.eventually_lt_const (by simpa using hlt)
        filter_upwards [nhdsWithin_le_nhds this] with t ht hi h
        cases h; exact ht
      | nan => exact this.elim
      | ninf => exact this.elim
      | pinf => exact Filter.Eventually.of_forall fun t hi h => by cases h; trivial
  filter_upwards [h1, h2] with t a b
  exact ⟨fun lo h => .inl (a lo h), fun hi h => .inl (b hi h)⟩

theorem lower_inBounds {b : Bounds} {v : ℝ} (hin : InBounds b (.fin v)) (hr : ∀ lo, b.1 = some lo → lo.lt (Fl.fin v)) :
    ∀ᶠ t in 𝓝[>] (0:ℝ), InBounds b (.fin (v - t)) := by
  have h1 : ∀ᶠ t in 𝓝[>] (0:ℝ), ∀ hi, b.2 = some hi → (Fl.fin (v - t)).lt hi := by
    filter_upwards [self_mem_nhdsWithin] with t ht hi hhi
    have ht : 0 < t := ht
    rcases hin.2 hi hhi with h | h
    · cases hi <;> simp_all [Fl.lt]
      linarith
    · cases hi <;> simp_all [Fl.lt, Fl.beq]
  have h2 : ∀ᶠ t in 𝓝[>] (0:ℝ), ∀ lo, b.1 = some lo → lo.lt (Fl.fin (v - t)) := by
    cases hb : b.1 with
    | none => exact Filter.Eventually.of_forall fun t hi h => by cases h
    | some hi =>
      have := hr hi hb
      cases hi with
      | fin a =>
        have hlt : a < v := this
        have : ∀ᶠ t in 𝓝 (0:ℝ), a < v - t := by
          have hc : Continuous fun t : ℝ => v - t := by fun_prop
          exact hc.continuousAt.eventually_const_lt (by simpa using hlt)
        filter_upwards [nhdsWithin_le_nhds this] with t ht hi h
        cases h; exact ht
      | nan => exact this.elim
      | pinf => exact this.elim
      | ninf => exact Filter.Eventually.of_forall fun t hi h => by cases h; trivial
  filter_upwards [h1, h2] with t a b
  exact ⟨fun lo h => .inl (b lo h), fun hi h => .inl (a hi h)⟩

/-- a coordinate direction upwards -/
theorem coord_sign {s : Sys} (hw : SysWF s) {S : ℕ → ChanSpec} {h : List FitOp} {fixNui : Bool} {lim : Option Bounds} {x0 : Vec}
    {ν : String → ℝ} {θ : ∀ k, Fin (S k).K → Fin (S k).n → ℝ} {q : ℕ} {σ : String ⊕ (Σ k, Fin (S k).K × Fin (S k).n)}
    (hq : (pslots s S)[q]? = some σ) (hlen : q < (s.m.paramNames s.w).length)
    (hal : FitAllows (s.m.paramNames s.w) s.m.numProcesses h fixNui lim x0 (paramVec s S ν θ)) (v : ℝ) (hv : pval ν θ σ = .fin v)
    (δ : String → ℝ) (η : ∀ k, Fin (S k).K → Fin (S k).n → ℝ) (a : ℝ)
    (hσ : ∀ t, pval (fun p => ν p + t * δ p) (fun k j i => θ k j i + t * η k j i) σ = .fin (v + t * a))
    (hτ : ∀ t τ, τ ≠ σ → pval (fun p => ν p + t * δ p) (fun k j i => θ k j i + t * η k j i) τ = pval ν θ τ)
    (hdir : a = 1 ∧ CanRaise (s.m.paramNames s.w) s.m.numProcesses h fixNui lim q v ∨
      a = -1 ∧ CanLower (s.m.paramNames s.w) s.m.numProcesses h fixNui lim q v) :
    ∀ᶠ t in 𝓝[>] (0:ℝ), FitAllows (s.m.paramNames s.w) s.m.numProcesses h fixNui lim x0
      (paramVec s S (fun p => ν p + t * δ p) (fun k j i => θ k j i + t * η k j i)) := by
  have hfree : ¬ WantedFixed (s.m.paramNames s.w) h s.m.numProcesses fixNui q := by
    rcases hdir with ⟨-, h⟩ | ⟨-, h⟩
    · exact h.1
    · exact h.1
  have hval : (paramVec s S ν θ)[q]? = some (.fin v) := by
    rw [paramVec_slots, List.getElem?_map, hq, Option.map_some, hv]
  have hin : ∀ b, WantedBounds (s.m.paramNames s.w) h s.m.numProcesses lim q b → InBounds b (.fin v) := fun b hb =>
    (hal.2 q hlen).2 hfree b _ hb hval
  have hev : ∀ᶠ t in 𝓝[>] (0:ℝ), ∀ b, WantedBounds (s.m.paramNames s.w) h s.m.numProcesses lim q b → InBounds b (.fin (v + t * a)) := by
    by_cases hex : ∃ b, WantedBounds (s.m.paramNames s.w) h s.m.numProcesses lim q b
    · obtain ⟨b, hb⟩ := hex
      have : ∀ᶠ t in 𝓝[>] (0:ℝ), InBounds b (.fin (v + t * a)) := by
        rcases hdir with ⟨rfl, hr⟩ | ⟨rfl, hr⟩
        · filter_upwards [raise_inBounds (hin b hb) fun hi hh => hr.2 b hi hb hh] with t ht
          simpa using ht
        · filter_upwards [lower_inBounds (hin b hb) fun lo hh => hr.2 b lo hb hh] with t ht
          simpa [sub_eq_add_neg] using ht
      filter_upwards [this] with t ht b' hb'
      rw [wantedBounds_unique hb' hb]; exact ht
    · exact Filter.Eventually.of_forall fun t b hb => absurd ⟨b, hb⟩ hex
  filter_upwards [hev] with t ht
  obtain ⟨m1, m2, m3⟩ := pslots_move hw hq ν (fun p => ν p + t * δ p) θ (fun k j i => θ k j i + t * η k j i) (hτ t)
  rw [hσ t] at m2
  exact allows_move hal m1 q _ m2 m3 hfree ht

/-- **C123, likelihood equations.** A best point of the problem the user configured with a finite value is a vector of yields and
nuisance parameters at which the likelihood equations hold. -/
theorem C123_equations (s : Sys) (h : s.Built) (hne : s.m.channels ≠ []) (S : ℕ → ChanSpec) (hS : ModelIs s S)
    (d : ∀ k, Fin (S k).n → ℝ) (hd : DataIs s S d)
    (hpos : ∀ k < s.m.chanIds.length, ∀ i, d k i = 0 ∨ (1e-100 : ℝ) ≤ d k i)
    (V E : String → ℝ) (hc : ConstraintsAre s V E) (hused : AllUsed s S)
    (ops : List FitOp) (fixNui : Bool) (lim : Option Bounds) (x0 y : Vec) (v : ℝ)
    (hb : BestPoint s (FitAllows (s.m.paramNames s.w) s.m.numProcesses ops fixNui lim x0) y (.fin v)) :
    ∃ ν θ, y = paramVec s S ν θ ∧ NonZeroSums s S θ ∧ DataCovered s S d θ ν ∧
      LikelihoodEquations s S d V E ops fixNui lim ν θ := by
  have hw := reachable_wf h.reachable
  have hn := (C51_aligned s h.reachable).1
  have hlen : s.m.channels.length = s.m.chanIds.length := by simp [Mct.chanIds]
  obtain ⟨ν, θ, rfl, hT, hE, hdir⟩ := C123_direction s h hne S hS d hd hpos V E hc hused _ y v (hb.1.1.trans hn) hb
  refine ⟨ν, θ, rfl, hT, hE, ?_, ?_⟩
  · intro p hp
    have hlt : s.m.processes.idxOf p < (s.m.paramNames s.w).length := by
      have := List.idxOf_lt_length_iff.mpr hp
      rw [hn]; unfold Mct.numProcesses; omega
    have key : ∀ a : ℝ, (a = 1 ∧ CanRaise (s.m.paramNames s.w) s.m.numProcesses ops fixNui lim (s.m.processes.idxOf p) (ν p) ∨
        a = -1 ∧ CanLower (s.m.paramNames s.w) s.m.numProcesses ops fixNui lim (s.m.processes.idxOf p) (ν p)) →
        0 ≤ a * score s S d V E ν θ p := by
      intro a ha
      have := hdir (fun p' => if p' = p then a else 0) (fun _ _ _ => 0)
        (coord_sign hw (pslots_yield S hp) hlt hb.1 (ν p) rfl _ _ a (fun t => by simp [pval]) (by
          rintro t (p' | ⟨k, j, i⟩) hne'
          · have : p' ≠ p := fun e => hne' (by rw [e])
            simp [pval, this]
          · simp [pval]) ha)
      simpa [hp] using this
    exact ⟨fun hr => by simpa using key 1 (.inl ⟨rfl, hr⟩), fun hr => by simpa using key (-1) (.inr ⟨rfl, hr⟩)⟩
  · intro k hk j i
    have hq := pslots_nui hw hS k hk j i
    have hlt : nuiOffset s k j + i < (s.m.paramNames s.w).length := by
      have h1 := (List.getElem?_eq_some_iff.mp (paramVec_nui hw hS ν θ k hk j i)).1
      rw [paramVec_length hw hS] at h1
      rw [hn]; exact h1
    have key : ∀ a : ℝ, (a = 1 ∧ CanRaise (s.m.paramNames s.w) s.m.numProcesses ops fixNui lim (nuiOffset s k j + i) (θ k j i) ∨
        a = -1 ∧ CanLower (s.m.paramNames s.w) s.m.numProcesses ops fixNui lim (nuiOffset s k j + i) (θ k j i)) →
        0 ≤ a * nuiScore s S d ν θ k j i := by
      intro a ha
      have := hdir (fun _ => 0) (fun k' j' i' => if (⟨k', j', i'⟩ : Σ k, Fin (S k).K × Fin (S k).n) = ⟨k, j, i⟩ then a else 0)
        (coord_sign hw hq hlt hb.1 (θ k j i) rfl _ _ a (fun t => by simp [pval]) (by
          rintro t (p' | ⟨k', j', i'⟩) hne'
          · simp [pval]
          · have : (⟨k', j', i'⟩ : Σ k, Fin (S k).K × Fin (S k).n) ≠ ⟨k, j, i⟩ := fun e => hne' (by rw [e])
            simp only [pval, if_neg this, mul_zero, add_zero]) ha)
      simp only [zero_mul, Finset.sum_const_zero, zero_add] at this
      rw [Finset.sum_eq_single k, Finset.sum_eq_single j, Finset.sum_eq_single i] at this
      · simpa using this
      · intro i' _ hi'
        rw [if_neg (by intro e; simp at e; exact hi' e), zero_mul]
      · simp
      · intro j' _ hj'
        refine Finset.sum_eq_zero fun i' _ => ?_
        rw [if_neg (by intro e; simp at e; exact hj' e.1), zero_mul]
      · simp
      · intro k' _ hk'
        refine Finset.sum_eq_zero fun j' _ => Finset.sum_eq_zero fun i' _ => ?_
        rw [if_neg (by intro e; exact hk' (congrArg Sigma.fst e)), zero_mul]
      · intro hk'
        exact absurd (Finset.mem_range.mpr (by rw [hlen]; exact hk)) hk'
    exact ⟨fun hr => by simpa using key 1 (.inl ⟨rfl, hr⟩), fun hr => by simpa using key (-1) (.inr ⟨rfl, hr⟩)⟩

/-- **C123, event numbers.** If moreover there are no constraints and every yield is zero or free to move both ways, the fitted
model expects exactly as many events as were observed. -/
theorem C123_total (s : Sys) (h : s.Built) (S : ℕ → ChanSpec) (hS : ModelIs s S)
    (d : ∀ k, Fin (S k).n → ℝ) (V E : String → ℝ) (hc : ConstraintsAre s V E) (hnc : s.m.constrained = [])
    (ops : List FitOp) (fixNui : Bool) (lim : Option Bounds)
    (ν : String → ℝ) (θ : ∀ k, Fin (S k).K → Fin (S k).n → ℝ) (hE : DataCovered s S d θ ν)
    (heq : LikelihoodEquations s S d V E ops fixNui lim ν θ)
    (hfree : ∀ p ∈ s.m.processes, ν p = 0 ∨
      (CanRaise (s.m.paramNames s.w) s.m.numProcesses ops fixNui lim (s.m.processes.idxOf p) (ν p) ∧
       CanLower (s.m.paramNames s.w) s.m.numProcesses ops fixNui lim (s.m.processes.idxOf p) (ν p))) :
    ∑ k ∈ Finset.range s.m.chanIds.length, ∑ i, expectedIn s S ν θ k i = ∑ k ∈ Finset.range s.m.chanIds.length, ∑ i, d k i := by
  have hw := reachable_wf h.reachable
  have h1 := slope_by_process hw hS (d := d) hc (θ := θ) ν ν
  rw [hnc] at h1
  simp only [List.map_nil, List.sum_nil, add_zero] at h1
  rw [Finset.sum_eq_zero (s := s.m.processes.toFinset) (by
    intro p hp
    rw [List.mem_toFinset] at hp
    rcases hfree p hp with h0 | ⟨a, b⟩
    · rw [h0, zero_mul]
    · rw [le_antisymm ((heq.1 p hp).2 b) ((heq.1 p hp).1 a), mul_zero])] at h1
  rw [← sub_eq_zero, ← h1, ← Finset.sum_sub_distrib]
  apply Finset.sum_congr rfl
  intro k hk
  rw [← Finset.sum_sub_distrib]
  apply Finset.sum_congr rfl
  intro i _
  by_cases h0 : d k i = 0
  · rw [h0]; ring
  · have := hE k (Finset.mem_range.mp hk) i h0
    field_simp


/-- **C123, iminuit.** With an optimiser that returns true constrained minima, the values returned by `do_fit` with a finite minimum
satisfy the likelihood equations. -/
theorem C123_iminuit (s : Sys) (h : s.Built) (hne : s.m.channels ≠ []) (S : ℕ → ChanSpec) (hS : ModelIs s S)
    (d : ∀ k, Fin (S k).n → ℝ) (hd : DataIs s S d)
    (hpos : ∀ k < s.m.chanIds.length, ∀ i, d k i = 0 ∨ (1e-100 : ℝ) ≤ d k i)
    (V E : String → ℝ) (hc : ConstraintsAre s V E) (hused : AllUsed s S)
    (id : String) (hid : id.toLower = "iminuit") (ops : List FitOp)
    (hk : KnownIds (s.m.paramNames s.w) ops) (hone : ∀ k < (s.m.paramNames s.w).length, OneId (s.m.paramNames s.w) ops k)
    (o : Optim) (ho : TrueMin o) (up g fixNui : Bool) (lim : Option Bounds) (r : MinResult)
    (hr : ((fitRun id ops).doFit o s.w s.m up g fixNui lim).1 = .ok r) (v : ℝ) (hv : r.fval = .fin v) :
    ∃ ν θ, r.params.values = paramVec s S ν θ ∧ NonZeroSums s S θ ∧ DataCovered s S d θ ν ∧
      LikelihoodEquations s S d V E ops fixNui lim ν θ := by
  obtain ⟨x0, -, hb⟩ := C120_iminuit s h.reachable id hid ops hk hone o ho up g fixNui lim r hr
  rw [hv] at hb
  exact C123_equations s h hne S hS d hd hpos V E hc hused ops fixNui lim x0 _ v hb

/-- **C123, scipy.** The same for the scipy minimizer when at most one parameter is fixed. -/
theorem C123_scipy (s : Sys) (h : s.Built) (hne : s.m.channels ≠ []) (S : ℕ → ChanSpec) (hS : ModelIs s S)
    (d : ∀ k, Fin (S k).n → ℝ) (hd : DataIs s S d)
    (hpos : ∀ k < s.m.chanIds.length, ∀ i, d k i = 0 ∨ (1e-100 : ℝ) ≤ d k i)
    (V E : String → ℝ) (hc : ConstraintsAre s V E) (hused : AllUsed s S)
    (id : String) (hid : id.toLower = "scipy") (ops : List FitOp)
    (hk : KnownIds (s.m.paramNames s.w) ops) (hone : ∀ k < (s.m.paramNames s.w).length, OneId (s.m.paramNames s.w) ops k)
    (o : Optim) (ho : TrueMinScipy o) (up g fixNui : Bool) (lim : Option Bounds)
    (h1 : ∀ j k, j < (s.m.paramNames s.w).length → k < (s.m.paramNames s.w).length →
      WantedFixed (s.m.paramNames s.w) ops s.m.numProcesses fixNui j →
      WantedFixed (s.m.paramNames s.w) ops s.m.numProcesses fixNui k → j = k)
    (r : MinResult) (hr : ((fitRun id ops).doFit o s.w s.m up g fixNui lim).1 = .ok r) (v : ℝ) (hv : r.fval = .fin v) :
    ∃ ν θ, r.params.values = paramVec s S ν θ ∧ NonZeroSums s S θ ∧ DataCovered s S d θ ν ∧
      LikelihoodEquations s S d V E ops fixNui lim ν θ := by
  obtain ⟨x0, -, hb⟩ := C120_scipy s h.reachable id hid ops hk hone o ho up g fixNui lim h1 r hr
  rw [hv] at hb
  exact C123_equations s h hne S hS d hd hpos V E hc hused ops fixNui lim x0 _ v hb

/-! ### a case -/

theorem allUsed_of_identifiable {s : Sys} {S : ℕ → ChanSpec} (h : Identifiable s S) : AllUsed s S := by
  intro p hp
  by_contra hcon
  push Not at hcon
  have := h (fun q => if q = p then 1 else 0) (fun k hk i => by
    unfold expectedIn
    refine Finset.sum_eq_zero fun j _ => ?_
    have := hcon.1 k hk j
    simp [this]) (fun q hq => if_neg (by rintro rfl; exact hcon.2 hq)) p hp
  simp at this

/-- non-vacuity of C123: 6 background events and no signal, two bins. The free fit returns with the finite minimum 0, every parameter
may move both ways, so every partial derivative vanishes and the fitted model expects as many events as observed -/
example (s : Sys) (hs : s = Ex.sysSB.step (.addAsimov false)) : TrueMin Ex.optMin ∧
    ∃ r d, ((fitRun "iminuit" []).doFit Ex.optMin s.w s.m false true false none).1 = .ok r ∧ r.fval = .fin 0 ∧ DataIs s Ex.SSB d ∧
      ∃ ν θ, r.params.values = paramVec s Ex.SSB ν θ ∧ (∀ p ∈ s.m.processes, score s Ex.SSB d (fun _ => 0) (fun _ => 1) ν θ p = 0) ∧
        ∑ k ∈ Finset.range s.m.chanIds.length, ∑ i, expectedIn s Ex.SSB ν θ k i =
          ∑ k ∈ Finset.range s.m.chanIds.length, ∑ i, d k i := by
  refine ⟨Ex.optMin_true, ?_⟩
  have hne : Ex.sysSB.m.channels ≠ [] := by simp [Ex.sysSB, Ex.mSB]
  have htup : ∀ c ∈ Ex.sysSB.m.chanIds, AllTuple (Ex.sysSB.w.chans c).range := by
    simp [Ex.sysSB, Ex.mSB, Mct.chanIds, Ex.wSB, Ex.chSB, AllTuple]
  obtain ⟨q1, q2, q3, q4, q5, q6, q7, q8, q9, q10, q11, d, q12, q13, q14⟩ := asimov_exact Ex.sysSB Ex.sysSB_built hne
    Ex.SSB Ex.modelSB htup Ex.ySB Ex.paramsSB Ex.sumsSB Ex.νSB Ex.yieldSB Ex.shareSB
    (fun _ => 0) (fun _ => 1) (by intro p hp; simp [Ex.sysSB, Ex.mSB] at hp) (by intro p hp; simp [Ex.sysSB, Ex.mSB] at hp)
    Ex.posSB Ex.identSB s hs
  have hw := reachable_wf q1.reachable
  obtain ⟨m1, m2⟩ := C106_minimum s q1 (by rw [q2]; exact hne) Ex.SSB q7 d q12 q13 _ _ q9 Ex.νSB q8 q14 q10 q11
  have hx : s.m.x0 s.w = .ok (paramVec s Ex.SSB Ex.νSB fun _ _ _ => 0) := by rw [q4, q5, q6]
  have hl := paramVec_length hw q7 Ex.νSB (fun _ _ _ => 0)
  have hkn0 : KnownIds (s.m.paramNames s.w) [] := ⟨by simp, by simp⟩
  obtain ⟨r, hr, hrv, -⟩ := fit_optMin_free s q1.reachable _ hx hl _ hl 0 m1 m2
  have hone : ∀ k < (s.m.paramNames s.w).length, OneId (s.m.paramNames s.w) [] k := by
    intro k _ p q b c hb; simp at hb
  obtain ⟨ν, θ, e1, -, e3, e4⟩ := C123_iminuit s q1 (by rw [q2]; exact hne) Ex.SSB q7 d q12 (fun k hk i => .inr (q13 k hk i)) _ _ q9
    (allUsed_of_identifiable q11) "iminuit" lower_iminuit [] hkn0 hone Ex.optMin Ex.optMin_true false true false none r hr 0 hrv
  have hbd : ∀ q b, WantedBounds (s.m.paramNames s.w) [] s.m.numProcesses none q b → b = (none, none) := by
    rintro q b (⟨pre, op, post, he, -⟩ | ⟨-, hb⟩)
    · simp at he
    · rw [hb]; split <;> rfl
  have hfx : ∀ q, ¬ WantedFixed (s.m.paramNames s.w) [] s.m.numProcesses false q := by
    rintro q (⟨pid, hp, -⟩ | ⟨hp, -⟩)
    · simp at hp
    · cases hp
  have hup : ∀ q v, CanRaise (s.m.paramNames s.w) s.m.numProcesses [] false none q v := fun q v =>
    ⟨hfx q, fun b hi hb hh => by rw [hbd q b hb] at hh; cases hh⟩
  have hdn : ∀ q v, CanLower (s.m.paramNames s.w) s.m.numProcesses [] false none q v := fun q v =>
    ⟨hfx q, fun b hi hb hh => by rw [hbd q b hb] at hh; cases hh⟩
  refine ⟨r, d, hr, hrv, q12, ν, θ, e1, fun p hp => le_antisymm ((e4.1 p hp).2 (hdn _ _)) ((e4.1 p hp).1 (hup _ _)), ?_⟩
  exact C123_total s q1 Ex.SSB q7 d _ _ q9 (by rw [q2]; simp [Ex.sysSB, Ex.mSB]) [] false none ν θ e3 e4
    fun p hp => .inr ⟨hup _ _, hdn _ _⟩

end

end TF.Props
