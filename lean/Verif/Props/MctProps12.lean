import Verif.Props.MctProps11
import Mathlib.Analysis.SpecialFunctions.Log.Deriv
import Mathlib.Analysis.Calculus.LocalExtr.Basic

set_option linter.unusedSimpArgs false

/-!
# The likelihood as a function of the process yields (C88): convexity, score equations, total event number
-/

namespace TF.Spec

open Classical

noncomputable section

/-- fraction of template `j` of channel `k` in bin `i` -/
def fracIn (S : ℕ → ChanSpec) (θ : ∀ k, Fin (S k).K → Fin (S k).n → ℝ) (k : ℕ) (j : Fin (S k).K) (i : Fin (S k).n) : ℝ :=
  (S k).cnt j i * (1 + θ k j i * (S k).ε j i) / ∑ i', (S k).cnt j i' * (1 + θ k j i' * (S k).ε j i')

/-- yields at which the likelihood is a finite number: every bin with data has a positive expectation, and no
bin a negative one -/
def Allowed (s : Sys) (S : ℕ → ChanSpec) (d : ∀ k, Fin (S k).n → ℝ) (θ : ∀ k, Fin (S k).K → Fin (S k).n → ℝ)
    (ν : String → ℝ) : Prop :=
  ∀ k < s.m.chanIds.length, ∀ i, 0 < expectedIn s S ν θ k i ∨ (d k i = 0 ∧ expectedIn s S ν θ k i = 0)

/-- the likelihood at the first parameter vector is a number, and at most the (finite) likelihood at the second -/
def NllLe (s : Sys) (x y : Vec) : Prop :=
  ∃ a b : ℝ, objective s.w s.m x = .ok (.fin a) ∧ objective s.w s.m y = .ok (.fin b) ∧ a ≤ b

/-- derivative of the likelihood with respect to the yield of process `p`:
`Σ_{channels k} Σ_{templates j of p} ε_{kj} Σ_i f_{kji} (1 - n_{ki}/ν_{ki}) + Σ_{constraints on p} (x_p - v_p)/e_p²` -/
def score (s : Sys) (S : ℕ → ChanSpec) (d : ∀ k, Fin (S k).n → ℝ) (V E : String → ℝ) (ν : String → ℝ)
    (θ : ∀ k, Fin (S k).K → Fin (S k).n → ℝ) (p : String) : ℝ :=
  (∑ k ∈ Finset.range s.m.chanIds.length, ∑ j : Fin (S k).K,
    if procName s k j = p then (S k).eff j * ∑ i, fracIn S θ k j i * (1 - d k i / expectedIn s S ν θ k i) else 0) +
  (s.m.constrained.map fun q => if q = p then (ν q - V q) / E q ^ 2 else 0).sum

end

end TF.Spec

namespace TF.Props

open Classical Spec

noncomputable section

/-- the closed form of C54 as a function -/
def nllAt (s : Sys) (S : ℕ → ChanSpec) (d : ∀ k, Fin (S k).n → ℝ) (V E : String → ℝ)
    (θ : ∀ k, Fin (S k).K → Fin (S k).n → ℝ) (ν : String → ℝ) : ℝ :=
  ∑ k ∈ Finset.range s.m.chanIds.length,
    ((∑ i, poissonBin (d k i) (expectedIn s S ν θ k i)) + penalty (S k).R (θ k)) +
  (s.m.constrained.map fun p => (ν p - V p) ^ 2 / (2 * E p ^ 2)).sum

theorem objective_nllAt {s : Sys} (h : s.Built) (hne : s.m.channels ≠ []) {S : ℕ → ChanSpec} (hS : ModelIs s S)
    {d : ∀ k, Fin (S k).n → ℝ} (hd : DataIs s S d)
    (hpos : ∀ k < s.m.chanIds.length, ∀ i, d k i = 0 ∨ (1e-100 : ℝ) ≤ d k i)
    {V E : String → ℝ} (hc : ConstraintsAre s V E) {θ : ∀ k, Fin (S k).K → Fin (S k).n → ℝ}
    (hT : NonZeroSums s S θ) {ν : String → ℝ} (hE : Allowed s S d θ ν) :
    objective s.w s.m (paramVec s S ν θ) = .ok (.fin (nllAt s S d V E θ ν)) := by
  obtain ⟨v, h1, -, h2⟩ := C54_closed s h hne S hS d hd hpos V E hc ν θ hT hE
  unfold objective
  rw [h1, h2]
  have : s.m.chanIds.length = s.m.channels.length := by simp [Mct.chanIds]
  unfold nllAt
  rw [this]
  rfl

theorem expectedIn_eq (s : Sys) (S : ℕ → ChanSpec) (ν : String → ℝ) (θ : ∀ k, Fin (S k).K → Fin (S k).n → ℝ)
    (k : ℕ) (i : Fin (S k).n) :
    expectedIn s S ν θ k i = ∑ j : Fin (S k).K, ν (procName s k j) * (S k).eff j * fracIn S θ k j i := rfl

theorem expectedIn_comb (s : Sys) (S : ℕ → ChanSpec) (ν ν' : String → ℝ) (θ : ∀ k, Fin (S k).K → Fin (S k).n → ℝ)
    (a b : ℝ) (k : ℕ) (i : Fin (S k).n) :
    expectedIn s S (fun p => a * ν p + b * ν' p) θ k i = a * expectedIn s S ν θ k i + b * expectedIn s S ν' θ k i := by
  simp only [expectedIn_eq, Finset.mul_sum, ← Finset.sum_add_distrib]
  exact Finset.sum_congr rfl fun j _ => by ring

theorem allowed_comb {s : Sys} {S : ℕ → ChanSpec} {d : ∀ k, Fin (S k).n → ℝ}
    {θ : ∀ k, Fin (S k).K → Fin (S k).n → ℝ} {ν ν' : String → ℝ} (h : Allowed s S d θ ν) (h' : Allowed s S d θ ν')
    {t : ℝ} (h0 : 0 ≤ t) (h1 : t ≤ 1) : Allowed s S d θ (fun p => (1 - t) * ν p + t * ν' p) := by
  intro k hk i
  rw [expectedIn_comb]
  rcases eq_or_lt_of_le h0 with rfl | h0
  · simpa using h k hk i
  rcases eq_or_lt_of_le h1 with rfl | h1
  · simpa using h' k hk i
  have h2 : 0 < 1 - t := by linarith
  rcases h k hk i with a | ⟨a, a'⟩ <;> rcases h' k hk i with b | ⟨b, b'⟩
  · left; positivity
  · left; rw [b']; nlinarith
  · left; rw [a']; nlinarith
  · right; exact ⟨a, by rw [a', b']; ring⟩

/-- the tangent of the Poisson term lies below it -/
theorem poissonBin_tangent {n e e' : ℝ} (hn : 0 ≤ n) (he : 0 < e ∨ (n = 0 ∧ e = 0)) (he' : 0 < e' ∨ (n = 0 ∧ e' = 0)) :
    poissonBin n e + (1 - n / e) * (e' - e) ≤ poissonBin n e' := by
  unfold poissonBin
  by_cases h : n = 0
  · subst h; simp
  · rw [if_neg h, if_neg h]
    replace he : 0 < e := by rcases he with he | ⟨h', -⟩ <;> [exact he; exact absurd h' h]
    replace he' : 0 < e' := by rcases he' with he | ⟨h', -⟩ <;> [exact he; exact absurd h' h]
    have hn : 0 < n := lt_of_le_of_ne hn (Ne.symm h)
    have h1 := Real.log_le_sub_one_of_pos (div_pos he' he)
    rw [Real.log_div he'.ne' he.ne'] at h1
    rw [Real.log_div he.ne' h, Real.log_div he'.ne' h]
    have h2 : (1 - n / e) * (e' - e) = e' - e - n * (e' / e - 1) := by field_simp
    rw [h2]
    nlinarith

theorem quad_tangent (x x' v e : ℝ) :
    (x - v) ^ 2 / (2 * e ^ 2) + (x - v) / e ^ 2 * (x' - x) ≤ (x' - v) ^ 2 / (2 * e ^ 2) := by
  have : (x' - v) ^ 2 / (2 * e ^ 2) - ((x - v) ^ 2 / (2 * e ^ 2) + (x - v) / e ^ 2 * (x' - x)) =
      (x' - x) ^ 2 / (2 * e ^ 2) := by
    by_cases h : e = 0
    · subst h; simp
    · field_simp; ring
  have h2 : 0 ≤ (x' - x) ^ 2 / (2 * e ^ 2) := by positivity
  linarith

theorem list_sum_le {α : Type} (l : List α) (f g : α → ℝ) (h : ∀ a ∈ l, f a ≤ g a) : (l.map f).sum ≤ (l.map g).sum := by
  induction l with
  | nil => simp
  | cons a l ih =>
    simp only [List.map_cons, List.sum_cons]
    have := h a (by simp)
    have := ih fun a ha => h a (by simp [ha])
    linarith

theorem list_sum_add {α : Type} (l : List α) (f g : α → ℝ) : (l.map fun a => f a + g a).sum = (l.map f).sum + (l.map g).sum := by
  induction l with
  | nil => simp
  | cons a l ih => simp only [List.map_cons, List.sum_cons, ih]; ring

theorem procName_mem {s : Sys} (hw : SysWF s) {S : ℕ → ChanSpec} (hS : ModelIs s S) (k : ℕ) (hk : k < s.m.chanIds.length)
    (j : Fin (S k).K) : procName s k j ∈ s.m.processes := by
  obtain ⟨a, -, -, b⟩ := hS k hk
  have hl := (chanIs_numBins hw (List.getElem_mem hk) a b).2.2
  have hsub := hw.subset _ (List.getElem_mem hk)
  unfold procName
  rw [List.getD_eq_getElem?_getD, List.getD_eq_getElem?_getD, List.getElem?_eq_getElem hk, Option.getD_some,
    List.getElem?_eq_getElem (by rw [List.length_map, hl]; exact j.2), Option.getD_some]
  exact hsub _ (List.getElem_mem _)

/-- the directional derivative of the tangent, ordered by process -/
theorem slope_by_process {s : Sys} (hw : SysWF s) {S : ℕ → ChanSpec} (hS : ModelIs s S)
    {d : ∀ k, Fin (S k).n → ℝ} {V E : String → ℝ} (hc : ConstraintsAre s V E) {θ : ∀ k, Fin (S k).K → Fin (S k).n → ℝ}
    (ν δ : String → ℝ) :
    (∑ k ∈ Finset.range s.m.chanIds.length, ∑ i, (1 - d k i / expectedIn s S ν θ k i) * expectedIn s S δ θ k i) +
      (s.m.constrained.map fun q => (ν q - V q) / E q ^ 2 * δ q).sum =
    ∑ p ∈ s.m.processes.toFinset, δ p * score s S d V E ν θ p := by
  simp only [score, mul_add, Finset.sum_add_distrib]
  congr 1
  · have e : ∀ p, δ p * (∑ k ∈ Finset.range s.m.chanIds.length, ∑ j : Fin (S k).K, if procName s k j = p then
        (S k).eff j * ∑ i, fracIn S θ k j i * (1 - d k i / expectedIn s S ν θ k i) else 0) =
        ∑ k ∈ Finset.range s.m.chanIds.length, δ p * ∑ j : Fin (S k).K, if procName s k j = p then
        (S k).eff j * ∑ i, fracIn S θ k j i * (1 - d k i / expectedIn s S ν θ k i) else 0 :=
      fun p => Finset.mul_sum _ _ _
    rw [Finset.sum_congr rfl fun p _ => e p, Finset.sum_comm]
    · apply Finset.sum_congr rfl
      intro k hk
      have hk := Finset.mem_range.mp hk
      simp only [Finset.mul_sum, mul_ite, mul_zero]
      rw [Finset.sum_comm]
      have : ∀ j : Fin (S k).K, (∑ p ∈ s.m.processes.toFinset, if procName s k j = p then
          ∑ i, δ p * ((S k).eff j * (fracIn S θ k j i * (1 - d k i / expectedIn s S ν θ k i))) else 0) =
          ∑ i, δ (procName s k j) * ((S k).eff j * (fracIn S θ k j i * (1 - d k i / expectedIn s S ν θ k i))) := by
        intro j
        rw [Finset.sum_ite_eq, if_pos (List.mem_toFinset.mpr (procName_mem hw hS k hk j))]
      rw [Finset.sum_congr rfl fun j _ => this j, Finset.sum_comm]
      apply Finset.sum_congr rfl
      intro i _
      rw [expectedIn_eq s S δ θ k i, Finset.mul_sum]
      exact Finset.sum_congr rfl fun j _ => by ring
  · have key : ∀ l : List String, (∀ q ∈ l, q ∈ s.m.processes) →
        (l.map fun q => (ν q - V q) / E q ^ 2 * δ q).sum =
        ∑ p ∈ s.m.processes.toFinset, δ p * (l.map fun q => if q = p then (ν q - V q) / E q ^ 2 else 0).sum := by
      intro l
      induction l with
      | nil => intro _; simp
      | cons q l ih =>
        intro hl
        simp only [List.map_cons, List.sum_cons, mul_add, Finset.sum_add_distrib, mul_ite, mul_zero]
        rw [Finset.sum_ite_eq, if_pos (List.mem_toFinset.mpr (hl q (by simp))), ih fun q hq => hl q (by simp [hq])]
        ring
    exact key _ fun q hq => (hc q hq).1

/-- the likelihood lies above its tangent -/
theorem nllAt_tangent {s : Sys} (hw : SysWF s) {S : ℕ → ChanSpec} (hS : ModelIs s S)
    {d : ∀ k, Fin (S k).n → ℝ} (hd : ∀ k < s.m.chanIds.length, ∀ i, 0 ≤ d k i)
    {V E : String → ℝ} (hc : ConstraintsAre s V E) {θ : ∀ k, Fin (S k).K → Fin (S k).n → ℝ}
    {ν ν' : String → ℝ} (h : Allowed s S d θ ν) (h' : Allowed s S d θ ν') :
    nllAt s S d V E θ ν + ∑ p ∈ s.m.processes.toFinset, (ν' p - ν p) * score s S d V E ν θ p ≤ nllAt s S d V E θ ν' := by
  rw [← slope_by_process hw hS hc ν (fun p => ν' p - ν p)]
  have hδ : ∀ k i, expectedIn s S (fun p => ν' p - ν p) θ k i = expectedIn s S ν' θ k i - expectedIn s S ν θ k i := by
    intro k i
    have := expectedIn_comb s S ν' ν θ 1 (-1) k i
    have e : (fun p => ν' p - ν p) = fun p => 1 * ν' p + -1 * ν p := by funext p; ring
    rw [e, this]; ring
  have h1 : (∑ k ∈ Finset.range s.m.chanIds.length, ((∑ i, poissonBin (d k i) (expectedIn s S ν θ k i)) + penalty (S k).R (θ k))) +
      ∑ k ∈ Finset.range s.m.chanIds.length, ∑ i, (1 - d k i / expectedIn s S ν θ k i) *
        expectedIn s S (fun p => ν' p - ν p) θ k i ≤
      ∑ k ∈ Finset.range s.m.chanIds.length, ((∑ i, poissonBin (d k i) (expectedIn s S ν' θ k i)) + penalty (S k).R (θ k)) := by
    rw [← Finset.sum_add_distrib]
    apply Finset.sum_le_sum
    intro k hk
    have hk := Finset.mem_range.mp hk
    have : (∑ i, poissonBin (d k i) (expectedIn s S ν θ k i)) + ∑ i, (1 - d k i / expectedIn s S ν θ k i) *
        expectedIn s S (fun p => ν' p - ν p) θ k i ≤ ∑ i, poissonBin (d k i) (expectedIn s S ν' θ k i) := by
      rw [← Finset.sum_add_distrib]
      apply Finset.sum_le_sum
      intro i _
      rw [hδ]
      exact poissonBin_tangent (hd k hk i) (h k hk i) (h' k hk i)
    linarith
  have h2 := list_sum_le s.m.constrained (fun q => (ν q - V q) ^ 2 / (2 * E q ^ 2) + (ν q - V q) / E q ^ 2 * (ν' q - ν q))
    (fun q => (ν' q - V q) ^ 2 / (2 * E q ^ 2)) (fun q _ => quad_tangent _ _ _ _)
  rw [list_sum_add] at h2
  unfold nllAt
  linarith

/-- **C88, convexity.** At fixed nuisance parameters the likelihood is a convex function of the yields on the set of
allowed yields (which is itself convex): its value at every point between two allowed points is a number and at most
the interpolated value. -/
theorem C88_convex (s : Sys) (h : s.Built) (hne : s.m.channels ≠ []) (S : ℕ → ChanSpec) (hS : ModelIs s S)
    (d : ∀ k, Fin (S k).n → ℝ) (hd : DataIs s S d)
    (hpos : ∀ k < s.m.chanIds.length, ∀ i, d k i = 0 ∨ (1e-100 : ℝ) ≤ d k i)
    (V E : String → ℝ) (hc : ConstraintsAre s V E)
    (θ : ∀ k, Fin (S k).K → Fin (S k).n → ℝ) (hT : NonZeroSums s S θ)
    (ν ν' : String → ℝ) (hν : Allowed s S d θ ν) (hν' : Allowed s S d θ ν') :
    ∃ a b : ℝ, objective s.w s.m (paramVec s S ν θ) = .ok (.fin a) ∧
      objective s.w s.m (paramVec s S ν' θ) = .ok (.fin b) ∧
      ∀ t : ℝ, 0 ≤ t → t ≤ 1 → ∃ c : ℝ,
        objective s.w s.m (paramVec s S (fun p => (1 - t) * ν p + t * ν' p) θ) = .ok (.fin c) ∧
        c ≤ (1 - t) * a + t * b := by
  have hw := reachable_wf h.reachable
  have hd0 : ∀ k < s.m.chanIds.length, ∀ i, 0 ≤ d k i := fun k hk i => by
    rcases hpos k hk i with e | e <;> [rw [e]; exact le_trans (by norm_num) e]
  refine ⟨_, _, objective_nllAt h hne hS hd hpos hc hT hν, objective_nllAt h hne hS hd hpos hc hT hν', ?_⟩
  intro t h0 h1
  have hm := allowed_comb hν hν' h0 h1
  refine ⟨_, objective_nllAt h hne hS hd hpos hc hT hm, ?_⟩
  have t1 := nllAt_tangent hw hS hd0 hc hm hν
  have t2 := nllAt_tangent hw hS hd0 hc hm hν'
  have e : (1 - t) * (∑ p ∈ s.m.processes.toFinset, (ν p - ((1 - t) * ν p + t * ν' p)) *
        score s S d V E (fun p => (1 - t) * ν p + t * ν' p) θ p) +
      t * (∑ p ∈ s.m.processes.toFinset, (ν' p - ((1 - t) * ν p + t * ν' p)) *
        score s S d V E (fun p => (1 - t) * ν p + t * ν' p) θ p) = 0 := by
    rw [Finset.mul_sum, Finset.mul_sum, ← Finset.sum_add_distrib]
    exact Finset.sum_eq_zero fun p _ => by ring
  nlinarith [mul_le_mul_of_nonneg_left t1 (sub_nonneg.mpr h1), mul_le_mul_of_nonneg_left t2 h0]

/-- **C88, score equations suffice.** If the score of every process vanishes at allowed yields, no other allowed yields
have a smaller likelihood (at the same nuisance parameters). -/
theorem C88_score_sufficient (s : Sys) (h : s.Built) (hne : s.m.channels ≠ []) (S : ℕ → ChanSpec) (hS : ModelIs s S)
    (d : ∀ k, Fin (S k).n → ℝ) (hd : DataIs s S d)
    (hpos : ∀ k < s.m.chanIds.length, ∀ i, d k i = 0 ∨ (1e-100 : ℝ) ≤ d k i)
    (V E : String → ℝ) (hc : ConstraintsAre s V E)
    (θ : ∀ k, Fin (S k).K → Fin (S k).n → ℝ) (hT : NonZeroSums s S θ)
    (ν : String → ℝ) (hν : Allowed s S d θ ν) (h0 : ∀ p ∈ s.m.processes, score s S d V E ν θ p = 0)
    (ν' : String → ℝ) (hν' : Allowed s S d θ ν') :
    NllLe s (paramVec s S ν θ) (paramVec s S ν' θ) := by
  have hw := reachable_wf h.reachable
  have hd0 : ∀ k < s.m.chanIds.length, ∀ i, 0 ≤ d k i := fun k hk i => by
    rcases hpos k hk i with e | e <;> [rw [e]; exact le_trans (by norm_num) e]
  refine ⟨_, _, objective_nllAt h hne hS hd hpos hc hT hν, objective_nllAt h hne hS hd hpos hc hT hν', ?_⟩
  have t1 := nllAt_tangent hw hS hd0 hc hν hν'
  rw [Finset.sum_eq_zero fun p hp => by rw [h0 p (List.mem_toFinset.mp hp), mul_zero]] at t1
  linarith

theorem nllLe_iff {s : Sys} (h : s.Built) (hne : s.m.channels ≠ []) {S : ℕ → ChanSpec} (hS : ModelIs s S)
    {d : ∀ k, Fin (S k).n → ℝ} (hd : DataIs s S d)
    (hpos : ∀ k < s.m.chanIds.length, ∀ i, d k i = 0 ∨ (1e-100 : ℝ) ≤ d k i)
    {V E : String → ℝ} (hc : ConstraintsAre s V E) {θ : ∀ k, Fin (S k).K → Fin (S k).n → ℝ}
    (hT : NonZeroSums s S θ) {ν ν' : String → ℝ} (hν : Allowed s S d θ ν) (hν' : Allowed s S d θ ν') :
    NllLe s (paramVec s S ν θ) (paramVec s S ν' θ) ↔ nllAt s S d V E θ ν ≤ nllAt s S d V E θ ν' := by
  have a := objective_nllAt h hne hS hd hpos hc hT hν
  have b := objective_nllAt h hne hS hd hpos hc hT hν'
  constructor
  · rintro ⟨x, y, h1, h2, h3⟩
    rw [a] at h1; rw [b] at h2
    have h1 := Fl.fin.inj (Except.ok.inj h1)
    have h2 := Fl.fin.inj (Except.ok.inj h2)
    rw [h1, h2]; exact h3
  · intro h; exact ⟨_, _, a, b, h⟩

/-- **C88, local minima are global.** Allowed yields that no allowed yields nearby improve are not improved by any
allowed yields. -/
theorem C88_local_is_global (s : Sys) (h : s.Built) (hne : s.m.channels ≠ []) (S : ℕ → ChanSpec) (hS : ModelIs s S)
    (d : ∀ k, Fin (S k).n → ℝ) (hd : DataIs s S d)
    (hpos : ∀ k < s.m.chanIds.length, ∀ i, d k i = 0 ∨ (1e-100 : ℝ) ≤ d k i)
    (V E : String → ℝ) (hc : ConstraintsAre s V E)
    (θ : ∀ k, Fin (S k).K → Fin (S k).n → ℝ) (hT : NonZeroSums s S θ)
    (ν : String → ℝ) (hν : Allowed s S d θ ν) (r : ℝ) (hr : 0 < r)
    (hloc : ∀ ν', Allowed s S d θ ν' → (∀ p ∈ s.m.processes, |ν' p - ν p| < r) →
      NllLe s (paramVec s S ν θ) (paramVec s S ν' θ))
    (ν' : String → ℝ) (hν' : Allowed s S d θ ν') :
    NllLe s (paramVec s S ν θ) (paramVec s S ν' θ) := by
  set M : ℝ := ∑ p ∈ s.m.processes.toFinset, |ν' p - ν p| with hM
  have hM0 : 0 ≤ M := Finset.sum_nonneg fun p _ => abs_nonneg _
  obtain ⟨t, ht0, ht1, htM⟩ : ∃ t : ℝ, 0 < t ∧ t ≤ 1 ∧ t * M < r := by
    refine ⟨min 1 (r / (2 * (M + 1))), by positivity, min_le_left _ _, ?_⟩
    calc min 1 (r / (2 * (M + 1))) * M ≤ r / (2 * (M + 1)) * M := mul_le_mul_of_nonneg_right (min_le_right _ _) hM0
      _ < r := by rw [div_mul_eq_mul_div, div_lt_iff₀ (by positivity)]; nlinarith
  have hm := allowed_comb hν hν' ht0.le ht1
  have hl := hloc _ hm (by
    intro p hp
    have : (1 - t) * ν p + t * ν' p - ν p = t * (ν' p - ν p) := by ring
    rw [this, abs_mul, abs_of_pos ht0]
    refine lt_of_le_of_lt (mul_le_mul_of_nonneg_left ?_ ht0.le) htM
    exact Finset.single_le_sum (f := fun p => |ν' p - ν p|) (fun p _ => abs_nonneg _) (List.mem_toFinset.mpr hp))
  rw [nllLe_iff h hne hS hd hpos hc hT hν hm] at hl
  rw [nllLe_iff h hne hS hd hpos hc hT hν hν']
  obtain ⟨a, b, ea, eb, hcv⟩ := C88_convex s h hne S hS d hd hpos V E hc θ hT ν ν' hν hν'
  obtain ⟨c, ec, hle⟩ := hcv t ht0.le ht1
  rw [objective_nllAt h hne hS hd hpos hc hT hν] at ea
  rw [objective_nllAt h hne hS hd hpos hc hT hν'] at eb
  rw [objective_nllAt h hne hS hd hpos hc hT hm] at ec
  have ea := Fl.fin.inj (Except.ok.inj ea)
  have eb := Fl.fin.inj (Except.ok.inj eb)
  have ec := Fl.fin.inj (Except.ok.inj ec)
  rw [← ea, ← eb, ← ec] at hle
  by_contra hcon
  push Not at hcon
  nlinarith

theorem score_continuous {s : Sys} {S : ℕ → ChanSpec} {d : ∀ k, Fin (S k).n → ℝ} {V E : String → ℝ}
    {θ : ∀ k, Fin (S k).K → Fin (S k).n → ℝ} (ν δ : String → ℝ) (p : String)
    (hE : ∀ k < s.m.chanIds.length, ∀ i, 0 < expectedIn s S ν θ k i) :
    ContinuousAt (fun u : ℝ => score s S d V E (fun q => 1 * ν q + u * δ q) θ p) 0 := by
  unfold score
  apply ContinuousAt.add
  · apply tendsto_finsetSum
    intro k hk
    have hk := Finset.mem_range.mp hk
    apply tendsto_finsetSum
    intro j _
    split
    · apply Filter.Tendsto.mul tendsto_const_nhds
      apply tendsto_finsetSum
      intro i _
      apply Filter.Tendsto.mul tendsto_const_nhds
      apply Filter.Tendsto.sub tendsto_const_nhds
      have : ContinuousAt (fun u : ℝ => d k i / expectedIn s S (fun q => 1 * ν q + u * δ q) θ k i) 0 := by
        apply ContinuousAt.div continuousAt_const
        · have : (fun u : ℝ => expectedIn s S (fun q => 1 * ν q + u * δ q) θ k i) =
              fun u => 1 * expectedIn s S ν θ k i + u * expectedIn s S δ θ k i := by
            funext u; exact expectedIn_comb _ _ _ _ _ _ _ _ _
          rw [this]; fun_prop
        · rw [expectedIn_comb]; simpa using (hE k hk i).ne'
      exact this
    · exact tendsto_const_nhds
  · apply Continuous.continuousAt
    apply continuous_list_sum
    intro q _
    split
    · fun_prop
    · exact continuous_const

/-- **C88, score equations are necessary.** At yields with positive expectation in every bin that no allowed yields
nearby improve, the score of every process vanishes. -/
theorem C88_score_necessary (s : Sys) (h : s.Built) (hne : s.m.channels ≠ []) (S : ℕ → ChanSpec) (hS : ModelIs s S)
    (d : ∀ k, Fin (S k).n → ℝ) (hd : DataIs s S d)
    (hpos : ∀ k < s.m.chanIds.length, ∀ i, d k i = 0 ∨ (1e-100 : ℝ) ≤ d k i)
    (V E : String → ℝ) (hc : ConstraintsAre s V E)
    (θ : ∀ k, Fin (S k).K → Fin (S k).n → ℝ) (hT : NonZeroSums s S θ)
    (ν : String → ℝ) (hE : ∀ k < s.m.chanIds.length, ∀ i, 0 < expectedIn s S ν θ k i) (r : ℝ) (hr : 0 < r)
    (hloc : ∀ ν', Allowed s S d θ ν' → (∀ p ∈ s.m.processes, |ν' p - ν p| < r) →
      NllLe s (paramVec s S ν θ) (paramVec s S ν' θ)) (p : String) (hp : p ∈ s.m.processes) :
    score s S d V E ν θ p = 0 := by
  have hw := reachable_wf h.reachable
  have hd0 : ∀ k < s.m.chanIds.length, ∀ i, 0 ≤ d k i := fun k hk i => by
    rcases hpos k hk i with e | e <;> [rw [e]; exact le_trans (by norm_num) e]
  have hν : Allowed s S d θ ν := fun k hk i => Or.inl (hE k hk i)
  set δ : String → ℝ := fun q => if q = p then 1 else 0 with hδ
  set g : ℝ → ℝ := fun u => score s S d V E (fun q => 1 * ν q + u * δ q) θ p with hg
  have hcont : ContinuousAt g 0 := score_continuous ν δ p hE
  -- allowed near ν
  have hall : ∀ᶠ u in nhds (0 : ℝ), ∀ k < s.m.chanIds.length, ∀ i, 0 < expectedIn s S (fun q => 1 * ν q + u * δ q) θ k i := by
    have key : ∀ k ∈ Finset.range s.m.chanIds.length, ∀ᶠ u in nhds (0 : ℝ), ∀ i,
        0 < expectedIn s S (fun q => 1 * ν q + u * δ q) θ k i := by
      intro k hk
      rw [Filter.eventually_all]
      intro i
      have hc : Continuous (fun u : ℝ => expectedIn s S (fun q => 1 * ν q + u * δ q) θ k i) := by
        have : (fun u : ℝ => expectedIn s S (fun q => 1 * ν q + u * δ q) θ k i) =
            fun u => 1 * expectedIn s S ν θ k i + u * expectedIn s S δ θ k i := by
          funext u; exact expectedIn_comb _ _ _ _ _ _ _ _ _
        rw [this]; fun_prop
      apply hc.continuousAt.eventually_const_lt
      simpa using hE k (Finset.mem_range.mp hk) i
    have := (Filter.eventually_all_finset (Finset.range s.m.chanIds.length)).mpr key
    filter_upwards [this] with u hu k hk i
    exact hu k (Finset.mem_range.mpr hk) i
  have hnear : ∀ᶠ u in nhds (0 : ℝ), |u| < r := by
    have : ContinuousAt (fun u : ℝ => |u|) 0 := by fun_prop
    apply this.eventually_lt_const
    simpa using hr
  have hsign : ∀ᶠ u in nhds (0 : ℝ), 0 ≤ u * g u := by
    filter_upwards [hall, hnear] with u hu hn
    have hA : Allowed s S d θ (fun q => 1 * ν q + u * δ q) := fun k hk i => Or.inl (hu k hk i)
    have hl := hloc _ hA (by
      intro q _
      have : 1 * ν q + u * δ q - ν q = u * δ q := by ring
      rw [this, abs_mul]
      have : |δ q| ≤ 1 := by simp only [hδ]; split <;> simp
      nlinarith [abs_nonneg u])
    rw [nllLe_iff h hne hS hd hpos hc hT hν hA] at hl
    have ht := nllAt_tangent hw hS hd0 hc hA hν
    have e : ∑ q ∈ s.m.processes.toFinset, (ν q - (1 * ν q + u * δ q)) *
        score s S d V E (fun q => 1 * ν q + u * δ q) θ q = - (u * g u) := by
      have : ∀ q ∈ s.m.processes.toFinset, (ν q - (1 * ν q + u * δ q)) *
          score s S d V E (fun q => 1 * ν q + u * δ q) θ q =
          if q = p then - (u * score s S d V E (fun q => 1 * ν q + u * δ q) θ q) else 0 := by
        intro q _
        by_cases hq : q = p
        · simp only [hδ, hq, if_true]; ring
        · simp only [hδ, hq, if_false]; ring
      rw [Finset.sum_congr rfl this, Finset.sum_ite_eq' s.m.processes.toFinset p
        (fun q => - (u * score s S d V E (fun q => 1 * ν q + u * δ q) θ q)), if_pos (List.mem_toFinset.mpr hp)]
    rw [e] at ht
    linarith
  have g0 : g 0 = score s S d V E ν θ p := by
    simp only [hg]; congr 1; funext q; ring
  rw [← g0]
  by_contra hne0
  rcases lt_or_gt_of_ne hne0 with hlt | hgt
  · have h1 := (hcont.eventually_lt_const hlt)
    obtain ⟨e, he, hb⟩ := Metric.eventually_nhds_iff.mp (h1.and hsign)
    have := hb (y := e / 2) (by rw [Real.dist_eq, sub_zero, abs_of_pos (by linarith)]; linarith)
    nlinarith [this.1, this.2]
  · have h1 := (hcont.eventually_const_lt hgt)
    obtain ⟨e, he, hb⟩ := Metric.eventually_nhds_iff.mp (h1.and hsign)
    have := hb (y := -(e / 2)) (by rw [Real.dist_eq, sub_zero, abs_neg, abs_of_pos (by linarith)]; linarith)
    nlinarith [this.1, this.2]

/-- **C88, total event number.** Without constraints, scaling all yields by a common factor near one does not improve
the likelihood exactly if the total expectation equals the total number of observed events. -/
theorem C88_total (s : Sys) (h : s.Built) (hne : s.m.channels ≠ []) (S : ℕ → ChanSpec) (hS : ModelIs s S)
    (d : ∀ k, Fin (S k).n → ℝ) (hd : DataIs s S d)
    (hpos : ∀ k < s.m.chanIds.length, ∀ i, d k i = 0 ∨ (1e-100 : ℝ) ≤ d k i) (hnc : s.m.constrained = [])
    (θ : ∀ k, Fin (S k).K → Fin (S k).n → ℝ) (hT : NonZeroSums s S θ)
    (ν : String → ℝ) (hν : Allowed s S d θ ν) :
    (∃ r : ℝ, 0 < r ∧ ∀ l : ℝ, 0 < l → |l - 1| < r → NllLe s (paramVec s S ν θ) (paramVec s S (fun p => l * ν p) θ)) ↔
    ∑ k ∈ Finset.range s.m.channels.length, ∑ i, expectedIn s S ν θ k i =
      ∑ k ∈ Finset.range s.m.channels.length, ∑ i, d k i := by
  have hw := reachable_wf h.reachable
  have hd0 : ∀ k < s.m.chanIds.length, ∀ i, 0 ≤ d k i := fun k hk i => by
    rcases hpos k hk i with e | e <;> [rw [e]; exact le_trans (by norm_num) e]
  have hc : ConstraintsAre s (fun _ => 0) (fun _ => 0) := by intro p hp; rw [hnc] at hp; simp at hp
  have hlen : s.m.channels.length = s.m.chanIds.length := by simp [Mct.chanIds]
  rw [hlen]
  set T := ∑ k ∈ Finset.range s.m.chanIds.length, ∑ i, expectedIn s S ν θ k i with hTt
  set D := ∑ k ∈ Finset.range s.m.chanIds.length, ∑ i, d k i with hD
  have hscale : ∀ l k i, expectedIn s S (fun p => l * ν p) θ k i = l * expectedIn s S ν θ k i := by
    intro l k i
    have := expectedIn_comb s S ν ν θ l 0 k i
    simpa using this
  have hA : ∀ l : ℝ, 0 < l → Allowed s S d θ (fun p => l * ν p) := by
    intro l hl k hk i
    rw [hscale]
    rcases hν k hk i with a | ⟨a, b⟩
    · left; positivity
    · right; exact ⟨a, by rw [b, mul_zero]⟩
  -- tangent at `l ν` towards `l' ν`
  have htan : ∀ l l' : ℝ, 0 < l → 0 < l' →
      nllAt s S d (fun _ => 0) (fun _ => 0) θ (fun p => l * ν p) + (l' - l) * (T - D / l) ≤
      nllAt s S d (fun _ => 0) (fun _ => 0) θ (fun p => l' * ν p) := by
    intro l l' hl hl'
    have ht := nllAt_tangent hw hS hd0 hc (hA l hl) (hA l' hl')
    rw [← slope_by_process hw hS hc (fun p => l * ν p) (fun p => l' * ν p - l * ν p)] at ht
    have e : (∑ k ∈ Finset.range s.m.chanIds.length, ∑ i, (1 - d k i / expectedIn s S (fun p => l * ν p) θ k i) *
        expectedIn s S (fun p => l' * ν p - l * ν p) θ k i) = (l' - l) * (T - D / l) := by
      rw [hTt, hD, Finset.sum_div, ← Finset.sum_sub_distrib, Finset.mul_sum]
      apply Finset.sum_congr rfl
      intro k hk
      have hk := Finset.mem_range.mp hk
      rw [Finset.sum_div, ← Finset.sum_sub_distrib, Finset.mul_sum]
      apply Finset.sum_congr rfl
      intro i _
      have e2 : (fun p => l' * ν p - l * ν p) = fun p => (l' - l) * ν p := by funext p; ring
      rw [e2, hscale, hscale]
      rcases hν k hk i with a | ⟨a, b⟩
      · field_simp
      · rw [a, b]; simp
    rw [e, hnc] at ht
    simpa using ht
  have hone : (fun p => (1:ℝ) * ν p) = ν := by funext p; ring
  constructor
  · rintro ⟨r, hr, hloc⟩
    have hb : ∀ l : ℝ, 0 < l → |l - 1| < r → (1 - l) * (T - D / l) ≤ 0 := by
      intro l hl hlr
      have h1 := hloc l hl hlr
      rw [nllLe_iff h hne hS hd hpos hc hT hν (hA l hl)] at h1
      have h2 := htan l 1 hl one_pos
      rw [hone] at h2
      linarith
    have hb' : ∀ l : ℝ, 0 < l → |l - 1| < r → (1 - l) * (l * T - D) ≤ 0 := by
      intro l hl hlr
      have h1 := hb l hl hlr
      have e : (1 - l) * (l * T - D) = l * ((1 - l) * (T - D / l)) := by field_simp
      rw [e]
      exact mul_nonpos_of_nonneg_of_nonpos hl.le h1
    have hT0 : 0 ≤ T := Finset.sum_nonneg fun k hk => Finset.sum_nonneg fun i _ => by
      rcases hν k (Finset.mem_range.mp hk) i with a | ⟨-, b⟩
      · exact a.le
      · exact b.ge
    rcases lt_trichotomy T D with hlt | heq | hgt
    · exfalso
      -- go up a little
      obtain ⟨η, h0, h1, h2⟩ : ∃ η : ℝ, 0 < η ∧ η < r ∧ (1 + η) * T < D := by
        refine ⟨min (r / 2) ((D - T) / (2 * (T + 1))), ?_, ?_, ?_⟩
        · have : 0 < D - T := by linarith
          positivity
        · exact lt_of_le_of_lt (min_le_left _ _) (by linarith)
        · have h3 : min (r / 2) ((D - T) / (2 * (T + 1))) * T ≤ (D - T) / (2 * (T + 1)) * T :=
            mul_le_mul_of_nonneg_right (min_le_right _ _) hT0
          have h4 : (D - T) / (2 * (T + 1)) * T < D - T := by
            rw [div_mul_eq_mul_div, div_lt_iff₀ (by positivity)]; nlinarith
          nlinarith
      have := hb' (1 + η) (by linarith) (by rw [add_sub_cancel_left, abs_of_pos h0]; exact h1)
      nlinarith
    · exact heq
    · exfalso
      have hT1 : 0 < T := by
        have : 0 ≤ D := Finset.sum_nonneg fun k hk => Finset.sum_nonneg fun i _ => hd0 k (Finset.mem_range.mp hk) i
        linarith
      obtain ⟨η, h0, h1, h2, h3⟩ : ∃ η : ℝ, 0 < η ∧ η < r ∧ D < (1 - η) * T ∧ η < 1 := by
        refine ⟨min (min (r / 2) (1 / 2)) ((T - D) / (2 * T)), ?_, ?_, ?_, ?_⟩
        · have : 0 < T - D := by linarith
          positivity
        · exact lt_of_le_of_lt ((min_le_left _ _).trans (min_le_left _ _)) (by linarith)
        · have h3 : min (min (r / 2) (1 / 2)) ((T - D) / (2 * T)) * T ≤ (T - D) / (2 * T) * T :=
            mul_le_mul_of_nonneg_right (min_le_right _ _) hT0
          have h4 : (T - D) / (2 * T) * T = (T - D) / 2 := by field_simp
          nlinarith
        · exact lt_of_le_of_lt ((min_le_left _ _).trans (min_le_right _ _)) (by norm_num)
      have := hb' (1 - η) (by linarith) (by
        have : 1 - η - 1 = -η := by ring
        rw [this, abs_neg, abs_of_pos h0]; exact h1)
      nlinarith
  · intro he
    refine ⟨1, one_pos, ?_⟩
    intro l hl _
    rw [nllLe_iff h hne hS hd hpos hc hT hν (hA l hl)]
    have h1 := htan 1 l one_pos hl
    rw [hone, he] at h1
    linarith [h1, show (l - 1) * (D - D / 1) = 0 by ring]

/-! ### a concrete model: one template with contents 1, 1 and data 3, 5 -/

namespace Ex

def ops35 : List Op :=
  [.binned1 ⟨[2], vec ![1, 1]⟩ ⟨true, [0, 1, 2]⟩ (some ⟨[2], vec ![1, 1]⟩),
   .binned1 ⟨[2], vec ![3, 5]⟩ ⟨true, [0, 1, 2]⟩ (some ⟨[2], vec ![1, 1]⟩), .newTmpl1 "t" 0,
   .defineChannel "a" (.int 2) (.d1 .tuple 0 2), .defineProcess "p", .addTemplate "a" "p" 0 (.fin 1),
   .addData [("a", 1)]]

def w35 : World :=
  { World.init with
    hists := Function.update (Function.update (fun _ => dummyHist) 0 (bh ![1, 1] ![1, 1])) 1 (bh ![3, 5] ![1, 1])
    nHists := 2
    tmpls := Function.update (fun _ => dummyTmpl) 0 (bt "t" 0 ![1, 1] ![1, 1])
    nTmpls := 1
    chans := Function.update (fun _ => dummyChan) 0 chZ
    nChans := 1 }

def sys35 : Sys := ⟨w35, mZ⟩

theorem run35 : Sys.init.run ops35 = sys35 := by
  simp only [ops35, Sys.run, List.foldl_cons, List.foldl_nil, Sys.step, bh_eq, Sys.allocHist, World.newHist,
    Sys.init, World.init, Sys.allocTmpl, World.newTmpl]
  simp [bt_eq, Sys.allocTmpl, World.newTmpl, Function.update_apply]
  simp [Mct.defineChannel, Mct.defineProcess,
    Mct.addTemplate, World.addTemplate, Mct.empty, World.newChan, dictSet, dictGet, Mct.addData, World.addData,
    World.setChan, Channel.new, Channel.addTemplate, Channel.checkTemplate, Channel.procs, bt, bh,
    Hist.setBinned, Hist.blank, ChanBins.toTuple, Channel.addData, Channel.checkHist, sys35, w35, mZ, chZ,
    World.init, Function.update_apply]

theorem sys35_built : sys35.Built := by
  refine ⟨_, setupFirst_of_noEval ?_, run35⟩
  intro o ho
  simp only [ops35, List.mem_cons, List.not_mem_nil, or_false] at ho
  rcases ho with rfl | rfl | rfl | rfl | rfl | rfl | rfl <;> exact id

theorem model35 : ModelIs sys35 SZ := by
  intro k hk
  have : k = 0 := by simpa [sys35, mZ, Mct.chanIds] using hk
  subst this
  refine ⟨Nat.one_pos, Nat.two_pos, fun _ => Matrix.PosDef.one, ?_⟩
  exact chanIs_single w35 0 (by simp [w35]) "p" 0 1 "t" 0 ![1, 1] ![1, 1] (by intro i; fin_cases i <;> simp)
      (by intro i; fin_cases i <;> simp) (by simp [w35, chZ]) (by simp [w35, chZ]) (by simp [w35, chZ]) (by simp [w35])

def d35 : ∀ k, Fin (SZ k).n → ℝ := fun _ => (![3, 5] : Fin 2 → ℝ)

theorem data35 : DataIs sys35 SZ d35 := by
  intro k hk
  have : k = 0 := by simpa [sys35, mZ, Mct.chanIds] using hk
  subst this
  refine ⟨1, by simp [sys35, mZ, Mct.chanIds, w35, chZ], ?_⟩
  show (w35.hists 1).counts.data = vec (![3, 5] : Fin 2 → ℝ)
  simp [w35, bh, Hist.setBinned, vec, List.ofFn_succ]

theorem d35_pos (k : ℕ) (i : Fin (SZ k).n) : d35 k i = 0 ∨ (1e-100 : ℝ) ≤ d35 k i := by
  right
  have : ∀ i : Fin 2, (1e-100 : ℝ) ≤ (![3, 5] : Fin 2 → ℝ) i := by intro i; fin_cases i <;> norm_num
  exact this i

theorem exp35 (x : ℝ) (k : ℕ) (i : Fin (SZ k).n) :
    expectedIn sys35 SZ (fun _ => x) (fun _ _ _ => 0) k i = x / 2 := by
  show ∑ j : Fin 1, x * 1 * ((![1, 1] : Fin 2 → ℝ) i * _ / ∑ i' : Fin 2, (![1, 1] : Fin 2 → ℝ) i' * _) = _
  have : (![1, 1] : Fin 2 → ℝ) i = 1 := by revert i; show ∀ i : Fin 2, _; intro i; fin_cases i <;> rfl
  simp [this, Fin.sum_univ_two]
  norm_num
  ring

theorem allowed35 (x : ℝ) (hx : 0 < x) : Allowed sys35 SZ d35 (fun _ _ _ => 0) (fun _ => x) := by
  intro k _ i
  left; rw [exp35]; linarith

theorem sums35 : NonZeroSums sys35 SZ (fun _ _ _ => 0) := by
  intro k hk j
  show ∑ i : Fin 2, (![1, 1] : Fin 2 → ℝ) i * _ ≠ 0
  simp [Fin.sum_univ_two]

theorem total35 : ∑ k ∈ Finset.range sys35.m.channels.length, ∑ i, expectedIn sys35 SZ (fun _ => 8) (fun _ _ _ => 0) k i =
      ∑ k ∈ Finset.range sys35.m.channels.length, ∑ i, d35 k i := by
  have : sys35.m.channels.length = 1 := by simp [sys35, mZ]
  rw [this, Finset.range_one, Finset.sum_singleton, Finset.sum_singleton]
  simp only [exp35]
  show ∑ _i : Fin 2, (8:ℝ) / 2 = ∑ i : Fin 2, (![3, 5] : Fin 2 → ℝ) i
  simp [Fin.sum_univ_two]; norm_num

theorem frac35 (i : Fin 2) : fracIn SZ (fun _ _ _ => 0) 0 (0 : Fin 1) i = 1 / 2 := by
  show (![1, 1] : Fin 2 → ℝ) i * _ / ∑ i' : Fin 2, (![1, 1] : Fin 2 → ℝ) i' * _ = _
  have : (![1, 1] : Fin 2 → ℝ) i = 1 := by fin_cases i <;> rfl
  simp [this, Fin.sum_univ_two]
  norm_num

theorem score35 (p : String) (hp : p ∈ sys35.m.processes) :
    score sys35 SZ d35 (fun _ => 0) (fun _ => 1) (fun _ => 8) (fun _ _ _ => 0) p = 0 := by
  have : p = "p" := by simpa [sys35, mZ] using hp
  subst this
  have hl : sys35.m.chanIds.length = 1 := by simp [sys35, mZ, Mct.chanIds]
  have hco : sys35.m.constrained = [] := rfl
  have hpn : procName sys35 0 0 = "p" := by
    simp [procName, sys35, mZ, Mct.chanIds, w35, chZ]
  unfold score
  rw [hl, hco, Finset.range_one, Finset.sum_singleton]
  simp only [exp35]
  show (∑ j : Fin 1, if procName sys35 0 j = "p" then (1:ℝ) * ∑ i : Fin 2, fracIn SZ (fun _ _ _ => 0) 0 j i *
    (1 - (![3, 5] : Fin 2 → ℝ) i / (8 / 2)) else 0) + _ = 0
  rw [Fin.sum_univ_one]
  simp only [Fin.val_zero, hpn, if_true, frac35, Fin.sum_univ_two, List.map_nil, List.sum_nil]
  simp
  norm_num

end Ex

/-- non-vacuity of C88: the example's only score equation holds at yield 8, which therefore minimises the likelihood
over all positive yields, and at which the expected and the observed totals agree -/
example : (∀ x : ℝ, 0 < x → NllLe Ex.sys35 (paramVec Ex.sys35 Ex.SZ (fun _ => 8) fun _ _ _ => 0)
      (paramVec Ex.sys35 Ex.SZ (fun _ => x) fun _ _ _ => 0)) ∧
    ∃ r : ℝ, 0 < r ∧ ∀ l : ℝ, 0 < l → |l - 1| < r → NllLe Ex.sys35 (paramVec Ex.sys35 Ex.SZ (fun _ => 8) fun _ _ _ => 0)
      (paramVec Ex.sys35 Ex.SZ (fun _ => l * 8) fun _ _ _ => 0) := by
  constructor
  · intro x hx
    exact C88_score_sufficient Ex.sys35 Ex.sys35_built (by simp [Ex.sys35, Ex.mZ]) Ex.SZ Ex.model35 Ex.d35 Ex.data35
      (fun k _ i => Ex.d35_pos k i) (fun _ => 0) (fun _ => 1) (by intro p hp; simp [Ex.sys35, Ex.mZ] at hp) _ Ex.sums35
      _ (Ex.allowed35 8 (by norm_num)) Ex.score35 _ (Ex.allowed35 x hx)
  · exact (C88_total Ex.sys35 Ex.sys35_built (by simp [Ex.sys35, Ex.mZ]) Ex.SZ Ex.model35 Ex.d35 Ex.data35
      (fun k _ i => Ex.d35_pos k i) (by simp [Ex.sys35, Ex.mZ]) _ Ex.sums35
      _ (Ex.allowed35 8 (by norm_num))).mpr Ex.total35

end

end TF.Props
