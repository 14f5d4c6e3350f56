import Verif.Props.CovEvents
import Verif.Props.ToyStat6

set_option linter.unusedSimpArgs false

/-!
# Fits to toy data are consistent (C140)
-/

namespace TF.Spec

open TF Classical

noncomputable section

/-- an optimiser that never makes things worse: started at an admissible point where the objective is a number, it raises, reports failure, or
returns a point of the same length with the value of the objective there, which is not above the value at the start -/
def NeverWorse (o : Optim) : Prop :=
  (∀ c r, o.minuit c = .ok r → MFeasible c c.x0 → ∀ v : ℝ, c.fcn c.x0 = .ok (.fin v) →
    r.values.length = c.x0.length ∧ c.fcn r.values = .ok r.fval ∧ r.fval ≠ .nan ∧ ¬ (Fl.fin v).lt r.fval) ∧
  ∀ c r, o.scipy c = .ok r → r.success = true → SFeasible c c.x0 → ∀ v : ℝ, c.fcn c.x0 = .ok (.fin v) →
    r.x.length = c.x0.length ∧ c.fcn r.x = .ok r.fval ∧ r.fval ≠ .nan ∧ ¬ (Fl.fin v).lt r.fval

/-- Pearson's statistic of the numbers `d` with expectations `a`, over all bins of all channels -/
def pearson (s : Sys) (S : ℕ → ChanSpec) (d a : ∀ k, Fin (S k).n → ℝ) : ℝ :=
  ∑ k ∈ Finset.range s.m.chanIds.length, ∑ i, (d k i - a k i) ^ 2 / a k i

/-- squared distance of the square roots of `a` and `b`, over all bins of all channels -/
def rootDistance (s : Sys) (S : ℕ → ChanSpec) (a b : ∀ k, Fin (S k).n → ℝ) : ℝ :=
  ∑ k ∈ Finset.range s.m.chanIds.length, ∑ i, (Real.sqrt (a k i) - Real.sqrt (b k i)) ^ 2

/-- the penalty terms of the nuisance parameters and of the constraints -/
def penalties (s : Sys) (S : ℕ → ChanSpec) (V E : String → ℝ) (ν : String → ℝ) (θ : ∀ k, Fin (S k).K → Fin (S k).n → ℝ) : ℝ :=
  (∑ k ∈ Finset.range s.m.chanIds.length, penalty (S k).R (θ k)) +
  (s.m.constrained.map fun p => (ν p - V p) ^ 2 / (2 * E p ^ 2)).sum

/-- number of bins of all channels -/
def binsTotal (s : Sys) (S : ℕ → ChanSpec) : ℕ := ∑ k ∈ Finset.range s.m.chanIds.length, (S k).n

end

end TF.Spec

namespace TF.Props

open Classical Spec MeasureTheory ProbabilityTheory
open scoped Matrix NNReal ENNReal

noncomputable section

/-! ### one bin -/

theorem poissonBin_root {d e : ℝ} (hd : 0 ≤ d) (he : 0 ≤ e) (hc : d ≠ 0 → 0 < e) : (Real.sqrt d - Real.sqrt e) ^ 2 ≤ poissonBin d e := by
  unfold poissonBin
  split
  · rename_i h
    rw [h, Real.sqrt_zero, zero_sub, neg_sq, Real.sq_sqrt he]
  · rename_i h
    have hd0 : 0 < d := lt_of_le_of_ne hd (Ne.symm h)
    have he0 := hc h
    have h1 := Real.log_le_sub_one_of_pos (Real.sqrt_pos.mpr (div_pos he0 hd0))
    rw [Real.log_sqrt (div_pos he0 hd0).le, Real.sqrt_div he] at h1
    have hs : Real.sqrt d * Real.sqrt d = d := Real.mul_self_sqrt hd
    have hs' : Real.sqrt e * Real.sqrt e = e := Real.mul_self_sqrt he
    have hsd := Real.sqrt_pos.mpr hd0
    have h2 : d * (Real.sqrt e / Real.sqrt d) = Real.sqrt d * Real.sqrt e := by
      field_simp; rw [sq, hs]
    have h3 := mul_le_mul_of_nonneg_left h1 hd
    rw [mul_sub, h2] at h3
    nlinarith

theorem poissonBin_pearson {d e : ℝ} (hd : 0 ≤ d) (he : 0 < e) : poissonBin d e ≤ (d - e) ^ 2 / e := by
  unfold poissonBin
  split
  · rename_i h
    rw [h, zero_sub, neg_sq, sq, mul_div_assoc, div_self he.ne', mul_one]
  · rename_i h
    have hd0 : 0 < d := lt_of_le_of_ne hd (Ne.symm h)
    have h1 := Real.log_le_sub_one_of_pos (div_pos hd0 he)
    have h2 : Real.log (e / d) = - Real.log (d / e) := by rw [← Real.log_inv, inv_div]
    have h3 := mul_le_mul_of_nonneg_left h1 hd
    have h4 : (d - e) ^ 2 / e = d * (d / e - 1) - d + e := by field_simp; ring
    rw [h2, h4]
    linarith

theorem root_triangle (x y z : ℝ) : (x - z) ^ 2 ≤ 2 * (y - x) ^ 2 + 2 * (y - z) ^ 2 := by
  nlinarith [sq_nonneg (2 * y - x - z)]

/-! ### one data set -/

theorem nllAt_penalties (s : Sys) (S : ℕ → ChanSpec) (d : ∀ k, Fin (S k).n → ℝ) (V E : String → ℝ) (θ : ∀ k, Fin (S k).K → Fin (S k).n → ℝ)
    (ν : String → ℝ) : nllAt s S d V E θ ν =
      (∑ k ∈ Finset.range s.m.chanIds.length, ∑ i, poissonBin (d k i) (expectedIn s S ν θ k i)) + penalties s S V E ν θ := by
  unfold nllAt penalties
  rw [Finset.sum_add_distrib]
  ring

/-- a point with a likelihood not above that of another point with positive expectations -/
theorem not_worse_close {s : Sys} {S : ℕ → ChanSpec} {d : ∀ k, Fin (S k).n → ℝ} (hd : ∀ k < s.m.chanIds.length, ∀ i, 0 ≤ d k i)
    {V E : String → ℝ} {ν ν₀ : String → ℝ} {θ θ₀ : ∀ k, Fin (S k).K → Fin (S k).n → ℝ}
    (hE0 : ∀ k < s.m.chanIds.length, ∀ i, 0 < expectedIn s S ν₀ θ₀ k i)
    (hE : ∀ k < s.m.chanIds.length, ∀ i, 0 ≤ expectedIn s S ν θ k i) (hc : DataCovered s S d θ ν)
    (hle : nllAt s S d V E θ ν ≤ nllAt s S d V E θ₀ ν₀) :
    rootDistance s S (expectedIn s S ν θ) (expectedIn s S ν₀ θ₀) + 2 * penalties s S V E ν θ ≤
      4 * pearson s S d (expectedIn s S ν₀ θ₀) + 2 * penalties s S V E ν₀ θ₀ := by
  rw [nllAt_penalties, nllAt_penalties] at hle
  have h1 : ∑ k ∈ Finset.range s.m.chanIds.length, ∑ i, poissonBin (d k i) (expectedIn s S ν₀ θ₀ k i) ≤
      pearson s S d (expectedIn s S ν₀ θ₀) :=
    Finset.sum_le_sum fun k hk => Finset.sum_le_sum fun i _ =>
      poissonBin_pearson (hd k (Finset.mem_range.mp hk) i) (hE0 k (Finset.mem_range.mp hk) i)
  have h2 : rootDistance s S d (expectedIn s S ν₀ θ₀) ≤
      ∑ k ∈ Finset.range s.m.chanIds.length, ∑ i, poissonBin (d k i) (expectedIn s S ν₀ θ₀ k i) :=
    Finset.sum_le_sum fun k hk => Finset.sum_le_sum fun i _ =>
      poissonBin_root (hd k (Finset.mem_range.mp hk) i) (hE0 k (Finset.mem_range.mp hk) i).le fun _ => hE0 k (Finset.mem_range.mp hk) i
  have h3 : rootDistance s S d (expectedIn s S ν θ) ≤
      ∑ k ∈ Finset.range s.m.chanIds.length, ∑ i, poissonBin (d k i) (expectedIn s S ν θ k i) :=
    Finset.sum_le_sum fun k hk => Finset.sum_le_sum fun i _ =>
      poissonBin_root (hd k (Finset.mem_range.mp hk) i) (hE k (Finset.mem_range.mp hk) i) (hc k (Finset.mem_range.mp hk) i)
  have h4 : rootDistance s S (expectedIn s S ν θ) (expectedIn s S ν₀ θ₀) ≤
      2 * rootDistance s S d (expectedIn s S ν θ) + 2 * rootDistance s S d (expectedIn s S ν₀ θ₀) := by
    unfold rootDistance
    rw [Finset.mul_sum, Finset.mul_sum, ← Finset.sum_add_distrib]
    refine Finset.sum_le_sum fun k _ => ?_
    rw [Finset.mul_sum, Finset.mul_sum, ← Finset.sum_add_distrib]
    exact Finset.sum_le_sum fun i _ => root_triangle _ _ _
  linarith

/-! ### a fit -/

/-- the start of a fit is admissible if it respects the bounds -/
theorem start_admissible {s : Sys} (h : s.Built) {S : ℕ → ChanSpec} (hS : ModelIs s S) (ν : String → ℝ)
    (θ : ∀ k, Fin (S k).K → Fin (S k).n → ℝ) (id : String) {hist : List FitOp} (fixNui : Bool) (lim : Option Bounds)
    (hb : ∀ pid b, FitOp.bound pid b ∈ hist → ∀ k v, Denotes (s.m.paramNames s.w) pid k → (paramVec s S ν θ)[k]? = some v → InBounds b v)
    (hlim : ∀ b, lim = some b → ∀ k v, s.m.numProcesses ≤ k → (paramVec s S ν θ)[k]? = some v → InBounds b v) (kd : MinKind) :
    (∀ (k : ℕ) (b : Bounds) (v : Fl), (minRun kd (s.m.paramNames s.w) (setupOps (fitRun id hist) s.m.numProcesses (s.m.numNui s.w) fixNui lim)).bounds[k]? = some b →
      (paramVec s S ν θ)[k]? = some v → InBounds b v) ∧
    Feasible ((minRun kd (s.m.paramNames s.w) (setupOps (fitRun id hist) s.m.numProcesses (s.m.numNui s.w) fixNui lim)).scipyCall
      (objective s.w s.m) (paramVec s S ν θ)) (paramVec s S ν θ) := by
  have hal := C51_aligned s h.reachable
  have hplen := paramVec_length (reachable_wf h.reachable) hS ν θ
  obtain ⟨x, hx⟩ := paramVec_real s S ν θ rfl
  constructor
  · intro k b v hbb hv
    have hkn : k < (s.m.paramNames s.w).length := by
      rw [hal.1, ← hplen]; exact (List.getElem?_eq_some_iff.mp hv).1
    rcases setup_bounds_mem' hkn hbb with rfl | ⟨pid, hp1, hp2⟩ | ⟨hl, hle⟩
    · exact ⟨fun _ h => (by cases h), fun _ h => (by cases h)⟩
    · exact hb pid b hp1 k v hp2 hv
    · exact hlim b hl k v hle hv
  · rw [feasible_iff]
    right
    generalize ((minRun kd (s.m.paramNames s.w) (setupOps (fitRun id hist) s.m.numProcesses (s.m.numNui s.w) fixNui lim))).fixedIdx.getLastD 0 = l
    rw [List.getD_eq_getElem?_getD]
    cases hl : (paramVec s S ν θ)[l]? with
    | none => exact ⟨0, rfl, rfl⟩
    | some v =>
      have hm := List.mem_of_getElem? hl
      rw [hx] at hm
      obtain ⟨q, rfl⟩ := List.mem_ofFn.mp hm
      exact ⟨_, rfl, rfl⟩

/-- **C140, one fit.** Start a fit (iminuit or scipy, any configuration that admits the start) at a point with positive expectations `a`. With an optimiser that never makes things worse, if
the fit returns with a finite value and non-negative expectations `μ`, these obey
`Σ (√μ - √a)² + 2·(penalties) ≤ 4 Σ (n - a)²/a + 2·(penalties at the start)`. -/
theorem C140_fit (s : Sys) (h : s.Built) (hne : s.m.channels ≠ []) (S : ℕ → ChanSpec) (hS : ModelIs s S) (hused : AllUsed s S)
    (d : ∀ k, Fin (S k).n → ℝ) (hd : DataIs s S d) (hpos : ∀ k < s.m.chanIds.length, ∀ i, d k i = 0 ∨ (1e-100 : ℝ) ≤ d k i)
    (V E : String → ℝ) (hc : ConstraintsAre s V E)
    (ν₀ : String → ℝ) (θ₀ : ∀ k, Fin (S k).K → Fin (S k).n → ℝ) (hx0 : s.m.x0 s.w = .ok (paramVec s S ν₀ θ₀)) (hT0 : NonZeroSums s S θ₀)
    (hE0 : ∀ k < s.m.chanIds.length, ∀ i, 0 < expectedIn s S ν₀ θ₀ k i)
    (o : Optim) (ho : NeverWorse o) (id : String) (hid : id.toLower = "iminuit" ∨ id.toLower = "scipy") (hist : List FitOp)
    (hk : KnownIds (s.m.paramNames s.w) hist) (up g fixNui : Bool) (lim : Option Bounds)
    (hb : ∀ pid b, FitOp.bound pid b ∈ hist → ∀ k v, Denotes (s.m.paramNames s.w) pid k → (paramVec s S ν₀ θ₀)[k]? = some v → InBounds b v)
    (hlim : ∀ b, lim = some b → ∀ k v, s.m.numProcesses ≤ k → (paramVec s S ν₀ θ₀)[k]? = some v → InBounds b v)
    (r : MinResult) (hr : ((fitRun id hist).doFit o s.w s.m up g fixNui lim).1 = .ok r) (v : ℝ) (hv : r.fval = .fin v)
    (hnn : ∀ ν θ, r.params.values = paramVec s S ν θ → ∀ k < s.m.chanIds.length, ∀ i, 0 ≤ expectedIn s S ν θ k i) :
    ∃ ν θ, r.params.values = paramVec s S ν θ ∧ NonZeroSums s S θ ∧
      rootDistance s S (expectedIn s S ν θ) (expectedIn s S ν₀ θ₀) + 2 * penalties s S V E ν θ ≤
        4 * pearson s S d (expectedIn s S ν₀ θ₀) + 2 * penalties s S V E ν₀ θ₀ := by
  have hw := reachable_wf h.reachable
  have hal := C51_aligned s h.reachable
  have hplen := paramVec_length hw hS ν₀ θ₀
  have hst := start_admissible h hS ν₀ θ₀ id fixNui lim hb hlim
  have hcov0 : DataCovered s S d θ₀ ν₀ := fun k hk i _ => hE0 k hk i
  have hv0 := objective_nllAt' h hne hS hd hpos hc hT0 hcov0
  -- what the optimiser returned
  have key : r.params.values.length = (paramVec s S ν₀ θ₀).length ∧ objective s.w s.m r.params.values = .ok (.fin v) ∧
      v ≤ nllAt s S d V E θ₀ ν₀ := by
    rcases hid with hid | hid
    · have hz := setup_eq (kd := .iminuit) (id := id) hal.1.symm hk fixNui lim
      have hzw := minRun_wf .iminuit (s.m.paramNames s.w) (setupOps (fitRun id hist) s.m.numProcesses (s.m.numNui s.w) fixNui lim)
      obtain ⟨x1, q, hx1, hq, hf, hval⟩ := doFit_minuit_inv' (by rw [fitRun_id]; exact minKind_iminuit hid) hz hzw.hk hr
      rw [hx0] at hx1
      obtain rfl := Except.ok.inj hx1
      obtain ⟨t1, t2, t3, t4⟩ := ho.1 _ _ hq (by
        refine ⟨?_, fun k hkn => ⟨fun _ => rfl, fun _ b v hbb hv => (hst .iminuit).1 k b v hbb hv⟩⟩
        show (paramVec s S ν₀ θ₀).length = _
        rw [show (Minimizer.minuitCall _ (objective s.w s.m) (paramVec s S ν₀ θ₀)).names = s.m.paramNames s.w from hzw.hn, hal.1, hplen])
        _ hv0
      rw [hval, ← hv, hf]
      refine ⟨t1, t2, ?_⟩
      rw [← hf, hv] at t4
      exact not_lt.mp t4
    · have hz := setup_eq (kd := .scipy) (id := id) hal.1.symm hk fixNui lim
      have hzw := minRun_wf .scipy (s.m.paramNames s.w) (setupOps (fitRun id hist) s.m.numProcesses (s.m.numNui s.w) fixNui lim)
      obtain ⟨x1, q, hx1, hq, hsucc, hf, hval⟩ := doFit_scipy_inv (by rw [fitRun_id]; exact minKind_scipy hid) hz hzw.hk hr
      rw [hx0] at hx1
      obtain rfl := Except.ok.inj hx1
      obtain ⟨t1, t2, t3, t4⟩ := ho.2 _ _ hq hsucc ⟨rfl, (hst .scipy).1, (hst .scipy).2⟩ _ hv0
      rw [hval, ← hv, hf]
      refine ⟨t1, t2, ?_⟩
      rw [← hf, hv] at t4
      exact not_lt.mp t4
  obtain ⟨k1, k2, k3⟩ := key
  obtain ⟨ν, θ, e1, e2, e3⟩ := (C104_domain s h hne S hS d hd hpos V E hc hused _ (k1.trans hplen)).mp ⟨v, k2⟩
  refine ⟨ν, θ, e1, e2, not_worse_close (fun k hk i => ?_) hE0 (hnn ν θ e1) e3 ?_⟩
  · rcases hpos k hk i with h | h
    · exact h.ge
    · exact le_trans (by norm_num) h
  · rw [e1, objective_nllAt' h hne hS hd hpos hc e2 e3] at k2
    rw [Fl.fin.inj (Except.ok.inj k2)]
    exact k3

/-! ### toy data -/

/-- Pearson's statistic of toy data has the number of bins as average -/
theorem pearson_mean {s : Sys} {S : ℕ → ChanSpec} {a : ∀ k, Fin (S k).n → ℝ} (ha : ∀ k < s.m.chanIds.length, ∀ i, 0 < a k i)
    {Ω : Type} [MeasurableSpace Ω] {P : Measure Ω} {draw : Ω → ℕ → Vec → ℕ → ℕ} (hd : PoissonLaw P s S a draw) :
    Integrable (fun ω => pearson s S (toyData s S a (draw ω)) a) P ∧ ∫ ω, pearson s S (toyData s S a (draw ω)) a ∂P = binsTotal s S := by
  have hb : ∀ k < s.m.chanIds.length, ∀ i, Integrable (fun ω => (toyData s S a (draw ω) k i - a k i) ^ 2 / a k i) P ∧
      ∫ ω, (toyData s S a (draw ω) k i - a k i) ^ 2 / a k i ∂P = 1 := by
    intro k hk i
    have hP := law_prob (hd k hk i)
    obtain ⟨c1, c2, -⟩ := chi_bin (hd k hk i) (Real.toNNReal_pos.mpr (ha k hk i))
    rw [Real.coe_toNNReal _ (ha k hk i).le] at c1 c2
    simp only [toyData_eq hk]
    exact ⟨c1.integrable (by norm_num), c2⟩
  unfold pearson binsTotal
  have hk : ∀ k ∈ Finset.range s.m.chanIds.length, Integrable (fun ω => ∑ i, (toyData s S a (draw ω) k i - a k i) ^ 2 / a k i) P :=
    fun k hk => integrable_finsetSum _ fun i _ => (hb k (Finset.mem_range.mp hk) i).1
  refine ⟨integrable_finsetSum _ hk, ?_⟩
  rw [integral_finsetSum _ hk]
  push_cast
  refine Finset.sum_congr rfl fun k hk => ?_
  rw [integral_finsetSum _ fun i _ => (hb k (Finset.mem_range.mp hk) i).1, Finset.sum_congr rfl fun i _ => (hb k (Finset.mem_range.mp hk) i).2]
  simp

theorem penalties_nonneg {s : Sys} {S : ℕ → ChanSpec} (hS : ModelIs s S) (V E ν : String → ℝ) (θ : ∀ k, Fin (S k).K → Fin (S k).n → ℝ) :
    0 ≤ penalties s S V E ν θ := by
  unfold penalties
  refine add_nonneg (Finset.sum_nonneg fun k hk => (penalty_nonneg (hS k (Finset.mem_range.mp hk)).2.2.1 (θ k)).1) (List.sum_nonneg ?_)
  intro b hb
  obtain ⟨p, -, rfl⟩ := List.mem_map.mp hb
  positivity

/-- the square roots of the totals are at most as far apart as those of the bins -/
theorem total_root {s : Sys} {S : ℕ → ChanSpec} {a b : ∀ k, Fin (S k).n → ℝ} (ha : ∀ k < s.m.chanIds.length, ∀ i, 0 ≤ a k i)
    (hb : ∀ k < s.m.chanIds.length, ∀ i, 0 ≤ b k i) :
    (Real.sqrt (∑ k ∈ Finset.range s.m.chanIds.length, ∑ i, a k i) - Real.sqrt (∑ k ∈ Finset.range s.m.chanIds.length, ∑ i, b k i)) ^ 2 ≤
      rootDistance s S a b := by
  have hA : ∀ k ∈ Finset.range s.m.chanIds.length, 0 ≤ ∑ i, a k i := fun k hk => Finset.sum_nonneg fun i _ => ha k (Finset.mem_range.mp hk) i
  have hB : ∀ k ∈ Finset.range s.m.chanIds.length, 0 ≤ ∑ i, b k i := fun k hk => Finset.sum_nonneg fun i _ => hb k (Finset.mem_range.mp hk) i
  have h1 : ∀ k ∈ Finset.range s.m.chanIds.length, ∑ i, Real.sqrt (a k i) * Real.sqrt (b k i) ≤
      Real.sqrt |∑ i, a k i| * Real.sqrt |∑ i, b k i| := by
    intro k hk
    rw [abs_of_nonneg (hA k hk), abs_of_nonneg (hB k hk)]
    exact Real.sum_sqrt_mul_sqrt_le _ (fun i => ha k (Finset.mem_range.mp hk) i) (fun i => hb k (Finset.mem_range.mp hk) i)
  have h2 := Real.sum_sqrt_mul_sqrt_le (Finset.range s.m.chanIds.length) (f := fun k => |∑ i, a k i|) (g := fun k => |∑ i, b k i|)
    (fun _ => abs_nonneg _) (fun _ => abs_nonneg _)
  rw [Finset.sum_congr rfl fun k hk => abs_of_nonneg (hA k hk), Finset.sum_congr rfl fun k hk => abs_of_nonneg (hB k hk)] at h2
  have h3 := (Finset.sum_le_sum h1).trans h2
  have h4 : rootDistance s S a b = ∑ k ∈ Finset.range s.m.chanIds.length, ∑ i, a k i + ∑ k ∈ Finset.range s.m.chanIds.length, ∑ i, b k i -
      2 * ∑ k ∈ Finset.range s.m.chanIds.length, ∑ i, Real.sqrt (a k i) * Real.sqrt (b k i) := by
    unfold rootDistance
    rw [Finset.mul_sum, ← Finset.sum_add_distrib, ← Finset.sum_sub_distrib]
    refine Finset.sum_congr rfl fun k hk => ?_
    rw [Finset.mul_sum, ← Finset.sum_add_distrib, ← Finset.sum_sub_distrib]
    refine Finset.sum_congr rfl fun i _ => ?_
    have e1 := Real.sq_sqrt (ha k (Finset.mem_range.mp hk) i)
    have e2 := Real.sq_sqrt (hb k (Finset.mem_range.mp hk) i)
    nlinarith
  have e1 := Real.sq_sqrt (Finset.sum_nonneg hA)
  have e2 := Real.sq_sqrt (Finset.sum_nonneg hB)
  rw [h4]
  nlinarith

/-- **C140, toy studies.** Fit toy data sets (Poisson numbers), generated from the model with its present parameters, starting at these parameters. If the fits return with finite values and
non-negative expectations, the average over toy data sets of the squared distance between the roots of fitted and true expectations is at most `4·bins + 2·(penalties at the true point)`,
whatever the number of events; and the probability that it exceeds `t` is at most this bound divided by `t`. -/
theorem C140_toys (s : Sys) (h : s.Built) (hne : s.m.channels ≠ []) (S : ℕ → ChanSpec) (hS : ModelIs s S) (hused : AllUsed s S)
    (htup : ∀ c ∈ s.m.chanIds, AllTuple (s.w.chans c).range)
    (y : ∀ k, Fin (S k).K → ℝ) (θ₀ : ∀ k, Fin (S k).K → Fin (S k).n → ℝ) (hp : ParamsAre s S y θ₀) (hT0 : NonZeroSums s S θ₀)
    (ν₀ : String → ℝ) (hν : ∀ p ∈ s.m.processes, s.m.getYield s.w p = .ok (.fin (ν₀ p)))
    (hshare : ∀ k < s.m.chanIds.length, ∀ j, y k j = ν₀ (procName s k j) * (S k).eff j)
    (hpos : ∀ k < s.m.chanIds.length, ∀ i, 0 < presentIn S y θ₀ k i)
    (V E : String → ℝ) (hc : ConstraintsAre s V E)
    {Ω : Type} [MeasurableSpace Ω] (P : Measure Ω) (draw : Ω → ℕ → Vec → ℕ → ℕ) (hd : PoissonLaw P s S (presentIn S y θ₀) draw)
    (o : Ω → Optim) (ho : ∀ ω, NeverWorse (o ω)) (id : String) (hid : id.toLower = "iminuit" ∨ id.toLower = "scipy") (hist : List FitOp)
    (hk : KnownIds (s.m.paramNames s.w) hist) (up g fixNui : Bool) (lim : Option Bounds)
    (hb : ∀ pid b, FitOp.bound pid b ∈ hist → ∀ k v, Denotes (s.m.paramNames s.w) pid k → (paramVec s S ν₀ θ₀)[k]? = some v → InBounds b v)
    (hlim : ∀ b, lim = some b → ∀ k v, s.m.numProcesses ≤ k → (paramVec s S ν₀ θ₀)[k]? = some v → InBounds b v)
    (r : Ω → MinResult)
    (hr : ∀ ω, ((fitRun id hist).doFit (o ω) (s.step (.addToy (draw ω))).w (s.step (.addToy (draw ω))).m up g fixNui lim).1 = .ok (r ω))
    (hv : ∀ ω, ∃ v : ℝ, (r ω).fval = .fin v)
    (hnn : ∀ ω ν θ, (r ω).params.values = paramVec s S ν θ → ∀ k < s.m.chanIds.length, ∀ i, 0 ≤ expectedIn s S ν θ k i) :
    ∃ (ν : Ω → String → ℝ) (θ : Ω → ∀ k, Fin (S k).K → Fin (S k).n → ℝ),
      (∀ ω, (r ω).params.values = paramVec s S (ν ω) (θ ω) ∧ NonZeroSums s S (θ ω)) ∧
      (∫⁻ ω, ENNReal.ofReal (rootDistance s S (expectedIn s S (ν ω) (θ ω)) (expectedIn s S ν₀ θ₀)) ∂P ≤
        ENNReal.ofReal (4 * binsTotal s S + 2 * penalties s S V E ν₀ θ₀)) ∧
      (∀ t : ℝ, 0 < t → P {ω | t ≤ rootDistance s S (expectedIn s S (ν ω) (θ ω)) (expectedIn s S ν₀ θ₀)} ≤
        ENNReal.ofReal ((4 * binsTotal s S + 2 * penalties s S V E ν₀ θ₀) / t)) ∧
      ∀ δ : ℝ, 0 < δ → P {ω | δ ≤ |Real.sqrt (eventsExpected s S (ν ω) (θ ω) / eventsExpected s S ν₀ θ₀) - 1|} ≤
        ENNReal.ofReal ((4 * binsTotal s S + 2 * penalties s S V E ν₀ θ₀) / (δ ^ 2 * eventsExpected s S ν₀ θ₀)) := by
  have hN : 0 < s.m.chanIds.length := by
    rw [List.length_pos_iff]; simpa [Mct.chanIds] using hne
  have hP : IsProbabilityMeasure P := law_prob (hd 0 hN ⟨0, (hS 0 hN).2.1⟩)
  have hea : ∀ k < s.m.chanIds.length, ∀ i, expectedIn s S ν₀ θ₀ k i = presentIn S y θ₀ k i := by
    intro k hk i
    rw [expectedIn_eq]
    unfold presentIn fracIn
    refine Finset.sum_congr rfl fun j _ => ?_
    rw [hshare k hk j]
  have hE0 : ∀ k < s.m.chanIds.length, ∀ i, 0 < expectedIn s S ν₀ θ₀ k i := fun k hk i => by rw [hea k hk i]; exact hpos k hk i
  have hx0 := x0_eq s h.reachable hne S hS y θ₀ hp ν₀ hν
  have hone : ∀ ω, ∃ ν θ, (r ω).params.values = paramVec s S ν θ ∧ NonZeroSums s S θ ∧
      rootDistance s S (expectedIn s S ν θ) (expectedIn s S ν₀ θ₀) + 2 * penalties s S V E ν θ ≤
        4 * pearson s S (toyData s S (presentIn S y θ₀) (draw ω)) (presentIn S y θ₀) + 2 * penalties s S V E ν₀ θ₀ := by
    intro ω
    obtain ⟨q1, q2, q3, q4, q5, q6, q7⟩ := toy_model s h S hS htup y θ₀ hp hT0 (fun k hk i => (hpos k hk i).le) (draw ω)
    obtain ⟨n1, n2, n3⟩ := names_same (toy_same s (draw ω)) s.m
    have hnm : (s.step (.addToy (draw ω))).m.paramNames (s.step (.addToy (draw ω))).w = s.m.paramNames s.w := by rw [q2]; exact n1
    obtain ⟨v, hv⟩ := hv ω
    obtain ⟨ν, θ, e1, e2, e3⟩ := C140_fit _ q1 (by rw [q2]; exact hne) S q3 (by unfold AllUsed; simp only [q2, q6]; exact hused) _ q4
      (fun k _ i => toyData_floor k i) V E (by unfold ConstraintsAre; rw [q2]; exact hc) ν₀ θ₀ (by rw [q2, n3, q5]; exact hx0)
      (by unfold NonZeroSums; rw [q2]; exact hT0) (by rw [q2]; simp only [q7]; exact hE0) (o ω) (ho ω) id hid hist (by rw [hnm]; exact hk) up g fixNui lim
      (by rw [hnm]; simp only [q5]; exact hb) (by simp only [q2, q5]; exact hlim) (r ω) (hr ω) v hv
      (by simp only [q2, q5, q7]; exact hnn ω)
    refine ⟨ν, θ, by rw [e1, q5], by unfold NonZeroSums at e2 ⊢; rw [q2] at e2; exact e2, ?_⟩
    have g1 : ∀ a b, rootDistance (s.step (.addToy (draw ω))) S a b = rootDistance s S a b := by
      intro a b; unfold rootDistance; rw [q2]
    have g2 : ∀ a b, pearson (s.step (.addToy (draw ω))) S a b = pearson s S a b := by
      intro a b; unfold pearson; rw [q2]
    have g3 : ∀ ν θ, penalties (s.step (.addToy (draw ω))) S V E ν θ = penalties s S V E ν θ := by
      intro ν θ; unfold penalties; rw [q2]
    have g4 : ∀ ν θ, expectedIn (s.step (.addToy (draw ω))) S ν θ = expectedIn s S ν θ := by
      intro ν θ; funext k i; exact q7 ν θ k i
    rw [g1, g2, g3, g3, g4, g4] at e3
    refine e3.trans_eq ?_
    congr 2
    unfold pearson
    refine Finset.sum_congr rfl fun k hk => Finset.sum_congr rfl fun i _ => ?_
    rw [hea k (Finset.mem_range.mp hk) i]
  choose ν θ e1 e2 e3 using hone
  obtain ⟨m1, m2⟩ := pearson_mean hpos hd
  set X : Ω → ℝ := fun ω => pearson s S (toyData s S (presentIn S y θ₀) (draw ω)) (presentIn S y θ₀) with hX
  have hpen0 := penalties_nonneg hS V E ν₀ θ₀
  have hX0 : ∀ ω, 0 ≤ X ω := by
    intro ω
    refine Finset.sum_nonneg fun k hk => Finset.sum_nonneg fun i _ => ?_
    have := hpos k (Finset.mem_range.mp hk) i
    positivity
  have hle : ∀ ω, rootDistance s S (expectedIn s S (ν ω) (θ ω)) (expectedIn s S ν₀ θ₀) ≤ 4 * X ω + 2 * penalties s S V E ν₀ θ₀ := by
    intro ω
    have := penalties_nonneg hS V E (ν ω) (θ ω)
    have := e3 ω
    linarith
  have hi : Integrable (fun ω => 4 * X ω + 2 * penalties s S V E ν₀ θ₀) P := (m1.const_mul 4).add (integrable_const _)
  have hint : ∫ ω, (4 * X ω + 2 * penalties s S V E ν₀ θ₀) ∂P = 4 * binsTotal s S + 2 * penalties s S V E ν₀ θ₀ := by
    rw [integral_add (m1.const_mul 4) (integrable_const _), integral_const_mul, m2]
    simp
  have hlin : ∫⁻ ω, ENNReal.ofReal (4 * X ω + 2 * penalties s S V E ν₀ θ₀) ∂P = ENNReal.ofReal (4 * binsTotal s S + 2 * penalties s S V E ν₀ θ₀) := by
    rw [← hint, ofReal_integral_eq_lintegral_ofReal hi]
    exact Filter.Eventually.of_forall fun ω => by have := hX0 ω; positivity
  have htail : ∀ t : ℝ, 0 < t → P {ω | t ≤ rootDistance s S (expectedIn s S (ν ω) (θ ω)) (expectedIn s S ν₀ θ₀)} ≤
        ENNReal.ofReal ((4 * binsTotal s S + 2 * penalties s S V E ν₀ θ₀) / t) := by
    intro t ht
    have h1 := mul_meas_ge_le_lintegral₀ (μ := P) (f := fun ω => ENNReal.ofReal (4 * X ω + 2 * penalties s S V E ν₀ θ₀))
      hi.aemeasurable.ennreal_ofReal (ENNReal.ofReal t)
    rw [hlin] at h1
    rw [ENNReal.ofReal_div_of_pos ht, ENNReal.le_div_iff_mul_le (.inl (by simpa using ht)) (.inl ENNReal.ofReal_ne_top), mul_comm]
    refine le_trans (mul_le_mul_right (measure_mono fun ω hω => ?_) _) h1
    exact ENNReal.ofReal_le_ofReal (le_trans hω (hle ω))
  refine ⟨ν, θ, fun ω => ⟨e1 ω, e2 ω⟩, ?_, htail, fun δ hδ => ?_⟩
  · rw [← hlin]
    exact lintegral_mono fun ω => ENNReal.ofReal_le_ofReal (hle ω)
  · have hM : 0 < eventsExpected s S ν₀ θ₀ := by
      refine Finset.sum_pos (fun k hk => ?_) ⟨0, Finset.mem_range.mpr hN⟩
      have hk := Finset.mem_range.mp hk
      exact Finset.sum_pos (fun i _ => hE0 k hk i) ⟨⟨0, (hS k hk).2.1⟩, Finset.mem_univ _⟩
    refine le_trans (measure_mono fun ω hω => ?_) (htail _ (by positivity))
    have h1 := total_root (s := s) (S := S) (hnn ω (ν ω) (θ ω) (e1 ω)) (fun k hk i => (hE0 k hk i).le)
    refine le_trans ?_ h1
    show δ ^ 2 * eventsExpected s S ν₀ θ₀ ≤ (Real.sqrt (eventsExpected s S (ν ω) (θ ω)) - Real.sqrt (eventsExpected s S ν₀ θ₀)) ^ 2
    have hm := Real.sqrt_pos.mpr hM
    have e : Real.sqrt (eventsExpected s S (ν ω) (θ ω)) - Real.sqrt (eventsExpected s S ν₀ θ₀) =
        (Real.sqrt (eventsExpected s S (ν ω) (θ ω) / eventsExpected s S ν₀ θ₀) - 1) * Real.sqrt (eventsExpected s S ν₀ θ₀) := by
      rw [Real.sqrt_div' _ hM.le]
      field_simp
    rw [e, mul_pow, Real.sq_sqrt hM.le]
    refine mul_le_mul_of_nonneg_right ?_ hM.le
    rw [← sq_abs (_ - 1)]
    exact pow_le_pow_left₀ hδ.le hω 2

/-- optimisers that find true constrained minima never make things worse -/
theorem neverWorse_of_true {o : Optim} (h1 : TrueMin o) (h2 : TrueMinScipy o) : NeverWorse o := by
  constructor
  · intro c r hr hf v hv
    obtain ⟨t1, t2, t3, t4⟩ := h1 c r hr
    exact ⟨t1.1.trans hf.1.symm, t2, t3, t4 _ _ hf hv⟩
  · intro c r hr hs hf v hv
    obtain ⟨t1, t2, t3, t4⟩ := h2 c r hr hs
    exact ⟨t1.1, t2, t3, t4 _ _ hf hv⟩

theorem Ex.optMin_neverWorse : NeverWorse Ex.optMin :=
  neverWorse_of_true Ex.optMin_true (by intro c r h; simp only [Ex.optMin] at h; cases h)

/-- non-vacuity of C140: the two-channel example with four bins and 8 expected events, the fitted yield bounded from below by 0, nuisance parameters fixed. The fit of every toy data set
returns, and the probability of a fitted yield of 200 or more is at most 1/8. -/
example : ∃ (Ω : Type) (_ : MeasurableSpace Ω) (P : Measure Ω) (draw : Ω → ℕ → Vec → ℕ → ℕ) (r : Ω → MinResult) (Y : Ω → ℝ), NeverWorse Ex.optMin ∧
    (∀ ω, ((fitRun "iminuit" [.bound (.str "p_yield") (some (.fin 0), none)]).doFit Ex.optMin (Ex.sysQ.step (.addToy (draw ω))).w
      (Ex.sysQ.step (.addToy (draw ω))).m false true true none).1 = .ok (r ω)) ∧
    (∀ ω, (r ω).params.values[0]? = some (.fin (Y ω))) ∧ P {ω | 200 ≤ Y ω} ≤ 1 / 8 := by
  obtain ⟨Ω, mΩ, P, draw, h1, h2⟩ := poisson_gen_all Ex.sysQ (reachable_wf Ex.sysQ_built.reachable) Ex.SQ (presentIn Ex.SQ Ex.yQ fun _ _ _ => 0)
  have htup : ∀ c ∈ Ex.sysQ.m.chanIds, AllTuple (Ex.sysQ.w.chans c).range := by
    simp [Ex.sysQ, Ex.mQ, Mct.chanIds, Ex.wQ, Ex.chQa, Ex.chQb, AllTuple]
  have hne : Ex.sysQ.m.channels ≠ [] := by simp [Ex.sysQ, Ex.mQ]
  have hnc : Ex.sysQ.m.constrained = [] := by simp [Ex.sysQ, Ex.mQ]
  have hone : Ex.sysQ.m.processes = ["p"] := by simp [Ex.sysQ, Ex.mQ]
  have hlen2 : Ex.sysQ.m.chanIds.length = 2 := by simp [Ex.sysQ, Ex.mQ, Mct.chanIds]
  have hT0 : NonZeroSums Ex.sysQ Ex.SQ (fun _ _ _ => 0) := by
    intro k hk j
    simpa using Ex.sumsQ k hk j
  have hpos' : ∀ k < Ex.sysQ.m.chanIds.length, ∀ i, 0 < presentIn Ex.SQ Ex.yQ (fun _ _ _ => 0) k i := by
    intro k hk i
    refine lt_of_lt_of_le (by norm_num : (0:ℝ) < 1e-100) ((Ex.posQ k hk i).trans_eq ?_)
    simp [presentIn]
  have hν : ∀ p ∈ Ex.sysQ.m.processes, Ex.sysQ.m.getYield Ex.sysQ.w p = .ok (.fin ((fun _ => 8 : String → ℝ) p)) := by
    simp only [Ex.sysQ]; intro p hp; simp [Ex.mQ] at hp; subst hp; exact Ex.yieldQ
  have hused := allUsed_of_identifiable Ex.identQ
  have hg : ∀ k < Ex.sysQ.m.chanIds.length, ∀ i, 0 < expectedIn Ex.sysQ Ex.SQ (fun _ => 1) (fun _ _ _ => 0) k i := by
    intro k hk i
    have e : expectedIn Ex.sysQ Ex.SQ (fun _ => 1) (fun _ _ _ => 0) k i = 1 / 8 * presentIn Ex.SQ Ex.yQ (fun _ _ _ => 0) k i := by
      rw [expectedIn_eq]
      unfold presentIn fracIn
      rw [Finset.mul_sum]
      refine Finset.sum_congr rfl fun j _ => ?_
      rw [Ex.shareQ k hk j]
      ring
    rw [e]
    have := hpos' k hk i
    positivity
  have heff : ∀ k < Ex.sysQ.m.chanIds.length, ∀ j, 0 ≤ (Ex.SQ k).eff j := by
    intro k hk
    rcases Ex.chanQ k hk with rfl | rfl
    · intro j; show (0:ℝ) ≤ 1/4; norm_num
    · intro j; show (0:ℝ) ≤ 3/4; norm_num
  have hfr : ∀ k < Ex.sysQ.m.chanIds.length, ∀ j i, 0 ≤ fracIn Ex.SQ (fun _ _ _ => 0) k j i := by
    intro k hk
    rcases Ex.chanQ k hk with rfl | rfl
    · intro j
      show ∀ i : Fin 2, 0 ≤ (![1, 1] : Fin 2 → ℝ) i * (1 + 0 * ((![1, 1] : Fin 2 → ℝ) i / (![1, 1] : Fin 2 → ℝ) i)) /
        ∑ i' : Fin 2, (![1, 1] : Fin 2 → ℝ) i' * (1 + 0 * ((![1, 1] : Fin 2 → ℝ) i' / (![1, 1] : Fin 2 → ℝ) i'))
      intro i
      fin_cases i <;> simp <;> norm_num
    · intro j i
      unfold fracIn
      have hc : ∀ i, 0 ≤ (Ex.SQ 1).cnt j i := by
        show ∀ i : Fin 2, 0 ≤ (![2, 4] : Fin 2 → ℝ) i
        intro i; fin_cases i <;> simp
      simp only [zero_mul, add_zero, mul_one]
      exact div_nonneg (hc i) (Finset.sum_nonneg fun i _ => hc i)
  have hx0 := x0_eq Ex.sysQ Ex.sysQ_built.reachable hne Ex.SQ Ex.modelQ Ex.yQ _ Ex.paramsQ (fun _ => 8) hν
  have hfit : ∀ ω, ∃ r, ((fitRun "iminuit" [.bound (.str "p_yield") (some (.fin 0), none)]).doFit Ex.optMin (Ex.sysQ.step (.addToy (draw ω))).w
      (Ex.sysQ.step (.addToy (draw ω))).m false true true none).1 = .ok r ∧ (∃ v : ℝ, r.fval = .fin v) ∧
      ∃ x : ℝ, 0 ≤ x ∧ r.params.values = paramVec Ex.sysQ Ex.SQ (fun _ => x) (fun _ _ _ => 0) := by
    intro ω
    obtain ⟨q1, q2, q3, q4, q5, q6, q7⟩ := toy_model Ex.sysQ Ex.sysQ_built Ex.SQ Ex.modelQ htup Ex.yQ _ Ex.paramsQ hT0 (fun k hk i => (hpos' k hk i).le) (draw ω)
    obtain ⟨n1, n2, n3⟩ := names_same (toy_same Ex.sysQ (draw ω)) Ex.sysQ.m
    rw [← q5 (fun _ => 8) (fun _ _ _ => 0)] at hx0
    obtain ⟨r, r1, r2, x, r3, r4⟩ := one_fit_at _ q1 (by rw [q2]; exact hne) Ex.SQ q3 _ q4 (fun k _ i => toyData_floor k i) (by rw [q2]; exact hnc) "p" (by rw [q2]; exact hone)
      (by unfold AllUsed; simp only [q2, q6]; exact hused) (by rw [q2]; exact heff) (fun _ _ _ => 0) (by unfold NonZeroSums; rw [q2]; exact hT0) (by rw [q2]; exact hfr)
      (by rw [q2]; simp only [q7]; exact hg) (fun _ => 8) (by rw [q2, n3]; exact hx0) _ (by rw [q2, n1]; exact Ex.denQ)
    exact ⟨r, r1, r2, x, r3, by rw [r4, q5]⟩
  choose r r1 r2 Y r3 r4 using hfit
  have hw := reachable_wf Ex.sysQ_built.reachable
  have hY : ∀ ω ν θ, (r ω).params.values = paramVec Ex.sysQ Ex.SQ ν θ → ∀ k < Ex.sysQ.m.chanIds.length, ∀ i,
      expectedIn Ex.sysQ Ex.SQ ν θ k i = Y ω * expectedIn Ex.sysQ Ex.SQ (fun _ => 1) (fun _ _ _ => 0) k i := by
    intro ω ν θ he k hk i
    rw [← expectedIn_const]
    rw [r4 ω] at he
    exact ((paramVec_expected hw Ex.modelQ he).2 k hk i).symm
  obtain ⟨ν, θ, t1, -, -, t4⟩ := C140_toys Ex.sysQ Ex.sysQ_built hne Ex.SQ Ex.modelQ hused htup Ex.yQ _ Ex.paramsQ hT0 (fun _ => 8) hν Ex.shareQ hpos'
    (fun _ => 0) (fun _ => 1) (by intro p hp; rw [hnc] at hp; cases hp) P draw h1 (fun _ => Ex.optMin) (fun _ => Ex.optMin_neverWorse) "iminuit" (.inl lower_iminuit)
    [.bound (.str "p_yield") (some (.fin 0), none)] ⟨by simp, by intro q b h; simp at h; exact ⟨0, by rw [h.1]; exact Ex.denQ⟩⟩ false true true none
    (by
      intro pid b hm k v hd hv
      simp at hm
      rw [hm.1] at hd
      obtain rfl : k = 0 := by
        have h3 := (denotes_iff _ _ _).mp hd
        have h4 := (denotes_iff _ _ _).mp Ex.denQ
        simpa [h4] using h3.symm
      have : v = .fin 8 := by
        unfold paramVec at hv; rw [hone] at hv; simpa using hv.symm
      rw [hm.2, this]
      refine ⟨fun lo h => ?_, fun _ h => by cases h⟩
      rw [← Option.some.inj h]
      left
      show (0:ℝ) < 8
      norm_num)
    (by intro b h; cases h) r r1 r2
    (by
      intro ω ν θ he k hk i
      rw [hY ω ν θ he k hk i]
      exact mul_nonneg (r3 ω) (hg k hk i).le)
  refine ⟨Ω, mΩ, P, draw, r, Y, Ex.optMin_neverWorse, r1, fun ω => ?_, ?_⟩
  · rw [r4 ω]; unfold paramVec; rw [hone]; rfl
  · have hS8 : eventsExpected Ex.sysQ Ex.SQ (fun _ => 8) (fun _ _ _ => 0) = 8 := by
      rw [eventsExpected_eq _ _ _ _ hT0, hlen2, Finset.sum_range_succ, Finset.sum_range_one]
      show (∑ j : Fin 1, 8 * (1/4:ℝ)) + ∑ j : Fin 1, 8 * (3/4:ℝ) = 8
      simp; norm_num
    have hev : ∀ ω, eventsExpected Ex.sysQ Ex.SQ (ν ω) (θ ω) = Y ω := by
      intro ω
      have : eventsExpected Ex.sysQ Ex.SQ (ν ω) (θ ω) = Y ω / 8 * eventsExpected Ex.sysQ Ex.SQ (fun _ => 8) (fun _ _ _ => 0) := by
        unfold eventsExpected
        rw [Finset.mul_sum]
        refine Finset.sum_congr rfl fun k hk => ?_
        rw [Finset.mul_sum]
        refine Finset.sum_congr rfl fun i _ => ?_
        rw [hY ω _ _ (t1 ω).1 k (Finset.mem_range.mp hk) i, expectedIn_const 8]
        ring
      rw [this, hS8]; ring
    have hb : binsTotal Ex.sysQ Ex.SQ = 4 := by
      unfold binsTotal
      rw [hlen2]; rfl
    have hp0 : penalties Ex.sysQ Ex.SQ (fun _ => 0) (fun _ => 1) (fun _ => 8) (fun _ _ _ => 0) = 0 := by
      unfold penalties
      have e : ∀ k ∈ Finset.range Ex.sysQ.m.chanIds.length, penalty (Ex.SQ k).R (fun _ _ => 0) = 0 :=
        fun k hk => (penalty_nonneg (Ex.modelQ k (Finset.mem_range.mp hk)).2.2.1 _).2.mpr rfl
      rw [hnc, Finset.sum_eq_zero e]
      simp
    have := t4 4 (by norm_num)
    rw [hb, hp0, hS8] at this
    refine le_trans (measure_mono fun ω hω => ?_) (this.trans ?_)
    · show 4 ≤ |Real.sqrt (eventsExpected Ex.sysQ Ex.SQ (ν ω) (θ ω) / 8) - 1|
      rw [hev ω]
      have h5 : (5:ℝ) ≤ Real.sqrt (Y ω / 8) := by
        apply Real.le_sqrt_of_sq_le
        have : (200:ℝ) ≤ Y ω := hω
        linarith
      exact le_trans (by linarith) (le_abs_self _)
    · rw [show ((4 * (4:ℕ) + 2 * 0) / (4 ^ 2 * 8) : ℝ) = 8⁻¹ by norm_num, ENNReal.ofReal_inv_of_pos (by norm_num)]
      simp

end

end TF.Props
