import Verif.Props.Consist
import Mathlib.Topology.Algebra.Module.FiniteDimension
import Mathlib.Analysis.Normed.Module.FiniteDimension

set_option linter.unusedSimpArgs false

/-!
# Fitted yields converge to the true yields (C142)
-/

namespace TF.Spec

open TF Classical

noncomputable section

/-- sum of the absolute differences of `a` and `b` over all bins of all channels -/
def binDistance (s : Sys) (S : ℕ → ChanSpec) (a b : ∀ k, Fin (S k).n → ℝ) : ℝ :=
  ∑ k ∈ Finset.range s.m.chanIds.length, ∑ i, |a k i - b k i|

/-- a change of the yields (nuisance parameters `θ`) changes the expectations at least by `1/C` times as much -/
def Resolves (s : Sys) (S : ℕ → ChanSpec) (θ : ∀ k, Fin (S k).K → Fin (S k).n → ℝ) (C : ℝ) : Prop :=
  ∀ δ : String → ℝ, ∑ p ∈ s.m.processes.toFinset, |δ p| ≤ C * binDistance s S (expectedIn s S δ θ) fun _ _ => 0

/-- no change of the yields leaves all expectations unchanged: the shapes of the processes are linearly independent -/
def ShapesSeparate (s : Sys) (S : ℕ → ChanSpec) (θ : ∀ k, Fin (S k).K → Fin (S k).n → ℝ) : Prop :=
  ∀ δ : String → ℝ, (∀ k < s.m.chanIds.length, ∀ i, expectedIn s S δ θ k i = 0) → ∀ p ∈ s.m.processes, δ p = 0

/-- Minuit leaves parameters flagged as fixed where they started -/
def KeepsFixed (o : Optim) : Prop :=
  ∀ c r, o.minuit c = .ok r → ∀ k < c.names.length, c.fix[k]? = some true → r.values[k]? = c.x0[k]?

end

end TF.Spec

namespace TF.Props

open Classical Spec MeasureTheory ProbabilityTheory
open scoped Matrix NNReal ENNReal

noncomputable section

/-! ### distances -/

/-- the sum of the absolute differences in terms of the distance of the roots -/
theorem binDistance_root {s : Sys} {S : ℕ → ChanSpec} {a b : ∀ k, Fin (S k).n → ℝ} (ha : ∀ k < s.m.chanIds.length, ∀ i, 0 ≤ a k i)
    (hb : ∀ k < s.m.chanIds.length, ∀ i, 0 ≤ b k i) {δ : ℝ} (hδ : 0 < δ)
    (h : (δ ^ 2 + 2 * δ) * ∑ k ∈ Finset.range s.m.chanIds.length, ∑ i, b k i ≤ binDistance s S a b) :
    δ ^ 2 * ∑ k ∈ Finset.range s.m.chanIds.length, ∑ i, b k i ≤ rootDistance s S a b := by
  -- one bin, for every weight `δ`: |a - b| ≤ (√a - √b)² (1 + 1/δ) + δ b
  have key : binDistance s S a b ≤ (1 + 1 / δ) * rootDistance s S a b + δ * ∑ k ∈ Finset.range s.m.chanIds.length, ∑ i, b k i := by
    unfold binDistance rootDistance
    rw [Finset.mul_sum, Finset.mul_sum, ← Finset.sum_add_distrib]
    refine Finset.sum_le_sum fun k hk => ?_
    rw [Finset.mul_sum, Finset.mul_sum, ← Finset.sum_add_distrib]
    refine Finset.sum_le_sum fun i _ => ?_
    have hk := Finset.mem_range.mp hk
    obtain ⟨x, hx, hx2⟩ : ∃ x, 0 ≤ x ∧ x = Real.sqrt (a k i) := ⟨_, Real.sqrt_nonneg _, rfl⟩
    obtain ⟨y, hy, hy2⟩ : ∃ y, 0 ≤ y ∧ y = Real.sqrt (b k i) := ⟨_, Real.sqrt_nonneg _, rfl⟩
    have e1 : a k i = x ^ 2 := by rw [hx2, Real.sq_sqrt (ha k hk i)]
    have e2 : b k i = y ^ 2 := by rw [hy2, Real.sq_sqrt (hb k hk i)]
    rw [e1, e2, Real.sqrt_sq hx, Real.sqrt_sq hy]
    have h1 : x ^ 2 - y ^ 2 = (x - y) ^ 2 + 2 * ((x - y) * y) := by ring
    have h2 : |(x - y) * y| * 2 ≤ 1 / δ * (x - y) ^ 2 + δ * y ^ 2 := by
      have h3 : 0 ≤ (|x - y| - δ * y) ^ 2 / δ := by positivity
      have h4 : (|x - y| - δ * y) ^ 2 / δ = 1 / δ * (x - y) ^ 2 - 2 * (|x - y| * y) + δ * y ^ 2 := by
        rw [← sq_abs (x - y)]
        field_simp
        ring
      rw [abs_mul, abs_of_nonneg hy]
      linarith
    rw [h1]
    refine (abs_add_le _ _).trans ?_
    rw [abs_of_nonneg (sq_nonneg _), abs_mul, abs_two]
    linarith
  set M := ∑ k ∈ Finset.range s.m.chanIds.length, ∑ i, b k i
  have h5 : (1 + δ) * δ * M ≤ (1 + 1 / δ) * rootDistance s S a b := by linarith
  have h6 : (1 + 1 / δ) * rootDistance s S a b = (1 + δ) * (rootDistance s S a b / δ) := by field_simp; ring
  rw [h6, mul_assoc] at h5
  have h7 := le_of_mul_le_mul_left h5 (by positivity : (0:ℝ) < 1 + δ)
  rw [le_div_iff₀ hδ] at h7
  nlinarith

/-- linearly independent shapes are resolved -/
theorem C142_resolves (s : Sys) (h : s.Reachable) (S : ℕ → ChanSpec) (hS : ModelIs s S)
    (θ : ∀ k, Fin (S k).K → Fin (S k).n → ℝ) (hs : ShapesSeparate s S θ) : ∃ C, 0 < C ∧ Resolves s S θ C := by
  have hmem : ∀ k < s.m.chanIds.length, ∀ j : Fin (S k).K, procName s k j ∈ s.m.processes := fun k hk j => procName_mem (reachable_wf h) hS k hk j
  let Pr := s.m.processes.toFinset
  let ext : (Pr → ℝ) → String → ℝ := fun v p => if h : p ∈ Pr then v ⟨p, h⟩ else 0
  let f : (Pr → ℝ) →ₗ[ℝ] ((k : Fin s.m.chanIds.length) → Fin (S k).n → ℝ) :=
    { toFun := fun v k i => expectedIn s S (ext v) θ k i
      map_add' := by
        intro v w
        funext k i
        show expectedIn s S (ext (v + w)) θ k i = expectedIn s S (ext v) θ k i + expectedIn s S (ext w) θ k i
        have := expectedIn_comb s S (ext v) (ext w) θ 1 1 k i
        rw [one_mul, one_mul] at this
        rw [← this]
        congr 1
        funext p
        simp only [ext]
        split <;> simp
      map_smul' := by
        intro c v
        funext k i
        show expectedIn s S (ext (c • v)) θ k i = c * expectedIn s S (ext v) θ k i
        have := expectedIn_comb s S (ext v) (ext v) θ c 0 k i
        rw [zero_mul, add_zero] at this
        rw [← this]
        congr 1
        funext p
        simp only [ext]
        split <;> simp }
  have hker : LinearMap.ker f = ⊥ := by
    rw [LinearMap.ker_eq_bot']
    intro v hv
    funext p
    have := hs (ext v) (fun k hk i => congrFun (congrFun hv ⟨k, hk⟩) i) p.1 (List.mem_toFinset.mp p.2)
    simpa [ext, p.2] using this
  obtain ⟨K, hK, hanti⟩ := f.exists_antilipschitzWith hker
  have hcard : (0:ℝ) ≤ Pr.card := Nat.cast_nonneg _
  refine ⟨(Pr.card + 1) * K, by positivity, fun δ => ?_⟩
  let v : Pr → ℝ := fun p => δ p.1
  have hfv : ∀ k < s.m.chanIds.length, ∀ i, expectedIn s S (ext v) θ k i = expectedIn s S δ θ k i := by
    intro k hk i
    rw [expectedIn_eq, expectedIn_eq]
    refine Finset.sum_congr rfl fun j _ => ?_
    have : procName s k j ∈ Pr := List.mem_toFinset.mpr (hmem k hk j)
    simp only [ext, v, this, dif_pos]
  have hn : ‖v‖ ≤ K * ‖f v‖ := by
    have := hanti.le_mul_dist v 0
    simpa using this
  have hB0 : 0 ≤ binDistance s S (expectedIn s S δ θ) fun _ _ => 0 :=
    Finset.sum_nonneg fun _ _ => Finset.sum_nonneg fun _ _ => abs_nonneg _
  have hfn : ‖f v‖ ≤ binDistance s S (expectedIn s S δ θ) fun _ _ => 0 := by
    rw [pi_norm_le_iff_of_nonneg hB0]
    intro k
    rw [pi_norm_le_iff_of_nonneg hB0]
    intro i
    show ‖expectedIn s S (ext v) θ k i‖ ≤ _
    rw [hfv k k.2 i, Real.norm_eq_abs]
    unfold binDistance
    refine le_trans ?_ (Finset.single_le_sum (f := fun k => ∑ i, |expectedIn s S δ θ k i - 0|)
      (fun k _ => Finset.sum_nonneg fun _ _ => abs_nonneg _) (Finset.mem_range.mpr k.2))
    refine le_trans ?_ (Finset.single_le_sum (f := fun i => |expectedIn s S δ θ k i - 0|) (fun i _ => abs_nonneg _) (Finset.mem_univ i))
    simp
  have hp : ∀ p ∈ Pr, |δ p| ≤ K * binDistance s S (expectedIn s S δ θ) fun _ _ => 0 := by
    intro p hp
    have h1 := norm_le_pi_norm v ⟨p, hp⟩
    exact h1.trans (hn.trans (mul_le_mul_of_nonneg_left hfn K.2))
  refine (Finset.sum_le_card_nsmul _ _ _ hp).trans ?_
  rw [nsmul_eq_mul, mul_assoc]
  refine mul_le_mul_of_nonneg_right ?_ (mul_nonneg K.2 hB0)
  show (Pr.card : ℝ) ≤ _
  linarith

/-! ### toy studies -/

/-- **C142, bins.** The setting of `C140_toys`. The probability that the fitted expectations are off by the fraction `δ² + 2δ` of all events falls at least as fast as one over the expected
number of events. -/
theorem C142_bins (s : Sys) (h : s.Built) (hne : s.m.channels ≠ []) (S : ℕ → ChanSpec) (hS : ModelIs s S) (hused : AllUsed s S)
    (htup : ∀ c ∈ s.m.chanIds, AllTuple (s.w.chans c).range)
    (y : ∀ k, Fin (S k).K → ℝ) (θ₀ : ∀ k, Fin (S k).K → Fin (S k).n → ℝ) (hp : ParamsAre s S y θ₀) (hT0 : NonZeroSums s S θ₀)
    (ν₀ : String → ℝ) (hν : ∀ p ∈ s.m.processes, s.m.getYield s.w p = .ok (.fin (ν₀ p)))
    (hshare : ∀ k < s.m.chanIds.length, ∀ j, y k j = ν₀ (procName s k j) * (S k).eff j)
    (hpos : ∀ k < s.m.chanIds.length, ∀ i, 0 < presentIn S y θ₀ k i)
    (V E : String → ℝ) (hc : ConstraintsAre s V E)
    {Ω : Type} [MeasurableSpace Ω] (P : Measure Ω) (draw : Ω → ℕ → Vec → ℕ → ℕ) (hd : PoissonLaw P s S (presentIn S y θ₀) draw)
    (o : Ω → Optim) (ho : ∀ ω, NeverWorse (o ω)) (id : String) (hid : id.toLower = "iminuit" ∨ id.toLower = "scipy") (hist : List FitOp)
    (hk : KnownIds (s.m.paramNames s.w) hist) (up g fixNui : Bool) (lim : Option Bounds)
    (hb : ∀ pid b, FitOp.bound pid b ∈ hist → ∀ k v, Denotes (s.m.paramNames s.w) pid k → (paramVec s S ν₀ θ₀)[k]? = some v → InBounds b v)
    (hlim : ∀ b, lim = some b → ∀ k v, s.m.numProcesses ≤ k → (paramVec s S ν₀ θ₀)[k]? = some v → InBounds b v)
    (r : Ω → MinResult)
    (hr : ∀ ω, ((fitRun id hist).doFit (o ω) (s.step (.addToy (draw ω))).w (s.step (.addToy (draw ω))).m up g fixNui lim).1 = .ok (r ω))
    (hv : ∀ ω, ∃ v : ℝ, (r ω).fval = .fin v)
    (hnn : ∀ ω ν θ, (r ω).params.values = paramVec s S ν θ → ∀ k < s.m.chanIds.length, ∀ i, 0 ≤ expectedIn s S ν θ k i) :
    ∃ (ν : Ω → String → ℝ) (θ : Ω → ∀ k, Fin (S k).K → Fin (S k).n → ℝ),
      (∀ ω, (r ω).params.values = paramVec s S (ν ω) (θ ω)) ∧
      ∀ δ : ℝ, 0 < δ →
        P {ω | (δ ^ 2 + 2 * δ) * eventsExpected s S ν₀ θ₀ ≤ binDistance s S (expectedIn s S (ν ω) (θ ω)) (expectedIn s S ν₀ θ₀)} ≤
          ENNReal.ofReal ((4 * binsTotal s S + 2 * penalties s S V E ν₀ θ₀) / (δ ^ 2 * eventsExpected s S ν₀ θ₀)) := by
  obtain ⟨ν, θ, t1, -, t3, -⟩ := C140_toys s h hne S hS hused htup y θ₀ hp hT0 ν₀ hν hshare hpos V E hc P draw hd o ho id hid hist hk up g fixNui lim
    hb hlim r hr hv hnn
  have hN : 0 < s.m.chanIds.length := by
    rw [List.length_pos_iff]; simpa [Mct.chanIds] using hne
  have hE0 : ∀ k < s.m.chanIds.length, ∀ i, 0 < expectedIn s S ν₀ θ₀ k i := by
    intro k hk i
    have : expectedIn s S ν₀ θ₀ k i = presentIn S y θ₀ k i := by
      rw [expectedIn_eq]
      unfold presentIn fracIn
      refine Finset.sum_congr rfl fun j _ => ?_
      rw [hshare k hk j]
    rw [this]; exact hpos k hk i
  have hM : 0 < eventsExpected s S ν₀ θ₀ := by
    refine Finset.sum_pos (fun k hk => ?_) ⟨0, Finset.mem_range.mpr hN⟩
    have hk := Finset.mem_range.mp hk
    exact Finset.sum_pos (fun i _ => hE0 k hk i) ⟨⟨0, (hS k hk).2.1⟩, Finset.mem_univ _⟩
  refine ⟨ν, θ, fun ω => (t1 ω).1, fun δ hδ => ?_⟩
  refine le_trans (measure_mono fun ω hω => ?_) (t3 (δ ^ 2 * eventsExpected s S ν₀ θ₀) (by positivity))
  exact binDistance_root (hnn ω _ _ (t1 ω).1) (fun k hk i => (hE0 k hk i).le) hδ hω

/-- **C142, yields.** Toy data sets are fitted with Minuit and the nuisance parameters fixed (`do_fit(fix_nui_params=True)`), in a model whose process shapes are resolved with the
constant `C`. The probability that the fitted yield of any process is off by `C·(δ² + 2δ)` times the expected number of events falls at least as fast as one over this number. -/
theorem C142_yields (s : Sys) (h : s.Built) (hne : s.m.channels ≠ []) (S : ℕ → ChanSpec) (hS : ModelIs s S) (hused : AllUsed s S)
    (htup : ∀ c ∈ s.m.chanIds, AllTuple (s.w.chans c).range)
    (y : ∀ k, Fin (S k).K → ℝ) (θ₀ : ∀ k, Fin (S k).K → Fin (S k).n → ℝ) (hp : ParamsAre s S y θ₀) (hT0 : NonZeroSums s S θ₀)
    (ν₀ : String → ℝ) (hν : ∀ p ∈ s.m.processes, s.m.getYield s.w p = .ok (.fin (ν₀ p)))
    (hshare : ∀ k < s.m.chanIds.length, ∀ j, y k j = ν₀ (procName s k j) * (S k).eff j)
    (hpos : ∀ k < s.m.chanIds.length, ∀ i, 0 < presentIn S y θ₀ k i)
    (V E : String → ℝ) (hc : ConstraintsAre s V E) (C : ℝ) (hC : Resolves s S θ₀ C) (hC0 : 0 < C)
    {Ω : Type} [MeasurableSpace Ω] (P : Measure Ω) (draw : Ω → ℕ → Vec → ℕ → ℕ) (hd : PoissonLaw P s S (presentIn S y θ₀) draw)
    (o : Ω → Optim) (ho : ∀ ω, NeverWorse (o ω)) (hfix : ∀ ω, KeepsFixed (o ω)) (id : String) (hid : id.toLower = "iminuit") (hist : List FitOp)
    (hk : KnownIds (s.m.paramNames s.w) hist) (up g : Bool) (lim : Option Bounds)
    (hb : ∀ pid b, FitOp.bound pid b ∈ hist → ∀ k v, Denotes (s.m.paramNames s.w) pid k → (paramVec s S ν₀ θ₀)[k]? = some v → InBounds b v)
    (hlim : ∀ b, lim = some b → ∀ k v, s.m.numProcesses ≤ k → (paramVec s S ν₀ θ₀)[k]? = some v → InBounds b v)
    (r : Ω → MinResult)
    (hr : ∀ ω, ((fitRun id hist).doFit (o ω) (s.step (.addToy (draw ω))).w (s.step (.addToy (draw ω))).m up g true lim).1 = .ok (r ω))
    (hv : ∀ ω, ∃ v : ℝ, (r ω).fval = .fin v)
    (hnn : ∀ ω ν, (r ω).params.values = paramVec s S ν θ₀ → ∀ k < s.m.chanIds.length, ∀ i, 0 ≤ expectedIn s S ν θ₀ k i) :
    ∃ ν : Ω → String → ℝ, (∀ ω, (r ω).params.values = paramVec s S (ν ω) θ₀) ∧
      ∀ δ : ℝ, 0 < δ →
        P {ω | ∃ p ∈ s.m.processes, C * (δ ^ 2 + 2 * δ) * eventsExpected s S ν₀ θ₀ ≤ |ν ω p - ν₀ p|} ≤
          ENNReal.ofReal ((4 * binsTotal s S + 2 * penalties s S V E ν₀ θ₀) / (δ ^ 2 * eventsExpected s S ν₀ θ₀)) := by
  have hw := reachable_wf h.reachable
  have hx0 := x0_eq s h.reachable hne S hS y θ₀ hp ν₀ hν
  have hplen := paramVec_length hw hS ν₀ θ₀
  have hal := C51_aligned s h.reachable
  -- the nuisance parameters stay
  have hstay : ∀ ω k, s.m.numProcesses ≤ k → k < s.m.numProcesses + s.m.numNui s.w → (r ω).params.values[k]? = (paramVec s S ν₀ θ₀)[k]? := by
    intro ω k hk1 hk2
    obtain ⟨n1, n2, n3⟩ := names_same (toy_same s (draw ω)) s.m
    obtain ⟨q1, q2, -, -, -, -, -⟩ := toy_model s h S hS htup y θ₀ hp hT0 (fun k hk i => (hpos k hk i).le) (draw ω)
    have hal' := C51_aligned _ q1.reachable
    have hz := setup_eq (kd := .iminuit) (id := id) hal'.1.symm (h := hist) (by rw [q2, n1]; exact hk) true lim
    have hzw := minRun_wf .iminuit ((s.step (.addToy (draw ω))).m.paramNames (s.step (.addToy (draw ω))).w)
      (setupOps (fitRun id hist) (s.step (.addToy (draw ω))).m.numProcesses ((s.step (.addToy (draw ω))).m.numNui (s.step (.addToy (draw ω))).w) true lim)
    obtain ⟨x1, q, hx1, hq, hf, hval⟩ := doFit_minuit_inv' (by rw [fitRun_id]; exact minKind_iminuit hid) hz hzw.hk (hr ω)
    have hx1' : s.m.x0 s.w = .ok x1 := by rw [← hx1, q2]; exact n3.symm
    rw [hx0] at hx1'
    obtain rfl := Except.ok.inj hx1'
    rw [hval]
    have hkn : k < ((s.step (.addToy (draw ω))).m.paramNames (s.step (.addToy (draw ω))).w).length := by
      rw [q2, n1, hal.1]; exact hk2
    refine hfix ω _ _ hq k (lt_of_lt_of_eq hkn (congrArg List.length hzw.hn.symm)) ?_
    rw [C58_iminuit, List.getElem?_map, List.getElem?_range hkn]
    simp only [Option.map_some, Option.some.injEq, decide_eq_true_eq]
    refine (setup_fixed hal'.1.symm true lim k hkn).mpr (.inr ⟨rfl, ?_⟩)
    rw [q2]; exact hk1
  have hpv : ∀ ω ν θ, (r ω).params.values = paramVec s S ν θ → paramVec s S ν θ = paramVec s S ν θ₀ := by
    intro ω ν θ he
    have h1 := hstay ω
    rw [he] at h1
    apply List.ext_getElem?
    intro k
    rcases lt_or_ge k s.m.numProcesses with h2 | h2
    · unfold paramVec
      have h3 : k < (s.m.processes.map fun p => Fl.fin (ν p)).length := by simpa [Mct.numProcesses] using h2
      rw [List.getElem?_append_left h3, List.getElem?_append_left h3]
    · rcases lt_or_ge k (s.m.numProcesses + s.m.numNui s.w) with h3 | h3
      · rw [h1 k h2 h3]
        unfold paramVec
        have h4 : ∀ ν : String → ℝ, (s.m.processes.map fun p => Fl.fin (ν p)).length ≤ k := by intro ν; simpa [Mct.numProcesses] using h2
        rw [List.getElem?_append_right (h4 _), List.getElem?_append_right (h4 _)]
        simp
      · rw [List.getElem?_eq_none (by rw [paramVec_length hw hS]; exact h3), List.getElem?_eq_none (by rw [paramVec_length hw hS]; exact h3)]
  obtain ⟨ν, θ, t1, t2⟩ := C142_bins s h hne S hS hused htup y θ₀ hp hT0 ν₀ hν hshare hpos V E hc P draw hd o ho id (.inl hid) hist hk up g true lim
    hb hlim r hr hv (by
      intro ω ν θ he k hk i
      have e := hpv ω ν θ he
      rw [(paramVec_expected hw hS e).2 k hk i]
      exact hnn ω ν (he.trans e) k hk i)
  have t3 : ∀ ω, (r ω).params.values = paramVec s S (ν ω) θ₀ := fun ω => (t1 ω).trans (hpv ω _ _ (t1 ω))
  refine ⟨ν, t3, fun δ hδ => le_trans (measure_mono fun ω hω => ?_) (t2 δ hδ)⟩
  obtain ⟨p, hp, hω⟩ := hω
  have h1 := hC fun p => ν ω p - ν₀ p
  have h2 : binDistance s S (expectedIn s S (fun p => ν ω p - ν₀ p) θ₀) (fun _ _ => 0) =
      binDistance s S (expectedIn s S (ν ω) (θ ω)) (expectedIn s S ν₀ θ₀) := by
    unfold binDistance
    refine Finset.sum_congr rfl fun k hk => Finset.sum_congr rfl fun i _ => ?_
    have h3 := expectedIn_comb s S (ν ω) ν₀ θ₀ 1 (-1) k i
    have h4 : (fun p => 1 * ν ω p + -1 * ν₀ p) = fun p => ν ω p - ν₀ p := by funext p; ring
    rw [h4] at h3
    rw [h3, (paramVec_expected hw hS (hpv ω _ _ (t1 ω))).2 k (Finset.mem_range.mp hk) i]
    congr 1; ring
  rw [h2] at h1
  have h5 : |ν ω p - ν₀ p| ≤ ∑ p ∈ s.m.processes.toFinset, |ν ω p - ν₀ p| :=
    Finset.single_le_sum (f := fun p => |ν ω p - ν₀ p|) (fun _ _ => abs_nonneg _) (List.mem_toFinset.mpr hp)
  have h6 := hω.trans (h5.trans h1)
  rw [mul_assoc] at h6
  exact le_of_mul_le_mul_left h6 hC0

/-- **C142, more and more events.** A model with linearly independent shapes and non-zero yields `ν₁`. For every `ε` there is a constant `K` such that for every luminosity `L`: when all yields
are `L` times as large and toy data sets are fitted (iminuit, nuisance parameters fixed, any optimiser that never makes things worse), the probability that some fitted yield is off by more
than the fraction `ε` is at most `K/L`. -/
theorem C142_luminosity (s₁ : Sys) (h₁ : s₁.Built) (hne : s₁.m.channels ≠ []) (S : ℕ → ChanSpec) (hS₁ : ModelIs s₁ S)
    (θ₀ : ∀ k, Fin (S k).K → Fin (S k).n → ℝ) (hsep : ShapesSeparate s₁ S θ₀) (ν₁ : String → ℝ) (hν₁ : ∀ p ∈ s₁.m.processes, ν₁ p ≠ 0)
    (hpos : ∀ k < s₁.m.chanIds.length, ∀ i, 0 < expectedIn s₁ S ν₁ θ₀ k i) (W ε : ℝ) (hε : 0 < ε) :
    ∃ K : ℝ, ∀ (s : Sys) (L : ℝ), 0 < L → s.Built → s.m = s₁.m → (∀ k j, procName s k j = procName s₁ k j) → ModelIs s S → AllUsed s S →
      (∀ c ∈ s.m.chanIds, AllTuple (s.w.chans c).range) → NonZeroSums s S θ₀ →
      ∀ (y : ∀ k, Fin (S k).K → ℝ), ParamsAre s S y θ₀ → (∀ p ∈ s.m.processes, s.m.getYield s.w p = .ok (.fin (L * ν₁ p))) →
      (∀ k < s.m.chanIds.length, ∀ j, y k j = L * ν₁ (procName s k j) * (S k).eff j) →
      ∀ (V E : String → ℝ), ConstraintsAre s V E → penalties s S V E (fun p => L * ν₁ p) θ₀ ≤ W →
      ∀ {Ω : Type} [MeasurableSpace Ω] (P : Measure Ω) (draw : Ω → ℕ → Vec → ℕ → ℕ), PoissonLaw P s S (presentIn S y θ₀) draw →
      ∀ (o : Ω → Optim), (∀ ω, NeverWorse (o ω)) → (∀ ω, KeepsFixed (o ω)) →
      ∀ (id : String), id.toLower = "iminuit" → ∀ (hist : List FitOp), KnownIds (s.m.paramNames s.w) hist → ∀ (up g : Bool) (lim : Option Bounds),
      (∀ pid b, FitOp.bound pid b ∈ hist → ∀ k v, Denotes (s.m.paramNames s.w) pid k → (paramVec s S (fun p => L * ν₁ p) θ₀)[k]? = some v → InBounds b v) →
      (∀ b, lim = some b → ∀ k v, s.m.numProcesses ≤ k → (paramVec s S (fun p => L * ν₁ p) θ₀)[k]? = some v → InBounds b v) →
      ∀ (r : Ω → MinResult),
      (∀ ω, ((fitRun id hist).doFit (o ω) (s.step (.addToy (draw ω))).w (s.step (.addToy (draw ω))).m up g true lim).1 = .ok (r ω)) →
      (∀ ω, ∃ v : ℝ, (r ω).fval = .fin v) →
      (∀ ω ν, (r ω).params.values = paramVec s S ν θ₀ → ∀ k < s.m.chanIds.length, ∀ i, 0 ≤ expectedIn s S ν θ₀ k i) →
      ∃ ν : Ω → String → ℝ, (∀ ω, (r ω).params.values = paramVec s S (ν ω) θ₀) ∧
        P {ω | ∃ p ∈ s.m.processes, ε * |L * ν₁ p| ≤ |ν ω p - L * ν₁ p|} ≤ ENNReal.ofReal (K / L) := by
  obtain ⟨C, hC0, hC⟩ := C142_resolves s₁ h₁.reachable S hS₁ θ₀ hsep
  have hN : 0 < s₁.m.chanIds.length := by
    rw [List.length_pos_iff]; simpa [Mct.chanIds] using hne
  have hM : 0 < eventsExpected s₁ S ν₁ θ₀ := by
    refine Finset.sum_pos (fun k hk => ?_) ⟨0, Finset.mem_range.mpr hN⟩
    have hk := Finset.mem_range.mp hk
    exact Finset.sum_pos (fun i _ => hpos k hk i) ⟨⟨0, (hS₁ k hk).2.1⟩, Finset.mem_univ _⟩
  set M := eventsExpected s₁ S ν₁ θ₀ with hMd
  -- a small `δ`
  obtain ⟨m, hm0, hm⟩ : ∃ m : ℝ, 0 < m ∧ ∀ p ∈ s₁.m.processes, m ≤ |ν₁ p| := by
    clear_value M
    revert hν₁
    generalize s₁.m.processes = l
    intro hν₁
    induction l with
    | nil => exact ⟨1, one_pos, by simp⟩
    | cons p ps ih =>
      obtain ⟨m, h1, h2⟩ := ih fun q hq => hν₁ q (List.mem_cons_of_mem _ hq)
      refine ⟨min m |ν₁ p|, lt_min h1 (abs_pos.mpr (hν₁ p (by simp))), fun q hq => ?_⟩
      rcases List.mem_cons.mp hq with rfl | hq
      · exact min_le_right _ _
      · exact (min_le_left _ _).trans (h2 q hq)
  obtain ⟨δ, hδ0, hδ⟩ : ∃ δ : ℝ, 0 < δ ∧ C * (δ ^ 2 + 2 * δ) * M ≤ ε * m := by
    refine ⟨min 1 (ε * m / (3 * C * M)), lt_min one_pos (by positivity), ?_⟩
    set δ := min 1 (ε * m / (3 * C * M))
    have h1 : δ ≤ 1 := min_le_left _ _
    have h2 : δ ≤ ε * m / (3 * C * M) := min_le_right _ _
    have h0 : 0 < δ := lt_min one_pos (by positivity)
    rw [le_div_iff₀ (by positivity)] at h2
    have h3 : δ ^ 2 ≤ δ := by nlinarith
    have h4 : C * (δ ^ 2 + 2 * δ) * M ≤ C * (3 * δ) * M := by
      refine mul_le_mul_of_nonneg_right (mul_le_mul_of_nonneg_left (by linarith) hC0.le) hM.le
    linarith
  refine ⟨(4 * binsTotal s₁ S + 2 * W) / (δ ^ 2 * M), ?_⟩
  intro s L hL h hm' hpn hS hused htup hT0 y hp hν hshare V E hc hW Ω _ P draw hd o ho hfix id hid hist hk up g lim hb hlim r hr hv hnn
  have hex : ∀ ν k i, expectedIn s S ν θ₀ k i = expectedIn s₁ S ν θ₀ k i := by
    intro ν k i
    rw [expectedIn_eq, expectedIn_eq]
    simp only [hpn]
  have hexL : ∀ k i, expectedIn s S (fun p => L * ν₁ p) θ₀ k i = L * expectedIn s₁ S ν₁ θ₀ k i := by
    intro k i
    rw [hex]
    have := expectedIn_comb s₁ S ν₁ ν₁ θ₀ L 0 k i
    simpa using this
  have hpres : ∀ k < s.m.chanIds.length, ∀ i, 0 < presentIn S y θ₀ k i := by
    intro k hk i
    have : expectedIn s S (fun p => L * ν₁ p) θ₀ k i = presentIn S y θ₀ k i := by
      rw [expectedIn_eq]
      unfold presentIn fracIn
      refine Finset.sum_congr rfl fun j _ => ?_
      rw [hshare k hk j]
    rw [← this, hexL]
    exact mul_pos hL (hpos k (by rw [← hm']; exact hk) i)
  have hCs : Resolves s S θ₀ C := by
    intro δ
    have := hC δ
    rw [hm']
    refine this.trans_eq ?_
    unfold binDistance
    rw [hm']
    simp only [hex]
  have hML : eventsExpected s S (fun p => L * ν₁ p) θ₀ = L * M := by
    rw [hMd]
    unfold eventsExpected
    rw [hm', Finset.mul_sum]
    refine Finset.sum_congr rfl fun k _ => ?_
    rw [Finset.mul_sum]
    exact Finset.sum_congr rfl fun i _ => hexL k i
  obtain ⟨ν, t1, t2⟩ := C142_yields s h (by rw [hm']; exact hne) S hS hused htup y θ₀ hp hT0 (fun p => L * ν₁ p) hν hshare hpres V E hc C hCs hC0 P draw hd o ho
    hfix id hid hist hk up g lim hb hlim r hr hv hnn
  refine ⟨ν, t1, ?_⟩
  have hB : binsTotal s S = binsTotal s₁ S := by unfold binsTotal; rw [hm']
  have ht := t2 δ hδ0
  rw [hML, hB] at ht
  refine le_trans (measure_mono fun ω hω => ?_) (ht.trans (ENNReal.ofReal_le_ofReal ?_))
  · obtain ⟨p, hp, hω⟩ := hω
    refine ⟨p, hp, le_trans ?_ hω⟩
    have h1 := hm p (by rw [← hm']; exact hp)
    rw [abs_mul, abs_of_pos hL]
    have h2 : ε * m ≤ ε * |ν₁ p| := mul_le_mul_of_nonneg_left h1 hε.le
    have h3 := mul_le_mul_of_nonneg_left (hδ.trans h2) hL.le
    calc C * (δ ^ 2 + 2 * δ) * (L * M) = L * (C * (δ ^ 2 + 2 * δ) * M) := by ring
      _ ≤ L * (ε * |ν₁ p|) := h3
      _ = ε * (L * |ν₁ p|) := by ring
  · rw [div_div, mul_assoc, mul_comm M L]
    exact div_le_div_of_nonneg_right (by linarith) (by positivity)

/-- optimisers that find true constrained minima keep fixed parameters -/
theorem keepsFixed_of_true {o : Optim} (h : TrueMin o) : KeepsFixed o :=
  fun c r hr k hk hf => ((h c r hr).1.2 k hk).1 hf

/-! ### Example -/

theorem Ex.q_one : Ex.sysQ.m.processes = ["p"] := by simp [Ex.sysQ, Ex.mQ]
theorem Ex.q_len : Ex.sysQ.m.chanIds.length = 2 := by simp [Ex.sysQ, Ex.mQ, Mct.chanIds]
theorem Ex.q_nc : Ex.sysQ.m.constrained = [] := by simp [Ex.sysQ, Ex.mQ]
theorem Ex.q_ne : Ex.sysQ.m.channels ≠ [] := by simp [Ex.sysQ, Ex.mQ]
theorem Ex.q_tup : ∀ c ∈ Ex.sysQ.m.chanIds, AllTuple (Ex.sysQ.w.chans c).range := by
  simp [Ex.sysQ, Ex.mQ, Mct.chanIds, Ex.wQ, Ex.chQa, Ex.chQb, AllTuple]
theorem Ex.q_sums : NonZeroSums Ex.sysQ Ex.SQ (fun _ _ _ => 0) := by
  intro k hk j
  simpa using Ex.sumsQ k hk j
theorem Ex.q_pos : ∀ k < Ex.sysQ.m.chanIds.length, ∀ i, 0 < presentIn Ex.SQ Ex.yQ (fun _ _ _ => 0) k i := by
  intro k hk i
  refine lt_of_lt_of_le (by norm_num : (0:ℝ) < 1e-100) ((Ex.posQ k hk i).trans_eq ?_)
  simp [presentIn]
theorem Ex.q_yield : ∀ p ∈ Ex.sysQ.m.processes, Ex.sysQ.m.getYield Ex.sysQ.w p = .ok (.fin ((fun _ => 8 : String → ℝ) p)) := by
  simp only [Ex.sysQ]; intro p hp; simp [Ex.mQ] at hp; subst hp; exact Ex.yieldQ

theorem Ex.q_unit : ∀ k < Ex.sysQ.m.chanIds.length, ∀ i, 0 < expectedIn Ex.sysQ Ex.SQ (fun _ => 1) (fun _ _ _ => 0) k i := by
  intro k hk i
  have e : expectedIn Ex.sysQ Ex.SQ (fun _ => 1) (fun _ _ _ => 0) k i = 1 / 8 * presentIn Ex.SQ Ex.yQ (fun _ _ _ => 0) k i := by
    rw [expectedIn_eq]
    unfold presentIn fracIn
    rw [Finset.mul_sum]
    refine Finset.sum_congr rfl fun j _ => ?_
    rw [Ex.shareQ k hk j]
    ring
  rw [e]
  have := Ex.q_pos k hk i
  positivity

/-- every toy data set of the example can be fitted -/
theorem Ex.q_fit (draw : ℕ → Vec → ℕ → ℕ) :
    ∃ r, ((fitRun "iminuit" [.bound (.str "p_yield") (some (.fin 0), none)]).doFit Ex.optMin (Ex.sysQ.step (.addToy draw)).w
      (Ex.sysQ.step (.addToy draw)).m false true true none).1 = .ok r ∧ (∃ v : ℝ, r.fval = .fin v) ∧
      ∃ x : ℝ, 0 ≤ x ∧ r.params.values = paramVec Ex.sysQ Ex.SQ (fun _ => x) (fun _ _ _ => 0) := by
  have heff : ∀ k < Ex.sysQ.m.chanIds.length, ∀ j, 0 ≤ (Ex.SQ k).eff j := by
    intro k hk
    rcases Ex.chanQ k hk with rfl | rfl
    · intro j; show (0:ℝ) ≤ 1/4; norm_num
    · intro j; show (0:ℝ) ≤ 3/4; norm_num
  have hfr : ∀ k < Ex.sysQ.m.chanIds.length, ∀ j i, 0 ≤ fracIn Ex.SQ (fun _ _ _ => 0) k j i := by
    intro k hk j i
    unfold fracIn
    have hc : ∀ i, 0 ≤ (Ex.SQ k).cnt j i := by
      rcases Ex.chanQ k hk with rfl | rfl
      · show ∀ i : Fin 2, 0 ≤ (![1, 1] : Fin 2 → ℝ) i
        intro i; fin_cases i <;> simp
      · show ∀ i : Fin 2, 0 ≤ (![2, 4] : Fin 2 → ℝ) i
        intro i; fin_cases i <;> simp
    simp only [zero_mul, add_zero, mul_one]
    exact div_nonneg (hc i) (Finset.sum_nonneg fun i _ => hc i)
  have hx0 := x0_eq Ex.sysQ Ex.sysQ_built.reachable Ex.q_ne Ex.SQ Ex.modelQ Ex.yQ _ Ex.paramsQ (fun _ => 8) Ex.q_yield
  have hused := allUsed_of_identifiable Ex.identQ
  obtain ⟨q1, q2, q3, q4, q5, q6, q7⟩ := toy_model Ex.sysQ Ex.sysQ_built Ex.SQ Ex.modelQ Ex.q_tup Ex.yQ _ Ex.paramsQ Ex.q_sums (fun k hk i => (Ex.q_pos k hk i).le) draw
  obtain ⟨n1, n2, n3⟩ := names_same (toy_same Ex.sysQ draw) Ex.sysQ.m
  rw [← q5 (fun _ => 8) (fun _ _ _ => 0)] at hx0
  obtain ⟨r, r1, r2, x, r3, r4⟩ := one_fit_at _ q1 (by rw [q2]; exact Ex.q_ne) Ex.SQ q3 _ q4 (fun k _ i => toyData_floor k i) (by rw [q2]; exact Ex.q_nc) "p" (by rw [q2]; exact Ex.q_one)
    (by unfold AllUsed; simp only [q2, q6]; exact hused) (by rw [q2]; exact heff) (fun _ _ _ => 0) (by unfold NonZeroSums; rw [q2]; exact Ex.q_sums) (by rw [q2]; exact hfr)
    (by rw [q2]; simp only [q7]; exact Ex.q_unit) (fun _ => 8) (by rw [q2, n3]; exact hx0) _ (by rw [q2, n1]; exact Ex.denQ)
  exact ⟨r, r1, r2, x, r3, by rw [r4, q5]⟩

/-- the shapes of the example are linearly independent -/
theorem Ex.q_separate : ShapesSeparate Ex.sysQ Ex.SQ (fun _ _ _ => 0) := by
  intro δ hδ
  exact Ex.identQ δ hδ (by rw [Ex.q_nc]; intro p hp; cases hp)

/-- non-vacuity of C142: for the two-channel example there is a `K` such that for every luminosity …; at `L = 1` all the hypotheses are met by toy data sets (Poisson numbers) whose fits all
return. -/
example (ε : ℝ) (hε : 0 < ε) : ∃ K : ℝ, ∃ (Ω : Type) (_ : MeasurableSpace Ω) (P : Measure Ω) (draw : Ω → ℕ → Vec → ℕ → ℕ) (r : Ω → MinResult) (Y : Ω → ℝ),
    (∀ ω, ((fitRun "iminuit" [.bound (.str "p_yield") (some (.fin 0), none)]).doFit Ex.optMin (Ex.sysQ.step (.addToy (draw ω))).w
      (Ex.sysQ.step (.addToy (draw ω))).m false true true none).1 = .ok (r ω)) ∧
    (∀ ω, (r ω).params.values[0]? = some (.fin (Y ω))) ∧ P {ω | ε * 8 ≤ |Y ω - 8|} ≤ ENNReal.ofReal (K / 1) := by
  have hw := reachable_wf Ex.sysQ_built.reachable
  have hex8 : ∀ k < Ex.sysQ.m.chanIds.length, ∀ i, 0 < expectedIn Ex.sysQ Ex.SQ (fun _ => 8) (fun _ _ _ => 0) k i := by
    intro k hk i
    rw [expectedIn_const]
    exact mul_pos (by norm_num) (Ex.q_unit k hk i)
  obtain ⟨K, hK⟩ := C142_luminosity Ex.sysQ Ex.sysQ_built Ex.q_ne Ex.SQ Ex.modelQ (fun _ _ _ => 0) Ex.q_separate (fun _ => 8) (fun _ _ => by norm_num) hex8
    (penalties Ex.sysQ Ex.SQ (fun _ => 0) (fun _ => 1) (fun _ => 1 * 8) (fun _ _ _ => 0)) ε hε
  obtain ⟨Ω, mΩ, P, draw, h1, h2⟩ := poisson_gen_all Ex.sysQ hw Ex.SQ (presentIn Ex.SQ Ex.yQ fun _ _ _ => 0)
  choose r r1 r2 Y r3 r4 using fun ω => Ex.q_fit (draw ω)
  have e8 : (fun _ : String => (1:ℝ) * 8) = fun _ => 8 := by funext; norm_num
  obtain ⟨ν, t1, t2⟩ := hK Ex.sysQ 1 one_pos Ex.sysQ_built rfl (fun _ _ => rfl) Ex.modelQ (allUsed_of_identifiable Ex.identQ) Ex.q_tup Ex.q_sums Ex.yQ Ex.paramsQ
    (by rw [one_mul]; exact Ex.q_yield) (by simpa using Ex.shareQ) (fun _ => 0) (fun _ => 1) (by intro p hp; rw [Ex.q_nc] at hp; cases hp) le_rfl P draw h1
    (fun _ => Ex.optMin) (fun _ => Ex.optMin_neverWorse) (fun _ => keepsFixed_of_true Ex.optMin_true) "iminuit" lower_iminuit
    [.bound (.str "p_yield") (some (.fin 0), none)] ⟨by simp, by intro q b h; simp at h; exact ⟨0, by rw [h.1]; exact Ex.denQ⟩⟩ false true none
    (by
      intro pid b hm k v hd hv
      simp at hm
      rw [hm.1] at hd
      obtain rfl : k = 0 := by
        have h3 := (denotes_iff _ _ _).mp hd
        have h4 := (denotes_iff _ _ _).mp Ex.denQ
        simpa [h4] using h3.symm
      have : v = .fin 8 := by
        unfold paramVec at hv; rw [Ex.q_one] at hv; simpa using hv.symm
      rw [hm.2, this]
      refine ⟨fun lo h => ?_, fun _ h => by cases h⟩
      rw [← Option.some.inj h]
      left
      show (0:ℝ) < 8
      norm_num)
    (by intro b h; cases h) r r1 r2
    (by
      intro ω ν he k hk i
      have he := (r4 ω).symm.trans he
      rw [← (paramVec_expected hw Ex.modelQ he).2 k hk i, expectedIn_const]
      exact mul_nonneg (r3 ω) (Ex.q_unit k hk i).le)
  refine ⟨K, Ω, mΩ, P, draw, r, Y, r1, fun ω => by rw [r4 ω]; unfold paramVec; rw [Ex.q_one]; rfl, ?_⟩
  refine le_trans (measure_mono fun ω hω => ?_) t2
  have := (paramVec_expected hw Ex.modelQ ((r4 ω).symm.trans (t1 ω))).1 "p" (by rw [Ex.q_one]; simp)
  have hω : ε * 8 ≤ |Y ω - 8| := hω
  refine Set.mem_ofPred.mpr ⟨"p", by rw [Ex.q_one]; simp, ?_⟩
  rw [← this, one_mul, show |(8:ℝ)| = 8 by norm_num]
  exact hω

end

end TF.Props
