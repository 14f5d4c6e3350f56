import Verif.Props.ToyStat2
import Verif.Props.FitterProps17
import Verif.Props.ToyProps2

set_option linter.unusedSimpArgs false

/-!
# Fits to toy data are unbiased in the number of events (C137)
-/

namespace TF.Spec

open Classical MeasureTheory ProbabilityTheory

noncomputable section

/-- number of events drawn for a toy data set: the sum over all bins of all channels -/
def eventsDrawn (s : Sys) (S : ℕ → ChanSpec) (a : ∀ k, Fin (S k).n → ℝ) (draw : ℕ → Vec → ℕ → ℕ) : ℕ :=
  ∑ k ∈ Finset.range s.m.chanIds.length, ∑ i : Fin (S k).n, draw (s.m.chanIds.getD k 0) (vec (a k)) i

/-- number of events the model expects with the yields `ν` and nuisance parameters `θ`, all bins of all channels -/
def eventsExpected (s : Sys) (S : ℕ → ChanSpec) (ν : String → ℝ) (θ : ∀ k, Fin (S k).K → Fin (S k).n → ℝ) : ℝ :=
  ∑ k ∈ Finset.range s.m.chanIds.length, ∑ i, expectedIn s S ν θ k i

/-- the numbers drawn for all bins of all channels are mutually independent -/
def MutuallyIndep {Ω : Type} [MeasurableSpace Ω] (P : Measure Ω) (s : Sys) (S : ℕ → ChanSpec) (a : ∀ k, Fin (S k).n → ℝ)
    (draw : Ω → ℕ → Vec → ℕ → ℕ) : Prop :=
  iIndepFun (fun (q : Σ k : Fin s.m.chanIds.length, Fin (S k).n) ω => draw ω s.m.chanIds[q.1] (vec (a q.1)) q.2) P

/-- an optimiser that returns true constrained minima, with a finite value, or raises -/
def FiniteMin (o : Optim) : Prop := TrueMin o ∧ ∀ c r, o.minuit c = .ok r → ∃ v : ℝ, r.fval = .fin v

/-- the configuration lets parameter number `q`, now at `v`, move in both directions -/
def MayMove (s : Sys) (ops : List FitOp) (fixNui : Bool) (lim : Option Bounds) (q : ℕ) (v : ℝ) : Prop :=
  CanRaise (s.m.paramNames s.w) s.m.numProcesses ops fixNui lim q v ∧ CanLower (s.m.paramNames s.w) s.m.numProcesses ops fixNui lim q v

end

end TF.Spec

namespace TF.Props

open Classical Spec MeasureTheory ProbabilityTheory
open scoped Matrix NNReal

noncomputable section

theorem eventsDrawn_eq (s : Sys) (S : ℕ → ChanSpec) (a : ∀ k, Fin (S k).n → ℝ) (draw : ℕ → Vec → ℕ → ℕ) :
    ((eventsDrawn s S a draw : ℕ) : ℝ) = ∑ k ∈ Finset.range s.m.chanIds.length, ∑ i, toyData s S a draw k i := by
  unfold eventsDrawn toyData
  push_cast
  rfl

/-- the expected events of a channel add up to its yields times efficiencies -/
theorem eventsExpected_eq (s : Sys) (S : ℕ → ChanSpec) (ν : String → ℝ) (θ : ∀ k, Fin (S k).K → Fin (S k).n → ℝ) (hT : NonZeroSums s S θ) :
    eventsExpected s S ν θ = ∑ k ∈ Finset.range s.m.chanIds.length, ∑ j : Fin (S k).K, ν (procName s k j) * (S k).eff j := by
  unfold eventsExpected
  refine Finset.sum_congr rfl fun k hk => ?_
  have hk := Finset.mem_range.mp hk
  simp only [expectedIn_eq]
  rw [Finset.sum_comm]
  refine Finset.sum_congr rfl fun j _ => ?_
  rw [← Finset.mul_sum]
  have : ∑ i, fracIn S θ k j i = 1 := by
    unfold fracIn
    rw [← Finset.sum_div, div_self (hT k hk j)]
  rw [this, mul_one]

theorem toy_same (s : Sys) (draw : ℕ → Vec → ℕ → ℕ) : SameButData s.w (s.step (.addToy draw)).w := by
  simp only [Sys.step]
  split
  · exact SameButData.refl _
  · exact addDatasets_same _ _ _

/-- **C137, one fit.** In a model without constraints, fit toy data by iminuit with an optimiser that returns true minima. If the fit returns with a finite value and every fitted yield
is zero or can move in both directions, the fitted model expects exactly as many events as were drawn for the toy data set. -/
theorem C137_events (s : Sys) (h : s.Built) (hne : s.m.channels ≠ []) (S : ℕ → ChanSpec) (hS : ModelIs s S)
    (htup : ∀ c ∈ s.m.chanIds, AllTuple (s.w.chans c).range)
    (y : ∀ k, Fin (S k).K → ℝ) (θ₀ : ∀ k, Fin (S k).K → Fin (S k).n → ℝ) (hp : ParamsAre s S y θ₀) (hT₀ : NonZeroSums s S θ₀)
    (hnn : ∀ k < s.m.chanIds.length, ∀ i, 0 ≤ presentIn S y θ₀ k i) (hnc : s.m.constrained = []) (hused : AllUsed s S)
    (draw : ℕ → Vec → ℕ → ℕ) (s' : Sys) (hs' : s' = s.step (.addToy draw))
    (id : String) (hid : id.toLower = "iminuit") (ops : List FitOp)
    (hk : KnownIds (s.m.paramNames s.w) ops) (hone : ∀ k < (s.m.paramNames s.w).length, OneId (s.m.paramNames s.w) ops k)
    (o : Optim) (ho : TrueMin o) (up g fixNui : Bool) (lim : Option Bounds) (r : MinResult)
    (hr : ((fitRun id ops).doFit o s'.w s'.m up g fixNui lim).1 = .ok r) (v : ℝ) (hv : r.fval = .fin v)
    (hfree : ∀ (q : ℕ) (x : ℝ), q < s.m.processes.length → r.params.values[q]? = some (.fin x) → x = 0 ∨ MayMove s ops fixNui lim q x) :
    ∃ ν θ, r.params.values = paramVec s S ν θ ∧ NonZeroSums s S θ ∧ eventsExpected s S ν θ = eventsDrawn s S (presentIn S y θ₀) draw := by
  obtain ⟨q1, q2, q3, q4, q5, q6, q7⟩ := toy_model s h S hS htup y θ₀ hp hT₀ hnn draw
  have hsame := toy_same s draw
  rw [← hs'] at q1 q2 q3 q4 q5 q6 q7 hsame
  have hnm : s'.m.paramNames s'.w = s.m.paramNames s.w := by rw [q2]; exact (names_same hsame s.m).1
  have hc : ConstraintsAre s' (fun _ => 0) (fun _ => 1) := by
    intro p hp; rw [q2, hnc] at hp; cases hp
  have hu : AllUsed s' S := by
    unfold AllUsed; simp only [q2, q6]; exact hused
  obtain ⟨ν, θ, e1, e2, e3, e4⟩ := C123_iminuit s' q1 (by rw [q2]; exact hne) S q3 _ q4 (fun k _ i => toyData_floor k i) _ _ hc hu id hid ops
    (by rw [hnm]; exact hk) (by rw [hnm]; exact hone) o ho up g fixNui lim r hr v hv
  have ht := C123_total s' q1 S q3 _ _ _ hc (by rw [q2]; exact hnc) ops fixNui lim ν θ e3 e4 (by
    intro p hp
    rw [hnm]
    rw [q2] at hp ⊢
    refine hfree _ (ν p) (List.idxOf_lt_length_iff.mpr hp) ?_
    rw [e1, q5]
    exact paramVec_yield ν θ p hp)
  refine ⟨ν, θ, by rw [e1, q5], by unfold NonZeroSums at e2 ⊢; rw [q2] at e2; exact e2, ?_⟩
  rw [q2] at ht
  rw [eventsDrawn_eq, ← ht]
  unfold eventsExpected
  simp only [q7]

/-- no configuration: every yield can move -/
theorem mayMove_nil (s : Sys) (fixNui : Bool) {q : ℕ} (hq : q < s.m.processes.length) (x : ℝ) : MayMove s [] fixNui none q x := by
  have hbd : ∀ b, WantedBounds (s.m.paramNames s.w) [] s.m.numProcesses none q b → b = (none, none) := by
    rintro b (⟨pre, op, post, he, -⟩ | ⟨-, hb⟩)
    · simp at he
    · rw [hb]; split <;> rfl
  have hfx : ¬ WantedFixed (s.m.paramNames s.w) [] s.m.numProcesses fixNui q := by
    rintro (⟨pid, hp, -⟩ | ⟨-, hp⟩)
    · simp at hp
    · unfold Mct.numProcesses at hp; omega
  exact ⟨⟨hfx, fun b hi hb hh => by rw [hbd b hb] at hh; cases hh⟩, ⟨hfx, fun b hi hb hh => by rw [hbd b hb] at hh; cases hh⟩⟩

/-- what the outcome of an attempt of a toy study came from -/
theorem toyFit_inv {s : Sys} {env : ToyEnv} {id : String} {g : Bool} {k : ℕ} {v u : Vec} (h : toyFit env s.m id g s.w k = .ok (v, u)) :
    ∃ r, ((Fitter.new id).doFit (env.optim k) (s.step (.addToy (env.draw k))).w (s.step (.addToy (env.draw k))).m false g true none).1 = .ok r ∧
      r.params.values = v ∧ r.params.errors = u := by
  unfold toyFit at h
  cases hd : s.m.toy s.w (env.draw k) with
  | error e => rw [hd] at h; cases h
  | ok data =>
    rw [hd] at h
    simp only at h
    have hw : (s.step (.addToy (env.draw k))).w = (s.m.addDatasets s.w data).2 := by simp only [Sys.step, hd]
    have hm : (s.step (.addToy (env.draw k))).m = s.m := by simp only [Sys.step, hd]
    rw [hw, hm]
    split at h
    · cases h
    · split at h
      · cases h
      · rename_i r hr
        have h := Except.ok.inj h
        simp only [Prod.mk.injEq] at h
        exact ⟨r, hr, h.1, h.2⟩

theorem fit_finite {s : Sys} (hs : s.Reachable) {id : String} (hid : id.toLower = "iminuit") {o : Optim} (ho : FiniteMin o) {up g fixNui : Bool} {lim : Option Bounds}
    {r : MinResult} (hr : ((Fitter.new id).doFit o s.w s.m up g fixNui lim).1 = .ok r) : ∃ v : ℝ, r.fval = .fin v := by
  have hn := (C51_aligned s hs).1.symm
  have hz := setup_eq (kd := .iminuit) (id := id) (h := []) hn ⟨by simp, by simp⟩ fixNui lim
  have hzw := minRun_wf .iminuit (s.m.paramNames s.w) (setupOps (fitRun id []) s.m.numProcesses (s.m.numNui s.w) fixNui lim)
  have hm1 : minKindOf (fitRun id []).minimizerId = .ok .iminuit := by rw [fitRun_id]; exact minKind_iminuit hid
  obtain ⟨x0, q, -, hq, hf, -⟩ := doFit_minuit_inv' hm1 hz hzw.hk hr
  obtain ⟨v, hv⟩ := ho.2 _ _ hq
  exact ⟨v, by rw [hf, hv]⟩

/-- **C137, toy studies.** In a model without constraints, let `do_experiments` of a toy study with the iminuit minimizer return, its optimisers returning true minima of finite value (or raising).
Then row `i` of `result_parameters` belongs to a successful attempt, holds the nuisance parameters of the model unchanged, and the model with the parameters of the row expects exactly as
many events as were drawn for this attempt. -/
theorem C137_study (s : Sys) (h : s.Built) (hne : s.m.channels ≠ []) (S : ℕ → ChanSpec) (hS : ModelIs s S)
    (htup : ∀ c ∈ s.m.chanIds, AllTuple (s.w.chans c).range)
    (y : ∀ k, Fin (S k).K → ℝ) (θ₀ : ∀ k, Fin (S k).K → Fin (S k).n → ℝ) (hp : ParamsAre s S y θ₀) (hT₀ : NonZeroSums s S θ₀)
    (hnn : ∀ k < s.m.chanIds.length, ∀ i, 0 ≤ presentIn S y θ₀ k i) (hnc : s.m.constrained = []) (hused : AllUsed s S)
    (ν₀ : String → ℝ) (hν : ∀ p ∈ s.m.processes, s.m.getYield s.w p = .ok (.fin (ν₀ p)))
    (env : ToyEnv) (ho : ∀ k, FiniteMin (env.optim k)) (t : Toy) (ht : t.w = s.w) (hid : t.minimizerId.toLower = "iminuit") (nExp maxTries : ℕ)
    (t' : Toy) (ht' : t.doExperiments env s.m nExp maxTries = (.ok (), t')) :
    ∃ (ps : List Vec) (ks : List ℕ) (K' : ℕ), t'.resultParameters = .ok ps ∧ ps.length = nExp ∧
      Consecutive (toyFit env s.m t.minimizerId true s.w) maxTries t.tries ks K' ∧ ks.length = nExp ∧
      ∀ (i k : ℕ) (row : Vec), ks[i]? = some k → ps[i]? = some row →
        ∃ ν, row = paramVec s S ν θ₀ ∧ eventsExpected s S ν θ₀ = eventsDrawn s S (presentIn S y θ₀) (env.draw k) := by
  obtain ⟨ps, us, ks, K', a1, -, a3, -, a5, -, a7⟩ := (C73_rows s h env t ht nExp maxTries t' (by rw [ht'])).1 (by rw [ht'])
  refine ⟨ps, ks, K', a1, a3, a5, by rw [← a7.1, a3], fun i k row hi hrow => ?_⟩
  obtain ⟨p, u, b1, -, b3⟩ := a7.2.2 i k hi
  obtain rfl : p = row := Option.some.inj (b1.symm.trans hrow)
  obtain ⟨r, hr, rfl, -⟩ := toyFit_inv b3
  obtain ⟨q1, q2, q3, -, q5, -, -⟩ := toy_model s h S hS htup y θ₀ hp hT₀ hnn (env.draw k)
  obtain ⟨v, hv⟩ := fit_finite q1.reachable hid (ho k) hr
  obtain ⟨ν, θ, e1, e2, e3⟩ := C137_events s h hne S hS htup y θ₀ hp hT₀ hnn hnc hused (env.draw k) _ rfl t.minimizerId hid [] ⟨by simp, by simp⟩
    (by intro k _ p q b c hb; simp at hb) (env.optim k) (ho k).1 false true true none r hr v hv (fun q x hq _ => .inr (mayMove_nil s true hq x))
  -- the nuisance parameters keep their values
  obtain ⟨n1, n2, n3⟩ := names_same (toy_same s (env.draw k)) s.m
  obtain ⟨x0, hx0, hb⟩ := C120_iminuit _ q1.reachable t.minimizerId hid [] ⟨by simp, by simp⟩ (by intro k _ p q b c hb; simp at hb) (env.optim k) (ho k).1
    false true true none r hr
  rw [q2, n3, x0_eq s h.reachable hne S hS y θ₀ hp ν₀ hν] at hx0
  obtain rfl := Except.ok.inj hx0
  have hfix := hb.1
  rw [q2, n1] at hfix
  have hw := reachable_wf h.reachable
  have hal := (C51_aligned s h.reachable).1
  have hth : ∀ k < s.m.chanIds.length, θ k = θ₀ k := by
    intro k hk
    funext j i
    have h1 := paramVec_nui hw hS ν θ k hk j i
    have h2 := paramVec_nui hw hS ν₀ θ₀ k hk j i
    have hlt : nuiOffset s k j + i < (s.m.paramNames s.w).length := by
      rw [hal, ← paramVec_length hw hS ν θ]
      exact (List.getElem?_eq_some_iff.mp h1).1
    have h3 := (hfix.2 _ hlt).1 (.inr ⟨rfl, by unfold nuiOffset Mct.numProcesses; omega⟩)
    rw [e1, h1, h2] at h3
    exact Fl.fin.inj (Option.some.inj h3)
  refine ⟨ν, ?_, ?_⟩
  · rw [e1]
    unfold paramVec
    congr 2
    apply List.map_congr_left
    intro k hk
    rw [hth k (List.mem_range.mp hk)]
  · rw [← e3]
    unfold eventsExpected
    refine Finset.sum_congr rfl fun k hk => Finset.sum_congr rfl fun i _ => ?_
    unfold expectedIn
    rw [hth k (Finset.mem_range.mp hk)]

theorem law_moments {Ω : Type} [MeasurableSpace Ω] {P : Measure Ω} {X : Ω → ℕ} {r : ℝ≥0} (h : HasLaw X (poissonMeasure r) P) :
    MemLp (fun ω => (X ω : ℝ)) 2 P ∧ ∫ ω, (X ω : ℝ) ∂P = r ∧ Var[fun ω => (X ω : ℝ); P] = r := by
  have hm : MemLp (fun ω => (X ω : ℝ)) 2 P := by
    have := poisson_memLp r
    rw [← h.map_eq] at this
    exact (memLp_map_measure_iff (Measurable.of_discrete).aestronglyMeasurable h.aemeasurable).mp this
  refine ⟨hm, ?_, ?_⟩
  · rw [law_integral h (fun n : ℕ => (n : ℝ)), poisson_mean]
  · rw [← poisson_var r, ← h.map_eq, variance_map (Measurable.of_discrete).aemeasurable h.aemeasurable]
    rfl

theorem present_sum {S : ℕ → ChanSpec} (y : ∀ k, Fin (S k).K → ℝ) {θ : ∀ k, Fin (S k).K → Fin (S k).n → ℝ} {k : ℕ}
    (hT : ∀ j, ∑ i, (S k).cnt j i * (1 + θ k j i * (S k).ε j i) ≠ 0) : ∑ i, presentIn S y θ k i = ∑ j, y k j := by
  unfold presentIn
  rw [Finset.sum_comm]
  refine Finset.sum_congr rfl fun j _ => ?_
  rw [← Finset.mul_sum, ← Finset.sum_div, div_self (hT j), mul_one]

/-- the total number of drawn events is Poisson -/
theorem drawn_law (s : Sys) (hne : s.m.channels ≠ []) (S : ℕ → ChanSpec) (hS : ModelIs s S)
    (y : ∀ k, Fin (S k).K → ℝ) (θ₀ : ∀ k, Fin (S k).K → Fin (S k).n → ℝ) (hT₀ : NonZeroSums s S θ₀)
    (hnn : ∀ k < s.m.chanIds.length, ∀ i, 0 ≤ presentIn S y θ₀ k i)
    {Ω : Type} [MeasurableSpace Ω] (P : Measure Ω) (draw : Ω → ℕ → Vec → ℕ → ℕ)
    (hd : PoissonLaw P s S (presentIn S y θ₀) draw) (hi : MutuallyIndep P s S (presentIn S y θ₀) draw) :
    IsProbabilityMeasure P ∧ HasLaw (fun ω => eventsDrawn s S (presentIn S y θ₀) (draw ω))
      (poissonMeasure (∑ k ∈ Finset.range s.m.chanIds.length, ∑ j, y k j).toNNReal) P := by
  have hN : 0 < s.m.chanIds.length := by
    rw [List.length_pos_iff]; simpa [Mct.chanIds] using hne
  have hP : IsProbabilityMeasure P := law_prob (hd 0 hN ⟨0, (hS 0 hN).2.1⟩)
  refine ⟨hP, ?_⟩
  have h1 := poisson_sum (fun q : Σ k : Fin s.m.chanIds.length, Fin (S k).n => hd q.1 q.1.2 q.2) hi Finset.univ
  have e1 : (fun ω => ∑ q : Σ k : Fin s.m.chanIds.length, Fin (S k).n, draw ω s.m.chanIds[q.1] (vec (presentIn S y θ₀ q.1)) q.2) =
      fun ω => eventsDrawn s S (presentIn S y θ₀) (draw ω) := by
    funext ω
    unfold eventsDrawn
    rw [Fintype.sum_sigma, Finset.sum_range]
    refine Finset.sum_congr rfl fun k _ => Finset.sum_congr rfl fun i _ => ?_
    rw [List.getD_eq_getElem?_getD, List.getElem?_eq_getElem k.2, Option.getD_some]
    rfl
  have e2 : ∑ q : Σ k : Fin s.m.chanIds.length, Fin (S k).n, (presentIn S y θ₀ q.1 q.2).toNNReal =
      (∑ k ∈ Finset.range s.m.chanIds.length, ∑ j, y k j).toNNReal := by
    rw [← Real.toNNReal_sum_of_nonneg fun q _ => hnn q.1 q.1.2 q.2, Fintype.sum_sigma, Finset.sum_range]
    congr 1
    exact Finset.sum_congr rfl fun k _ => present_sum y (hT₀ k k.2)
  rw [e2] at h1
  have h2 := h1
  rw [← e1]
  exact h2

/-- **C137, no bias in the number of events.** Fit toy data sets of mutually independent Poisson numbers as in `C137_events`, almost every fit returning with a finite value and each yield zero or free
to move. Then the number of events the fitted model expects is a Poisson number whose mean is the number of events the generating model expects, the sum of the yields of all templates: its average is this
number (no bias) and so is its variance. -/
theorem C137_unbiased (s : Sys) (h : s.Built) (hne : s.m.channels ≠ []) (S : ℕ → ChanSpec) (hS : ModelIs s S)
    (htup : ∀ c ∈ s.m.chanIds, AllTuple (s.w.chans c).range)
    (y : ∀ k, Fin (S k).K → ℝ) (θ₀ : ∀ k, Fin (S k).K → Fin (S k).n → ℝ) (hp : ParamsAre s S y θ₀) (hT₀ : NonZeroSums s S θ₀)
    (hnn : ∀ k < s.m.chanIds.length, ∀ i, 0 ≤ presentIn S y θ₀ k i) (hnc : s.m.constrained = []) (hused : AllUsed s S)
    {Ω : Type} [MeasurableSpace Ω] (P : Measure Ω) (draw : Ω → ℕ → Vec → ℕ → ℕ)
    (hd : PoissonLaw P s S (presentIn S y θ₀) draw) (hi : MutuallyIndep P s S (presentIn S y θ₀) draw)
    (id : String) (hid : id.toLower = "iminuit") (ops : List FitOp)
    (hk : KnownIds (s.m.paramNames s.w) ops) (hone : ∀ k < (s.m.paramNames s.w).length, OneId (s.m.paramNames s.w) ops k)
    (o : Ω → Optim) (ho : ∀ ω, TrueMin (o ω)) (up g fixNui : Bool) (lim : Option Bounds) (r : Ω → MinResult)
    (hr : ∀ᵐ ω ∂P, ((fitRun id ops).doFit (o ω) (s.step (.addToy (draw ω))).w (s.step (.addToy (draw ω))).m up g fixNui lim).1 = .ok (r ω) ∧
      (∃ v : ℝ, (r ω).fval = .fin v) ∧
      ∀ (q : ℕ) (x : ℝ), q < s.m.processes.length → (r ω).params.values[q]? = some (.fin x) → x = 0 ∨ MayMove s ops fixNui lim q x) :
    ∃ N : Ω → ℕ, (∀ ω, N ω = eventsDrawn s S (presentIn S y θ₀) (draw ω)) ∧ (∀ᵐ ω ∂P, ∃ ν θ, (r ω).params.values = paramVec s S ν θ ∧ NonZeroSums s S θ ∧ eventsExpected s S ν θ = N ω) ∧
      HasLaw N (poissonMeasure (∑ k ∈ Finset.range s.m.chanIds.length, ∑ j, y k j).toNNReal) P ∧
      (MemLp (fun ω => (N ω : ℝ)) 2 P ∧ ∫ ω, (N ω : ℝ) ∂P = ∑ k ∈ Finset.range s.m.chanIds.length, ∑ j, y k j) ∧
      Var[fun ω => (N ω : ℝ); P] = ∑ k ∈ Finset.range s.m.chanIds.length, ∑ j, y k j := by
  obtain ⟨hP, hl⟩ := drawn_law s hne S hS y θ₀ hT₀ hnn P draw hd hi
  have hsum : 0 ≤ ∑ k ∈ Finset.range s.m.chanIds.length, ∑ j, y k j := by
    refine Finset.sum_nonneg fun k hk => ?_
    have hk := Finset.mem_range.mp hk
    rw [← present_sum y (hT₀ k hk)]
    exact Finset.sum_nonneg fun i _ => hnn k hk i
  refine ⟨_, fun _ => rfl, ?_, hl, ?_, ?_⟩
  · filter_upwards [hr] with ω hω
    obtain ⟨h1, ⟨v, h2⟩, h3⟩ := hω
    exact C137_events s h hne S hS htup y θ₀ hp hT₀ hnn hnc hused (draw ω) _ rfl id hid ops hk hone (o ω) (ho ω) up g fixNui lim (r ω) h1 v h2 h3
  · have := law_moments hl
    rw [Real.coe_toNNReal _ hsum] at this
    exact ⟨this.1, this.2.1⟩
  · have := law_moments hl
    rw [Real.coe_toNNReal _ hsum] at this
    exact this.2.2

/-- **C137, one process.** If moreover the model has a single process `p` with efficiencies of sum `A > 0`, and its templates have the yields `ν₀ · efficiency`, then the fitted yield is the number of
drawn events divided by `A`; its average over toy data sets is exactly the true yield `ν₀` and its variance is `ν₀ / A`. -/
theorem C137_yield (s : Sys) (h : s.Built) (hne : s.m.channels ≠ []) (S : ℕ → ChanSpec) (hS : ModelIs s S)
    (htup : ∀ c ∈ s.m.chanIds, AllTuple (s.w.chans c).range)
    (y : ∀ k, Fin (S k).K → ℝ) (θ₀ : ∀ k, Fin (S k).K → Fin (S k).n → ℝ) (hp : ParamsAre s S y θ₀) (hT₀ : NonZeroSums s S θ₀)
    (hnn : ∀ k < s.m.chanIds.length, ∀ i, 0 ≤ presentIn S y θ₀ k i) (hnc : s.m.constrained = [])
    (p : String) (hone' : s.m.processes = [p]) (ν₀ : ℝ) (hy : ∀ k < s.m.chanIds.length, ∀ j, y k j = ν₀ * (S k).eff j)
    (A : ℝ) (hA : A = ∑ k ∈ Finset.range s.m.chanIds.length, ∑ j, (S k).eff j) (hA0 : 0 < A)
    {Ω : Type} [MeasurableSpace Ω] (P : Measure Ω) (draw : Ω → ℕ → Vec → ℕ → ℕ)
    (hd : PoissonLaw P s S (presentIn S y θ₀) draw) (hi : MutuallyIndep P s S (presentIn S y θ₀) draw)
    (id : String) (hid : id.toLower = "iminuit") (ops : List FitOp)
    (hk : KnownIds (s.m.paramNames s.w) ops) (hone : ∀ k < (s.m.paramNames s.w).length, OneId (s.m.paramNames s.w) ops k)
    (o : Ω → Optim) (ho : ∀ ω, TrueMin (o ω)) (up g fixNui : Bool) (lim : Option Bounds) (r : Ω → MinResult)
    (hr : ∀ᵐ ω ∂P, ((fitRun id ops).doFit (o ω) (s.step (.addToy (draw ω))).w (s.step (.addToy (draw ω))).m up g fixNui lim).1 = .ok (r ω) ∧
      (∃ v : ℝ, (r ω).fval = .fin v) ∧
      ∀ x : ℝ, (r ω).params.values[0]? = some (.fin x) → x = 0 ∨ MayMove s ops fixNui lim 0 x) :
    ∃ Y : Ω → ℝ, (∀ᵐ ω ∂P, (r ω).params.values[0]? = some (.fin (Y ω))) ∧ (∀ ω, Y ω = eventsDrawn s S (presentIn S y θ₀) (draw ω) / A) ∧
      MemLp Y 2 P ∧ ∫ ω, Y ω ∂P = ν₀ ∧ Var[Y; P] = ν₀ / A := by
  have hw := reachable_wf h.reachable
  have hN : 0 < s.m.chanIds.length := by
    rw [List.length_pos_iff]; simpa [Mct.chanIds] using hne
  have hproc : ∀ k < s.m.chanIds.length, ∀ j : Fin (S k).K, procName s k j = p := by
    intro k hk j
    have := procName_mem hw hS k hk j
    rw [hone'] at this
    simpa using this
  have hused : AllUsed s S := by
    intro q hq
    rw [hone'] at hq
    simp at hq
    subst hq
    exact .inl ⟨0, hN, ⟨0, (hS 0 hN).1⟩, hproc 0 hN _⟩
  have hsum : ∑ k ∈ Finset.range s.m.chanIds.length, ∑ j, y k j = ν₀ * A := by
    rw [hA, Finset.mul_sum]
    refine Finset.sum_congr rfl fun k hk => ?_
    rw [Finset.mul_sum]
    exact Finset.sum_congr rfl fun j _ => hy k (Finset.mem_range.mp hk) j
  obtain ⟨N, n0, n1, -, ⟨n3, n4⟩, n5⟩ := C137_unbiased s h hne S hS htup y θ₀ hp hT₀ hnn hnc hused P draw hd hi id hid ops hk hone o ho up g fixNui lim r (by
    filter_upwards [hr] with ω hω
    refine ⟨hω.1, hω.2.1, fun q x hq hx => ?_⟩
    rw [hone'] at hq
    obtain rfl : q = 0 := by simpa using hq
    exact hω.2.2 x hx)
  rw [hsum] at n4 n5
  have e : (fun ω => (N ω : ℝ) / A) = fun ω => A⁻¹ * (N ω : ℝ) := by funext ω; rw [div_eq_inv_mul]
  refine ⟨fun ω => N ω / A, ?_, fun ω => by show (N ω : ℝ) / A = _; rw [n0], ?_, ?_, ?_⟩
  · filter_upwards [n1] with ω hω
    obtain ⟨ν, θ, e1, e2, e3⟩ := hω
    have hz := paramVec_yield (S := S) ν θ p (s := s) (by rw [hone']; simp)
    rw [hone', List.idxOf_cons_self] at hz
    rw [e1, hz]
    congr 2
    rw [eventsExpected_eq s S ν θ e2] at e3
    rw [eq_div_iff hA0.ne', ← e3, hA, Finset.mul_sum]
    refine Finset.sum_congr rfl fun k hk => ?_
    rw [Finset.mul_sum]
    exact Finset.sum_congr rfl fun j _ => by rw [hproc k (Finset.mem_range.mp hk)]
  · rw [e]; exact n3.const_mul _
  · rw [integral_div, n4, mul_div_cancel_right₀ _ hA0.ne']
  · rw [e, variance_const_mul, n5]
    field_simp

end

end TF.Props
