import Verif.Props.CurvProps
import Verif.Props.ToyProps2
import Verif.Lemmas.Poisson
import Mathlib.Probability.ProductMeasure
import Mathlib.Probability.Independence.InfinitePi

set_option linter.unusedSimpArgs false

/-!
# Averages over toy experiments (C135)
-/

namespace TF.Spec

open Classical MeasureTheory ProbabilityTheory

noncomputable section

/-- number of events the model, with the yields `y` and nuisance parameters `θ` of its templates, expects in bin `i` of channel `k` -/
def presentIn (S : ℕ → ChanSpec) (y : ∀ k, Fin (S k).K → ℝ) (θ : ∀ k, Fin (S k).K → Fin (S k).n → ℝ) (k : ℕ) (i : Fin (S k).n) : ℝ :=
  ∑ j, y k j * ((S k).cnt j i * (1 + θ k j i * (S k).ε j i) / ∑ i', (S k).cnt j i' * (1 + θ k j i' * (S k).ε j i'))

/-- `draw` is a good random generator for the model `s`: the number it returns for each bin, when asked for the expectations `a`, is a Poisson
variable with the expectation of the bin as mean -/
def PoissonLaw {Ω : Type} [MeasurableSpace Ω] (P : Measure Ω) (s : Sys) (S : ℕ → ChanSpec) (a : ∀ k, Fin (S k).n → ℝ)
    (draw : Ω → ℕ → Vec → ℕ → ℕ) : Prop :=
  ∀ k, (hk : k < s.m.chanIds.length) → ∀ i : Fin (S k).n,
    HasLaw (fun ω => draw ω s.m.chanIds[k] (vec (a k)) i) (poissonMeasure (a k i).toNNReal) P

/-- the numbers of different bins are (pairwise) independent -/
def IndepBins {Ω : Type} [MeasurableSpace Ω] (P : Measure Ω) (s : Sys) (S : ℕ → ChanSpec) (a : ∀ k, Fin (S k).n → ℝ)
    (draw : Ω → ℕ → Vec → ℕ → ℕ) : Prop :=
  ∀ k, (hk : k < s.m.chanIds.length) → ∀ k', (hk' : k' < s.m.chanIds.length) → ∀ (i : Fin (S k).n) (i' : Fin (S k').n),
    (k ≠ k' ∨ (i : ℕ) ≠ i') → IndepFun (fun ω => draw ω s.m.chanIds[k] (vec (a k)) i) (fun ω => draw ω s.m.chanIds[k'] (vec (a k')) i') P

/-- near `0`, `F` is a number, and at `0` it has the derivative `c` -/
def HasSlope (F : ℝ → Except Err Fl) (c : ℝ) : Prop :=
  ∃ f : ℝ → ℝ, (∀ᶠ t in nhds 0, F t = .ok (.fin (f t))) ∧ HasDerivAt f c 0

end

end TF.Spec

namespace TF.Props

open Classical Spec MeasureTheory ProbabilityTheory
open scoped Matrix NNReal

noncomputable section

/-- after `add_data(**generate_toy_dataset())` every channel holds its drawn numbers -/
theorem toy_step (s : Sys) (h : s.Reachable) (S : ℕ → ChanSpec) (hS : ModelIs s S)
    (htup : ∀ c ∈ s.m.chanIds, AllTuple (s.w.chans c).range)
    (y : ∀ k, Fin (S k).K → ℝ) (θ : ∀ k, Fin (S k).K → Fin (S k).n → ℝ) (hp : ParamsAre s S y θ)
    (hT : NonZeroSums s S θ) (hnn : ∀ k < s.m.chanIds.length, ∀ i, 0 ≤ presentIn S y θ k i) (draw : ℕ → Vec → ℕ → ℕ) :
    (s.step (.addToy draw)).w.tmpls = s.w.tmpls ∧ (s.step (.addToy draw)).m = s.m ∧
    (s.step (.addToy draw)).w.nChans = s.w.nChans ∧
    (∀ c, ∃ d, (s.step (.addToy draw)).w.chans c = { s.w.chans c with hdata := d }) ∧
    ∀ k, (hk : k < s.m.chanIds.length) → ∃ hid,
      ((s.step (.addToy draw)).w.chans s.m.chanIds[k]).hdata = some hid ∧
      ((s.step (.addToy draw)).w.hists hid).counts.data = vec (fun i : Fin (S k).n =>
        ((draw s.m.chanIds[k] (vec (presentIn S y θ k)) i : ℕ) : ℝ)) := by
  have hw := reachable_wf h
  have hgen : ∀ k, (hk : k < s.m.chanIds.length) → ∃ hh, s.w.toy s.m.chanIds[k] (draw s.m.chanIds[k]) = .ok hh ∧
      hh.counts.data = vec (fun i : Fin (S k).n => ((draw s.m.chanIds[k] (vec (presentIn S y θ k)) i : ℕ) : ℝ)) ∧
      (s.w.chans s.m.chanIds[k]).checkHist hh := by
    intro k hk
    obtain ⟨a1, a2, a3, a4⟩ := hS k hk
    obtain ⟨T, hT1, hT2⟩ := a4.tmpls
    have hcm : s.m.chanIds[k] ∈ s.m.chanIds := List.getElem_mem hk
    obtain ⟨q, hq, eq⟩ := List.mem_map.mp hcm
    have hb : ∀ n ∈ (s.w.chans s.m.chanIds[k]).bins, 1 ≤ n := by
      have hprod := (chanIs_numBins hw hcm a1 a4).1
      intro n hn
      by_contra h0
      have : n = 0 := by omega
      rw [this] at hn
      rw [List.prod_eq_zero hn] at hprod
      omega
    have hq' : (q.1, s.m.chanIds[k]) ∈ s.m.channels := by rw [← eq]; exact hq
    obtain ⟨a, e2, e3, -⟩ := C83_toy s h q.1 _ hq' hb a1 T hT1 (S k).cnt (S k).ε (y k) (θ k)
      (fun j => (hT2 j).1) (fun j => hp k hk j (T j) (by rw [hT1]; simp)) (hT k hk) (draw s.m.chanIds[k])
    obtain rfl : a = presentIn S y θ k := funext fun i => e2 i
    obtain ⟨hh, e1, e4, -⟩ := e3 (hnn k hk)
    have hne : (s.w.chans s.m.chanIds[k]).templates ≠ [] := by
      intro e
      have := (chanIs_numBins hw hcm a1 a4).2.2
      rw [e] at this; simp at this; omega
    have hacc := (C38_accepted_partial s h q.1 _ hq' hne hb hh (Or.inr ⟨_, e1⟩) 0).1.mpr (htup _ hcm)
    refine ⟨hh, e1, e4, ?_⟩
    by_contra hck
    unfold Channel.addData at hacc
    rw [if_neg hck] at hacc
    simp at hacc
  have hex : ∃ H : ℕ → Hist, ∀ c ∈ s.m.chanIds, s.w.toy c (draw c) = .ok (H c) := by
    refine ⟨fun c => match s.w.toy c (draw c) with | .ok hh => hh | .error _ => dummyHist, ?_⟩
    intro c hc
    obtain ⟨k, hk, rfl⟩ := List.mem_iff_getElem.mp hc
    obtain ⟨hh, e, -⟩ := hgen k hk
    simp only [e]
  obtain ⟨H, hH⟩ := hex
  have hg := generate_ok s.m (fun c => s.w.toy c (draw c)) H hH
  have hstep : s.step (.addToy draw) =
      { s with w := (s.m.addDatasets s.w (s.m.channels.map fun q => (q.1, H q.2))).2 } := by
    simp only [Sys.step, Mct.toy, hg]
  rw [hstep]
  have hdict : ∀ q ∈ s.m.channels, dictGet s.m.channels q.1 = some q.2 := fun q hq => dictGet_of_mem hw.chNames hq
  obtain ⟨b1, b2, b3, b4, b5, b6, b7, b8⟩ := addDatasets_ok s.m (fun a b c => dict_inj hw a b c)
    (s.m.channels.map fun q => (q.1, H q.2)) s.w (by rw [List.map_map]; exact hw.chNames) (by
      intro q hq
      obtain ⟨r, hr, rfl⟩ := List.mem_map.mp hq
      refine ⟨r.2, hdict r hr, ?_⟩
      have hcm : r.2 ∈ s.m.chanIds := List.mem_map_of_mem hr
      obtain ⟨k, hk, e⟩ := List.mem_iff_getElem.mp hcm
      obtain ⟨hh, e1, -, e3⟩ := hgen k hk
      rw [e, hH _ hcm] at e1
      rw [e] at e3
      rw [Except.ok.inj e1]; exact e3)
  have hch : ∀ q ∈ s.m.channels, ∃ hid,
      (s.m.addDatasets s.w (s.m.channels.map fun q => (q.1, H q.2))).2.chans q.2 =
        { s.w.chans q.2 with hdata := some hid } ∧
      (s.m.addDatasets s.w (s.m.channels.map fun q => (q.1, H q.2))).2.hists hid = H q.2 := by
    intro q hq
    obtain ⟨c, hid, e1, e2, -, e4⟩ := b2 (q.1, H q.2) (List.mem_map_of_mem (f := fun q => (q.1, H q.2)) hq)
    simp only at e1
    rw [hdict q hq] at e1
    rw [← Option.some.inj e1] at e2
    exact ⟨hid, e2, e4⟩
  refine ⟨b6, rfl, b7, ?_, ?_⟩
  · intro c
    by_cases hc : ∃ q ∈ s.m.channels, q.2 = c
    · obtain ⟨q, hq, rfl⟩ := hc
      obtain ⟨hid, e, -⟩ := hch q hq
      exact ⟨_, e⟩
    · refine ⟨(s.w.chans c).hdata, ?_⟩
      simp only
      rw [b3 c]
      intro q hq e
      obtain ⟨r, hr, rfl⟩ := List.mem_map.mp hq
      simp only at e
      rw [hdict r hr] at e
      exact hc ⟨r, hr, Option.some.inj e⟩
  · intro k hk
    have hcm : s.m.chanIds[k] ∈ s.m.chanIds := List.getElem_mem hk
    obtain ⟨q, hq, eq⟩ := List.mem_map.mp hcm
    obtain ⟨hid, e1, e2⟩ := hch q hq
    obtain ⟨hh, f1, f2, -⟩ := hgen k hk
    refine ⟨hid, ?_, ?_⟩
    · rw [← eq]; simp only; rw [e1]
    · simp only
      rw [e2, ← f2]
      rw [hH _ hcm] at f1
      rw [← Except.ok.inj f1, ← eq]

/-- storing data changes nothing the likelihood depends on but the data -/
theorem data_frame {s s' : Sys} {S : ℕ → ChanSpec} (hS : ModelIs s S) (e1 : s'.w.tmpls = s.w.tmpls) (e2 : s'.m = s.m)
    (e3 : s'.w.nChans = s.w.nChans) (e4 : ∀ c, ∃ d, s'.w.chans c = { s.w.chans c with hdata := d }) :
    ModelIs s' S ∧ (∀ ν θ, paramVec s' S ν θ = paramVec s S ν θ) ∧ (∀ k j, procName s' k j = procName s k j) ∧
      ∀ ν θ k i, expectedIn s' S ν θ k i = expectedIn s S ν θ k i := by
  have hpn : ∀ k j, procName s' k j = procName s k j := by
    intro k j
    unfold procName
    rw [e2]
    obtain ⟨d, hd⟩ := e4 (s.m.chanIds.getD k 0)
    rw [hd]
  refine ⟨modelIs_asimov hS e2 e1 e3 e4, fun ν θ => by unfold paramVec; rw [e2], hpn, fun ν θ k i => ?_⟩
  unfold expectedIn; simp only [hpn]

/-- the numbers drawn for the channels of the model -/
def toyData (s : Sys) (S : ℕ → ChanSpec) (a : ∀ k, Fin (S k).n → ℝ) (draw : ℕ → Vec → ℕ → ℕ) (k : ℕ) (i : Fin (S k).n) : ℝ :=
  ((draw (s.m.chanIds.getD k 0) (vec (a k)) i : ℕ) : ℝ)

theorem toyData_eq {s : Sys} {S : ℕ → ChanSpec} {a : ∀ k, Fin (S k).n → ℝ} {draw : ℕ → Vec → ℕ → ℕ} {k : ℕ} (hk : k < s.m.chanIds.length)
    (i : Fin (S k).n) : toyData s S a draw k i = ((draw s.m.chanIds[k] (vec (a k)) i : ℕ) : ℝ) := by
  unfold toyData
  rw [List.getD_eq_getElem?_getD, List.getElem?_eq_getElem hk, Option.getD_some]

theorem toyData_floor {s : Sys} {S : ℕ → ChanSpec} {a : ∀ k, Fin (S k).n → ℝ} {draw : ℕ → Vec → ℕ → ℕ} (k : ℕ)
    (i : Fin (S k).n) : toyData s S a draw k i = 0 ∨ (1e-100 : ℝ) ≤ toyData s S a draw k i := by
  unfold toyData
  generalize draw _ _ _ = n
  rcases Nat.eq_zero_or_pos n with rfl | h
  · left; simp
  · right
    have : (1:ℝ) ≤ n := by exact_mod_cast h
    refine le_trans ?_ this
    norm_num

/-- the model with a toy data set -/
theorem toy_model (s : Sys) (h : s.Built) (S : ℕ → ChanSpec) (hS : ModelIs s S)
    (htup : ∀ c ∈ s.m.chanIds, AllTuple (s.w.chans c).range)
    (y : ∀ k, Fin (S k).K → ℝ) (θ : ∀ k, Fin (S k).K → Fin (S k).n → ℝ) (hp : ParamsAre s S y θ)
    (hT : NonZeroSums s S θ) (hnn : ∀ k < s.m.chanIds.length, ∀ i, 0 ≤ presentIn S y θ k i) (draw : ℕ → Vec → ℕ → ℕ) :
    (s.step (.addToy draw)).Built ∧ (s.step (.addToy draw)).m = s.m ∧ ModelIs (s.step (.addToy draw)) S ∧
      DataIs (s.step (.addToy draw)) S (toyData s S (presentIn S y θ) draw) ∧
      (∀ ν θ, paramVec (s.step (.addToy draw)) S ν θ = paramVec s S ν θ) ∧ (∀ k j, procName (s.step (.addToy draw)) k j = procName s k j) ∧
      ∀ ν θ k i, expectedIn (s.step (.addToy draw)) S ν θ k i = expectedIn s S ν θ k i := by
  obtain ⟨e1, e2, e3, e4, e5⟩ := toy_step s h.reachable S hS htup y θ hp hT hnn draw
  have hB := Sys.Built.step h (o := .addToy draw) (by simp [Op.structural])
  generalize s.step (.addToy draw) = s' at *
  obtain ⟨f1, f2, f3, f4⟩ := data_frame hS e1 e2 e3 e4
  refine ⟨hB, e2, f1, ?_, f2, f3, f4⟩
  intro k hk
  have hk' : k < s.m.chanIds.length := by rw [e2] at hk; exact hk
  obtain ⟨hid, g1, g2⟩ := e5 k hk'
  have ec : s'.m.chanIds[k] = s.m.chanIds[k] := by simp only [e2]
  refine ⟨hid, by rw [ec]; exact g1, ?_⟩
  rw [g2]
  congr 1
  funext i
  rw [toyData_eq hk']

/-- the model with its Asimov data set -/
theorem asimov_model (s : Sys) (h : s.Built) (S : ℕ → ChanSpec) (hS : ModelIs s S)
    (htup : ∀ c ∈ s.m.chanIds, AllTuple (s.w.chans c).range)
    (y : ∀ k, Fin (S k).K → ℝ) (θ : ∀ k, Fin (S k).K → Fin (S k).n → ℝ) (hp : ParamsAre s S y θ)
    (hT : NonZeroSums s S θ) :
    (s.step (.addAsimov false)).Built ∧ (s.step (.addAsimov false)).m = s.m ∧ ModelIs (s.step (.addAsimov false)) S ∧
      DataIs (s.step (.addAsimov false)) S (presentIn S y θ) ∧
      (∀ ν θ, paramVec (s.step (.addAsimov false)) S ν θ = paramVec s S ν θ) ∧ (∀ k j, procName (s.step (.addAsimov false)) k j = procName s k j) ∧
      ∀ ν θ k i, expectedIn (s.step (.addAsimov false)) S ν θ k i = expectedIn s S ν θ k i := by
  obtain ⟨e1, e2, e3, e4, e5⟩ := asimov_step s h.reachable S hS htup y θ hp hT
  have hB := Sys.Built.step h (o := .addAsimov false) (by simp [Op.structural])
  generalize s.step (.addAsimov false) = s' at *
  obtain ⟨f1, f2, f3, f4⟩ := data_frame hS e1 e2 e3 e4
  refine ⟨hB, e2, f1, ?_, f2, f3, f4⟩
  intro k hk
  have hk' : k < s.m.chanIds.length := by rw [e2] at hk; exact hk
  obtain ⟨hid, g1, g2⟩ := e5 k hk'
  have ec : s'.m.chanIds[k] = s.m.chanIds[k] := by simp only [e2]
  exact ⟨hid, by rw [ec]; exact g1, g2⟩

/-- the likelihood of a model that differs from `s` in its data only -/
theorem objective_frame {s s' : Sys} (hB : s'.Built) (hne : s.m.channels ≠ []) {S : ℕ → ChanSpec} (e2 : s'.m = s.m) (f1 : ModelIs s' S)
    {d : ∀ k, Fin (S k).n → ℝ} (f2 : DataIs s' S d) (f3 : ∀ ν θ, paramVec s' S ν θ = paramVec s S ν θ)
    (f4 : ∀ ν θ k i, expectedIn s' S ν θ k i = expectedIn s S ν θ k i)
    (hfl : ∀ k < s.m.chanIds.length, ∀ i, d k i = 0 ∨ (1e-100 : ℝ) ≤ d k i)
    {V E : String → ℝ} (hc : ConstraintsAre s V E) {ν : String → ℝ} {θ : ∀ k, Fin (S k).K → Fin (S k).n → ℝ} (hT : NonZeroSums s S θ)
    (hE : ∀ k < s.m.chanIds.length, ∀ i, 0 < expectedIn s S ν θ k i) :
    objective s'.w s'.m (paramVec s S ν θ) = .ok (.fin (nllAt s S d V E θ ν)) := by
  have h := objective_nllAt hB (by rw [e2]; exact hne) f1 f2 (by rw [e2]; exact hfl)
    (V := V) (E := E) (by unfold ConstraintsAre; rw [e2]; exact hc) (θ := θ) (by unfold NonZeroSums; rw [e2]; exact hT) (ν := ν)
    (by rw [Allowed, e2]; intro k hk i; left; rw [f4]; exact hE k hk i)
  rw [f3] at h
  rw [h]
  unfold nllAt
  rw [e2]
  simp only [f4]

theorem poissonBin_log {n e : ℝ} (he : 0 < e) (hn : 0 ≤ n) : poissonBin n e = e - n - n * Real.log e + n * Real.log n := by
  unfold poissonBin
  split
  · rename_i h; subst h; simp
  · rename_i h; rw [Real.log_div he.ne' h]; ring

section law

variable {Ω : Type} [MeasurableSpace Ω] {P : Measure Ω} {X : Ω → ℕ} {r : ℝ≥0}

theorem law_integrable (h : HasLaw X (poissonMeasure r) P) {f : ℕ → ℝ} (hf : Integrable f (poissonMeasure r)) :
    Integrable (fun ω => f (X ω)) P := by
  rw [← h.map_eq] at hf
  exact (integrable_map_measure .of_discrete h.aemeasurable).mp hf

theorem law_integral (h : HasLaw X (poissonMeasure r) P) (f : ℕ → ℝ) : ∫ ω, f (X ω) ∂P = ∫ n, f n ∂(poissonMeasure r) :=
  h.integral_comp (f := f) .of_discrete

/-- a probability measure, because a variable has a law -/
theorem law_prob (h : HasLaw X (poissonMeasure r) P) : IsProbabilityMeasure P := h.isProbabilityMeasure

/-- the mean of one bin of the likelihood -/
theorem bin_mean (h : HasLaw X (poissonMeasure r) P) (e : ℝ) (he : 0 < e) :
    Integrable (fun ω => poissonBin (X ω) e) P ∧
      ∫ ω, poissonBin (X ω) e ∂P = e - r - r * Real.log e + ∫ n : ℕ, (n : ℝ) * Real.log n ∂(poissonMeasure r) := by
  have e1 : (fun ω => poissonBin (X ω) e) = fun ω => (fun n : ℕ => e - (1 + Real.log e) * n + n * Real.log n) (X ω) := by
    funext ω
    simp only
    rw [poissonBin_log he (Nat.cast_nonneg _)]
    ring
  have i1 : Integrable (fun n : ℕ => (1 + Real.log e) * (n : ℝ)) (poissonMeasure r) := (poisson_integrable r).const_mul _
  have i2 : Integrable (fun n : ℕ => e - (1 + Real.log e) * (n : ℝ)) (poissonMeasure r) := (integrable_const e).sub i1
  rw [e1]
  refine ⟨law_integrable h (i2.add (poisson_log_integrable r)), ?_⟩
  rw [law_integral h fun n : ℕ => e - (1 + Real.log e) * n + n * Real.log n]
  rw [integral_add i2 (poisson_log_integrable r), integral_sub (integrable_const e) i1, integral_const_mul, poisson_mean]
  simp
  ring

theorem score_fun (r g : ℝ) : (fun n : ℕ => (1 - (n : ℝ) / r) * g) = fun n : ℕ => g + (-(g / r)) * (n : ℝ) := by
  funext n; ring

theorem score_memLp' (r : ℝ≥0) (g : ℝ) : MemLp (fun n : ℕ => (1 - (n : ℝ) / r) * g) 2 (poissonMeasure r) := by
  rw [score_fun]
  have h1 : MemLp (fun _ : ℕ => g) 2 (poissonMeasure r) := memLp_const g
  have h2 : MemLp (fun n : ℕ => (-(g / r)) * (n : ℝ)) 2 (poissonMeasure r) := (poisson_memLp r).const_mul _
  exact h1.add h2

theorem score_memLp (h : HasLaw X (poissonMeasure r) P) (g : ℝ) : MemLp (fun ω => (1 - (X ω : ℝ) / r) * g) 2 P := by
  have := score_memLp' r g
  rw [← h.map_eq] at this
  exact this.comp_of_map h.aemeasurable

theorem score_mean (h : HasLaw X (poissonMeasure r) P) (hr : 0 < r) (g : ℝ) : ∫ ω, (1 - (X ω : ℝ) / r) * g ∂P = 0 := by
  rw [law_integral h (fun n : ℕ => (1 - (n : ℝ) / r) * g), score_fun,
    integral_add (integrable_const _) ((poisson_integrable _).const_mul _), integral_const_mul, poisson_mean]
  have : (r:ℝ) ≠ 0 := by exact_mod_cast hr.ne'
  simp
  field_simp
  ring

theorem score_var (h : HasLaw X (poissonMeasure r) P) (hr : 0 < r) (g : ℝ) : Var[fun ω => (1 - (X ω : ℝ) / r) * g; P] = g ^ 2 / r := by
  have e : Var[fun ω => (1 - (X ω : ℝ) / r) * g; P] = Var[fun n : ℕ => (1 - (n : ℝ) / r) * g; poissonMeasure r] := by
    rw [← h.map_eq, variance_map .of_discrete h.aemeasurable]
    rfl
  have : (r:ℝ) ≠ 0 := by exact_mod_cast hr.ne'
  rw [e, score_fun, variance_const_add .of_discrete, variance_const_mul, poisson_var]
  field_simp

end law

/-- `r log r ≤ E[n log n]` -/
theorem poisson_log_ge (r : ℝ≥0) (hr : 0 < r) : (r:ℝ) * Real.log r ≤ ∫ n : ℕ, (n : ℝ) * Real.log n ∂(poissonMeasure r) := by
  have hr' : (0:ℝ) < r := hr
  have h := bin_mean (HasLaw.id (μ := poissonMeasure r)) r hr'
  have h0 : 0 ≤ ∫ ω, poissonBin ((id ω : ℕ) : ℝ) r ∂(poissonMeasure r) :=
    integral_nonneg fun n => (poissonBin_nonneg (Nat.cast_nonneg _) hr').1
  rw [h.2] at h0
  linarith

/-- **C135, the average of the cost function.** Take any model built channel by channel before evaluation, with any present parameters, every bin
expecting events. Let its toy data sets be drawn by a generator that returns Poisson numbers with the requested means. Then there is one number
`C ≥ 0` such that at EVERY parameter point (positive expectations) the average over toy data sets of the cost function exists and is the
cost function of the Asimov data set plus `C`: the average toy experiment and the Asimov data set have the same cost function up to a constant. -/
theorem C135_mean (s : Sys) (h : s.Built) (hne : s.m.channels ≠ []) (S : ℕ → ChanSpec) (hS : ModelIs s S)
    (htup : ∀ c ∈ s.m.chanIds, AllTuple (s.w.chans c).range)
    (y : ∀ k, Fin (S k).K → ℝ) (θ₀ : ∀ k, Fin (S k).K → Fin (S k).n → ℝ) (hp : ParamsAre s S y θ₀) (hT₀ : NonZeroSums s S θ₀)
    (hpos : ∀ k < s.m.chanIds.length, ∀ i, (1e-100 : ℝ) ≤ presentIn S y θ₀ k i)
    (V E : String → ℝ) (hc : ConstraintsAre s V E)
    {Ω : Type} [MeasurableSpace Ω] (P : Measure Ω) (draw : Ω → ℕ → Vec → ℕ → ℕ) (hd : PoissonLaw P s S (presentIn S y θ₀) draw) :
    ∃ C : ℝ, 0 ≤ C ∧ ∀ (ν : String → ℝ) (θ : ∀ k, Fin (S k).K → Fin (S k).n → ℝ), NonZeroSums s S θ →
      (∀ k < s.m.chanIds.length, ∀ i, 0 < expectedIn s S ν θ k i) →
      ∃ (b : ℝ) (f : Ω → ℝ),
        objective (s.step (.addAsimov false)).w (s.step (.addAsimov false)).m (paramVec s S ν θ) = .ok (.fin b) ∧
        (∀ ω, objective (s.step (.addToy (draw ω))).w (s.step (.addToy (draw ω))).m (paramVec s S ν θ) = .ok (.fin (f ω))) ∧
        Integrable f P ∧ ∫ ω, f ω ∂P = b + C := by
  have hN : 0 < s.m.chanIds.length := by
    rw [List.length_pos_iff]; simpa [Mct.chanIds] using hne
  set a := presentIn S y θ₀ with ha
  have ha0 : ∀ k < s.m.chanIds.length, ∀ i, 0 < a k i := fun k hk i => lt_of_lt_of_le (by norm_num) (hpos k hk i)
  have hP : IsProbabilityMeasure P := by
    have h1 := (hS 0 hN).2.1
    exact law_prob (hd 0 hN ⟨0, h1⟩)
  let c : ∀ k, Fin (S k).n → ℝ := fun k i => (∫ n : ℕ, (n : ℝ) * Real.log n ∂(poissonMeasure (a k i).toNNReal)) - a k i * Real.log (a k i)
  refine ⟨∑ k ∈ Finset.range s.m.chanIds.length, ∑ i, c k i, ?_, ?_⟩
  · refine Finset.sum_nonneg fun k hk => Finset.sum_nonneg fun i _ => ?_
    have h0 := ha0 k (Finset.mem_range.mp hk) i
    have := poisson_log_ge (a k i).toNNReal (Real.toNNReal_pos.mpr h0)
    rw [Real.coe_toNNReal _ h0.le] at this
    simp only [c]; linarith
  intro ν θ hT hE
  obtain ⟨q1, q2, q3, q4, q5, -, q7⟩ := asimov_model s h S hS htup y θ₀ hp hT₀
  refine ⟨nllAt s S a V E θ ν, fun ω => nllAt s S (toyData s S a (draw ω)) V E θ ν,
    objective_frame q1 hne q2 q3 q4 q5 q7 (fun k hk i => Or.inr (hpos k hk i)) hc hT hE, fun ω => ?_, ?_⟩
  · obtain ⟨q1, q2, q3, q4, q5, -, q7⟩ := toy_model s h S hS htup y θ₀ hp hT₀ (fun k hk i => (ha0 k hk i).le) (draw ω)
    exact objective_frame q1 hne q2 q3 q4 q5 q7 (fun k hk i => toyData_floor k i) hc hT hE
  have hb : ∀ k ∈ Finset.range s.m.chanIds.length, ∀ i, Integrable (fun ω => poissonBin (toyData s S a (draw ω) k i) (expectedIn s S ν θ k i)) P ∧
      ∫ ω, poissonBin (toyData s S a (draw ω) k i) (expectedIn s S ν θ k i) ∂P = poissonBin (a k i) (expectedIn s S ν θ k i) + c k i := by
    intro k hk i
    have hk := Finset.mem_range.mp hk
    have h0 := ha0 k hk i
    obtain ⟨b1, b2⟩ := bin_mean (hd k hk i) _ (hE k hk i)
    simp only [toyData_eq hk]
    refine ⟨b1, ?_⟩
    rw [b2, poissonBin_log (hE k hk i) h0.le, Real.coe_toNNReal _ h0.le]
    simp only [c]; ring
  have hb2 : ∀ k ∈ Finset.range s.m.chanIds.length, Integrable (fun ω => ∑ i, poissonBin (toyData s S a (draw ω) k i) (expectedIn s S ν θ k i)) P :=
    fun k hk => integrable_finsetSum _ fun i _ => (hb k hk i).1
  have hb3 : ∀ k ∈ Finset.range s.m.chanIds.length, Integrable (fun ω => (∑ i, poissonBin (toyData s S a (draw ω) k i) (expectedIn s S ν θ k i)) +
      penalty (S k).R (θ k)) P := fun k hk => (hb2 k hk).add (integrable_const _)
  unfold nllAt
  refine ⟨(integrable_finsetSum _ hb3).add (integrable_const _), ?_⟩
  rw [integral_add (integrable_finsetSum _ hb3) (integrable_const _), integral_finsetSum _ hb3]
  rw [add_right_comm, ← Finset.sum_add_distrib]
  congr 1
  · refine Finset.sum_congr rfl fun k hk => ?_
    rw [integral_add (hb2 k hk) (integrable_const _), integral_finsetSum _ fun i _ => (hb k hk i).1,
      Finset.sum_congr rfl fun i _ => (hb k hk i).2, Finset.sum_add_distrib]
    simp
    ring
  · simp

/-- **C135, the average is smallest at the truth.** If moreover the data are generated with zero nuisance parameters, the efficiencies are the channel shares of
the yields, the constraints are centred on the yields and the yields are identifiable, then the average over toy data sets of the cost
function is smallest at the parameters the data are generated with, and nowhere else as small. -/
theorem C135_truth (s : Sys) (h : s.Built) (hne : s.m.channels ≠ []) (S : ℕ → ChanSpec) (hS : ModelIs s S)
    (htup : ∀ c ∈ s.m.chanIds, AllTuple (s.w.chans c).range)
    (y : ∀ k, Fin (S k).K → ℝ) (hp : ParamsAre s S y (fun _ _ _ => 0))
    (hT₀ : ∀ k < s.m.chanIds.length, ∀ j, ∑ i, (S k).cnt j i ≠ 0)
    (ν₀ : String → ℝ) (hν : ∀ p ∈ s.m.processes, s.m.getYield s.w p = .ok (.fin (ν₀ p)))
    (hshare : ∀ k < s.m.chanIds.length, ∀ j, y k j = ν₀ (procName s k j) * (S k).eff j)
    (V E : String → ℝ) (hc : ConstraintsAre s V E) (hV : ∀ p ∈ s.m.constrained, V p = ν₀ p)
    (hpos : ∀ k < s.m.chanIds.length, ∀ i, (1e-100 : ℝ) ≤ ∑ j, y k j * ((S k).cnt j i / ∑ i', (S k).cnt j i'))
    (hid : Identifiable s S)
    {Ω : Type} [MeasurableSpace Ω] (P : Measure Ω) (draw : Ω → ℕ → Vec → ℕ → ℕ)
    (hd : PoissonLaw P s S (presentIn S y fun _ _ _ => 0) draw)
    (ν : String → ℝ) (θ : ∀ k, Fin (S k).K → Fin (S k).n → ℝ) (hT : NonZeroSums s S θ)
    (hE : ∀ k < s.m.chanIds.length, ∀ i, 0 < expectedIn s S ν θ k i) :
    ∃ x₀ : Vec, s.m.x0 s.w = .ok x₀ ∧ ∃ f f₀ : Ω → ℝ,
      (∀ ω, objective (s.step (.addToy (draw ω))).w (s.step (.addToy (draw ω))).m (paramVec s S ν θ) = .ok (.fin (f ω))) ∧
      (∀ ω, objective (s.step (.addToy (draw ω))).w (s.step (.addToy (draw ω))).m x₀ = .ok (.fin (f₀ ω))) ∧
      Integrable f P ∧ Integrable f₀ P ∧ ∫ ω, f₀ ω ∂P ≤ ∫ ω, f ω ∂P ∧ (∫ ω, f ω ∂P = ∫ ω, f₀ ω ∂P → paramVec s S ν θ = x₀) := by
  obtain ⟨q1, q2, q3, q4, q5, q6, q7, q8, q9, q10, q11, d, q12, q13, q14⟩ := asimov_exact s h hne S hS htup y hp hT₀ ν₀ hν
    hshare V E hc hV hpos hid _ rfl
  have hT0 : NonZeroSums s S (fun _ _ _ => 0) := by
    intro k hk j
    simpa using hT₀ k hk j
  have hpos' : ∀ k < s.m.chanIds.length, ∀ i, (1e-100 : ℝ) ≤ presentIn S y (fun _ _ _ => 0) k i := by
    intro k hk i
    simpa [presentIn] using hpos k hk i
  have hE0 : ∀ k < s.m.chanIds.length, ∀ i, 0 < expectedIn s S ν₀ (fun _ _ _ => 0) k i := by
    intro k hk i
    refine lt_of_lt_of_le (by norm_num : (0:ℝ) < 1e-100) ((hpos k hk i).trans_eq ?_)
    unfold expectedIn expected
    refine Finset.sum_congr rfl fun j _ => ?_
    rw [hshare k hk j]
    simp
  obtain ⟨C, -, hC⟩ := C135_mean s h hne S hS htup y _ hp hT0 hpos' V E hc P draw hd
  obtain ⟨b, f, f1, f2, f3, f4⟩ := hC ν θ hT hE
  obtain ⟨b0, f0, g1, g2, g3, g4⟩ := hC ν₀ _ hT0 hE0
  obtain ⟨m1, m2⟩ := C106_minimum _ q1 (by rw [q2]; exact hne) S q7 d q12 q13 V E q9 ν₀ q8 q14 q10 q11
  rw [q6, g1] at m1
  have hb0 : b0 = 0 := Fl.fin.inj (Except.ok.inj m1)
  have hw' := reachable_wf q1.reachable
  have hl := paramVec_length hw' q7 ν θ
  rw [q6] at hl
  obtain ⟨m3, m4⟩ := m2 _ _ hl f1
  have hb : 0 ≤ b := by simpa [Fl.lt] using m3
  refine ⟨_, q5, f, f0, f2, g2, f3, g3, by rw [f4, g4, hb0]; linarith, fun he => ?_⟩
  rw [f4, g4, hb0] at he
  have hbz : b = 0 := by linarith
  have := m4 (by rw [hbz])
  rw [q6] at this
  exact this

/-- a model at the point its data are generated at -/
theorem slope_exists {s s' : Sys} (hB : s'.Built) (hne : s.m.channels ≠ []) {S : ℕ → ChanSpec} (hS : ModelIs s S) (e2 : s'.m = s.m) (f1 : ModelIs s' S)
    {d : ∀ k, Fin (S k).n → ℝ} (f2 : DataIs s' S d) (f3 : ∀ ν θ, paramVec s' S ν θ = paramVec s S ν θ)
    (f4 : ∀ ν θ k i, expectedIn s' S ν θ k i = expectedIn s S ν θ k i)
    (hfl : ∀ k < s.m.chanIds.length, ∀ i, d k i = 0 ∨ (1e-100 : ℝ) ≤ d k i)
    {V E : String → ℝ} (hc : ConstraintsAre s V E) {ν : String → ℝ} {θ : ∀ k, Fin (S k).K → Fin (S k).n → ℝ} (hT : NonZeroSums s S θ)
    (hE : ∀ k < s.m.chanIds.length, ∀ i, 0 < expectedIn s S ν θ k i)
    (δ : String → ℝ) (η : ∀ k, Fin (S k).K → Fin (S k).n → ℝ) :
    HasSlope (fun t => objective s'.w s'.m (paramVec s S (fun p => ν p + t * δ p) (fun k j i => θ k j i + t * η k j i)))
      (lineSlope s S d V E ν δ θ η 0) := by
  have e0 : (fun p => ν p + 0 * δ p) = ν := by funext p; ring
  have e1 : (fun k j i => θ k j i + 0 * η k j i) = θ := by funext k j i; ring
  have h1 : ∀ᶠ t in nhds (0:ℝ), ∀ k ∈ Finset.range s.m.chanIds.length, ∀ i,
      0 < expectedIn s S (fun p => ν p + t * δ p) (fun k j i => θ k j i + t * η k j i) k i := by
    rw [Filter.eventually_all_finset]
    intro k hk
    have hk := Finset.mem_range.mp hk
    rw [Filter.eventually_all]
    intro i
    refine (expected_hasDeriv s S ν δ θ η k (hT k hk) i).continuousAt.eventually_const_lt ?_
    simp only [e0, e1]; exact hE k hk i
  have h2 : ∀ᶠ t in nhds (0:ℝ), ∀ k ∈ Finset.range s.m.chanIds.length, ∀ j,
      ∑ i, (S k).cnt j i * (1 + (θ k j i + t * η k j i) * (S k).ε j i) ≠ 0 := by
    rw [Filter.eventually_all_finset]
    intro k hk
    have hk := Finset.mem_range.mp hk
    rw [Filter.eventually_all]
    intro j
    have : Continuous (fun t : ℝ => ∑ i, (S k).cnt j i * (1 + (θ k j i + t * η k j i) * (S k).ε j i)) := by fun_prop
    refine this.continuousAt.eventually_ne ?_
    simpa using hT k hk j
  refine ⟨fun t => nllAt s S d V E (fun k j i => θ k j i + t * η k j i) (fun p => ν p + t * δ p), ?_, ?_⟩
  · filter_upwards [h1, h2] with t a b
    exact objective_frame hB hne e2 f1 f2 f3 f4 hfl hc (fun k hk => b k (Finset.mem_range.mpr hk))
      (fun k hk i => a k (Finset.mem_range.mpr hk) i)
  · refine nllAt_line hS d hc ν δ θ η 0 ?_ ?_
    · rw [e1]; exact hT
    · rw [e0, e1]; intro k hk i _; exact (hE k hk i).ne'

/-- the penalty part of the slope at `(ν, θ)` along `(δ, η)`: `Σ ηᵀ R⁻¹ θ + Σ (ν - v)/e² δ` -/
def penaltySlope (s : Sys) (S : ℕ → ChanSpec) (V E : String → ℝ) (ν δ : String → ℝ) (θ η : ∀ k, Fin (S k).K → Fin (S k).n → ℝ) : ℝ :=
  (∑ k ∈ Finset.range s.m.chanIds.length, ∑ j, (η k j) ⬝ᵥ (((S k).R j)⁻¹.mulVec (θ k j))) +
    (s.m.constrained.map fun p => (ν p - V p) / E p ^ 2 * δ p).sum

/-- **C135, the slope at the truth.** At the parameters the toy data are generated with, along every line in the space of all parameters: the slope
of the cost function of a toy experiment exists whatever the data, its average is the slope of the penalties alone (none for zero nuisance parameters and
centred constraints), and, for independent bins, its variance is `Σ_bins λ'²/λ`, the Poisson part of the information. -/
theorem C135_score (s : Sys) (h : s.Built) (hne : s.m.channels ≠ []) (S : ℕ → ChanSpec) (hS : ModelIs s S)
    (htup : ∀ c ∈ s.m.chanIds, AllTuple (s.w.chans c).range)
    (y : ∀ k, Fin (S k).K → ℝ) (θ₀ : ∀ k, Fin (S k).K → Fin (S k).n → ℝ) (hp : ParamsAre s S y θ₀) (hT₀ : NonZeroSums s S θ₀)
    (hpos : ∀ k < s.m.chanIds.length, ∀ i, 0 < presentIn S y θ₀ k i)
    (ν₀ : String → ℝ) (hshare : ∀ k < s.m.chanIds.length, ∀ j, y k j = ν₀ (procName s k j) * (S k).eff j)
    (V E : String → ℝ) (hc : ConstraintsAre s V E)
    {Ω : Type} [MeasurableSpace Ω] (P : Measure Ω) (draw : Ω → ℕ → Vec → ℕ → ℕ) (hd : PoissonLaw P s S (presentIn S y θ₀) draw)
    (hi : IndepBins P s S (presentIn S y θ₀) draw) (δ : String → ℝ) (η : ∀ k, Fin (S k).K → Fin (S k).n → ℝ) :
    ∃ L : Ω → ℝ,
      (∀ ω, HasSlope (fun t => objective (s.step (.addToy (draw ω))).w (s.step (.addToy (draw ω))).m
        (paramVec s S (fun p => ν₀ p + t * δ p) (fun k j i => θ₀ k j i + t * η k j i))) (L ω)) ∧
      MemLp L 2 P ∧ ∫ ω, L ω ∂P = penaltySlope s S V E ν₀ δ θ₀ η ∧
      Var[L; P] = ∑ k ∈ Finset.range s.m.chanIds.length, ∑ i, slopeIn s S ν₀ δ θ₀ η k i ^ 2 / expectedIn s S ν₀ θ₀ k i := by
  have hN : 0 < s.m.chanIds.length := by
    rw [List.length_pos_iff]; simpa [Mct.chanIds] using hne
  set a := presentIn S y θ₀ with ha
  have hP : IsProbabilityMeasure P := law_prob (hd 0 hN ⟨0, (hS 0 hN).2.1⟩)
  have hea : ∀ k < s.m.chanIds.length, ∀ i, expectedIn s S ν₀ θ₀ k i = a k i := by
    intro k hk i
    rw [ha, expectedIn_eq]
    unfold presentIn fracIn
    exact Finset.sum_congr rfl fun j _ => by rw [hshare k hk j]
  have hE : ∀ k < s.m.chanIds.length, ∀ i, 0 < expectedIn s S ν₀ θ₀ k i := fun k hk i => by rw [hea k hk i]; exact hpos k hk i
  have e0 : (fun p => ν₀ p + 0 * δ p) = ν₀ := by funext p; ring
  have e1 : (fun k j i => θ₀ k j i + 0 * η k j i) = θ₀ := by funext k j i; ring
  -- one bin
  let I : Finset (Σ k, Fin (S k).n) := (Finset.range s.m.chanIds.length).sigma fun k => Finset.univ
  have hI : ∀ q ∈ I, q.1 < s.m.chanIds.length := fun q hq => Finset.mem_range.mp (Finset.mem_sigma.mp hq).1
  let g : (Σ k, Fin (S k).n) → ℝ := fun q => slopeIn s S ν₀ δ θ₀ η q.1 q.2
  let X : (Σ k, Fin (S k).n) → Ω → ℝ := fun q ω => (1 - toyData s S a (draw ω) q.1 q.2 / a q.1 q.2) * g q
  have hX : ∀ q, (hq : q.1 < s.m.chanIds.length) → X q = fun ω => (fun n : ℕ => (1 - (n : ℝ) / a q.1 q.2) * g q)
      (draw ω s.m.chanIds[q.1] (vec (a q.1)) q.2) := by
    intro q hq
    funext ω
    simp only [X, toyData_eq hq]
  have hr : ∀ q : Σ k, Fin (S k).n, q.1 < s.m.chanIds.length → ((a q.1 q.2).toNNReal : ℝ) = a q.1 q.2 ∧ 0 < (a q.1 q.2).toNNReal :=
    fun q hq => ⟨Real.coe_toNNReal _ (hpos q.1 hq q.2).le, Real.toNNReal_pos.mpr (hpos q.1 hq q.2)⟩
  have hmem : ∀ q ∈ I, MemLp (X q) 2 P := by
    intro q hq
    have hq := hI q hq
    have hl := score_memLp (hd q.1 hq q.2) (g q)
    rw [(hr q hq).1] at hl
    rw [hX q hq]
    exact hl
  have hmean : ∀ q ∈ I, ∫ ω, X q ω ∂P = 0 := by
    intro q hq
    have hq := hI q hq
    have hl := score_mean (hd q.1 hq q.2) (hr q hq).2 (g q)
    rw [(hr q hq).1] at hl
    rw [hX q hq]
    exact hl
  have hvar : ∀ q ∈ I, Var[X q; P] = g q ^ 2 / a q.1 q.2 := by
    intro q hq
    have hq := hI q hq
    have hl := score_var (hd q.1 hq q.2) (hr q hq).2 (g q)
    rw [(hr q hq).1] at hl
    rw [hX q hq]
    exact hl
  have hind : Set.Pairwise (↑I : Set (Σ k, Fin (S k).n)) fun p q => X p ⟂ᵢ[P] X q := by
    intro p hp q hq hpq
    have hp := hI p hp
    have hq := hI q hq
    have := hi p.1 hp q.1 hq p.2 q.2 (by
      by_contra hcon
      rw [not_or, not_not, not_not] at hcon
      apply hpq
      obtain ⟨p1, p2⟩ := p
      obtain ⟨q1, q2⟩ := q
      obtain ⟨c1, c2⟩ := hcon
      simp only at c1 c2
      subst c1
      rw [Fin.ext c2])
    rw [hX p hp, hX q hq]
    exact this.comp (φ := fun n : ℕ => (1 - (n : ℝ) / a p.1 p.2) * g p) (ψ := fun n : ℕ => (1 - (n : ℝ) / a q.1 q.2) * g q) .of_discrete .of_discrete
  have hL : ∀ ω, lineSlope s S (toyData s S a (draw ω)) V E ν₀ δ θ₀ η 0 = penaltySlope s S V E ν₀ δ θ₀ η + (∑ q ∈ I, X q) ω := by
    intro ω
    have e3 : (∑ q ∈ I, X q) ω = ∑ k ∈ Finset.range s.m.chanIds.length, ∑ i,
        (1 - toyData s S a (draw ω) k i / expectedIn s S ν₀ θ₀ k i) * slopeIn s S ν₀ δ θ₀ η k i := by
      rw [Finset.sum_apply]
      simp only [I]
      rw [Finset.sum_sigma]
      refine Finset.sum_congr rfl fun k hk => Finset.sum_congr rfl fun i _ => ?_
      rw [hea k (Finset.mem_range.mp hk) i]
    have e4 : ∀ k (j : Fin (S k).K), (fun i => θ₀ k j i + 0 * η k j i) = θ₀ k j := by intro k j; funext i; ring
    rw [e3]
    unfold lineSlope penaltySlope
    rw [e0, e1]
    simp only [e4, zero_mul, add_zero, Finset.sum_add_distrib, dotProduct]
    ring
  refine ⟨fun ω => lineSlope s S (toyData s S a (draw ω)) V E ν₀ δ θ₀ η 0, fun ω => ?_, ?_, ?_, ?_⟩
  · obtain ⟨q1, q2, q3, q4, q5, -, q7⟩ := toy_model s h S hS htup y θ₀ hp hT₀ (fun k hk i => (hpos k hk i).le) (draw ω)
    exact slope_exists q1 hne hS q2 q3 q4 q5 q7 (fun k hk i => toyData_floor k i) hc hT₀ hE δ η
  · simp only [hL]
    have h1 : MemLp (fun _ : Ω => penaltySlope s S V E ν₀ δ θ₀ η) 2 P := memLp_const _
    have h2 := memLp_finsetSum' I hmem
    exact h1.add h2
  · simp only [hL]
    have hint : ∀ q ∈ I, Integrable (X q) P := fun q hq => (hmem q hq).integrable (by norm_num)
    rw [integral_add (integrable_const _) (integrable_finsetSum' _ hint)]
    simp only [Finset.sum_apply]
    rw [integral_finsetSum _ hint, Finset.sum_eq_zero hmean]
    simp
  · simp only [hL]
    have hm := memLp_finsetSum' I hmem
    rw [variance_const_add hm.1, IndepFun.variance_sum hmem hind, Finset.sum_congr rfl hvar]
    simp only [I]
    rw [Finset.sum_sigma]
    refine Finset.sum_congr rfl fun k hk => Finset.sum_congr rfl fun i _ => ?_
    rw [hea k (Finset.mem_range.mp hk) i]

theorem curv_exists {s s' : Sys} (hB : s'.Built) (hne : s.m.channels ≠ []) {S : ℕ → ChanSpec} (hS : ModelIs s S) (e2 : s'.m = s.m) (f1 : ModelIs s' S)
    {d : ∀ k, Fin (S k).n → ℝ} (f2 : DataIs s' S d) (f3 : ∀ ν θ, paramVec s' S ν θ = paramVec s S ν θ)
    (f4 : ∀ ν θ k i, expectedIn s' S ν θ k i = expectedIn s S ν θ k i)
    (hfl : ∀ k < s.m.chanIds.length, ∀ i, d k i = 0 ∨ (1e-100 : ℝ) ≤ d k i)
    {V E : String → ℝ} (hc : ConstraintsAre s V E) {ν : String → ℝ} {θ : ∀ k, Fin (S k).K → Fin (S k).n → ℝ} (hT : NonZeroSums s S θ)
    (hE : ∀ k < s.m.chanIds.length, ∀ i, 0 < expectedIn s S ν θ k i)
    (δ : String → ℝ) (η : ∀ k, Fin (S k).K → Fin (S k).n → ℝ) :
    HasCurvature (fun t => objective s'.w s'.m (paramVec s S (fun p => ν p + t * δ p) (fun k j i => θ k j i + t * η k j i)))
      (information s S d E ν δ θ η + ∑ k ∈ Finset.range s.m.channels.length, ∑ i,
        (1 - d k i / expectedIn s S ν θ k i) * bendIn s S ν δ θ η k i) := by
  have e0 : (fun p => ν p + 0 * δ p) = ν := by funext p; ring
  have e1 : (fun k j i => θ k j i + 0 * η k j i) = θ := by funext k j i; ring
  have h1 : ∀ᶠ t in nhds (0:ℝ), ∀ k ∈ Finset.range s.m.chanIds.length, ∀ i,
      0 < expectedIn s S (fun p => ν p + t * δ p) (fun k j i => θ k j i + t * η k j i) k i := by
    rw [Filter.eventually_all_finset]
    intro k hk
    have hk := Finset.mem_range.mp hk
    rw [Filter.eventually_all]
    intro i
    refine (expected_hasDeriv s S ν δ θ η k (hT k hk) i).continuousAt.eventually_const_lt ?_
    simp only [e0, e1]; exact hE k hk i
  have h2 : ∀ᶠ t in nhds (0:ℝ), ∀ k ∈ Finset.range s.m.chanIds.length, ∀ j,
      ∑ i, (S k).cnt j i * (1 + (θ k j i + t * η k j i) * (S k).ε j i) ≠ 0 := by
    rw [Filter.eventually_all_finset]
    intro k hk
    have hk := Finset.mem_range.mp hk
    rw [Filter.eventually_all]
    intro j
    have : Continuous (fun t : ℝ => ∑ i, (S k).cnt j i * (1 + (θ k j i + t * η k j i) * (S k).ε j i)) := by fun_prop
    refine this.continuousAt.eventually_ne ?_
    simpa using hT k hk j
  refine ⟨fun t => nllAt s S d V E (fun k j i => θ k j i + t * η k j i) (fun p => ν p + t * δ p),
    lineSlope s S d V E ν δ θ η, ?_, ?_, lineSlope_hasDeriv d ν δ θ η hT hE⟩
  · filter_upwards [h1, h2] with t a b
    exact objective_frame hB hne e2 f1 f2 f3 f4 hfl hc (fun k hk => b k (Finset.mem_range.mpr hk))
      (fun k hk i => a k (Finset.mem_range.mpr hk) i)
  · filter_upwards [h1, h2] with t a b
    exact nllAt_line hS d hc ν δ θ η t (fun k hk => b k (Finset.mem_range.mpr hk))
      (fun k hk i _ => (a k (Finset.mem_range.mpr hk) i).ne')

/-- **C135, the information.** At the parameters the toy data are generated with, along every line: the second derivative of the cost function
of a toy experiment exists whatever the data; its average over toy data sets is the second derivative of the cost function of the Asimov data set, and this is the
information with the expectations in place of the data, i.e. the variance `Σ_bins λ'²/λ` of the slope (`C135_score`) plus the penalty terms. -/
theorem C135_information (s : Sys) (h : s.Built) (hne : s.m.channels ≠ []) (S : ℕ → ChanSpec) (hS : ModelIs s S)
    (htup : ∀ c ∈ s.m.chanIds, AllTuple (s.w.chans c).range)
    (y : ∀ k, Fin (S k).K → ℝ) (θ₀ : ∀ k, Fin (S k).K → Fin (S k).n → ℝ) (hp : ParamsAre s S y θ₀) (hT₀ : NonZeroSums s S θ₀)
    (hpos : ∀ k < s.m.chanIds.length, ∀ i, (1e-100 : ℝ) ≤ presentIn S y θ₀ k i)
    (ν₀ : String → ℝ) (hshare : ∀ k < s.m.chanIds.length, ∀ j, y k j = ν₀ (procName s k j) * (S k).eff j)
    (V E : String → ℝ) (hc : ConstraintsAre s V E)
    {Ω : Type} [MeasurableSpace Ω] (P : Measure Ω) (draw : Ω → ℕ → Vec → ℕ → ℕ) (hd : PoissonLaw P s S (presentIn S y θ₀) draw)
    (δ : String → ℝ) (η : ∀ k, Fin (S k).K → Fin (S k).n → ℝ) :
    ∃ (c : Ω → ℝ) (I : ℝ),
      (∀ ω, HasCurvature (fun t => objective (s.step (.addToy (draw ω))).w (s.step (.addToy (draw ω))).m
        (paramVec s S (fun p => ν₀ p + t * δ p) (fun k j i => θ₀ k j i + t * η k j i))) (c ω)) ∧
      HasCurvature (fun t => objective (s.step (.addAsimov false)).w (s.step (.addAsimov false)).m
        (paramVec s S (fun p => ν₀ p + t * δ p) (fun k j i => θ₀ k j i + t * η k j i))) I ∧
      Integrable c P ∧ ∫ ω, c ω ∂P = I ∧
      I = (∑ k ∈ Finset.range s.m.chanIds.length, ∑ i, slopeIn s S ν₀ δ θ₀ η k i ^ 2 / expectedIn s S ν₀ θ₀ k i) +
        (∑ k ∈ Finset.range s.m.chanIds.length, ∑ j, (η k j) ⬝ᵥ (((S k).R j)⁻¹.mulVec (η k j))) +
        (s.m.constrained.map fun p => (δ p / E p) ^ 2).sum := by
  have hN : 0 < s.m.chanIds.length := by
    rw [List.length_pos_iff]; simpa [Mct.chanIds] using hne
  have hlen : s.m.channels.length = s.m.chanIds.length := by simp [Mct.chanIds]
  set a := presentIn S y θ₀ with ha
  have ha0 : ∀ k < s.m.chanIds.length, ∀ i, 0 < a k i := fun k hk i => lt_of_lt_of_le (by norm_num) (hpos k hk i)
  have hP : IsProbabilityMeasure P := law_prob (hd 0 hN ⟨0, (hS 0 hN).2.1⟩)
  have hea : ∀ k < s.m.chanIds.length, ∀ i, expectedIn s S ν₀ θ₀ k i = a k i := by
    intro k hk i
    rw [ha, expectedIn_eq]
    unfold presentIn fracIn
    exact Finset.sum_congr rfl fun j _ => by rw [hshare k hk j]
  have hE : ∀ k < s.m.chanIds.length, ∀ i, 0 < expectedIn s S ν₀ θ₀ k i := fun k hk i => by rw [hea k hk i]; exact ha0 k hk i
  -- the curvature as a function of the data
  set Q : ℝ := (∑ k ∈ Finset.range s.m.chanIds.length, ∑ j, (η k j) ⬝ᵥ (((S k).R j)⁻¹.mulVec (η k j))) +
        (s.m.constrained.map fun p => (δ p / E p) ^ 2).sum with hQ
  let u : ∀ k, Fin (S k).n → ℝ := fun k i => (slopeIn s S ν₀ δ θ₀ η k i / expectedIn s S ν₀ θ₀ k i) ^ 2
  let b : ∀ k, Fin (S k).n → ℝ := fun k i => bendIn s S ν₀ δ θ₀ η k i
  have hform : ∀ d : ∀ k, Fin (S k).n → ℝ, information s S d E ν₀ δ θ₀ η + ∑ k ∈ Finset.range s.m.channels.length, ∑ i,
        (1 - d k i / expectedIn s S ν₀ θ₀ k i) * bendIn s S ν₀ δ θ₀ η k i =
      (∑ k ∈ Finset.range s.m.chanIds.length, ∑ i, (b k i + (u k i - b k i / expectedIn s S ν₀ θ₀ k i) * d k i)) + Q := by
    intro d
    unfold information
    have e : ∀ k, ∑ i, (b k i + (u k i - b k i / expectedIn s S ν₀ θ₀ k i) * d k i) =
        (∑ i, d k i * (slopeIn s S ν₀ δ θ₀ η k i / expectedIn s S ν₀ θ₀ k i) ^ 2) +
          ∑ i, (1 - d k i / expectedIn s S ν₀ θ₀ k i) * bendIn s S ν₀ δ θ₀ η k i := by
      intro k
      rw [← Finset.sum_add_distrib]
      refine Finset.sum_congr rfl fun i _ => ?_
      simp only [u, b]
      ring
    rw [hlen, hQ, Finset.sum_add_distrib, Finset.sum_congr rfl fun k _ => e k, Finset.sum_add_distrib]
    ring
  obtain ⟨q1, q2, q3, q4, q5, -, q7⟩ := asimov_model s h S hS htup y θ₀ hp hT₀
  have hA := curv_exists q1 hne hS q2 q3 q4 q5 q7 (fun k hk i => Or.inr (hpos k hk i)) hc hT₀ hE δ η
  rw [hform] at hA
  refine ⟨fun ω => (∑ k ∈ Finset.range s.m.chanIds.length, ∑ i, (b k i + (u k i - b k i / expectedIn s S ν₀ θ₀ k i) * toyData s S a (draw ω) k i)) + Q,
    _, fun ω => ?_, hA, ?_, ?_, ?_⟩
  · obtain ⟨q1, q2, q3, q4, q5, -, q7⟩ := toy_model s h S hS htup y θ₀ hp hT₀ (fun k hk i => (ha0 k hk i).le) (draw ω)
    have := curv_exists q1 hne hS q2 q3 q4 q5 q7 (fun k hk i => toyData_floor k i) hc hT₀ hE δ η
    rw [hform] at this
    exact this
  · have hb : ∀ k ∈ Finset.range s.m.chanIds.length, ∀ i, Integrable (fun ω => b k i + (u k i - b k i / expectedIn s S ν₀ θ₀ k i) * toyData s S a (draw ω) k i) P := by
      intro k hk i
      have hk := Finset.mem_range.mp hk
      simp only [toyData_eq hk]
      exact (integrable_const _).add ((law_integrable (hd k hk i) (poisson_integrable _)).const_mul _)
    exact (integrable_finsetSum _ fun k hk => integrable_finsetSum _ fun i _ => hb k hk i).add (integrable_const _)
  · have hb : ∀ k ∈ Finset.range s.m.chanIds.length, ∀ i, Integrable (fun ω => b k i + (u k i - b k i / expectedIn s S ν₀ θ₀ k i) * toyData s S a (draw ω) k i) P ∧
        ∫ ω, b k i + (u k i - b k i / expectedIn s S ν₀ θ₀ k i) * toyData s S a (draw ω) k i ∂P =
          b k i + (u k i - b k i / expectedIn s S ν₀ θ₀ k i) * a k i := by
      intro k hk i
      have hk := Finset.mem_range.mp hk
      simp only [toyData_eq hk]
      have h1 := (law_integrable (hd k hk i) (poisson_integrable _)).const_mul (u k i - b k i / expectedIn s S ν₀ θ₀ k i)
      refine ⟨(integrable_const _).add h1, ?_⟩
      rw [integral_add (integrable_const _) h1, integral_const_mul, law_integral (hd k hk i) (fun n : ℕ => (n : ℝ)), poisson_mean,
        Real.coe_toNNReal _ (ha0 k hk i).le]
      simp
    rw [integral_add (integrable_finsetSum _ fun k hk => integrable_finsetSum _ fun i _ => (hb k hk i).1) (integrable_const _),
      integral_finsetSum _ fun k hk => integrable_finsetSum _ fun i _ => (hb k hk i).1]
    congr 1
    · refine Finset.sum_congr rfl fun k hk => ?_
      rw [integral_finsetSum _ fun i _ => (hb k hk i).1]
      exact Finset.sum_congr rfl fun i _ => (hb k hk i).2
    · simp
  · rw [hQ, add_assoc]
    congr 1
    refine Finset.sum_congr rfl fun k hk => Finset.sum_congr rfl fun i _ => ?_
    have hk := Finset.mem_range.mp hk
    have h0 := (ha0 k hk i).ne'
    simp only [u]
    rw [hea k hk i]
    field_simp
    ring

/-- such generators exist: independent Poisson numbers with any requested means -/
theorem poisson_gen (s : Sys) (hw : SysWF s) (S : ℕ → ChanSpec) (a : ∀ k, Fin (S k).n → ℝ) :
    ∃ (Ω : Type) (_ : MeasurableSpace Ω) (P : Measure Ω) (draw : Ω → ℕ → Vec → ℕ → ℕ), PoissonLaw P s S a draw ∧ IndepBins P s S a draw ∧
      ∀ k, (hk : k < s.m.chanIds.length) → iIndepFun (fun (i : Fin (S k).n) ω => draw ω s.m.chanIds[k] (vec (a k)) i) P := by
  let rr : ℕ → ℕ → ℝ≥0 := fun k j => if hi : j < (S k).n then (a k ⟨j, hi⟩).toNNReal else 0
  let r : ℕ × ℕ → ℝ≥0 := fun q => rr (s.m.chanIds.idxOf q.1) q.2
  have hnd : s.m.chanIds.Nodup := hw.chIds
  have hr : ∀ k (hk : k < s.m.chanIds.length) (i : Fin (S k).n), r (s.m.chanIds[k], i) = (a k i).toNNReal := by
    intro k hk i
    have e : s.m.chanIds.idxOf s.m.chanIds[k] = k := List.Nodup.idxOf_getElem hnd k hk
    show rr (s.m.chanIds.idxOf s.m.chanIds[k]) i = _
    rw [e]
    simp only [rr, i.2, dite_true]
  refine ⟨ℕ × ℕ → ℕ, inferInstance, Measure.infinitePi fun q => poissonMeasure (r q), fun ω c _ i => ω (c, i), ?_, ?_, ?_⟩
  · intro k hk i
    rw [← hr k hk i]
    exact (measurePreserving_eval_infinitePi (fun q => poissonMeasure (r q)) (s.m.chanIds[k], (i:ℕ))).hasLaw
  · intro k hk k' hk' i i' hne
    have := iIndepFun_infinitePi (P := fun q : ℕ × ℕ => poissonMeasure (r q)) (X := fun _ => id) (fun _ => measurable_id)
    refine this.indepFun (i := (s.m.chanIds[k], (i:ℕ))) (j := (s.m.chanIds[k'], (i':ℕ))) ?_
    intro e
    simp only [Prod.mk.injEq] at e
    rcases hne with h1 | h1
    · exact h1 ((List.Nodup.getElem_inj_iff hnd).mp e.1)
    · exact h1 e.2
  · intro k hk
    have := iIndepFun_infinitePi (P := fun q : ℕ × ℕ => poissonMeasure (r q)) (X := fun _ => id) (fun _ => measurable_id)
    exact this.precomp (g := fun i : Fin (S k).n => (s.m.chanIds[k], (i:ℕ))) (by
      intro i i' e
      simp only [Prod.mk.injEq, true_and] at e
      exact Fin.ext e)

/-- non-vacuity of C135: the two-channel example with the yields 2 and 6 satisfies every hypothesis, with a generator of independent Poisson numbers; so
the average slope at the truth in the direction of the yield is 0, and the average cost function is smallest at the truth -/
example : ∃ (Ω : Type) (_ : MeasurableSpace Ω) (P : Measure Ω) (draw : Ω → ℕ → Vec → ℕ → ℕ) (L : Ω → ℝ),
    (∀ ω, HasSlope (fun t => objective (Ex.sysQ.step (.addToy (draw ω))).w (Ex.sysQ.step (.addToy (draw ω))).m
      (paramVec Ex.sysQ Ex.SQ (fun _ => 8 + t * 1) (fun _ _ _ => 0 + t * 0))) (L ω)) ∧ ∫ ω, L ω ∂P = 0 ∧
    ∃ f f₀ : Ω → ℝ, (∀ ω, objective (Ex.sysQ.step (.addToy (draw ω))).w (Ex.sysQ.step (.addToy (draw ω))).m
        (paramVec Ex.sysQ Ex.SQ (fun _ => 9) fun _ _ _ => 0) = .ok (.fin (f ω))) ∧
      (∀ ω, objective (Ex.sysQ.step (.addToy (draw ω))).w (Ex.sysQ.step (.addToy (draw ω))).m
        (paramVec Ex.sysQ Ex.SQ (fun _ => 8) fun _ _ _ => 0) = .ok (.fin (f₀ ω))) ∧ ∫ ω, f₀ ω ∂P < ∫ ω, f ω ∂P := by
  obtain ⟨Ω, mΩ, P, draw, h1, h2, -⟩ := poisson_gen Ex.sysQ (reachable_wf Ex.sysQ_built.reachable) Ex.SQ (presentIn Ex.SQ Ex.yQ fun _ _ _ => 0)
  have htup : ∀ c ∈ Ex.sysQ.m.chanIds, AllTuple (Ex.sysQ.w.chans c).range := by
    simp [Ex.sysQ, Ex.mQ, Mct.chanIds, Ex.wQ, Ex.chQa, Ex.chQb, AllTuple]
  have hc : ConstraintsAre Ex.sysQ (fun _ => 0) (fun _ => 1) := by intro p hp; simp [Ex.sysQ, Ex.mQ] at hp
  have hV : ∀ p ∈ Ex.sysQ.m.constrained, (fun _ => 0 : String → ℝ) p = (fun _ => 8 : String → ℝ) p := by intro p hp; simp [Ex.sysQ, Ex.mQ] at hp
  have hT0 : NonZeroSums Ex.sysQ Ex.SQ (fun _ _ _ => 0) := by
    intro k hk j
    simpa using Ex.sumsQ k hk j
  have hpos' : ∀ k < Ex.sysQ.m.chanIds.length, ∀ i, 0 < presentIn Ex.SQ Ex.yQ (fun _ _ _ => 0) k i := by
    intro k hk i
    refine lt_of_lt_of_le (by norm_num : (0:ℝ) < 1e-100) ((Ex.posQ k hk i).trans_eq ?_)
    simp [presentIn]
  have hν : ∀ p ∈ Ex.sysQ.m.processes, Ex.sysQ.m.getYield Ex.sysQ.w p = .ok (.fin ((fun _ => 8 : String → ℝ) p)) := by
    simp only [Ex.sysQ]; intro p hp; simp [Ex.mQ] at hp; subst hp; exact Ex.yieldQ
  obtain ⟨L, l1, -, l3, -⟩ := C135_score Ex.sysQ Ex.sysQ_built (by simp [Ex.sysQ, Ex.mQ]) Ex.SQ Ex.modelQ htup Ex.yQ _ Ex.paramsQ hT0 hpos' (fun _ => 8)
    Ex.shareQ _ _ hc P draw h1 h2 (fun _ => 1) (fun _ _ _ => 0)
  have hE9 : ∀ k < Ex.sysQ.m.chanIds.length, ∀ i, 0 < expectedIn Ex.sysQ Ex.SQ (fun _ => 9) (fun _ _ _ => 0) k i := by
    intro k hk i
    have e : expectedIn Ex.sysQ Ex.SQ (fun _ => 9) (fun _ _ _ => 0) k i = 9 / 8 * presentIn Ex.SQ Ex.yQ (fun _ _ _ => 0) k i := by
      rw [expectedIn_eq]
      unfold presentIn fracIn
      rw [Finset.mul_sum]
      refine Finset.sum_congr rfl fun j _ => ?_
      rw [Ex.shareQ k hk j]
      ring
    rw [e]
    have := hpos' k hk i
    positivity
  obtain ⟨x0, hx0, f, f0, f1, f2, f3, f4, f5, f6⟩ := C135_truth Ex.sysQ Ex.sysQ_built (by simp [Ex.sysQ, Ex.mQ]) Ex.SQ Ex.modelQ htup Ex.yQ Ex.paramsQ Ex.sumsQ
    (fun _ => 8) hν Ex.shareQ _ _ hc hV Ex.posQ Ex.identQ P draw h1 (fun _ => 9) (fun _ _ _ => 0) hT0 hE9
  have hx := x0_eq Ex.sysQ Ex.sysQ_built.reachable (by simp [Ex.sysQ, Ex.mQ]) Ex.SQ Ex.modelQ Ex.yQ _ Ex.paramsQ (fun _ => 8) hν
  rw [hx0] at hx
  obtain rfl := Except.ok.inj hx
  refine ⟨Ω, mΩ, P, draw, L, l1, ?_, f, f0, f1, f2, lt_of_le_of_ne f5 fun e => ?_⟩
  · rw [l3]
    simp [penaltySlope, Ex.sysQ, Ex.mQ]
  · have := f6 e.symm
    simp [paramVec, Ex.sysQ, Ex.mQ] at this

end

end TF.Props
