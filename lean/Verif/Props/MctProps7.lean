import Verif.Props.MctProps6

set_option linter.unusedSimpArgs false

/-!
# The total likelihood (C54) and the closure of the fit on Asimov data (C55)
-/

namespace TF.Spec

open Classical

noncomputable section

/-- what one channel consists of: `K` templates with `n` bins each, nominal contents, relative errors,
efficiencies, correlation matrices -/
structure ChanSpec where
  K : ℕ
  n : ℕ
  cnt : Fin K → Fin n → ℝ
  ε : Fin K → Fin n → ℝ
  eff : Fin K → ℝ
  R : Fin K → Matrix (Fin n) (Fin n) ℝ

/-- channel number `k` of the model `s` (in the order of definition) is described by `S k` -/
def ModelIs (s : Sys) (S : ℕ → ChanSpec) : Prop :=
  ∀ k, (hk : k < s.m.chanIds.length) → 0 < (S k).K ∧ 0 < (S k).n ∧ (∀ j, ((S k).R j).PosDef) ∧
    ChanIs s.w s.m.chanIds[k] (S k).cnt (S k).ε (S k).eff (S k).R

/-- channel number `k` of the model has data with contents `d k` -/
def DataIs (s : Sys) (S : ℕ → ChanSpec) (d : ∀ k, Fin (S k).n → ℝ) : Prop :=
  ∀ k, (hk : k < s.m.chanIds.length) → ∃ hid, (s.w.chans s.m.chanIds[k]).hdata = some hid ∧
    (s.w.hists hid).counts.data = vec (d k)

/-- the fit parameters: process yields `ν`, then the nuisance parameters channel by channel -/
def paramVec (s : Sys) (S : ℕ → ChanSpec) (ν : String → ℝ) (θ : ∀ k, Fin (S k).K → Fin (S k).n → ℝ) : Vec :=
  s.m.processes.map (fun p => Fl.fin (ν p)) ++
    ((List.range s.m.chanIds.length).map fun k => nuiVec (θ k)).flatten

/-- name of the process of template `j` of channel `k` -/
def procName (s : Sys) (k j : ℕ) : String :=
  ((s.w.chans (s.m.chanIds.getD k 0)).templates.map (·.1)).getD j ""

/-- expected events of channel `k` in bin `i` -/
def expectedIn (s : Sys) (S : ℕ → ChanSpec) (ν : String → ℝ) (θ : ∀ k, Fin (S k).K → Fin (S k).n → ℝ)
    (k : ℕ) (i : Fin (S k).n) : ℝ :=
  expected (S k).cnt (S k).ε (S k).eff (fun j => ν (procName s k j)) (θ k) i

/-- no template's varied contents sum to zero -/
def NonZeroSums (s : Sys) (S : ℕ → ChanSpec) (θ : ∀ k, Fin (S k).K → Fin (S k).n → ℝ) : Prop :=
  ∀ k < s.m.chanIds.length, ∀ j, ∑ i, (S k).cnt j i * (1 + θ k j i * (S k).ε j i) ≠ 0

/-- every constrained process has a finite value `V p` and a finite non-zero error `E p` -/
def ConstraintsAre (s : Sys) (V E : String → ℝ) : Prop :=
  ∀ p ∈ s.m.constrained, p ∈ s.m.processes ∧ dictGet s.m.cvals p = some (.fin (V p)) ∧
    dictGet s.m.cerrs p = some (.fin (E p)) ∧ E p ≠ 0

end

end TF.Spec

namespace TF.Props

open Classical Spec

noncomputable section

theorem channelsPure_sum (w : World) (cs : List ℕ) : ∀ (ys ns : List Vec) (v : ℕ → Fl),
    ys.length = cs.length → ns.length = cs.length →
    (∀ (k : ℕ) (h1 : k < cs.length) (h2 : k < ys.length) (h3 : k < ns.length),
      contribPure w cs[k] ys[k] ns[k] = .ok (v k)) →
    channelsPure w cs ys ns = .ok ((List.range cs.length).map v).sum := by
  induction cs with
  | nil => intro ys ns v _ _ _; simp [channelsPure]
  | cons c cs ih =>
    intro ys ns v hy hn h
    cases ys with
    | nil => simp at hy
    | cons y ys =>
      cases ns with
      | nil => simp at hn
      | cons n ns =>
        have h0 := h 0 (by simp) (by simp) (by simp)
        simp only [List.getElem_cons_zero] at h0
        have ih := ih ys ns (fun k => v (k + 1)) (by simpa using hy) (by simpa using hn) (by
          intro k h1 h2 h3
          have := h (k + 1) (by simpa using h1) (by simpa using h2) (by simpa using h3)
          simpa using this)
        simp only [channelsPure, h0, ih]
        rw [List.length_cons, List.range_succ_eq_map, List.map_cons, List.sum_cons, List.map_map]
        rfl

/-- **C54, additivity.** For every model built channel by channel before evaluation (`Built`) and every parameter vector of the
right length at which every channel can be evaluated: the likelihood is the sum of the channels'
contributions, each at the yields of its own processes and its own block of nuisance parameters, plus the
constraint terms. The values `v k` may be infinite or NaN. -/
theorem C54_additive (s : Sys) (h : s.Built) (hne : s.m.channels ≠ []) (x : Vec)
    (hx : x.length = s.m.numProcesses + s.m.numNui s.w) (v : ℕ → Fl)
    (hv : ∀ k, (hk : k < s.m.chanIds.length) → (s.w.nllContribution s.m.chanIds[k]
      ((s.w.chans s.m.chanIds[k]).procs.map fun p => x.getD (s.m.processes.idxOf p) 0)
      ((x.drop (nuiOffset s k 0)).take (s.w.chans s.m.chanIds[k]).numNui)).1 = .ok (v k))
    (X V E : String → ℝ) (hX : ∀ p ∈ s.m.constrained, x[s.m.processes.idxOf p]? = some (.fin (X p)))
    (hc : ConstraintsAre s V E) :
    (s.m.nll s.w x).1 = .ok (((List.range s.m.chanIds.length).map v).sum +
      .fin (s.m.constrained.map fun p => gaussTerm (X p) (V p) (E p)).sum) := by
  have hw := reachable_wf h.reachable
  obtain ⟨ys, ns, e1, e2, e3, e4, -⟩ := C47_partition s h hne x hx
  have hlen : s.m.chanIds.length = s.m.channels.length := by simp [Mct.chanIds]
  rw [(nll_coh h.coherent s.m hw.lt x).1]
  rw [(perChannel_coh h.coherent s.m hw.lt x).1] at e1
  have hch := channelsPure_sum s.w s.m.chanIds ys ns v (by rw [e2, hlen]) (by rw [e3, hlen]) (by
    intro k h1 h2 h3
    obtain ⟨a, b, -⟩ := e4 k h1
    rw [List.getElem?_eq_getElem h2] at a
    rw [List.getElem?_eq_getElem h3] at b
    rw [Option.some.inj a, Option.some.inj b, ← hv k h1]
    exact ((nllContribution_coh h.coherent _ (hw.lt _ (List.getElem_mem h1)) _ _).1).symm)
  unfold nllPure
  simp only [e1, hch]
  rw [constraintSum_eq s.m x X V E s.m.constrained (fun p hp => ⟨(hc p hp).1, hX p hp, (hc p hp).2⟩)]

/-! ### closed form -/

theorem list_sum_range (f : ℕ → ℝ) (n : ℕ) : ((List.range n).map f).sum = ∑ k ∈ Finset.range n, f k := by
  induction n with
  | zero => simp
  | succ n ih => rw [List.range_succ, List.map_append, List.sum_append, ih, Finset.sum_range_succ]; simp

theorem nuiVec_length {K n : ℕ} (θ : Fin K → Fin n → ℝ) : (nuiVec θ).length = K * n := by
  unfold nuiVec
  rw [List.length_flatten, List.map_ofFn]
  have : (List.length ∘ fun k => vec (θ k)) = fun _ => n := by funext k; simp [vec_length]
  rw [this, List.sum_ofFn]; simp

theorem chanIs_numBins {s : Sys} (hw : SysWF s) {c K n : ℕ} (hm : c ∈ s.m.chanIds) (hK : 0 < K)
    {cnt ε : Fin K → Fin n → ℝ} {eff : Fin K → ℝ} {R : Fin K → Matrix (Fin n) (Fin n) ℝ}
    (h : ChanIs s.w c cnt ε eff R) :
    (s.w.chans c).bins.prod = n ∧ (s.w.chans c).numNui = K * n ∧ (s.w.chans c).templates.length = K := by
  have hcw := hw.chan c (hw.lt c hm)
  obtain ⟨T, hT, hs⟩ := h.tmpls
  have hmem : T ⟨0, hK⟩ ∈ s.w.chanTmpls c := by rw [hT]; exact List.mem_ofFn.mpr ⟨_, rfl⟩
  unfold World.chanTmpls at hmem
  obtain ⟨q, hq, e⟩ := List.mem_map.mp hmem
  have h1 : (s.w.chans c).bins.prod = n := by
    rw [← (hcw.tmpl q hq).2.1, e]; exact (hs _).1.prod
  refine ⟨h1, ?_, ?_⟩
  · unfold Channel.numNui Channel.numBins; rw [h1, h.num]
  · have := congrArg List.length hT
    simpa [World.chanTmpls] using this

theorem paramVec_length {s : Sys} (hw : SysWF s) {S : ℕ → ChanSpec} (hS : ModelIs s S) (ν : String → ℝ)
    (θ : ∀ k, Fin (S k).K → Fin (S k).n → ℝ) :
    (paramVec s S ν θ).length = s.m.numProcesses + s.m.numNui s.w := by
  unfold paramVec Mct.numProcesses Mct.numNui
  rw [List.length_append, List.length_map, List.length_flatten]
  congr 2
  apply List.ext_getElem
  · simp
  · intro k h1 h2
    have hk : k < s.m.chanIds.length := by simpa using h2
    obtain ⟨a, -, -, b⟩ := hS k hk
    simp only [List.getElem_map, List.getElem_range, nuiVec_length]
    exact ((chanIs_numBins hw (List.getElem_mem hk) a b).2.1).symm

theorem blocks_of_flatten {α : Type} (L : List (List α)) : blocks (L.map List.length) L.flatten = L := by
  induction L with
  | nil => rfl
  | cons a L ih => simp [blocks, ih]

theorem paramVec_block {s : Sys} (hw : SysWF s) {S : ℕ → ChanSpec} (hS : ModelIs s S) (ν : String → ℝ)
    (θ : ∀ k, Fin (S k).K → Fin (S k).n → ℝ) (k : ℕ) (hk : k < s.m.chanIds.length) :
    ((paramVec s S ν θ).drop (nuiOffset s k 0)).take (s.w.chans s.m.chanIds[k]).numNui = nuiVec (θ k) := by
  have hsz : nuiSizes s.w s.m = ((List.range s.m.chanIds.length).map fun k => nuiVec (θ k)).map List.length := by
    apply List.ext_getElem
    · simp [nuiSizes]
    · intro k h1 h2
      have hk : k < s.m.chanIds.length := by simpa using h2
      obtain ⟨a, -, -, b⟩ := hS k hk
      simp only [nuiSizes, List.getElem_map, List.getElem_range, nuiVec_length]
      exact (chanIs_numBins hw (List.getElem_mem hk) a b).2.1
  have hb := blocks_of_flatten ((List.range s.m.chanIds.length).map fun k => nuiVec (θ k))
  rw [← hsz] at hb
  have hk' : k < (nuiSizes s.w s.m).length := by simpa [nuiSizes] using hk
  have hg := blocks_get (nuiSizes s.w s.m) ((List.range s.m.chanIds.length).map fun k => nuiVec (θ k)).flatten k hk'
  have hd : (paramVec s S ν θ).drop (nuiOffset s k 0) =
      (((List.range s.m.chanIds.length).map fun k => nuiVec (θ k)).flatten).drop ((nuiSizes s.w s.m).take k).sum := by
    have e : nuiOffset s k 0 = s.m.processes.length + ((nuiSizes s.w s.m).take k).sum := by
      simp [nuiSizes, nuiOffset, List.map_take, Channel.numNui, Channel.numBins]
    have hl : (s.m.processes.map fun p => Fl.fin (ν p)).length = s.m.processes.length := by simp
    rw [e, paramVec, ← hl, List.drop_length_add_append]
  rw [hd]
  have e2 : (nuiSizes s.w s.m)[k] = (s.w.chans s.m.chanIds[k]).numNui := by simp [nuiSizes]
  rw [← e2, ← hg, List.getElem_of_eq hb, List.getElem_map]
  exact congrArg (fun k => nuiVec (θ k)) (List.getElem_range _)

theorem paramVec_yield {s : Sys} {S : ℕ → ChanSpec} (ν : String → ℝ)
    (θ : ∀ k, Fin (S k).K → Fin (S k).n → ℝ) (p : String) (hp : p ∈ s.m.processes) :
    (paramVec s S ν θ)[s.m.processes.idxOf p]? = some (.fin (ν p)) := by
  have hlt := List.idxOf_lt_length_iff.mpr hp
  unfold paramVec
  rw [List.getElem?_append_left (by simpa using hlt), List.getElem?_map, List.getElem?_eq_getElem hlt]
  simp

theorem paramVec_yields {s : Sys} (hw : SysWF s) {S : ℕ → ChanSpec} (hS : ModelIs s S) (ν : String → ℝ)
    (θ : ∀ k, Fin (S k).K → Fin (S k).n → ℝ) (k : ℕ) (hk : k < s.m.chanIds.length) :
    ((s.w.chans s.m.chanIds[k]).procs.map fun p => (paramVec s S ν θ).getD (s.m.processes.idxOf p) 0) =
      vec fun j : Fin (S k).K => ν (procName s k j) := by
  obtain ⟨a, -, -, b⟩ := hS k hk
  have hl := (chanIs_numBins hw (List.getElem_mem hk) a b).2.2
  have hsub := hw.subset _ (List.getElem_mem hk)
  apply List.ext_getElem
  · simp [Channel.procs, hl, vec_length]
  · intro j h1 h2
    have hj : j < (s.w.chans s.m.chanIds[k]).procs.length := by simpa using h1
    simp only [List.getElem_map]
    rw [List.getD_eq_getElem?_getD, paramVec_yield ν θ _ (hsub _ (List.getElem_mem hj))]
    simp only [Option.getD_some, vec, List.getElem_ofFn, procName, List.getD_eq_getElem?_getD,
      List.getElem?_eq_getElem hk, Option.getD_some]
    congr 2
    have : (s.w.chans s.m.chanIds[k]).procs = (s.w.chans s.m.chanIds[k]).templates.map (·.1) := rfl
    rw [← this, List.getElem?_eq_getElem hj]
    rfl

theorem binTerm_fin' {d e : ℝ} (hd : d = 0 ∨ (1e-100 : ℝ) ≤ d) (he : 0 < e ∨ (d = 0 ∧ e = 0)) :
    binTerm (.fin d) (.fin e) = .fin (poissonBin d e) := by
  rcases he with he | ⟨rfl, rfl⟩
  · exact binTerm_fin hd he
  · rw [binTerm_empty (by norm_num)]; simp [poissonBin]

theorem poissonBin_nonneg' {d e : ℝ} (hd : d = 0 ∨ (1e-100 : ℝ) ≤ d) (he : 0 < e ∨ (d = 0 ∧ e = 0)) :
    0 ≤ poissonBin d e ∧ (poissonBin d e = 0 ↔ e = d) := by
  rcases he with he | ⟨rfl, rfl⟩
  · exact poissonBin_nonneg (by rcases hd with h | h <;> [rw [h]; exact le_trans (by norm_num) h]) he
  · simp [poissonBin]

/-- one channel of the closed form -/
theorem contrib_closed {s : Sys} (h : s.Built) {S : ℕ → ChanSpec} (hS : ModelIs s S)
    {d : ∀ k, Fin (S k).n → ℝ} (hd : DataIs s S d)
    (hpos : ∀ k < s.m.chanIds.length, ∀ i, d k i = 0 ∨ (1e-100 : ℝ) ≤ d k i)
    (ν : String → ℝ) (θ : ∀ k, Fin (S k).K → Fin (S k).n → ℝ) (hT : NonZeroSums s S θ)
    (hE : ∀ k < s.m.chanIds.length, ∀ i, 0 < expectedIn s S ν θ k i ∨ (d k i = 0 ∧ expectedIn s S ν θ k i = 0))
    (k : ℕ) (hk : k < s.m.chanIds.length) :
    (s.w.nllContribution s.m.chanIds[k]
      ((s.w.chans s.m.chanIds[k]).procs.map fun p => (paramVec s S ν θ).getD (s.m.processes.idxOf p) 0)
      (((paramVec s S ν θ).drop (nuiOffset s k 0)).take (s.w.chans s.m.chanIds[k]).numNui)).1 =
      .ok (.fin ((∑ i, poissonBin (d k i) (expectedIn s S ν θ k i)) + penalty (S k).R (θ k))) := by
  have hw := reachable_wf h.reachable
  obtain ⟨a, -, c, b⟩ := hS k hk
  obtain ⟨hid, h1, h2⟩ := hd k hk
  rw [paramVec_block hw hS ν θ k hk, paramVec_yields hw hS ν θ k hk,
    contrib_value b a h.coherent h1 h2 _ (θ k) (hT k hk)]
  congr 1
  have : (List.ofFn fun i => binTerm (Fl.fin (d k i)) (Fl.fin (expected (S k).cnt (S k).ε (S k).eff
      (fun j => ν (procName s k j)) (θ k) i))) =
      (List.ofFn fun i => poissonBin (d k i) (expectedIn s S ν θ k i)).map Fl.fin := by
    rw [List.map_ofFn]
    congr 1
    funext i
    exact binTerm_fin' (hpos k hk i) (hE k hk i)
  rw [this, Fl.list_sum_fin, List.sum_ofFn, Fl.fin_add]

/-- **C54, closed form.** For every model built channel by channel before evaluation (`Built`), all finite parameters with
positive expectations (zero is allowed in bins without data): the likelihood is
`Σ_channels (Σ_bins (ν - n - n log(ν/n)) + ½ Σ θᵀ R⁻¹ θ) + Σ_constraints (x_p - v)²/(2 e²)`, and it is
not negative. -/
theorem C54_closed (s : Sys) (h : s.Built) (hne : s.m.channels ≠ []) (S : ℕ → ChanSpec) (hS : ModelIs s S)
    (d : ∀ k, Fin (S k).n → ℝ) (hd : DataIs s S d)
    (hpos : ∀ k < s.m.chanIds.length, ∀ i, d k i = 0 ∨ (1e-100 : ℝ) ≤ d k i)
    (V E : String → ℝ) (hc : ConstraintsAre s V E)
    (ν : String → ℝ) (θ : ∀ k, Fin (S k).K → Fin (S k).n → ℝ) (hT : NonZeroSums s S θ)
    (hE : ∀ k < s.m.chanIds.length, ∀ i, 0 < expectedIn s S ν θ k i ∨ (d k i = 0 ∧ expectedIn s S ν θ k i = 0)) :
    ∃ v : ℝ, (s.m.nll s.w (paramVec s S ν θ)).1 = .ok (.fin v) ∧ 0 ≤ v ∧
      v = ∑ k ∈ Finset.range s.m.channels.length,
          ((∑ i, if d k i = 0 then expectedIn s S ν θ k i
            else expectedIn s S ν θ k i - d k i - d k i * Real.log (expectedIn s S ν θ k i / d k i)) +
            1 / 2 * ∑ j, (θ k j) ⬝ᵥ (((S k).R j)⁻¹.mulVec (θ k j))) +
        (s.m.constrained.map fun p => (ν p - V p) ^ 2 / (2 * E p ^ 2)).sum := by
  have hw := reachable_wf h.reachable
  have hlen : s.m.chanIds.length = s.m.channels.length := by simp [Mct.chanIds]
  have hadd := C54_additive s h hne (paramVec s S ν θ) (paramVec_length hw hS ν θ) _
    (contrib_closed h hS hd hpos ν θ hT hE) ν V E (fun p hp => paramVec_yield ν θ p (hc p hp).1) hc
  rw [show (fun k => Fl.fin ((∑ i, poissonBin (d k i) (expectedIn s S ν θ k i)) + penalty (S k).R (θ k))) =
    Fl.fin ∘ fun k => ((∑ i, poissonBin (d k i) (expectedIn s S ν θ k i)) + penalty (S k).R (θ k)) from rfl,
    ← List.map_map, Fl.list_sum_fin, Fl.fin_add] at hadd
  refine ⟨_, hadd, ?_, ?_⟩
  · apply add_nonneg
    · apply List.sum_nonneg
      intro a ha
      obtain ⟨k, hk, rfl⟩ := List.mem_map.mp ha
      have hk : k < s.m.chanIds.length := by simpa using hk
      refine add_nonneg (Finset.sum_nonneg fun i _ => ?_) (penalty_nonneg (hS k hk).2.2.1 (θ k)).1
      exact (poissonBin_nonneg' (hpos k hk i) (hE k hk i)).1
    · apply List.sum_nonneg
      intro a ha
      obtain ⟨p, hp, rfl⟩ := List.mem_map.mp ha
      unfold gaussTerm
      positivity
  · rw [hlen, list_sum_range]
    rfl

end

end TF.Props
