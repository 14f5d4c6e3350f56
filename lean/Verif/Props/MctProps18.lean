import Verif.Lemmas.Finite
import Verif.Props.MctProps15
import Verif.Props.FitterProps7

set_option linter.unusedSimpArgs false

/-!
# Where the likelihood is a number (C104), and how negative it can get (C105)
-/

namespace TF.Spec

open Classical

noncomputable section

/-- the expectation is positive in every bin with data -/
def DataCovered (s : Sys) (S : ℕ → ChanSpec) (d : ∀ k, Fin (S k).n → ℝ) (θ : ∀ k, Fin (S k).K → Fin (S k).n → ℝ)
    (ν : String → ℝ) : Prop :=
  ∀ k < s.m.chanIds.length, ∀ i, d k i ≠ 0 → 0 < expectedIn s S ν θ k i

/-- every process has a template in some channel, or a constraint -/
def AllUsed (s : Sys) (S : ℕ → ChanSpec) : Prop :=
  ∀ p ∈ s.m.processes, (∃ k < s.m.chanIds.length, ∃ j : Fin (S k).K, procName s k j = p) ∨ p ∈ s.m.constrained

end

end TF.Spec

namespace TF.Props

open Classical Spec
open scoped Matrix

noncomputable section

theorem binTerm_fin'' {d e : ℝ} (hd : d = 0 ∨ (1e-100 : ℝ) ≤ d) (he : d ≠ 0 → 0 < e) :
    binTerm (.fin d) (.fin e) = .fin (poissonBin d e) := by
  rcases hd with rfl | hd
  · rw [binTerm_empty (by norm_num)]; simp [poissonBin]
  · exact binTerm_fin (Or.inr hd) (he (lt_of_lt_of_le (by norm_num) hd).ne')

/-- the likelihood at every point of its domain -/
theorem objective_nllAt' {s : Sys} (h : s.Built) (hne : s.m.channels ≠ []) {S : ℕ → ChanSpec} (hS : ModelIs s S)
    {d : ∀ k, Fin (S k).n → ℝ} (hd : DataIs s S d)
    (hpos : ∀ k < s.m.chanIds.length, ∀ i, d k i = 0 ∨ (1e-100 : ℝ) ≤ d k i)
    {V E : String → ℝ} (hc : ConstraintsAre s V E) {θ : ∀ k, Fin (S k).K → Fin (S k).n → ℝ}
    (hT : NonZeroSums s S θ) {ν : String → ℝ} (hE : DataCovered s S d θ ν) :
    objective s.w s.m (paramVec s S ν θ) = .ok (.fin (nllAt s S d V E θ ν)) := by
  have hw := reachable_wf h.reachable
  have hcon : ∀ k, (hk : k < s.m.chanIds.length) → (s.w.nllContribution s.m.chanIds[k]
      ((s.w.chans s.m.chanIds[k]).procs.map fun p => (paramVec s S ν θ).getD (s.m.processes.idxOf p) 0)
      (((paramVec s S ν θ).drop (nuiOffset s k 0)).take (s.w.chans s.m.chanIds[k]).numNui)).1 =
      .ok (.fin ((∑ i, poissonBin (d k i) (expectedIn s S ν θ k i)) + penalty (S k).R (θ k))) := by
    intro k hk
    obtain ⟨a, -, c, b⟩ := hS k hk
    obtain ⟨hid, h1, h2⟩ := hd k hk
    rw [paramVec_block hw hS ν θ k hk, paramVec_yields hw hS ν θ k hk,
      contrib_value b a h.coherent h1 h2 _ (θ k) (hT k hk)]
    congr 1
    have : (List.ofFn fun i => binTerm (Fl.fin (d k i)) (Fl.fin (expected (S k).cnt (S k).ε (S k).eff
        (fun j => ν (procName s k j)) (θ k) i))) =
        (List.ofFn fun i => poissonBin (d k i) (expectedIn s S ν θ k i)).map Fl.fin := by
      rw [List.map_ofFn]
      congr 1
      funext i
      exact binTerm_fin'' (hpos k hk i) (hE k hk i)
    rw [this, Fl.list_sum_fin, List.sum_ofFn, Fl.fin_add]
  have hadd := C54_additive s h hne (paramVec s S ν θ) (paramVec_length hw hS ν θ) _
    hcon ν V E (fun p hp => paramVec_yield ν θ p (hc p hp).1) hc
  rw [show (fun k => Fl.fin ((∑ i, poissonBin (d k i) (expectedIn s S ν θ k i)) + penalty (S k).R (θ k))) =
    Fl.fin ∘ fun k => ((∑ i, poissonBin (d k i) (expectedIn s S ν θ k i)) + penalty (S k).R (θ k)) from rfl,
    ← List.map_map, Fl.list_sum_fin, Fl.fin_add] at hadd
  unfold objective
  rw [hadd, list_sum_range]
  unfold nllAt
  congr 2

theorem channelsPure_fin (w : World) (cs : List ℕ) : ∀ (ys ns : List Vec) (a : ℝ), ys.length = cs.length →
    ns.length = cs.length → channelsPure w cs ys ns = .ok (.fin a) →
    ∀ (k : ℕ) (h1 : k < cs.length) (h2 : k < ys.length) (h3 : k < ns.length),
      ∃ b : ℝ, contribPure w cs[k] ys[k] ns[k] = .ok (.fin b) := by
  induction cs with
  | nil => intro ys ns a _ _ _ k h1; simp at h1
  | cons c cs ih =>
    intro ys ns a hy hn h k h1 h2 h3
    cases ys with
    | nil => simp at hy
    | cons y ys =>
      cases ns with
      | nil => simp at hn
      | cons n ns =>
        simp only [channelsPure] at h
        split at h
        · cases h
        · rename_i v hv
          split at h
          · cases h
          · rename_i q hq
            obtain ⟨b, b', hb, hb'⟩ := Fl.add_eq_fin (Except.ok.inj h)
            cases k with
            | zero => exact ⟨b, by rw [← hb]; exact hv⟩
            | succ k =>
              exact ih ys ns b' (by simpa using hy) (by simpa using hn) (by rw [hq, hb']) k (by simpa using h1)
                (by simpa using h2) (by simpa using h3)

theorem constraintSum_fin (m : Mct) (x : Vec) : ∀ (l : List String) (a : ℝ), m.constraintSum x l = .ok (.fin a) →
    ∀ p ∈ l, ∃ r : ℝ, x[m.processes.idxOf p]? = some (.fin r) := by
  intro l
  induction l with
  | nil => intro a _ p hp; simp at hp
  | cons q l ih =>
    intro a h p hp
    simp only [Mct.constraintSum] at h
    split at h
    · cases h
    · split at h
      · rename_i xp v e hx hv he
        split at h
        · cases h
        · rename_i r hr
          obtain ⟨b, b', hb, hb'⟩ := Fl.add_eq_fin (Except.ok.inj h)
          rcases List.mem_cons.mp hp with rfl | hp
          · unfold constraintTerm at hb
            obtain ⟨b1, hb1⟩ := Fl.div_eq_fin hb
            obtain ⟨_, b2, -, hb2⟩ := Fl.mul_eq_fin hb1
            obtain ⟨b3, _, hb3, -⟩ := Fl.mul_eq_fin (show (xp - v) * (xp - v) = _ from hb2)
            obtain ⟨b4, _, hb4, -⟩ := Fl.sub_eq_fin hb3
            exact ⟨b4, by rw [hx, hb4]⟩
          · exact ih b' (by rw [hr, hb']) p hp
      · cases h
      · cases h

/-- **C104, the domain of the likelihood.** For every model with data and constraints in which every process has a template
or a constraint, and every parameter vector (of floats, including infinities and NaN) of the right length: the likelihood is
a number exactly if all parameters are numbers, no template's varied contents sum to zero, and the expectation is positive
in each bin with data. -/
theorem C104_domain (s : Sys) (h : s.Built) (hne : s.m.channels ≠ []) (S : ℕ → ChanSpec) (hS : ModelIs s S)
    (d : ∀ k, Fin (S k).n → ℝ) (hd : DataIs s S d)
    (hpos : ∀ k < s.m.chanIds.length, ∀ i, d k i = 0 ∨ (1e-100 : ℝ) ≤ d k i)
    (V E : String → ℝ) (hc : ConstraintsAre s V E) (hused : AllUsed s S)
    (x : Vec) (hx : x.length = s.m.numProcesses + s.m.numNui s.w) :
    (∃ a : ℝ, objective s.w s.m x = .ok (.fin a)) ↔
      ∃ ν θ, x = paramVec s S ν θ ∧ NonZeroSums s S θ ∧ DataCovered s S d θ ν := by
  have hw := reachable_wf h.reachable
  constructor
  · rintro ⟨a, ha⟩
    unfold objective at ha
    rw [(nll_coh h.coherent s.m hw.lt x).1] at ha
    obtain ⟨ys, ns, e1, e2, e3, e4, e5⟩ := C47_partition s h hne x hx
    have hlen : s.m.chanIds.length = s.m.channels.length := by simp [Mct.chanIds]
    rw [(perChannel_coh h.coherent s.m hw.lt x).1] at e1
    unfold nllPure at ha
    simp only [e1] at ha
    split at ha
    · cases ha
    · rename_i t ht
      split at ha
      · cases ha
      · rename_i u hu
        obtain ⟨b, b', hb, hb'⟩ := Fl.add_eq_fin (Except.ok.inj ha)
        rw [hb] at ht
        rw [hb'] at hu
        have hch := channelsPure_fin s.w s.m.chanIds ys ns b (by rw [e2, hlen]) (by rw [e3, hlen]) ht
        have hcs := constraintSum_fin s.m x _ _ hu
        have hblk : ∀ k, (hk : k < s.m.chanIds.length) → ∃ (νk : Fin (S k).K → ℝ) (θk : Fin (S k).K → Fin (S k).n → ℝ),
            ((s.w.chans s.m.chanIds[k]).procs.map fun p => x.getD (s.m.processes.idxOf p) 0) = vec νk ∧
            ns[k]? = some (nuiVec θk) ∧
            (∀ j, ∑ i, (S k).cnt j i * (1 + θk j i * (S k).ε j i) ≠ 0) ∧
            ∀ i, d k i ≠ 0 → 0 < expected (S k).cnt (S k).ε (S k).eff νk θk i := by
          intro k hk
          obtain ⟨a1, a2, a3, a4⟩ := hS k hk
          obtain ⟨hid, d1, d2⟩ := hd k hk
          obtain ⟨f1, f2, f3⟩ := chanIs_numBins hw (List.getElem_mem hk) a1 a4
          have hy : k < ys.length := by rw [e2, ← hlen]; exact hk
          have hn : k < ns.length := by rw [e3, ← hlen]; exact hk
          obtain ⟨b1, hb1⟩ := hch k hk hy hn
          obtain ⟨g1, g2, g3⟩ := e4 k hk
          rw [List.getElem?_eq_getElem hy] at g1
          have g1 := Option.some.inj g1
          have g3 := g3 _ (List.getElem?_eq_getElem hn)
          have hyl : ys[k].length = (S k).K := by
            rw [g1, List.length_map]
            have : (s.w.chans s.m.chanIds[k]).procs.length = (s.w.chans s.m.chanIds[k]).templates.length := by
              simp [Channel.procs]
            rw [this, f3]
          obtain ⟨νk, θk, i1, i2, i3, i4⟩ := contribPure_fin a4 a1 a2 d1 d2 (hpos k hk) hyl (by rw [g3, f2]) hb1
          exact ⟨νk, θk, by rw [← g1, i1], by rw [List.getElem?_eq_getElem hn, i2], i3, i4⟩
        choose νk θk p1 p2 p3 p4 using hblk
        set ν : String → ℝ := fun p => (x.getD (s.m.processes.idxOf p) 0).toReal with hν
        set θ : ∀ k, Fin (S k).K → Fin (S k).n → ℝ := fun k =>
          if hk : k < s.m.chanIds.length then θk k hk else fun _ _ => 0 with hθ
        have hθk : ∀ k, (hk : k < s.m.chanIds.length) → θ k = θk k hk := fun k hk => by simp only [hθ, dif_pos hk]
        have hx1 : ∀ k, (hk : k < s.m.chanIds.length) → ∀ j : Fin (S k).K,
            x.getD (s.m.processes.idxOf (procName s k j)) 0 = .fin (νk k hk j) := by
          intro k hk j
          obtain ⟨a1, a2, a3, a4⟩ := hS k hk
          obtain ⟨f1, f2, f3⟩ := chanIs_numBins hw (List.getElem_mem hk) a1 a4
          have hj : (j : ℕ) < (s.w.chans s.m.chanIds[k]).procs.length := by
            simp only [Channel.procs, List.length_map, f3]; exact j.2
          have := congrArg (fun l => l[(j : ℕ)]?) (p1 k hk)
          simp only [List.getElem?_map, List.getElem?_eq_getElem hj, vec, List.getElem?_ofFn, j.2, dif_pos,
            Option.map_some] at this
          rw [← Option.some.inj this]
          congr 2
          unfold procName
          rw [List.getD_eq_getElem?_getD, List.getD_eq_getElem?_getD, List.getElem?_eq_getElem hk]
          simp only [Option.getD_some]
          have e : (s.w.chans s.m.chanIds[k]).procs = (s.w.chans s.m.chanIds[k]).templates.map (·.1) := rfl
          rw [← e, List.getElem?_eq_getElem hj]
          rfl
        have hx2 : ∀ p ∈ s.m.processes, x[s.m.processes.idxOf p]? = some (.fin (ν p)) := by
          intro p hp
          have hlt : s.m.processes.idxOf p < x.length := by
            rw [hx]
            have := List.idxOf_lt_length_iff.mpr hp
            have e : s.m.numProcesses = s.m.processes.length := rfl
            omega
          have hfin : ∃ r : ℝ, x[s.m.processes.idxOf p]? = some (.fin r) := by
            rcases hused p hp with ⟨k, hk, j, rfl⟩ | hcp
            · refine ⟨νk k hk j, ?_⟩
              have := hx1 k hk j
              rw [List.getD_eq_getElem?_getD, List.getElem?_eq_getElem hlt, Option.getD_some] at this
              rw [List.getElem?_eq_getElem hlt, this]
            · exact hcs p hcp
          obtain ⟨r, hr⟩ := hfin
          rw [hr, hν]
          simp only [List.getD_eq_getElem?_getD, hr, Option.getD_some, Fl.toReal]
        have hνk : ∀ k, (hk : k < s.m.chanIds.length) → ∀ j : Fin (S k).K, ν (procName s k j) = νk k hk j := by
          intro k hk j
          simp only [hν, hx1 k hk j, Fl.toReal]
        refine ⟨ν, θ, ?_, ?_, ?_⟩
        · rw [← List.take_append_drop s.m.numProcesses x, ← e5]
          unfold paramVec
          congr 1
          · apply List.ext_getElem
            · simp only [List.length_take, List.length_map, hx]
              show min s.m.processes.length _ = s.m.processes.length
              exact min_eq_left (Nat.le_add_right _ _)
            · intro i h1 h2
              have hi : i < s.m.processes.length := by simpa using h2
              have := hx2 s.m.processes[i] (List.getElem_mem hi)
              rw [hw.procs.idxOf_getElem i hi, List.getElem?_eq_getElem (by
                rw [List.length_take] at h1; omega)] at this
              simp only [List.getElem_take, List.getElem_map]
              exact Option.some.inj this
          · congr 1
            apply List.ext_getElem
            · simp [e3, hlen]
            · intro k h1 h2
              have hk : k < s.m.chanIds.length := by simpa using h2
              have := p2 k hk
              rw [List.getElem?_eq_getElem h1] at this
              rw [← hθk k hk] at this
              rw [List.getElem_map]
              exact (Option.some.inj this).trans (congrArg (fun k => nuiVec (θ k)) (List.getElem_range _).symm)
        · intro k hk j
          rw [hθk k hk]; exact p3 k hk j
        · intro k hk i hi
          unfold expectedIn
          have : (fun j : Fin (S k).K => ν (procName s k j)) = νk k hk := funext fun j => hνk k hk j
          rw [this, hθk k hk]; exact p4 k hk i hi
  · rintro ⟨ν, θ, rfl, hT, hE⟩
    exact ⟨_, objective_nllAt' h hne hS hd hpos hc hT hE⟩

/-- … and there it is the Poisson likelihood plus penalty plus constraints: in bins without data the expectation, of
whatever sign. -/
theorem C104_value (s : Sys) (h : s.Built) (hne : s.m.channels ≠ []) (S : ℕ → ChanSpec) (hS : ModelIs s S)
    (d : ∀ k, Fin (S k).n → ℝ) (hd : DataIs s S d)
    (hpos : ∀ k < s.m.chanIds.length, ∀ i, d k i = 0 ∨ (1e-100 : ℝ) ≤ d k i)
    (V E : String → ℝ) (hc : ConstraintsAre s V E) (ν : String → ℝ) (θ : ∀ k, Fin (S k).K → Fin (S k).n → ℝ)
    (hT : NonZeroSums s S θ) (hE : DataCovered s S d θ ν) :
    objective s.w s.m (paramVec s S ν θ) = .ok (.fin (
      ∑ k ∈ Finset.range s.m.chanIds.length,
          ((∑ i, if d k i = 0 then expectedIn s S ν θ k i
            else expectedIn s S ν θ k i - d k i - d k i * Real.log (expectedIn s S ν θ k i / d k i)) +
            1 / 2 * ∑ j, (θ k j) ⬝ᵥ (((S k).R j)⁻¹.mulVec (θ k j))) +
        (s.m.constrained.map fun p => (ν p - V p) ^ 2 / (2 * E p ^ 2)).sum)) :=
  objective_nllAt' h hne hS hd hpos hc hT hE

/-- **C105, where it holds.** Wherever the likelihood is a number and no empty bin has a negative expectation, it is not
negative. -/
theorem C105_nonneg_partial (s : Sys) (h : s.Built) (hne : s.m.channels ≠ []) (S : ℕ → ChanSpec) (hS : ModelIs s S)
    (d : ∀ k, Fin (S k).n → ℝ) (hd : DataIs s S d)
    (hpos : ∀ k < s.m.chanIds.length, ∀ i, d k i = 0 ∨ (1e-100 : ℝ) ≤ d k i)
    (V E : String → ℝ) (hc : ConstraintsAre s V E) (hused : AllUsed s S)
    (x : Vec) (hx : x.length = s.m.numProcesses + s.m.numNui s.w) (a : ℝ) (ha : objective s.w s.m x = .ok (.fin a)) :
    ∃ ν θ, x = paramVec s S ν θ ∧ NonZeroSums s S θ ∧ DataCovered s S d θ ν ∧
      ((∀ k < s.m.chanIds.length, ∀ i, d k i = 0 → 0 ≤ expectedIn s S ν θ k i) → 0 ≤ a) := by
  obtain ⟨ν, θ, rfl, hT, hE⟩ := (C104_domain s h hne S hS d hd hpos V E hc hused x hx).mp ⟨a, ha⟩
  refine ⟨ν, θ, rfl, hT, hE, fun h0 => ?_⟩
  obtain ⟨v, h1, h2, -⟩ := C54_closed s h hne S hS d hd hpos V E hc ν θ hT (by
    intro k hk i
    by_cases e : d k i = 0
    · rcases lt_or_eq_of_le (h0 k hk i e) with h | h
      · exact Or.inl h
      · exact Or.inr ⟨e, h.symm⟩
    · exact Or.inl (hE k hk i e))
  have : objective s.w s.m (paramVec s S ν θ) = .ok (.fin v) := h1
  rw [ha] at this
  rw [Fl.fin.inj (Except.ok.inj this)]; exact h2

theorem nllAt_ray {s : Sys} {S : ℕ → ChanSpec} {d : ∀ k, Fin (S k).n → ℝ} {V E : String → ℝ}
    {θ : ∀ k, Fin (S k).K → Fin (S k).n → ℝ} {ν δ : String → ℝ} (hν : DataCovered s S d θ ν)
    (hδ : ∀ k < s.m.chanIds.length, ∀ i, d k i ≠ 0 → 0 ≤ expectedIn s S δ θ k i)
    (hcδ : ∀ p ∈ s.m.constrained, δ p = 0) {t : ℝ} (ht : 0 ≤ t) :
    nllAt s S d V E θ (fun p => ν p + t * δ p) = nllAt s S d V E θ ν + t * totalIn s S θ δ -
      ∑ k ∈ Finset.range s.m.chanIds.length, ∑ i, (if d k i = 0 then 0 else
        d k i * Real.log (1 + t * (expectedIn s S δ θ k i / expectedIn s S ν θ k i))) := by
  have hexp : ∀ k i, expectedIn s S (fun p => ν p + t * δ p) θ k i = expectedIn s S ν θ k i + t * expectedIn s S δ θ k i := by
    intro k i
    have := expectedIn_comb s S ν δ θ 1 t k i
    simpa using this
  have l1 : s.m.channels.length = s.m.chanIds.length := by simp [Mct.chanIds]
  unfold nllAt totalIn
  try rw [l1]
  have e1 : (s.m.constrained.map fun p => (ν p + t * δ p - V p) ^ 2 / (2 * E p ^ 2)) =
      s.m.constrained.map fun p => (ν p - V p) ^ 2 / (2 * E p ^ 2) :=
    List.map_congr_left fun p hp => by rw [hcδ p hp, mul_zero, add_zero]
  rw [e1, Finset.mul_sum]
  have e2 : ∀ k ∈ Finset.range s.m.chanIds.length,
      (∑ i, poissonBin (d k i) (expectedIn s S (fun p => ν p + t * δ p) θ k i)) + penalty (S k).R (θ k) =
      ((∑ i, poissonBin (d k i) (expectedIn s S ν θ k i)) + penalty (S k).R (θ k)) +
      t * (∑ i, expectedIn s S δ θ k i) - ∑ i, (if d k i = 0 then 0 else
        d k i * Real.log (1 + t * (expectedIn s S δ θ k i / expectedIn s S ν θ k i))) := by
    intro k hk
    have hk := Finset.mem_range.mp hk
    have : ∀ i, poissonBin (d k i) (expectedIn s S (fun p => ν p + t * δ p) θ k i) =
        poissonBin (d k i) (expectedIn s S ν θ k i) + t * expectedIn s S δ θ k i -
        (if d k i = 0 then 0 else d k i * Real.log (1 + t * (expectedIn s S δ θ k i / expectedIn s S ν θ k i))) := by
      intro i
      rw [hexp]
      unfold poissonBin
      by_cases e : d k i = 0
      · simp only [if_pos e]; ring
      · rw [if_neg e, if_neg e, if_neg e]
        have h1 := hν k hk i e
        have h2 := hδ k hk i e
        have h3 : (expectedIn s S ν θ k i + t * expectedIn s S δ θ k i) / d k i =
            expectedIn s S ν θ k i / d k i * (1 + t * (expectedIn s S δ θ k i / expectedIn s S ν θ k i)) := by
          field_simp
        have h4 : (0 : ℝ) < 1 + t * (expectedIn s S δ θ k i / expectedIn s S ν θ k i) := by
          have : 0 ≤ t * (expectedIn s S δ θ k i / expectedIn s S ν θ k i) := mul_nonneg ht (div_nonneg h2 h1.le)
          linarith
        rw [h3, Real.log_mul (div_ne_zero h1.ne' e) h4.ne']
        ring
    rw [Finset.sum_congr rfl fun i _ => this i, Finset.sum_sub_distrib, Finset.sum_add_distrib, ← Finset.mul_sum]
    ring
  rw [Finset.sum_congr rfl e2, Finset.sum_sub_distrib, Finset.sum_add_distrib]
  ring

/-- **C105, no lower bound.** If some change of the unconstrained yields lowers no expectation in a bin with data but lowers
the total expectation (or keeps it and raises the expectation of some bin with data), then the likelihood, which stays a
number along this direction, falls below every bound. -/
theorem C105_unbounded (s : Sys) (h : s.Built) (hne : s.m.channels ≠ []) (S : ℕ → ChanSpec) (hS : ModelIs s S)
    (d : ∀ k, Fin (S k).n → ℝ) (hd : DataIs s S d)
    (hpos : ∀ k < s.m.chanIds.length, ∀ i, d k i = 0 ∨ (1e-100 : ℝ) ≤ d k i)
    (V E : String → ℝ) (hc : ConstraintsAre s V E)
    (θ : ∀ k, Fin (S k).K → Fin (S k).n → ℝ) (hT : NonZeroSums s S θ)
    (ν : String → ℝ) (hν : DataCovered s S d θ ν) (δ : String → ℝ)
    (hδ : ∀ k < s.m.chanIds.length, ∀ i, d k i ≠ 0 → 0 ≤ expectedIn s S δ θ k i)
    (hcδ : ∀ p ∈ s.m.constrained, δ p = 0)
    (htot : totalIn s S θ δ < 0 ∨ (totalIn s S θ δ = 0 ∧
      ∃ k < s.m.chanIds.length, ∃ i, d k i ≠ 0 ∧ 0 < expectedIn s S δ θ k i)) (B : ℝ) :
    ∃ t : ℝ, 0 ≤ t ∧ ∃ a : ℝ, objective s.w s.m (paramVec s S (fun p => ν p + t * δ p) θ) = .ok (.fin a) ∧ a < B := by
  have hcov : ∀ t : ℝ, 0 ≤ t → DataCovered s S d θ (fun p => ν p + t * δ p) := by
    intro t ht k hk i hi
    have := expectedIn_comb s S ν δ θ 1 t k i
    simp only [one_mul] at this
    rw [this]
    have h1 := hν k hk i hi
    have h2 := mul_nonneg ht (hδ k hk i hi)
    linarith
  have hterm : ∀ t : ℝ, 0 ≤ t → ∀ k < s.m.chanIds.length, ∀ i, 0 ≤ (if d k i = 0 then 0 else
        d k i * Real.log (1 + t * (expectedIn s S δ θ k i / expectedIn s S ν θ k i))) := by
    intro t ht k hk i
    by_cases e : d k i = 0
    · rw [if_pos e]
    · rw [if_neg e]
      have h1 := hν k hk i e
      have h2 := hδ k hk i e
      have hd0 : 0 ≤ d k i := le_trans (by norm_num) ((hpos k hk i).resolve_left e)
      refine mul_nonneg hd0 (Real.log_nonneg ?_)
      have : 0 ≤ t * (expectedIn s S δ θ k i / expectedIn s S ν θ k i) := mul_nonneg ht (div_nonneg h2 h1.le)
      linarith
  have hgoal : ∃ t : ℝ, 0 ≤ t ∧ nllAt s S d V E θ (fun p => ν p + t * δ p) < B := by
    rcases htot with hneg | ⟨h0, k₀, hk₀, i₀, hi₀, hp₀⟩
    · set t := max 0 ((nllAt s S d V E θ ν - B + 1) / (- totalIn s S θ δ)) with htdef
      have ht : 0 ≤ t := le_max_left _ _
      refine ⟨t, ht, ?_⟩
      rw [nllAt_ray hν hδ hcδ ht]
      have h1 : (nllAt s S d V E θ ν - B + 1) / (- totalIn s S θ δ) ≤ t := le_max_right _ _
      rw [div_le_iff₀ (by linarith)] at h1
      have h2 : 0 ≤ ∑ k ∈ Finset.range s.m.chanIds.length, ∑ i, (if d k i = 0 then 0 else
          d k i * Real.log (1 + t * (expectedIn s S δ θ k i / expectedIn s S ν θ k i))) :=
        Finset.sum_nonneg fun k hk => Finset.sum_nonneg fun i _ => hterm t ht k (Finset.mem_range.mp hk) i
      nlinarith
    · have hE0 := hν k₀ hk₀ i₀ hi₀
      have hr : 0 < expectedIn s S δ θ k₀ i₀ / expectedIn s S ν θ k₀ i₀ := div_pos hp₀ hE0
      have hd0 : 0 < d k₀ i₀ := lt_of_lt_of_le (by norm_num) ((hpos k₀ hk₀ i₀).resolve_left hi₀)
      set M := (|nllAt s S d V E θ ν - B| + 1) / d k₀ i₀ with hM
      have hM0 : 0 < M := by positivity
      set t := Real.exp M / (expectedIn s S δ θ k₀ i₀ / expectedIn s S ν θ k₀ i₀) with htdef
      have ht : 0 ≤ t := (div_pos (Real.exp_pos _) hr).le
      refine ⟨t, ht, ?_⟩
      rw [nllAt_ray hν hδ hcδ ht, h0, mul_zero, add_zero]
      have h3 : d k₀ i₀ * M ≤ if d k₀ i₀ = 0 then 0 else
          d k₀ i₀ * Real.log (1 + t * (expectedIn s S δ θ k₀ i₀ / expectedIn s S ν θ k₀ i₀)) := by
        rw [if_neg hi₀]
        refine mul_le_mul_of_nonneg_left ?_ hd0.le
        rw [htdef, div_mul_cancel₀ _ hr.ne']
        rw [Real.le_log_iff_exp_le (by positivity)]
        linarith
      have h4 : (if d k₀ i₀ = 0 then 0 else
          d k₀ i₀ * Real.log (1 + t * (expectedIn s S δ θ k₀ i₀ / expectedIn s S ν θ k₀ i₀))) ≤
          ∑ k ∈ Finset.range s.m.chanIds.length, ∑ i, (if d k i = 0 then 0 else
          d k i * Real.log (1 + t * (expectedIn s S δ θ k i / expectedIn s S ν θ k i))) := by
        refine le_trans ?_ (Finset.single_le_sum (f := fun k => ∑ i, (if d k i = 0 then 0 else
          d k i * Real.log (1 + t * (expectedIn s S δ θ k i / expectedIn s S ν θ k i))))
          (fun k hk => Finset.sum_nonneg fun i _ => hterm t ht k (Finset.mem_range.mp hk) i) (Finset.mem_range.mpr hk₀))
        exact Finset.single_le_sum (f := fun i => (if d k₀ i = 0 then 0 else
          d k₀ i * Real.log (1 + t * (expectedIn s S δ θ k₀ i / expectedIn s S ν θ k₀ i))))
          (fun i _ => hterm t ht k₀ hk₀ i) (Finset.mem_univ i₀)
      have h5 : d k₀ i₀ * M = |nllAt s S d V E θ ν - B| + 1 := by rw [hM]; field_simp
      have h6 := le_abs_self (nllAt s S d V E θ ν - B)
      linarith
  obtain ⟨t, ht, hlt⟩ := hgoal
  exact ⟨t, ht, _, objective_nllAt' h hne hS hd hpos hc hT (hcov t ht), hlt⟩

end

/-! ### examples -/

noncomputable section

/-- **C105 is false in general.** For the model made by `Ex.opsZ` (one channel with one template, contents 1 and 1, and data
without any events) the likelihood is unbounded below: at yield `-t` and zero nuisance parameters it falls below every
bound. -/
theorem C105_refuted : (Sys.init.run Ex.opsZ) = Ex.sysZ ∧ ∀ B : ℝ, ∃ y a : ℝ,
    objective Ex.sysZ.w Ex.sysZ.m [.fin y, .fin 0, .fin 0] = .ok (.fin a) ∧ a < B := by
  refine ⟨Ex.runZ, fun B => ?_⟩
  have hexp : ∀ y : ℝ, ∀ k (i : Fin (Ex.SZ k).n), expectedIn Ex.sysZ Ex.SZ (fun _ => y) (fun _ _ _ => 0) k i = y / 2 := by
    intro y k i
    show ∑ j : Fin 1, y * 1 * ((![1, 1] : Fin 2 → ℝ) i * _ / ∑ i' : Fin 2, (![1, 1] : Fin 2 → ℝ) i' * _) = _
    have : (![1, 1] : Fin 2 → ℝ) i = 1 := by revert i; show ∀ i : Fin 2, _; intro i; fin_cases i <;> rfl
    simp [this, Fin.sum_univ_two]
    norm_num
    ring
  obtain ⟨t, -, a, h1, h2⟩ := C105_unbounded Ex.sysZ Ex.sysZ_built (by simp [Ex.sysZ, Ex.mZ]) Ex.SZ Ex.modelZ _ Ex.dataZ
    (fun _ _ _ => .inl rfl) (fun _ => 0) (fun _ => 1) (by intro p hp; simp [Ex.sysZ, Ex.mZ] at hp) (fun _ _ _ => 0)
    (by
      intro k hk j
      show ∑ i : Fin 2, (![1, 1] : Fin 2 → ℝ) i * _ ≠ 0
      simp [Fin.sum_univ_two])
    (fun _ => 0) (fun k _ i hi => absurd rfl hi) (fun _ => -1) (fun k _ i hi => absurd rfl hi)
    (by intro p hp; simp [Ex.sysZ, Ex.mZ] at hp)
    (Or.inl (by
      unfold totalIn
      have : Ex.sysZ.m.channels.length = 1 := by simp [Ex.sysZ, Ex.mZ]
      have h' : Ex.sysZ.m.chanIds.length = 1 := by simp [Ex.sysZ, Ex.mZ, Mct.chanIds]
      simp only [this, h', Finset.range_one, Finset.sum_singleton]
      rw [Finset.sum_congr rfl fun i _ => hexp (-1) 0 i]
      show ∑ _i : Fin 2, (-1 : ℝ) / 2 < 0
      rw [Fin.sum_univ_two]; norm_num)) B
  refine ⟨0 + t * -1, a, ?_, h2⟩
  rw [← h1]
  congr 1

/-- non-vacuity of C104: in the example of C88 the likelihood at zero nuisance parameters is a number exactly for positive
yields -/
example (y : ℝ) : (∃ a : ℝ, objective Ex.sys35.w Ex.sys35.m [.fin y, .fin 0, .fin 0] = .ok (.fin a)) ↔ 0 < y := by
  have hx : ∀ y : ℝ, ([.fin y, .fin 0, .fin 0] : Vec) = paramVec Ex.sys35 Ex.SZ (fun _ => y) (fun _ _ _ => 0) := by
    intro y
    show _ = [Fl.fin y] ++ ([nuiVec (fun (_ : Fin 1) (_ : Fin 2) => (0 : ℝ))] : List Vec).flatten
    simp [nuiVec, vec, List.ofFn_succ]
  have key := C104_domain Ex.sys35 Ex.sys35_built (by simp [Ex.sys35, Ex.mZ]) Ex.SZ Ex.model35 Ex.d35 Ex.data35
    (fun k _ i => Ex.d35_pos k i) (fun _ => 0) (fun _ => 1) (by intro p hp; simp [Ex.sys35, Ex.mZ] at hp)
    (by
      intro p hp
      have : p = "p" := by simpa [Ex.sys35, Ex.mZ] using hp
      subst this
      exact Or.inl ⟨0, by simp [Ex.sys35, Ex.mZ, Mct.chanIds], (0 : Fin 1), by
        simp [procName, Ex.sys35, Ex.mZ, Mct.chanIds, Ex.w35, Ex.chZ]⟩)
    [.fin y, .fin 0, .fin 0] (by
      rw [hx y]; exact paramVec_length (reachable_wf Ex.sys35_built.reachable) Ex.model35 _ _)
  rw [key]
  constructor
  · rintro ⟨ν, θ, e, -, hE⟩
    have h1 : y = ν "p" ∧ ∀ j i, θ 0 j i = 0 := by
      have e' : ([.fin y, .fin 0, .fin 0] : Vec) = [Fl.fin (ν "p")] ++ ([nuiVec (fun (j : Fin 1) (i : Fin 2) => θ 0 j i)] : List Vec).flatten := e
      simp [nuiVec, vec, List.ofFn_succ] at e'
      refine ⟨e'.1, ?_⟩
      have : ∀ (j : Fin 1) (i : Fin 2), θ 0 j i = 0 := by
        intro j i
        fin_cases j
        fin_cases i
        · exact e'.2.1.symm
        · exact e'.2.2.symm
      exact this
    have h2 := hE 0 (by simp [Ex.sys35, Ex.mZ, Mct.chanIds]) (0 : Fin 2) (by
      show (![3, 5] : Fin 2 → ℝ) 0 ≠ 0
      simp)
    have h3 : θ 0 = fun _ _ => 0 := funext fun j => funext fun i => h1.2 j i
    have h4 : expectedIn Ex.sys35 Ex.SZ ν θ 0 (0 : Fin 2) = expectedIn Ex.sys35 Ex.SZ ν (fun _ _ _ => 0) 0 (0 : Fin 2) := by
      unfold expectedIn; rw [h3]
    rw [h4, Ex.exp35'] at h2
    rw [h1.1]; linarith
  · intro hy
    refine ⟨fun _ => y, fun _ _ _ => 0, hx y, Ex.sums35, ?_⟩
    intro k hk i _
    have : k = 0 := by simpa [Ex.sys35, Ex.mZ, Mct.chanIds] using hk
    subst this
    have := Ex.exp35' (fun _ => y) i
    refine lt_of_lt_of_eq ?_ this.symm
    positivity

end

end TF.Props
