import Verif.Props.FitterProps15
import Verif.Props.MctProps14
import Verif.Props.MctProps18

set_option linter.unusedSimpArgs false

/-!
# Fit results do not depend on the order of the calls (C121)
-/

namespace TF.Spec

open TF Classical

noncomputable section

/-- the likelihood of the channel is a number: the data are numbers of events, no template's contents sum to zero, and the
expectation is positive in every bin with data (in a bin without data it may be anything) -/
structure NamedChan.Covered (D : NamedChan) (ν : String → ℝ) (θ : String → Fin D.n → ℝ) : Prop where
  sums : ∀ p ∈ D.procs, ∑ i, D.cnt p i * (1 + θ p i * D.ε p i) ≠ 0
  pos : ∀ i, D.d i ≠ 0 → 0 < D.expected ν θ i

/-- the templates of two models have the same present parameters: for each channel name and process name -/
def SameParams (s s' : Sys) : Prop :=
  ∀ a c c' p t t', (a, c) ∈ s.m.channels → (a, c') ∈ s'.m.channels → (p, t) ∈ (s.w.chans c).templates →
    (p, t') ∈ (s'.w.chans c').templates → (s.w.tmpls t).params = (s'.w.tmpls t').params

/-- Two models are the same up to the order in which channels, processes, templates and constraints were added: the same channels `A`
with the same templates and data `D`, the same constraints (value `V`, uncertainty `E`), the same processes, each of them used, and
templates with the same present parameters. -/
structure ReorderedModel (s s' : Sys) (A : Finset String) (D : String → NamedChan) (V E : String → ℝ) : Prop where
  built : s.Built
  built' : s'.Built
  ne : s.m.channels ≠ []
  named : NamedModel s A D
  named' : NamedModel s' A D
  data : ∀ a ∈ A, ∀ i, (D a).d i = 0 ∨ (1e-100 : ℝ) ≤ (D a).d i
  cons : ConstraintsAre s V E
  cons' : ConstraintsAre s' V E
  perm : s.m.constrained.Perm s'.m.constrained
  procs : ∀ p, p ∈ s.m.processes ↔ p ∈ s'.m.processes
  used : ∀ p ∈ s.m.processes, (∃ a ∈ A, p ∈ (D a).procs) ∨ p ∈ s.m.constrained
  params : SameParams s s'

/-- configuration calls that name the parameters (and do not number them) -/
def ByName (h : List FitOp) : Prop :=
  (∀ pid, FitOp.fix pid ∈ h → ∃ n, pid = .str n) ∧ ∀ pid b, FitOp.bound pid b ∈ h → ∃ n, pid = .str n

end

end TF.Spec

namespace TF.Props

open Classical Spec
open scoped Matrix

noncomputable section

theorem named_sums {s : Sys} {A : Finset String} {D : String → NamedChan} (hm : NamedModel s A D) {k : ℕ}
    (hk : k < s.m.chanIds.length) (j : Fin (orderedSpec s D k).K) : procName s k j ∈ (D (chanName s k)).procs := by
  have hN := hm.chan _ _ (chan_at hk)
  rw [hN.procs]
  have hj : (j : ℕ) < (s.w.chans (s.m.chanIds.getD k 0)).procs.length := j.2
  have : procName s k j = (s.w.chans (s.m.chanIds.getD k 0)).procs[(j : ℕ)] := getD_eq hj ""
  rw [this]
  exact List.getElem_mem hj

/-- the likelihood by name, on its whole domain -/
theorem by_name_covered (s : Sys) (h : s.Built) (hne : s.m.channels ≠ []) (A : Finset String) (D : String → NamedChan)
    (hm : NamedModel s A D) (hdat : ∀ a ∈ A, ∀ i, (D a).d i = 0 ∨ (1e-100 : ℝ) ≤ (D a).d i)
    (V E : String → ℝ) (hc : ConstraintsAre s V E) (ν : String → ℝ)
    (θ : ∀ a, String → Fin (D a).n → ℝ) (hreg : ∀ a ∈ A, (D a).Covered ν (θ a)) :
    (s.m.nll s.w (namedVec s D ν θ)).1 = .ok (.fin (∑ a ∈ A, (D a).nll ν (θ a) +
      (s.m.constrained.map fun p => (ν p - V p) ^ 2 / (2 * E p ^ 2)).sum)) := by
  have hw := reachable_wf h.reachable
  have hA : ∀ k < s.m.chanIds.length, chanName s k ∈ A := by
    intro k hk
    rw [hm.names]
    exact List.mem_map.mpr ⟨_, chan_at hk, rfl⟩
  have hlen : s.m.chanIds.length = s.m.channels.length := by simp [Mct.chanIds]
  have hv := C104_value s h hne (orderedSpec s D) (ordered_model hw hm) _ (ordered_data hm)
    (fun k hk i => hdat _ (hA k hk) i) V E hc ν (orderedNui s D θ)
    (fun k hk j => (hreg _ (hA k hk)).sums (procName s k j) (named_sums hm hk j))
    (by
      intro k hk i hi
      rw [ordered_expected hw hm ν θ hk i]
      exact (hreg _ (hA k hk)).pos i hi)
  rw [ordered_vec] at hv
  unfold objective at hv
  rw [hv]
  congr 3
  have hterm : ∀ k ∈ Finset.range s.m.chanIds.length,
      ((∑ i, if (D (chanName s k)).d i = 0 then expectedIn s (orderedSpec s D) ν (orderedNui s D θ) k i
            else expectedIn s (orderedSpec s D) ν (orderedNui s D θ) k i - (D (chanName s k)).d i -
              (D (chanName s k)).d i * Real.log (expectedIn s (orderedSpec s D) ν (orderedNui s D θ) k i / (D (chanName s k)).d i)) +
            1 / 2 * ∑ j, (orderedNui s D θ k j) ⬝ᵥ (((orderedSpec s D k).R j)⁻¹.mulVec (orderedNui s D θ k j))) =
      (fun a => (D a).nll ν (θ a)) ((s.m.channels.map (·.1)).getD k "") := by
    intro k hk
    have hk : k < s.m.chanIds.length := Finset.mem_range.mp hk
    have hN := hm.chan _ _ (chan_at hk)
    have hcw := hw.chan _ (hw.chLt _ (chan_at hk))
    have hnd : (s.w.chans (s.m.chanIds.getD k 0)).procs.Nodup := by
      have := hcw.nodup; rw [← hcw.tkeys] at this; exact this
    show _ = (D (chanName s k)).nll ν (θ (chanName s k))
    unfold NamedChan.nll
    congr 1
    · apply Finset.sum_congr rfl
      intro i _
      rw [ordered_expected hw hm ν θ hk i]
    · congr 1
      exact sum_procs hnd hN.procs (fun p => θ (chanName s k) p ⬝ᵥ (((D (chanName s k)).R p)⁻¹.mulVec (θ (chanName s k) p)))
  refine (Finset.sum_congr rfl hterm).trans ?_
  rw [hlen, ← Fin.sum_univ_eq_sum_range (fun k => (fun a => (D a).nll ν (θ a)) ((s.m.channels.map (·.1)).getD k ""))]
  have := sum_procs hw.chNames hm.names (fun a => (D a).nll ν (θ a))
  rw [← this]
  exact (Fin.sum_congr' _ (by simp)).symm

/-- nuisance parameters by position are nuisance parameters by name -/
theorem named_of_orderedNui {s : Sys} (hw : SysWF s) {D : String → NamedChan}
    (θ' : ∀ k, Fin (orderedSpec s D k).K → Fin (orderedSpec s D k).n → ℝ) :
    ∃ θ : ∀ a, String → Fin (D a).n → ℝ, ∀ k < s.m.chanIds.length, orderedNui s D θ k = θ' k := by
  have hex : ∀ a p, ∃ f : Fin (D a).n → ℝ, ∀ k < s.m.chanIds.length, ∀ j : Fin (orderedSpec s D k).K,
      ∀ e : chanName s k = a, procName s k j = p → ∀ i, f (Fin.cast (by rw [← e]; rfl) i) = θ' k j i := by
    intro a p
    by_cases h : ∃ k, k < s.m.chanIds.length ∧ ∃ j : Fin (orderedSpec s D k).K, chanName s k = a ∧ procName s k j = p
    · obtain ⟨k, hk, j, rfl, rfl⟩ := h
      refine ⟨θ' k j, ?_⟩
      intro k' hk' j' e ep i
      have hlen : s.m.chanIds.length = s.m.channels.length := by simp [Mct.chanIds]
      have hkk : k' = k := by
        unfold chanName at e
        rw [getD_eq (by simpa [← hlen] using hk'), getD_eq (by simpa [← hlen] using hk)] at e
        exact (List.Nodup.getElem_inj_iff hw.chNames).mp e
      subst hkk
      have hcw := hw.chan _ (hw.chLt _ (chan_at hk))
      have hnd : (s.w.chans (s.m.chanIds.getD k' 0)).procs.Nodup := by
        have := hcw.nodup; rw [← hcw.tkeys] at this; exact this
      have hjj : j' = j := by
        have h1 : procName s k' j' = (s.w.chans (s.m.chanIds.getD k' 0)).procs[(j' : ℕ)]'j'.2 := getD_eq j'.2 ""
        have h2 : procName s k' j = (s.w.chans (s.m.chanIds.getD k' 0)).procs[(j : ℕ)]'j.2 := getD_eq j.2 ""
        rw [h1, h2] at ep
        exact Fin.ext ((List.Nodup.getElem_inj_iff hnd).mp ep)
      subst hjj
      rfl
    · refine ⟨0, fun k hk j e ep => absurd ⟨k, hk, j, e, ep⟩ h⟩
  choose θ hθ using hex
  refine ⟨θ, fun k hk => ?_⟩
  funext j i
  exact hθ _ _ k hk j rfl rfl i

/-- where the likelihood is a number, the parameters are numbers by name in its domain -/
theorem named_of_finite (s : Sys) (h : s.Built) (hne : s.m.channels ≠ []) (A : Finset String) (D : String → NamedChan)
    (hm : NamedModel s A D) (hdat : ∀ a ∈ A, ∀ i, (D a).d i = 0 ∨ (1e-100 : ℝ) ≤ (D a).d i)
    (V E : String → ℝ) (hc : ConstraintsAre s V E)
    (hused : ∀ p ∈ s.m.processes, (∃ a ∈ A, p ∈ (D a).procs) ∨ p ∈ s.m.constrained)
    (x : Vec) (hx : x.length = s.m.numProcesses + s.m.numNui s.w) (v : ℝ) (hv : (s.m.nll s.w x).1 = .ok (.fin v)) :
    ∃ ν θ, x = namedVec s D ν θ ∧ ∀ a ∈ A, (D a).Covered ν (θ a) := by
  have hw := reachable_wf h.reachable
  have hA : ∀ k < s.m.chanIds.length, chanName s k ∈ A := by
    intro k hk
    rw [hm.names]
    exact List.mem_map.mpr ⟨_, chan_at hk, rfl⟩
  have hpos : ∀ a ∈ A, ∃ k < s.m.chanIds.length, chanName s k = a := by
    intro a ha
    rw [hm.names] at ha
    obtain ⟨k, hk, e⟩ := List.getElem_of_mem ha
    exact ⟨k, by simpa [Mct.chanIds] using hk, by unfold chanName; rw [getD_eq hk, e]⟩
  have hproc : ∀ k < s.m.chanIds.length, ∀ p ∈ (D (chanName s k)).procs, ∃ j : Fin (orderedSpec s D k).K, procName s k j = p := by
    intro k hk p hp
    rw [(hm.chan _ _ (chan_at hk)).procs] at hp
    obtain ⟨j, hj, e⟩ := List.getElem_of_mem hp
    refine ⟨⟨j, hj⟩, ?_⟩
    show (s.w.chans (s.m.chanIds.getD k 0)).procs.getD j "" = p
    rw [getD_eq hj, e]
  have hu : AllUsed s (orderedSpec s D) := by
    intro p hp
    rcases hused p hp with ⟨a, ha, hpa⟩ | hp
    · obtain ⟨k, hk, rfl⟩ := hpos a ha
      exact .inl ⟨k, hk, hproc k hk p hpa⟩
    · exact .inr hp
  obtain ⟨ν, θ', e, hT, hE⟩ := (C104_domain s h hne (orderedSpec s D) (ordered_model hw hm) _ (ordered_data hm)
    (fun k hk i => hdat _ (hA k hk) i) V E hc hu x hx).mp ⟨v, hv⟩
  obtain ⟨θ, hθ⟩ := named_of_orderedNui hw θ'
  have e2 : paramVec s (orderedSpec s D) ν θ' = paramVec s (orderedSpec s D) ν (orderedNui s D θ) := by
    unfold paramVec
    congr 2
    apply List.map_congr_left
    intro k hk
    rw [hθ k (List.mem_range.mp hk)]
  refine ⟨ν, θ, by rw [e, e2, ordered_vec], fun a ha => ?_⟩
  obtain ⟨k, hk, rfl⟩ := hpos a ha
  refine ⟨?_, ?_⟩
  · intro p hp
    obtain ⟨j, rfl⟩ := hproc k hk p hp
    have := hT k hk j
    rw [← hθ k hk] at this
    exact this
  · intro i hi
    have := hE k hk i hi
    have e3 : expectedIn s (orderedSpec s D) ν θ' k i = expectedIn s (orderedSpec s D) ν (orderedNui s D θ) k i := by
      unfold expectedIn
      rw [hθ k hk]
    rw [e3, ordered_expected hw hm ν θ hk i] at this
    exact this

/-- one parameter of a model: the yield of a process, or a nuisance parameter of channel, process and bin -/
inductive Slot where
  | yield (p : String)
  | nui (a p : String) (i : ℕ)

/-- the parameters of a model in order -/
def slots (s : Sys) (D : String → NamedChan) : List Slot :=
  s.m.processes.map .yield ++
    s.m.channels.flatMap fun ac => (s.w.chans ac.2).procs.flatMap fun p => (List.range (D ac.1).n).map (.nui ac.1 p)

def Slot.name : Slot → String
  | .yield p => p ++ "_yield"
  | .nui a p i => nuiName a p i

def Slot.val {D : String → NamedChan} (ν : String → ℝ) (θ : ∀ a, String → Fin (D a).n → ℝ) : Slot → Fl
  | .yield p => .fin (ν p)
  | .nui a p i => (vec (θ a p)).getD i 0

/-- present value of a parameter -/
def Slot.now (s : Sys) : Slot → Fl
  | .yield p => s.w.processYield p s.m.chanIds
  | .nui a p i =>
    match dictGet s.m.channels a with
    | some c =>
      match dictGet (s.w.chans c).templates p with
      | some t => (s.w.tmpls t).params.getD (i + 1) 0
      | none => 0
    | none => 0

theorem map_range_getD {n : ℕ} (l : Vec) (h : l.length = n) : (List.range n).map (fun i => l.getD i 0) = l := by
  apply List.ext_getElem
  · simp [h]
  · intro i h1 h2
    rw [List.getElem_map, List.getElem_range, getD_eq h2]

theorem slots_val (s : Sys) (D : String → NamedChan) (ν : String → ℝ) (θ : ∀ a, String → Fin (D a).n → ℝ) :
    namedVec s D ν θ = (slots s D).map (Slot.val ν θ) := by
  unfold namedVec slots
  rw [List.map_append, List.map_map, List.map_flatMap]
  congr 1
  apply List.flatMap_congr
  intro ac _
  rw [List.map_flatMap]
  apply List.flatMap_congr
  intro p _
  rw [List.map_map]
  exact (map_range_getD (vec (θ ac.1 p)) (vec_length _)).symm

theorem flatMap_procs (c : Channel) {β : Type} (f : String → List β) :
    c.procs.flatMap f = c.templates.flatMap fun pt => f pt.1 := by
  unfold Channel.procs
  rw [List.flatMap_map]

theorem slots_name {s : Sys} {A : Finset String} {D : String → NamedChan} (hm : NamedModel s A D) :
    s.m.paramNames s.w = (slots s D).map Slot.name := by
  unfold Mct.paramNames slots
  rw [List.map_append, List.map_map, List.map_flatMap]
  congr 1
  rw [← List.flatMap_def]
  apply List.flatMap_congr
  intro ac hac
  rw [List.map_flatMap, flatMap_procs]
  unfold World.channelNames
  rw [← List.flatMap_def]
  apply List.flatMap_congr
  intro pt hpt
  rw [List.map_map, ((hm.chan _ _ hac).tmpls _ _ hpt).1.bins]
  rfl

theorem slots_now {s : Sys} (hw : SysWF s) (hne : s.m.channels ≠ []) {A : Finset String} {D : String → NamedChan} (hm : NamedModel s A D) :
    s.m.x0 s.w = .ok ((slots s D).map (Slot.now s)) := by
  have hall : s.m.allTmpls s.w ≠ [] := by
    obtain ⟨⟨a, c⟩, hac⟩ := List.exists_mem_of_ne_nil _ hne
    obtain ⟨p, hp⟩ := (hm.chan _ _ hac).procsNe
    rw [(hm.chan _ _ hac).procs] at hp
    obtain ⟨⟨p', t⟩, hpt, rfl⟩ := List.mem_map.mp hp
    have : s.w.tmpls t ∈ s.m.allTmpls s.w := by
      unfold Mct.allTmpls
      rw [List.mem_flatten]
      exact ⟨s.w.chanTmpls c, List.mem_map_of_mem (List.mem_map.mpr ⟨_, hac, rfl⟩), List.mem_map.mpr ⟨_, hpt, rfl⟩⟩
    intro e; rw [e] at this; simp at this
  unfold Mct.x0 Mct.nuiParams
  rw [if_neg hall]
  simp only
  congr 1
  unfold slots
  rw [List.map_append, List.map_map, List.map_flatMap]
  congr 1
  unfold Mct.allTmpls Mct.chanIds
  rw [List.map_flatten, List.flatten_flatten, List.map_map, List.map_map, List.map_map, ← List.flatMap_def]
  apply List.flatMap_congr
  intro ac hac
  rw [List.map_flatMap, flatMap_procs]
  simp only [Function.comp, World.chanTmpls, List.map_map]
  rw [← List.flatMap_def]
  apply List.flatMap_congr
  intro pt hpt
  show (s.w.tmpls pt.2).nuiParams = _
  have hcw := hw.chan _ (hw.chLt _ hac)
  have h1 := dictGet_of_mem hw.chNames hac
  have h2 : dictGet (s.w.chans ac.2).templates pt.1 = some pt.2 := by
    refine dictGet_of_mem ?_ hpt
    rw [hcw.tkeys]; exact hcw.nodup
  have h3 := (hcw.tmpl _ hpt).1
  have h4 := (hw.tmpl _ h3).params
  have h5 := ((hm.chan _ _ hac).tmpls _ _ hpt).1.bins
  have e : ∀ i, (Slot.now s ∘ Slot.nui ac.1 pt.1) i = (s.w.tmpls pt.2).nuiParams.getD i 0 := by
    intro i
    simp only [Function.comp, Slot.now, h1, h2, Template.nuiParams]
    simp [List.getD_eq_getElem?_getD, List.getElem?_tail]
  rw [List.map_congr_left (fun i _ => e i)]
  exact (map_range_getD _ (by simp [Template.nuiParams, h4, h5])).symm

/-- two models with the same channels, templates and processes have the same parameters -/
theorem slots_mem {s s' : Sys} {A : Finset String} {D : String → NamedChan} (hm : NamedModel s A D) (hm' : NamedModel s' A D)
    (hp : ∀ p, p ∈ s.m.processes ↔ p ∈ s'.m.processes) (σ : Slot) (h : σ ∈ slots s D) : σ ∈ slots s' D := by
  unfold slots at h ⊢
  rw [List.mem_append] at h ⊢
  rcases h with h | h
  · left
    obtain ⟨p, h1, rfl⟩ := List.mem_map.mp h
    exact List.mem_map_of_mem ((hp p).mp h1)
  · right
    obtain ⟨⟨a, c⟩, hac, h⟩ := List.mem_flatMap.mp h
    obtain ⟨p, h1, h2⟩ := List.mem_flatMap.mp h
    have ha : a ∈ s'.m.channels.map (·.1) := by
      rw [← hm'.names, hm.names]; exact List.mem_map.mpr ⟨_, hac, rfl⟩
    obtain ⟨⟨a', c'⟩, hac', rfl⟩ := List.mem_map.mp ha
    refine List.mem_flatMap.mpr ⟨_, hac', List.mem_flatMap.mpr ⟨p, ?_, h2⟩⟩
    rw [← (hm'.chan _ _ hac').procs, (hm.chan _ _ hac).procs]
    exact h1

theorem processYield_dict (s : Sys) (p : String) (l : List (String × ℕ)) :
    s.w.processYield p (l.map (·.2)) = (l.map fun ac => match dictGet (s.w.chans ac.2).templates p with
      | some t => (s.w.tmpls t).yieldParam
      | none => 0).sum := by
  induction l with
  | nil => rfl
  | cons ac l ih =>
    rw [List.map_cons, List.map_cons, List.sum_cons, World.processYield, ih]
    cases dictGet (s.w.chans ac.2).templates p with
    | none => simp
    | some t => rfl

theorem slot_now_eq {s s' : Sys} (hw : SysWF s) (hw' : SysWF s') {A : Finset String} {D : String → NamedChan} (hm : NamedModel s A D)
    (hm' : NamedModel s' A D) (hpar : SameParams s s') (σ : Slot) (h : σ ∈ slots s D) : σ.now s = σ.now s' := by
  have htm : ∀ a c c' p, (a, c) ∈ s.m.channels → (a, c') ∈ s'.m.channels →
      (dictGet (s.w.chans c).templates p = none ∧ dictGet (s'.w.chans c').templates p = none) ∨
      ∃ t t', dictGet (s.w.chans c).templates p = some t ∧ dictGet (s'.w.chans c').templates p = some t' ∧
        (s.w.tmpls t).params = (s'.w.tmpls t').params := by
    intro a c c' p hc hc'
    have hcw := hw.chan _ (hw.chLt _ hc)
    have hcw' := hw'.chan _ (hw'.chLt _ hc')
    have hmem : p ∈ (s.w.chans c).procs ↔ p ∈ (s'.w.chans c').procs := by
      rw [← (hm.chan _ _ hc).procs, ← (hm'.chan _ _ hc').procs]
    by_cases hp : p ∈ (s.w.chans c).procs
    · obtain ⟨⟨_, t⟩, h1, rfl⟩ := List.mem_map.mp hp
      obtain ⟨⟨p', t'⟩, h2, e⟩ := List.mem_map.mp (hmem.mp hp)
      simp only at e
      subst e
      right
      refine ⟨t, t', dictGet_of_mem (by rw [hcw.tkeys]; exact hcw.nodup) h1,
        dictGet_of_mem (by rw [hcw'.tkeys]; exact hcw'.nodup) h2, hpar _ _ _ _ _ _ hc hc' h1 h2⟩
    · left
      exact ⟨dictGet_none.mpr hp, dictGet_none.mpr fun h => hp (hmem.mpr h)⟩
  have hcp : (s.m.channels.map (·.1)).Perm (s'.m.channels.map (·.1)) := by
    refine (List.perm_ext_iff_of_nodup hw.chNames hw'.chNames).mpr fun a => ?_
    rw [← hm.names, hm'.names]
  cases σ with
  | yield p =>
    show s.w.processYield p s.m.chanIds = s'.w.processYield p s'.m.chanIds
    unfold Mct.chanIds
    rw [processYield_dict, processYield_dict]
    let f : String → Fl := fun a => match dictGet s.m.channels a with
      | some c => (match dictGet (s.w.chans c).templates p with
        | some t => (s.w.tmpls t).yieldParam
        | none => 0)
      | none => 0
    have e1 : ∀ ac ∈ s.m.channels, (match dictGet (s.w.chans ac.2).templates p with
      | some t => (s.w.tmpls t).yieldParam
      | none => 0) = f ac.1 := by
      intro ac hac
      simp only [f, dictGet_of_mem hw.chNames hac]
    have e2 : ∀ ac ∈ s'.m.channels, (match dictGet (s'.w.chans ac.2).templates p with
      | some t => (s'.w.tmpls t).yieldParam
      | none => 0) = f ac.1 := by
      intro ac hac
      have ha : ac.1 ∈ s.m.channels.map (·.1) := by
        rw [← hm.names, hm'.names]; exact List.mem_map.mpr ⟨_, hac, rfl⟩
      obtain ⟨⟨a', c⟩, hac', e⟩ := List.mem_map.mp ha
      simp only at e
      have e3 := e1 (a', c) hac'
      simp only at e3
      rw [e] at hac' e3
      rw [← e3]
      rcases htm _ _ _ p hac' hac with ⟨h1, h2⟩ | ⟨t, t', h1, h2, h3⟩
      · rw [h1, h2]
      · rw [h1, h2]
        simp only [Template.yieldParam, h3]
    rw [List.map_congr_left e1, List.map_congr_left e2]
    have h1 := (hcp.map f).sum_eq
    rw [List.map_map, List.map_map] at h1
    exact h1
  | nui a p i =>
    unfold slots at h
    rcases List.mem_append.mp h with h | h
    · obtain ⟨_, _, h⟩ := List.mem_map.mp h; cases h
    · obtain ⟨⟨a, c⟩, hac, h⟩ := List.mem_flatMap.mp h
      obtain ⟨p, h1, h2⟩ := List.mem_flatMap.mp h
      obtain ⟨i, -, h2⟩ := List.mem_map.mp h2
      cases h2
      have ha : a ∈ s'.m.channels.map (·.1) := hcp.mem_iff.mp (List.mem_map.mpr ⟨_, hac, rfl⟩)
      obtain ⟨⟨a', c'⟩, hac', e⟩ := List.mem_map.mp ha
      simp only at e
      subst e
      simp only [Slot.now, dictGet_of_mem hw.chNames hac, dictGet_of_mem hw'.chNames hac']
      rcases htm _ _ _ p hac hac' with ⟨h1, h2⟩ | ⟨t, t', h1, h2, h3⟩
      · rw [h1, h2]
      · simp only [h1, h2, h3]

/-! ### transport of a fit problem -/

theorem denotes_str {names : List String} (hn : names.Nodup) (n : String) (k : ℕ) :
    Denotes names (.str n) k ↔ names[k]? = some n := by
  refine ⟨fun h => h.1, fun h => ⟨h, fun j hj e => ?_⟩⟩
  obtain ⟨h1, h2⟩ := List.getElem?_eq_some_iff.mp h
  obtain ⟨h3, h4⟩ := List.getElem?_eq_some_iff.mp e
  have := (List.Nodup.getElem_inj_iff hn).mp (h4.trans h2.symm)
  omega

/-- position `k` of `names` and position `k'` of `names'` are the same parameter -/
theorem wanted_transport {names names' : List String} (hn : names.Nodup) (hn' : names'.Nodup) {h : List FitOp} (hb : ByName h)
    {k k' : ℕ} (hk : names[k]? = names'[k']?) {nproc nproc' : ℕ} (hy : nproc ≤ k ↔ nproc' ≤ k') (fixNui : Bool) (lim : Option Bounds) :
    (WantedFixed names h nproc fixNui k ↔ WantedFixed names' h nproc' fixNui k') ∧
    ∀ b, WantedBounds names h nproc lim k b ↔ WantedBounds names' h nproc' lim k' b := by
  have hd : ∀ n, Denotes names (.str n) k ↔ Denotes names' (.str n) k' := by
    intro n
    rw [denotes_str hn, denotes_str hn', hk]
  have hdf : ∀ pid, FitOp.fix pid ∈ h → (Denotes names pid k ↔ Denotes names' pid k') := by
    intro pid hp
    obtain ⟨n, rfl⟩ := hb.1 pid hp
    exact hd n
  have hdb : ∀ pid b, FitOp.bound pid b ∈ h → (Denotes names pid k ↔ Denotes names' pid k') := by
    intro pid b hp
    obtain ⟨n, rfl⟩ := hb.2 pid b hp
    exact hd n
  constructor
  · unfold WantedFixed FitFixed
    rw [hy]
    refine or_congr (exists_congr fun pid => and_congr_right fun hp => hdf pid hp) Iff.rfl
  · intro b
    unfold WantedBounds FitBounds FitUnbound
    refine or_congr ?_ (and_congr ?_ ?_)
    · refine exists_congr fun pre => exists_congr fun op => exists_congr fun post => and_congr_right fun he => ?_
      refine and_congr ?_ ?_
      · refine exists_congr fun pid => and_congr_right fun ho => ?_
        exact hdb pid b (by rw [he, ho]; simp)
      · refine forall_congr' fun o => forall_congr' fun hm => not_congr ?_
        refine exists_congr fun pid => exists_congr fun b' => and_congr_right fun ho => ?_
        exact hdb pid b' (by rw [he, ← ho]; simp [hm])
    · refine forall_congr' fun pid => forall_congr' fun b' => forall_congr' fun hp => not_congr (hdb pid b' hp)
    · by_cases hh : nproc ≤ k
      · rw [if_pos hh, if_pos (hy.mp hh)]
      · rw [if_neg hh, if_neg (fun h => hh (hy.mpr h))]

/-- an allowed point of one model, ordered as in another model with the same parameters, is an allowed point there -/
theorem allowed_transport {L L' : List Slot} (hmem : ∀ σ ∈ L', σ ∈ L) {P P' : ℕ}
    (hP : ∀ k σ, L[k]? = some σ → (P ≤ k ↔ ∃ a p i, σ = .nui a p i)) (hP' : ∀ k σ, L'[k]? = some σ → (P' ≤ k ↔ ∃ a p i, σ = .nui a p i))
    (hn : (L.map Slot.name).Nodup) (hn' : (L'.map Slot.name).Nodup)
    {now now' val : Slot → Fl} (hnow : ∀ σ ∈ L', now σ = now' σ) {h : List FitOp} (hb : ByName h) (fixNui : Bool) (lim : Option Bounds)
    (ha : FitAllows (L.map Slot.name) P h fixNui lim (L.map now) (L.map val)) :
    FitAllows (L'.map Slot.name) P' h fixNui lim (L'.map now') (L'.map val) := by
  refine ⟨by simp, fun k' hk' => ?_⟩
  have hk2 : k' < L'.length := by simpa using hk'
  obtain ⟨k, hk, e⟩ := List.getElem_of_mem (hmem _ (List.getElem_mem hk2))
  have e1 : L[k]? = some L'[k'] := by rw [List.getElem?_eq_getElem hk, e]
  have e2 : L'[k']? = some L'[k'] := List.getElem?_eq_getElem hk2
  obtain ⟨w1, w2⟩ := wanted_transport (h := h) hn hn' hb (k := k) (k' := k') (by simp only [List.getElem?_map, e1, e2])
    ((hP k _ e1).trans (hP' k' _ e2).symm) fixNui lim
  obtain ⟨g1, g2⟩ := ha.2 k (by simpa using hk)
  have f1 : (L'.map val)[k']? = (L.map val)[k]? := by simp only [List.getElem?_map, e1, e2]
  have f2 : (L'.map now')[k']? = (L.map now)[k]? := by
    simp only [List.getElem?_map, e1, e2, Option.map_some]
    rw [hnow _ (List.getElem_mem hk2)]
  rw [f1, f2]
  exact ⟨fun hw => g1 (w1.mpr hw), fun hw b v hb hv => g2 (fun h => hw (w1.mp h)) b v ((w2 b).mpr hb) hv⟩

theorem slots_split (s : Sys) (D : String → NamedChan) (k : ℕ) (σ : Slot) (h : (slots s D)[k]? = some σ) :
    s.m.numProcesses ≤ k ↔ ∃ a p i, σ = .nui a p i := by
  have hl : (s.m.processes.map Slot.yield).length = s.m.numProcesses := by simp [Mct.numProcesses]
  unfold slots at h
  constructor
  · intro hk
    rw [List.getElem?_append_right (by rw [hl]; exact hk)] at h
    obtain ⟨⟨a, c⟩, -, h1⟩ := List.mem_flatMap.mp (List.mem_of_getElem? h)
    obtain ⟨p, -, h2⟩ := List.mem_flatMap.mp h1
    obtain ⟨i, -, h2⟩ := List.mem_map.mp h2
    exact ⟨_, _, _, h2.symm⟩
  · rintro ⟨a, p, i, rfl⟩
    by_contra hk
    rw [List.getElem?_append_left (by rw [hl]; omega)] at h
    obtain ⟨_, _, h2⟩ := List.mem_map.mp (List.mem_of_getElem? h)
    cases h2

theorem _root_.TF.Spec.ReorderedModel.symm {s s' : Sys} {A : Finset String} {D : String → NamedChan} {V E : String → ℝ} (h : ReorderedModel s s' A D V E) :
    ReorderedModel s' s A D V E := by
  refine ⟨h.built', h.built, ?_, h.named', h.named, h.data, h.cons', h.cons, h.perm.symm, fun p => (h.procs p).symm, ?_, ?_⟩
  · intro e
    obtain ⟨x, hx⟩ := List.exists_mem_of_ne_nil _ h.ne
    have h1 : x.1 ∈ A := (h.named.names _).mpr (List.mem_map.mpr ⟨x, hx, rfl⟩)
    have h2 := (h.named'.names _).mp h1
    rw [e] at h2; simp at h2
  · intro p hp
    rcases h.used p ((h.procs p).mpr hp) with h1 | h1
    · exact .inl h1
    · exact .inr (h.perm.mem_iff.mp h1)
  · intro a c c' p t t' h1 h2 h3 h4
    exact (h.params a c' c p t' t h2 h1 h4 h3).symm

theorem slots_nodup {s : Sys} (hw : SysWF s) (D : String → NamedChan) : (slots s D).Nodup := by
  unfold slots
  rw [List.nodup_append]
  refine ⟨hw.procs.map fun _ _ h => by cases h; rfl, ?_, ?_⟩
  · rw [List.nodup_flatMap]
    constructor
    · intro ac hac
      have hcw := hw.chan _ (hw.chLt _ hac)
      have hnd : (s.w.chans ac.2).procs.Nodup := by
        have := hcw.nodup; rw [← hcw.tkeys] at this; exact this
      rw [List.nodup_flatMap]
      refine ⟨fun p _ => List.nodup_range.map fun _ _ h => by cases h; rfl, ?_⟩
      refine hnd.imp fun {p q} hpq => ?_
      intro σ h1 h2
      obtain ⟨_, _, rfl⟩ := List.mem_map.mp h1
      obtain ⟨_, _, h2⟩ := List.mem_map.mp h2
      cases h2
      exact hpq rfl
    · have := hw.chNames
      rw [List.Nodup, List.pairwise_map] at this
      refine this.imp fun {x y} hxy => ?_
      intro σ h1 h2
      obtain ⟨_, _, h1⟩ := List.mem_flatMap.mp h1
      obtain ⟨_, _, h2⟩ := List.mem_flatMap.mp h2
      obtain ⟨_, _, rfl⟩ := List.mem_map.mp h1
      obtain ⟨_, _, h2⟩ := List.mem_map.mp h2
      injection h2 with e
      exact hxy e.symm
  · intro σ h1 τ h2 e
    subst e
    obtain ⟨_, _, rfl⟩ := List.mem_map.mp h1
    obtain ⟨_, _, h2⟩ := List.mem_flatMap.mp h2
    obtain ⟨_, _, h2⟩ := List.mem_flatMap.mp h2
    obtain ⟨_, _, h2⟩ := List.mem_map.mp h2
    cases h2

theorem slots_perm {s s' : Sys} {A : Finset String} {D : String → NamedChan} {V E : String → ℝ} (h : ReorderedModel s s' A D V E) :
    (slots s D).Perm (slots s' D) :=
  (List.perm_ext_iff_of_nodup (slots_nodup (reachable_wf h.built.reachable) D) (slots_nodup (reachable_wf h.built'.reachable) D)).mpr
    fun σ => ⟨slots_mem h.named h.named' h.procs σ, slots_mem h.named' h.named (fun p => (h.procs p).symm) σ⟩

/-- the same parameter names, in some order -/
theorem names_perm {s s' : Sys} {A : Finset String} {D : String → NamedChan} {V E : String → ℝ} (h : ReorderedModel s s' A D V E) :
    (s.m.paramNames s.w).Perm (s'.m.paramNames s'.w) := by
  rw [slots_name h.named, slots_name h.named']
  exact (slots_perm h).map _

/-- a point of one model at which the likelihood is a number, ordered as in the other model: allowed there as well, with the same
likelihood -/
theorem point_transport {s s' : Sys} {A : Finset String} {D : String → NamedChan} {V E : String → ℝ} (h : ReorderedModel s s' A D V E)
    (hn : (s.m.paramNames s.w).Nodup) (ops : List FitOp) (hb : ByName ops) (fixNui : Bool)
    (lim : Option Bounds) (x0 x0' : Vec) (hx : s.m.x0 s.w = .ok x0) (hx' : s'.m.x0 s'.w = .ok x0') (y : Vec) (v : ℝ)
    (ha : FitAllows (s.m.paramNames s.w) s.m.numProcesses ops fixNui lim x0 y) (hv : (s.m.nll s.w y).1 = .ok (.fin v)) :
    ∃ ν θ, y = namedVec s D ν θ ∧
      FitAllows (s'.m.paramNames s'.w) s'.m.numProcesses ops fixNui lim x0' (namedVec s' D ν θ) ∧
      (s'.m.nll s'.w (namedVec s' D ν θ)).1 = .ok (.fin v) := by
  have hw := reachable_wf h.built.reachable
  have hw' := reachable_wf h.built'.reachable
  have hn' := (names_perm h).nodup_iff.mp hn
  have hyl : y.length = s.m.numProcesses + s.m.numNui s.w := by rw [ha.1, (C51_aligned s h.built.reachable).1]
  obtain ⟨ν, θ, rfl, hreg⟩ := named_of_finite s h.built h.ne A D h.named h.data V E h.cons h.used y hyl v hv
  have h' := h.symm
  refine ⟨ν, θ, rfl, ?_, ?_⟩
  · rw [slots_now hw h.ne h.named] at hx
    rw [slots_now hw' h'.ne h.named'] at hx'
    obtain rfl := Except.ok.inj hx
    obtain rfl := Except.ok.inj hx'
    rw [slots_name h.named, slots_val] at ha
    rw [slots_name h.named', slots_val]
    have hmem : ∀ σ, σ ∈ slots s' D ↔ σ ∈ slots s D := fun σ => (slots_perm h).mem_iff.symm
    exact allowed_transport (fun σ hσ => (hmem σ).mp hσ) (slots_split s D) (slots_split s' D)
      (by rw [← slots_name h.named]; exact hn) (by rw [← slots_name h.named']; exact hn')
      (fun σ hσ => slot_now_eq hw hw' h.named h.named' h.params σ ((hmem σ).mp hσ)) hb fixNui lim ha
  · have e1 := by_name_covered s h.built h.ne A D h.named h.data V E h.cons ν θ hreg
    have e2 := by_name_covered s' h.built' h'.ne A D h.named' h.data V E h.cons' ν θ hreg
    rw [hv] at e1
    rw [e2, ← (h.perm.map _).sum_eq]
    exact e1.symm

/-- **C121.** Two models with the same channels, templates, data, constraints and processes, added in any order, with the same
present template parameters, distinct parameter names and the same configuration by name: best points of the two fit problems with
finite likelihood values have the same value, and a best point of the one, with the same values of the named parameters, is a best
point of the other. -/
theorem C121_best (s s' : Sys) (A : Finset String) (D : String → NamedChan) (V E : String → ℝ) (h : ReorderedModel s s' A D V E)
    (hn : (s.m.paramNames s.w).Nodup) (ops : List FitOp) (hb : ByName ops) (fixNui : Bool)
    (lim : Option Bounds) (x0 x0' : Vec) (hx : s.m.x0 s.w = .ok x0) (hx' : s'.m.x0 s'.w = .ok x0') (y y' : Vec) (v v' : ℝ)
    (hy : BestPoint s (FitAllows (s.m.paramNames s.w) s.m.numProcesses ops fixNui lim x0) y (.fin v))
    (hy' : BestPoint s' (FitAllows (s'.m.paramNames s'.w) s'.m.numProcesses ops fixNui lim x0') y' (.fin v')) :
    v = v' ∧ ∃ ν θ, y = namedVec s D ν θ ∧
      BestPoint s' (FitAllows (s'.m.paramNames s'.w) s'.m.numProcesses ops fixNui lim x0') (namedVec s' D ν θ) (.fin v') := by
  obtain ⟨ν, θ, e1, a1, l1⟩ := point_transport h hn ops hb fixNui lim x0 x0' hx hx' y v hy.1 hy.2.1
  obtain ⟨ν', θ', e2, a2, l2⟩ := point_transport h.symm ((names_perm h).nodup_iff.mp hn) ops hb fixNui lim x0' x0 hx' hx y' v' hy'.1 hy'.2.1
  have g1 := hy'.2.2.2 _ _ a1 l1
  have g2 := hy.2.2.2 _ _ a2 l2
  have hvv : v = v' := Fl.fin.inj (Fl.eq_of_not_lt hy.2.2.1 hy'.2.2.1 g1 g2)
  subst hvv
  exact ⟨rfl, ν, θ, e1, a1, l1, by simp, hy'.2.2.2⟩

theorem oneId_transport {names names' : List String} (hp : names.Perm names') (hn : names.Nodup) {h : List FitOp} (hb : ByName h)
    {k : ℕ} : OneId names' h k := by
  intro p q b c hbp hbq hdp hdq
  obtain ⟨n, rfl⟩ := hb.2 p b hbp
  obtain ⟨n', rfl⟩ := hb.2 q c hbq
  rw [denotes_str (hp.nodup_iff.mp hn)] at hdp hdq
  rw [hdp] at hdq
  rw [Option.some.inj hdq]

theorem known_transport {names names' : List String} (hp : names.Perm names') (hn : names.Nodup) {h : List FitOp} (hb : ByName h)
    (hk : KnownIds names h) : KnownIds names' h := by
  have key : ∀ n, (∃ k, Denotes names (.str n) k) → ∃ k, Denotes names' (.str n) k := by
    rintro n ⟨k, hd⟩
    rw [denotes_str hn] at hd
    obtain ⟨k', hk', e⟩ := List.getElem_of_mem (hp.mem_iff.mp (List.mem_of_getElem? hd))
    exact ⟨k', by rw [denotes_str (hp.nodup_iff.mp hn), List.getElem?_eq_getElem hk', e]⟩
  constructor
  · intro pid hm
    obtain ⟨n, rfl⟩ := hb.1 pid hm
    exact key n (hk.1 _ hm)
  · intro pid b hm
    obtain ⟨n, rfl⟩ := hb.2 pid b hm
    exact key n (hk.2 _ b hm)

/-- **C121 (iminuit).** For two such models, any configuration by (known) names, any fit options and optimisers that return true
constrained minima: if both fits return with a finite minimum, the minima are equal, and the fitted values of the first fit, named
parameter by named parameter, are a best point of the second fit (so if that has only one best point, the fitted values agree). -/
theorem C121_iminuit (s s' : Sys) (A : Finset String) (D : String → NamedChan) (V E : String → ℝ) (h : ReorderedModel s s' A D V E)
    (hn : (s.m.paramNames s.w).Nodup) (id id' : String) (hid : id.toLower = "iminuit") (hid' : id'.toLower = "iminuit")
    (ops : List FitOp) (hb : ByName ops) (hk : KnownIds (s.m.paramNames s.w) ops) (o o' : Optim) (ho : TrueMin o) (ho' : TrueMin o')
    (up g up' g' fixNui : Bool) (lim : Option Bounds) (r r' : MinResult) (v v' : ℝ)
    (hr : ((fitRun id ops).doFit o s.w s.m up g fixNui lim).1 = .ok r) (hv : r.fval = .fin v)
    (hr' : ((fitRun id' ops).doFit o' s'.w s'.m up' g' fixNui lim).1 = .ok r') (hv' : r'.fval = .fin v') :
    v = v' ∧ ∃ x0' ν θ, s'.m.x0 s'.w = .ok x0' ∧ r.params.values = namedVec s D ν θ ∧
      BestPoint s' (FitAllows (s'.m.paramNames s'.w) s'.m.numProcesses ops fixNui lim x0') (namedVec s' D ν θ) r'.fval := by
  have hp := names_perm h
  obtain ⟨x0, hx, b1⟩ := C120_iminuit s h.built.reachable id hid ops hk
    (fun k _ => oneId_transport (List.Perm.refl _) hn hb) o ho up g fixNui lim r hr
  obtain ⟨x0', hx', b2⟩ := C120_iminuit s' h.built'.reachable id' hid' ops (known_transport hp hn hb hk)
    (fun k _ => oneId_transport hp hn hb) o' ho' up' g' fixNui lim r' hr'
  rw [hv] at b1
  rw [hv'] at b2 ⊢
  obtain ⟨e, ν, θ, e2, e3⟩ := C121_best s s' A D V E h hn ops hb fixNui lim x0 x0' hx hx' _ _ v v' b1 b2
  exact ⟨e, x0', ν, θ, hx', e2, e3⟩

/-- **C121 (scipy).** The same for scipy and at most one fixed parameter. -/
theorem C121_scipy (s s' : Sys) (A : Finset String) (D : String → NamedChan) (V E : String → ℝ) (h : ReorderedModel s s' A D V E)
    (hn : (s.m.paramNames s.w).Nodup) (id id' : String) (hid : id.toLower = "scipy") (hid' : id'.toLower = "scipy")
    (ops : List FitOp) (hb : ByName ops) (hk : KnownIds (s.m.paramNames s.w) ops)
    (h1 : ∀ n n', FitOp.fix (.str n) ∈ ops → FitOp.fix (.str n') ∈ ops → n = n')
    (o o' : Optim) (ho : TrueMinScipy o) (ho' : TrueMinScipy o')
    (up g up' g' : Bool) (lim : Option Bounds) (r r' : MinResult) (v v' : ℝ)
    (hr : ((fitRun id ops).doFit o s.w s.m up g false lim).1 = .ok r) (hv : r.fval = .fin v)
    (hr' : ((fitRun id' ops).doFit o' s'.w s'.m up' g' false lim).1 = .ok r') (hv' : r'.fval = .fin v') :
    v = v' ∧ ∃ x0' ν θ, s'.m.x0 s'.w = .ok x0' ∧ r.params.values = namedVec s D ν θ ∧
      BestPoint s' (FitAllows (s'.m.paramNames s'.w) s'.m.numProcesses ops false lim x0') (namedVec s' D ν θ) r'.fval := by
  have hp := names_perm h
  have one : ∀ names : List String, names.Nodup → ∀ P j k, j < names.length → k < names.length →
      WantedFixed names ops P false j → WantedFixed names ops P false k → j = k := by
    rintro names hnd P j k hj hk' (⟨p, hp, hd⟩ | ⟨e, _⟩) hw
    · rcases hw with ⟨q, hq, hd'⟩ | ⟨e, _⟩
      · obtain ⟨n, rfl⟩ := hb.1 p hp
        obtain ⟨n', rfl⟩ := hb.1 q hq
        have := h1 n n' hp hq
        subst this
        rw [denotes_str hnd] at hd hd'
        obtain ⟨_, e1⟩ := List.getElem?_eq_some_iff.mp hd
        obtain ⟨_, e2⟩ := List.getElem?_eq_some_iff.mp hd'
        exact (List.Nodup.getElem_inj_iff hnd).mp (e1.trans e2.symm)
      · cases e
    · cases e
  obtain ⟨x0, hx, b1⟩ := C120_scipy s h.built.reachable id hid ops hk
    (fun k _ => oneId_transport (List.Perm.refl _) hn hb) o ho up g false lim (one _ hn _) r hr
  obtain ⟨x0', hx', b2⟩ := C120_scipy s' h.built'.reachable id' hid' ops (known_transport hp hn hb hk)
    (fun k _ => oneId_transport hp hn hb) o' ho' up' g' false lim (one _ (hp.nodup_iff.mp hn) _) r' hr'
  rw [hv] at b1
  rw [hv'] at b2 ⊢
  obtain ⟨e, ν, θ, e2, e3⟩ := C121_best s s' A D V E h hn ops hb false lim x0 x0' hx hx' _ _ v v' b1 b2
  exact ⟨e, x0', ν, θ, hx', e2, e3⟩

/-! ### programs -/

theorem processes_run : ∀ (L : List Op) (t : Sys), AllAccepted t L → ∀ p,
    p ∈ (t.run L).m.processes ↔ p ∈ t.m.processes ∨ Op.defineProcess p ∈ L := by
  intro L
  induction L with
  | nil => intro t _ p; simp [Sys.run]
  | cons o L ih =>
    intro t hacc p
    obtain ⟨ho, hacc⟩ := hacc
    have hrun : t.run (o :: L) = (t.step o).run L := by simp [Sys.run]
    rw [hrun, ih _ hacc p]
    cases o with
    | defineChannel a b r =>
      have : (t.step (.defineChannel a b r)).m.processes = t.m.processes := by
        simp [Sys.step, Mct.defineChannel]
      rw [this]; simp
    | defineProcess n =>
      have : (t.step (.defineProcess n)).m.processes = t.m.processes ++ [n] := by
        have ho : (t.m.defineProcess n).1 = .ok () := ho
        simp only [Sys.step, Mct.defineProcess] at ho ⊢
        split at ho
        · rename_i hh; rw [if_pos hh]
        · cases ho
      rw [this]; simp [or_assoc, eq_comm]
    | addTemplate a q i e =>
      have : (t.step (.addTemplate a q i e)).m.processes = t.m.processes := by
        simp only [Sys.step]; split <;> rfl
      rw [this]; simp
    | addData hs =>
      have : (t.step (.addData hs)).m.processes = t.m.processes := by
        simp only [Sys.step]; split <;> rfl
      rw [this]; simp
    | constrain q v e =>
      have : (t.step (.constrain q v e)).m.processes = t.m.processes := by
        simp only [Sys.step, Mct.addConstraint]
        repeat' split
        all_goals rfl
      rw [this]; simp
    | _ => exact ho.elim

/-- **C121, programs.** Two programs that make the same accepted calls in different orders (as in `C98_programs`) build models that are
the same in the sense of `ReorderedModel`, provided every process is used and the data are numbers of events; so `C121_iminuit` and
`C121_scipy` apply to them. -/
theorem C121_programs (pre L L' : List Op) (hpre : ∀ o ∈ pre, ¬ o.evaluates) (hempty : (Sys.init.run pre).m = Mct.empty)
    (hL : AllAccepted (Sys.init.run pre) L) (hL' : AllAccepted (Sys.init.run pre) L') (hp : L.Perm L') (ho : Once L)
    (s s' : Sys) (hs : s = Sys.init.run (pre ++ L)) (hs' : s' = Sys.init.run (pre ++ L'))
    (hne : s.m.channels ≠ []) (A : Finset String) (D : String → NamedChan) (hm : NamedModel s A D)
    (hdat : ∀ a ∈ A, ∀ i, (D a).d i = 0 ∨ (1e-100 : ℝ) ≤ (D a).d i)
    (V E : String → ℝ) (hc : ConstraintsAre s V E)
    (hused : ∀ p ∈ s.m.processes, (∃ a ∈ A, p ∈ (D a).procs) ∨ p ∈ s.m.constrained) : ReorderedModel s s' A D V E := by
  have hb : ∀ M, AllAccepted (Sys.init.run pre) M → (Sys.init.run (pre ++ M)).Built := by
    intro M hM
    refine ⟨_, setupFirst_noEval ?_, rfl⟩
    intro o hmem
    rcases List.mem_append.mp hmem with h1 | h1
    · exact hpre o h1
    · exact accepted_noEval _ _ hM o h1
  have hw0 := run_wf init_wf pre
  have h1 : Added (Sys.init.run pre) s L := by
    have := added_run L [] (Sys.init.run pre) hw0 (added_nil _ hempty) hL (by simpa using ho)
    rw [hs, run_append]; simpa using this
  have h2 : Added (Sys.init.run pre) s' L' := by
    have := added_run L' [] (Sys.init.run pre) hw0 (added_nil _ hempty) hL' (by simpa using once_perm ho hp)
    rw [hs', run_append]; simpa using this
  have hbs : s.Built := hs ▸ hb L hL
  have hbs' : s'.Built := hs' ▸ hb L' hL'
  have hm' := named_transfer hp h1 h2 hm
  have hcon : s.m.constrained.Perm s'.m.constrained := by
    rw [h1.cons, h2.cons]; exact hp.flatMap_right _
  have hw' := reachable_wf hbs'.reachable
  refine ⟨hbs, hbs', hne, hm, hm', hdat, hc, ?_, hcon, ?_, hused, ?_⟩
  · intro p hpm
    obtain ⟨-, a, b, c⟩ := hc p (hcon.mem_iff.mpr hpm)
    refine ⟨(hw'.cons p hpm).1, ?_, ?_, c⟩
    · rw [h2.cvals]; rw [h1.cvals] at a
      simpa only [hp.mem_iff] using a
    · rw [h2.cerrs]; rw [h1.cerrs] at b
      simpa only [hp.mem_iff] using b
  · intro p
    rw [hs, hs', run_append, run_append, processes_run L _ hL, processes_run L' _ hL', hp.mem_iff]
  · intro a c c' p t t' hc1 hc2 ht ht'
    rw [h1.templates _ _ hc1] at ht
    rw [h2.templates _ _ hc2] at ht'
    obtain ⟨e, he⟩ := ht
    obtain ⟨e', he'⟩ := ht'
    have hw := reachable_wf hbs.reachable
    have g1 := (h1.templates _ _ hc1 p t).mpr ⟨e, he⟩
    have g2 := (h1.templates _ _ hc1 p t').mpr ⟨e', hp.mem_iff.mpr he'⟩
    have hcw := hw.chan _ (hw.chLt _ hc1)
    have hk : ((s.w.chans c).templates.map (·.1)).Nodup := by rw [hcw.tkeys]; exact hcw.nodup
    have q1 := dictGet_of_mem hk g1
    have q2 := dictGet_of_mem hk g2
    rw [q1] at q2
    rw [Option.some.inj q2, h1.tmpls, h2.tmpls]

/-! ### a case -/

/-- the present yields of the two-channel program -/
def Ex.ν1 : String → ℝ := fun p => if p = "sig" then 10 else 20

theorem Ex.covered1 : ∀ a ∈ ({"a", "b"} : Finset String), (Ex.D1 a).Covered Ex.ν1 (fun _ _ => 0) := by
  intro a ha
  have ha : a = "a" ∨ a = "b" := by simpa using ha
  rcases ha with rfl | rfl
  · refine ⟨(Ex.regular1 "a" (by simp)).sums, ?_⟩
    rintro i -
    have hd : Ex.DA.procs = {"sig", "bkg"} := rfl
    show 0 < Ex.DA.expected Ex.ν1 (fun _ _ => 0) i
    unfold NamedChan.expected
    rw [hd, Finset.sum_pair (by decide)]
    revert i
    show ∀ i : Fin 2, 0 < 10 * (1 / 2) * ((![4, 6] : Fin 2 → ℝ) i * (1 + 0 * _) / ∑ i' : Fin 2, (![4, 6] : Fin 2 → ℝ) i' * (1 + 0 * _)) +
      20 * 1 * ((![5, 5] : Fin 2 → ℝ) i * (1 + 0 * _) / ∑ i' : Fin 2, (![5, 5] : Fin 2 → ℝ) i' * (1 + 0 * _))
    intro i
    fin_cases i <;> simp [Fin.sum_univ_two] <;> norm_num
  · refine ⟨(Ex.regular1 "b" (by simp)).sums, ?_⟩
    rintro i -
    have hd : Ex.DB.procs = {"bkg"} := rfl
    show 0 < Ex.DB.expected Ex.ν1 (fun _ _ => 0) i
    unfold NamedChan.expected
    rw [hd, Finset.sum_singleton]
    revert i
    show ∀ i : Fin 2, 0 < 20 * (1 / 4) * ((![5, 5] : Fin 2 → ℝ) i * (1 + 0 * _) / ∑ i' : Fin 2, (![5, 5] : Fin 2 → ℝ) i' * (1 + 0 * _))
    intro i
    fin_cases i <;> simp [Fin.sum_univ_two]

theorem Ex.names1 : Ex.sys1.m.paramNames Ex.sys1.w = ["sig_yield", "bkg_yield", "a_sig_bin_0", "a_sig_bin_1", "a_bkg_bin_0", "a_bkg_bin_1",
    "b_bkg_bin_0", "b_bkg_bin_1"] := by
  simp [Mct.paramNames, Ex.sys1, Ex.m1, World.channelNames, Ex.w1, Ex.chA, Ex.chB, Ex.w0, Ex.bt, Ex.bh, nuiName, List.range_succ]
  decide

theorem Ex.x01 : Ex.sys1.m.x0 Ex.sys1.w = .ok (namedVec Ex.sys1 Ex.D1 Ex.ν1 (fun _ _ _ => 0)) := by
  simp [Mct.x0, Mct.nuiParams, Mct.allTmpls, Mct.chanIds, World.chanTmpls, Mct.processYields, World.processYield, dictGet, Ex.sys1, Ex.m1, Ex.w1, Ex.chA, Ex.chB, Ex.w0, namedVec, Ex.ν1, Channel.procs, Ex.D1, Ex.DA, Ex.DB, Template.nuiParams, Template.yieldParam, Ex.bt, initParams, Ex.bh, Hist.setBinned, npSum, vec, List.ofFn_succ, Fl.zero_def, List.replicate]
  norm_num

/-- non-vacuity of C121: the two-channel program and its rearrangement (other positions of channels, processes, templates and so of
all parameters). The models are the same up to the order, the names are distinct, and the fits with fixed nuisance parameters and yields
(given by name) return with true minima, so that `C121_iminuit` says that the minima agree. -/
example (s s' : Sys) (hs : s = Sys.init.run (Ex.ops0 ++ Ex.ops1)) (hs' : s' = Sys.init.run (Ex.ops0 ++ Ex.ops1r)) :
    ReorderedModel s s' {"a", "b"} Ex.D1 (fun _ => 0) (fun _ => 1) ∧ s.m.paramNames s.w ≠ s'.m.paramNames s'.w ∧ TrueMin Ex.optMin ∧
    ∃ r r' v, ((fitRun "iminuit" [.fix (.str "sig_yield"), .fix (.str "bkg_yield")]).doFit Ex.optMin s.w s.m false true true none).1 = .ok r ∧
      ((fitRun "iminuit" [.fix (.str "sig_yield"), .fix (.str "bkg_yield")]).doFit Ex.optMin s'.w s'.m false true true none).1 = .ok r' ∧
      r.fval = .fin v ∧ r'.fval = .fin v := by
  have hR : ReorderedModel s s' {"a", "b"} Ex.D1 (fun _ => 0) (fun _ => 1) := by
    refine C121_programs Ex.ops0 Ex.ops1 Ex.ops1r ?_ (by rw [Ex.run0]) (by rw [Ex.run0]; exact Ex.ops1_accepted)
      (by rw [Ex.run0]; exact Ex.ops1r_accepted) Ex.ops1_perm Ex.ops1_once s s' hs hs' (by rw [hs, Ex.run1]; simp [Ex.sys1, Ex.m1])
      {"a", "b"} Ex.D1 (by rw [hs, Ex.run1]; exact Ex.named1) (fun a ha => (Ex.regular1 a ha).data) (fun _ => 0) (fun _ => 1)
      (by rw [hs, Ex.run1]; intro p hp; simp [Ex.sys1, Ex.m1] at hp) ?_
    · intro o ho
      simp only [Ex.ops0, List.mem_cons, List.not_mem_nil, or_false] at ho
      rcases ho with rfl | rfl | rfl | rfl | rfl | rfl <;> exact id
    · intro p hp
      rw [hs, Ex.run1] at hp
      left
      refine ⟨"a", by simp, ?_⟩
      simpa [Ex.D1, Ex.DA, Ex.sys1, Ex.m1] using hp
  have hss : s = Ex.sys1 := by rw [hs, Ex.run1]
  have hnames := Ex.names1
  rw [← hss] at hnames
  have hnd : (s.m.paramNames s.w).Nodup := by rw [hnames]; decide
  have hnd' := (names_perm hR).nodup_iff.mp hnd
  have hx : s.m.x0 s.w = .ok (namedVec s Ex.D1 Ex.ν1 fun _ _ _ => 0) := by rw [hss]; exact Ex.x01
  have hw := reachable_wf hR.built.reachable
  have hw' := reachable_wf hR.built'.reachable
  have hb : ByName [.fix (.str "sig_yield"), .fix (.str "bkg_yield")] := by
    constructor
    · intro pid hp
      simp only [List.mem_cons, List.not_mem_nil, or_false, FitOp.fix.injEq] at hp
      rcases hp with rfl | rfl
      · exact ⟨_, rfl⟩
      · exact ⟨_, rfl⟩
    · intro pid b hp; simp at hp
  have hk : KnownIds (s.m.paramNames s.w) [.fix (.str "sig_yield"), .fix (.str "bkg_yield")] := by
    constructor
    · intro pid hp
      simp only [List.mem_cons, List.not_mem_nil, or_false, FitOp.fix.injEq] at hp
      rcases hp with rfl | rfl
      · exact ⟨0, by rw [denotes_str hnd, hnames]; rfl⟩
      · exact ⟨1, by rw [denotes_str hnd, hnames]; rfl⟩
    · intro pid b hp; simp at hp
  have hk' := known_transport (names_perm hR) hnd hb hk
  have hfix : ∀ (t : Sys), (t.m.paramNames t.w).Nodup → (∀ k n, k < t.m.numProcesses → (t.m.paramNames t.w)[k]? = some n → n = "sig_yield" ∨ n = "bkg_yield") →
      t.m.numProcesses ≤ (t.m.paramNames t.w).length →
      ∀ k < (t.m.paramNames t.w).length, WantedFixed (t.m.paramNames t.w) [.fix (.str "sig_yield"), .fix (.str "bkg_yield")] t.m.numProcesses true k := by
    intro t htn hy _ k hk
    by_cases hkp : t.m.numProcesses ≤ k
    · exact .inr ⟨rfl, hkp⟩
    · left
      have e := List.getElem?_eq_getElem hk
      rcases hy k _ (by omega) e with h | h
      · exact ⟨.str "sig_yield", by simp, by rw [denotes_str htn, e, h]⟩
      · exact ⟨.str "bkg_yield", by simp, by rw [denotes_str htn, e, h]⟩
  have hyields : ∀ (t : Sys), t.Reachable → (∀ p ∈ t.m.processes, p = "sig" ∨ p = "bkg") → ∀ k n, k < t.m.numProcesses →
      (t.m.paramNames t.w)[k]? = some n → n = "sig_yield" ∨ n = "bkg_yield" := by
    intro t ht hp k n hkp hn
    have hkl : k < t.m.processes.length := hkp
    unfold Mct.paramNames at hn
    rw [List.getElem?_append_left (by simpa using hkl), List.getElem?_map, List.getElem?_eq_getElem hkl] at hn
    have := Option.some.inj hn
    rcases hp _ (List.getElem_mem hkl) with h | h
    · left; rw [← this, h]; decide
    · right; rw [← this, h]; decide
  have hps : ∀ p ∈ s.m.processes, p = "sig" ∨ p = "bkg" := by
    intro p hp; rw [hss] at hp; simpa [Ex.sys1, Ex.m1] using hp
  have hps' : ∀ p ∈ s'.m.processes, p = "sig" ∨ p = "bkg" := fun p hp => hps p ((hR.procs p).mpr hp)
  have hal := C51_aligned s hR.built.reachable
  have hal' := C51_aligned s' hR.built'.reachable
  have hf := hfix s hnd (hyields s hR.built.reachable hps) (by rw [hal.1]; omega)
  have hf' := hfix s' hnd' (hyields s' hR.built'.reachable hps') (by rw [hal'.1]; omega)
  obtain ⟨v, hv⟩ : ∃ v : ℝ, (s.m.nll s.w (namedVec s Ex.D1 Ex.ν1 fun _ _ _ => 0)).1 = .ok (.fin v) :=
    ⟨_, by_name_covered s hR.built hR.ne _ Ex.D1 hR.named hR.data _ _ hR.cons Ex.ν1 (fun _ _ _ => 0) Ex.covered1⟩
  have hx' := slots_now hw' hR.symm.ne hR.named'
  have hxl := x0_length s hR.built.reachable hx
  have hxl' := x0_length s' hR.built'.reachable hx'
  have hv' : (s'.m.nll s'.w ((slots s' Ex.D1).map (Slot.now s'))).1 = .ok (.fin v) := by
    obtain ⟨ν, θ, -, h2, h3⟩ := point_transport hR hnd _ hb true none _ _ hx hx' _ v
      ⟨hxl, fun k hk => ⟨fun _ => rfl, fun h => absurd (hf k hk) h⟩⟩ hv
    have : namedVec s' Ex.D1 ν θ = (slots s' Ex.D1).map (Slot.now s') := by
      apply List.ext_getElem?
      intro k
      by_cases hk : k < (s'.m.paramNames s'.w).length
      · exact (h2.2 k hk).1 (hf' k hk)
      · rw [List.getElem?_eq_none (by rw [h2.1]; omega), List.getElem?_eq_none (by rw [hxl']; omega)]
    rw [← this]; exact h3
  have fit : ∀ (t : Sys) (_ : t.Reachable) (x : Vec) (_ : t.m.x0 t.w = .ok x) (_ : (t.m.nll t.w x).1 = .ok (.fin v))
      (_ : KnownIds (t.m.paramNames t.w) [.fix (.str "sig_yield"), .fix (.str "bkg_yield")]) (_ : ∀ k < (t.m.paramNames t.w).length,
        WantedFixed (t.m.paramNames t.w) [.fix (.str "sig_yield"), .fix (.str "bkg_yield")] t.m.numProcesses true k),
      ∃ r, ((fitRun "iminuit" [.fix (.str "sig_yield"), .fix (.str "bkg_yield")]).doFit Ex.optMin t.w t.m false true true none).1 = .ok r ∧
        r.fval = .fin v := by
    intro t ht x hx hv hk hf
    have hl := x0_length t ht hx
    obtain ⟨r, h1, h2, -⟩ := fit_optMin t ht _ hk x hx true (.fin v) x (by
      intro c c1 c2 c3 c4 c5
      rw [← c2]
      refine isMin_fixed rfl (by rw [c2, c3, hl]) ?_ (by rw [c1, c2]; exact hv)
      intro k hk
      rw [c3] at hk
      rw [c4, List.getElem?_map, List.getElem?_range hk, Option.map_some, Option.some.injEq, decide_eq_true_eq]
      exact hf k hk)
    exact ⟨r, h1, h2⟩
  obtain ⟨r, h1, h2⟩ := fit s hR.built.reachable _ hx hv hk hf
  obtain ⟨r', h1', h2'⟩ := fit s' hR.built'.reachable _ hx' hv' hk' hf'
  refine ⟨hR, ?_, Ex.optMin_true, r, r', v, h1, h1', h2, h2'⟩
  rw [hnames]
  intro e
  have hp' : s'.m.processes = ["bkg", "sig"] := by
    rw [hs', run_append, Ex.run0]
    simp [Ex.ops1r, Sys.run, Sys.step, Mct.defineChannel, Mct.defineProcess, Mct.empty]
    split_ifs <;> rfl
  have : (s'.m.paramNames s'.w)[0]? = some "bkg_yield" := by
    unfold Mct.paramNames
    rw [hp']; rfl
  rw [← e] at this
  simp at this

end

end TF.Props
