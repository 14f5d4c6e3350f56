import Verif.Props.MctProps12

set_option linter.unusedSimpArgs false

/-!
# The likelihood does not depend on the order of channels, templates and processes (C98)
-/

namespace TF.Spec

open Classical

noncomputable section

/-- what one channel consists of, by process name: `n` bins, nominal contents, relative errors, efficiencies,
correlation matrices, and the data -/
structure NamedChan where
  n : ℕ
  procs : Finset String
  cnt : String → Fin n → ℝ
  ε : String → Fin n → ℝ
  eff : String → ℝ
  R : String → Matrix (Fin n) (Fin n) ℝ
  d : Fin n → ℝ

/-- channel `c` has the templates and the data listed in `D`, in any order -/
structure NamedChanIs (w : World) (c : ℕ) (D : NamedChan) : Prop where
  bins : 0 < D.n
  procsNe : D.procs.Nonempty
  procs : ∀ p, p ∈ D.procs ↔ p ∈ (w.chans c).procs
  effs : ∀ p e, (p, e) ∈ (w.chans c).effs → e = .fin (D.eff p)
  tmpls : ∀ p t, (p, t) ∈ (w.chans c).templates → HasShape (w.tmpls t) (D.cnt p) (D.ε p) ∧ (D.R p).PosDef ∧
    IsReal (w.tmpls t).corr (D.R p) ∧ IsReal (w.tmpls t).invCorr (D.R p)⁻¹
  data : ∃ hid, (w.chans c).hdata = some hid ∧ (w.hists hid).counts.data = vec D.d

/-- the channels of the model are those named in `A`, with contents `D`, in any order -/
structure NamedModel (s : Sys) (A : Finset String) (D : String → NamedChan) : Prop where
  names : ∀ a, a ∈ A ↔ a ∈ s.m.channels.map (·.1)
  chan : ∀ a c, (a, c) ∈ s.m.channels → NamedChanIs s.w c (D a)

/-- the parameter vector of the model `s` for named parameters: the yields `ν` in the order of the processes, then
for the channels in their order, for the templates in their order, the nuisance parameters of the bins -/
def namedVec (s : Sys) (D : String → NamedChan) (ν : String → ℝ) (θ : ∀ a, String → Fin (D a).n → ℝ) : Vec :=
  s.m.processes.map (fun p => Fl.fin (ν p)) ++
    s.m.channels.flatMap fun ac => (s.w.chans ac.2).procs.flatMap fun p => vec (θ ac.1 p)

/-- expected events of a channel in bin `i` -/
def NamedChan.expected (D : NamedChan) (ν : String → ℝ) (θ : String → Fin D.n → ℝ) (i : Fin D.n) : ℝ :=
  ∑ p ∈ D.procs, ν p * D.eff p *
    (D.cnt p i * (1 + θ p i * D.ε p i) / ∑ i', D.cnt p i' * (1 + θ p i' * D.ε p i'))

/-- the channel's part of the likelihood -/
def NamedChan.nll (D : NamedChan) (ν : String → ℝ) (θ : String → Fin D.n → ℝ) : ℝ :=
  (∑ i, if D.d i = 0 then D.expected ν θ i
    else D.expected ν θ i - D.d i - D.d i * Real.log (D.expected ν θ i / D.d i)) +
  1 / 2 * ∑ p ∈ D.procs, (θ p) ⬝ᵥ ((D.R p)⁻¹.mulVec (θ p))

/-- the data are numbers of events, no template's contents sum to zero, and every bin with data has a positive
expectation -/
structure NamedChan.Regular (D : NamedChan) (ν : String → ℝ) (θ : String → Fin D.n → ℝ) : Prop where
  data : ∀ i, D.d i = 0 ∨ (1e-100 : ℝ) ≤ D.d i
  sums : ∀ p ∈ D.procs, ∑ i, D.cnt p i * (1 + θ p i * D.ε p i) ≠ 0
  pos : ∀ i, 0 < D.expected ν θ i ∨ (D.d i = 0 ∧ D.expected ν θ i = 0)

end

end TF.Spec

namespace TF.Props

open Classical Spec

noncomputable section

/-- name of channel number `k` -/
def chanName (s : Sys) (k : ℕ) : String := (s.m.channels.map (·.1)).getD k ""

/-- the description of channel number `k` in order -/
def orderedSpec (s : Sys) (D : String → NamedChan) (k : ℕ) : ChanSpec :=
  ⟨(s.w.chans (s.m.chanIds.getD k 0)).procs.length, (D (chanName s k)).n,
    fun j => (D (chanName s k)).cnt (procName s k j), fun j => (D (chanName s k)).ε (procName s k j),
    fun j => (D (chanName s k)).eff (procName s k j), fun j => (D (chanName s k)).R (procName s k j)⟩

theorem getD_eq {α : Type} {l : List α} {k : ℕ} (h : k < l.length) (d : α) : l.getD k d = l[k] := by
  simp [List.getD_eq_getElem?_getD, h]

theorem chan_at {s : Sys} {k : ℕ} (hk : k < s.m.chanIds.length) :
    (chanName s k, s.m.chanIds.getD k 0) ∈ s.m.channels := by
  have h1 : k < s.m.channels.length := by simpa [Mct.chanIds] using hk
  unfold chanName
  rw [getD_eq (by simpa using h1), getD_eq hk]
  simp [Mct.chanIds]

theorem sum_procs {L : List String} (hn : L.Nodup) {P : Finset String} (hP : ∀ p, p ∈ P ↔ p ∈ L) (f : String → ℝ) :
    ∑ j : Fin L.length, f (L.getD j "") = ∑ p ∈ P, f p := by
  have e : P = L.toFinset := by ext p; simp [hP]
  rw [e, List.sum_toFinset f hn, ← List.sum_ofFn]
  congr 1
  apply List.ext_getElem
  · simp
  · intro i h1 h2
    simp [getD_eq]

theorem chanIs_named {w : World} {c : ℕ} (hlt : c < w.nChans) (hcw : ChanWF w (w.chans c)) {D : NamedChan}
    (hN : NamedChanIs w c D) :
    ChanIs w c (K := (w.chans c).procs.length) (fun j => D.cnt ((w.chans c).procs.getD j ""))
      (fun j => D.ε ((w.chans c).procs.getD j "")) (fun j => D.eff ((w.chans c).procs.getD j ""))
      (fun j => D.R ((w.chans c).procs.getD j "")) := by
  have htl : (w.chans c).templates.length = (w.chans c).procs.length := by simp [Channel.procs]
  have hpe : (w.chans c).effs.map (·.1) = (w.chans c).procs := by rw [hcw.ekeys, ← hcw.tkeys]; rfl
  have hel : (w.chans c).effs.length = (w.chans c).procs.length := by rw [← hpe]; simp
  refine ⟨hlt, ?_, ?_, ?_⟩
  · unfold Channel.numTemplates
    rw [← hcw.tkeys]; rfl
  · unfold vec
    apply List.ext_getElem
    · simp [hel]
    · intro i h1 h2
      have hi : i < (w.chans c).effs.length := by simpa using h1
      have hk : (w.chans c).procs[i]'(hel ▸ hi) = ((w.chans c).effs[i]).1 := by
        simp [← hpe]
      simp only [List.getElem_map, List.getElem_ofFn]
      rw [getD_eq (hel ▸ hi), hk]
      exact hN.effs _ _ (by simp)
  · refine ⟨fun j => w.tmpls ((w.chans c).templates[(j : ℕ)]'(by rw [htl]; exact j.2)).2, ?_, ?_⟩
    · unfold World.chanTmpls
      apply List.ext_getElem
      · simp [htl]
      · intro i h1 h2; simp
    · intro j
      have hj : (j : ℕ) < (w.chans c).templates.length := by rw [htl]; exact j.2
      have hk : (w.chans c).procs.getD j "" = ((w.chans c).templates[(j : ℕ)]).1 := by
        rw [getD_eq j.2]; simp [Channel.procs]
      obtain ⟨h1, -, h2, h3⟩ := hN.tmpls _ _ (List.getElem_mem hj)
      simp only [hk]
      exact ⟨h1, h2, h3⟩

theorem ordered_model {s : Sys} (hw : SysWF s) {A : Finset String} {D : String → NamedChan} (hm : NamedModel s A D) :
    ModelIs s (orderedSpec s D) := by
  intro k hk
  have hmem := chan_at hk
  have hN := hm.chan _ _ hmem
  have hid : s.m.chanIds.getD k 0 = s.m.chanIds[k] := getD_eq hk 0
  have hlt := hw.lt _ (List.getElem_mem hk)
  rw [← hid] at hlt ⊢
  have hcw := hw.chan _ hlt
  refine ⟨?_, hN.bins, ?_, chanIs_named hlt hcw hN⟩
  · obtain ⟨p, hp⟩ := hN.procsNe
    exact List.length_pos_of_mem ((hN.procs p).mp hp)
  · intro j
    have hj : (j : ℕ) < (s.w.chans (s.m.chanIds.getD k 0)).templates.length := by
      have := j.2
      simpa [orderedSpec, Channel.procs] using this
    have hk2 : procName s k j = ((s.w.chans (s.m.chanIds.getD k 0)).templates[(j : ℕ)]).1 := by
      unfold procName
      rw [getD_eq (by simpa using hj)]; simp
    show ((D (chanName s k)).R (procName s k j)).PosDef
    rw [hk2]
    exact (hN.tmpls _ _ (List.getElem_mem hj)).2.1

theorem ordered_data {s : Sys} {A : Finset String} {D : String → NamedChan} (hm : NamedModel s A D) :
    DataIs s (orderedSpec s D) (fun k => (D (chanName s k)).d) := by
  intro k hk
  have hN := hm.chan _ _ (chan_at hk)
  rw [getD_eq hk] at hN
  exact hN.data

/-- named nuisance parameters in the order of the channel -/
def orderedNui (s : Sys) (D : String → NamedChan) (θ : ∀ a, String → Fin (D a).n → ℝ) :
    ∀ k, Fin (orderedSpec s D k).K → Fin (orderedSpec s D k).n → ℝ :=
  fun k j => θ (chanName s k) (procName s k j)

theorem flatMap_eq {α β : Type} (L : List α) (f : α → List β) (d : α) :
    L.flatMap f = (List.ofFn fun j : Fin L.length => f (L.getD j d)).flatten := by
  rw [List.flatMap]
  congr 1
  apply List.ext_getElem
  · simp
  · intro i h1 h2
    simp only [List.getElem_map, List.getElem_ofFn]
    rw [getD_eq (by simpa using h1)]

theorem ordered_vec (s : Sys) (D : String → NamedChan) (ν : String → ℝ) (θ : ∀ a, String → Fin (D a).n → ℝ) :
    paramVec s (orderedSpec s D) ν (orderedNui s D θ) = namedVec s D ν θ := by
  have aux : ∀ k, nuiVec (orderedNui s D θ k) =
      (s.w.chans (s.m.chanIds.getD k 0)).procs.flatMap fun p => vec (θ (chanName s k) p) := by
    intro k
    rw [flatMap_eq _ _ ""]
    rfl
  unfold paramVec namedVec
  simp only [aux]
  congr 1
  rw [List.flatMap]
  congr 1
  apply List.ext_getElem
  · simp [Mct.chanIds]
  · intro k h1 h2
    have hk : k < s.m.channels.length := by simpa using h2
    have hc : s.m.chanIds.getD k 0 = (s.m.channels[k]).2 := by
      rw [getD_eq (by simpa [Mct.chanIds] using hk)]; simp [Mct.chanIds]
    have hn : chanName s k = (s.m.channels[k]).1 := by
      unfold chanName; rw [getD_eq (by simpa using hk)]; simp
    have hr : (List.range s.m.chanIds.length)[k]'(by simpa using h1) = k := by simp
    simp only [List.getElem_map]
    rw [hr, hc, hn]

theorem ordered_expected {s : Sys} (hw : SysWF s) {A : Finset String} {D : String → NamedChan} (hm : NamedModel s A D)
    (ν : String → ℝ) (θ : ∀ a, String → Fin (D a).n → ℝ) {k : ℕ} (hk : k < s.m.chanIds.length)
    (i : Fin (D (chanName s k)).n) :
    expectedIn s (orderedSpec s D) ν (orderedNui s D θ) k i = (D (chanName s k)).expected ν (θ (chanName s k)) i := by
  have hN := hm.chan _ _ (chan_at hk)
  have hcw := hw.chan _ (hw.chLt _ (chan_at hk))
  have hnd : (s.w.chans (s.m.chanIds.getD k 0)).procs.Nodup := by
    have := hcw.nodup; rw [← hcw.tkeys] at this; exact this
  unfold expectedIn expected NamedChan.expected
  exact sum_procs hnd hN.procs (fun p => ν p * (D (chanName s k)).eff p *
    ((D (chanName s k)).cnt p i * (1 + θ (chanName s k) p i * (D (chanName s k)).ε p i) /
      ∑ i', (D (chanName s k)).cnt p i' * (1 + θ (chanName s k) p i' * (D (chanName s k)).ε p i')))

/-- **C98, the likelihood by name.** For every model built channel by channel before evaluation (`Built`), with channels and templates
in any order, the likelihood at named parameters is the sum over the channel names of the channel's Poisson terms and
penalties, in which only sums over process names occur, plus the constraint terms. -/
theorem C98_by_name (s : Sys) (h : s.Built) (hne : s.m.channels ≠ []) (A : Finset String) (D : String → NamedChan)
    (hm : NamedModel s A D) (V E : String → ℝ) (hc : ConstraintsAre s V E) (ν : String → ℝ)
    (θ : ∀ a, String → Fin (D a).n → ℝ) (hreg : ∀ a ∈ A, (D a).Regular ν (θ a)) :
    (s.m.nll s.w (namedVec s D ν θ)).1 = .ok (.fin (∑ a ∈ A, (D a).nll ν (θ a) +
      (s.m.constrained.map fun p => (ν p - V p) ^ 2 / (2 * E p ^ 2)).sum)) := by
  have hw := reachable_wf h.reachable
  have hA : ∀ k < s.m.chanIds.length, chanName s k ∈ A := by
    intro k hk
    rw [hm.names]
    exact List.mem_map.mpr ⟨_, chan_at hk, rfl⟩
  have hlen : s.m.chanIds.length = s.m.channels.length := by simp [Mct.chanIds]
  obtain ⟨v, hv, -, he⟩ := C54_closed s h hne (orderedSpec s D) (ordered_model hw hm) _ (ordered_data hm)
    (fun k hk i => (hreg _ (hA k hk)).data i) V E hc ν (orderedNui s D θ)
    (by
      intro k hk j
      have hN := hm.chan _ _ (chan_at hk)
      refine (hreg _ (hA k hk)).sums (procName s k j) ?_
      rw [hN.procs]
      have hj : (j : ℕ) < (s.w.chans (s.m.chanIds.getD k 0)).procs.length := j.2
      have : procName s k j = (s.w.chans (s.m.chanIds.getD k 0)).procs[(j : ℕ)] := getD_eq hj ""
      rw [this]
      exact List.getElem_mem hj)
    (by
      intro k hk i
      rw [ordered_expected hw hm ν θ hk i]
      exact (hreg _ (hA k hk)).pos i)
  rw [← ordered_vec, hv, he]
  congr 3
  have hterm : ∀ k ∈ Finset.range s.m.channels.length,
      ((∑ i, if (D (chanName s k)).d i = 0 then expectedIn s (orderedSpec s D) ν (orderedNui s D θ) k i
            else expectedIn s (orderedSpec s D) ν (orderedNui s D θ) k i - (D (chanName s k)).d i -
              (D (chanName s k)).d i * Real.log (expectedIn s (orderedSpec s D) ν (orderedNui s D θ) k i / (D (chanName s k)).d i)) +
            1 / 2 * ∑ j, (orderedNui s D θ k j) ⬝ᵥ (((orderedSpec s D k).R j)⁻¹.mulVec (orderedNui s D θ k j))) =
      (fun a => (D a).nll ν (θ a)) ((s.m.channels.map (·.1)).getD k "") := by
    intro k hk
    have hk : k < s.m.chanIds.length := by rw [hlen]; exact Finset.mem_range.mp hk
    have hN := hm.chan _ _ (chan_at hk)
    have hcw := hw.chan _ (hw.chLt _ (chan_at hk))
    have hnd : (s.w.chans (s.m.chanIds.getD k 0)).procs.Nodup := by
      have := hcw.nodup; rw [← hcw.tkeys] at this; exact this
    show _ = (D (chanName s k)).nll ν (θ (chanName s k))
    unfold NamedChan.nll
    congr 1
    · apply Finset.sum_congr rfl
      intro i _
      rw [ordered_expected hw hm ν θ hk i]
    · congr 1
      exact sum_procs hnd hN.procs (fun p => θ (chanName s k) p ⬝ᵥ (((D (chanName s k)).R p)⁻¹.mulVec (θ (chanName s k) p)))
  refine (Finset.sum_congr rfl hterm).trans ?_
  rw [← Fin.sum_univ_eq_sum_range (fun k => (fun a => (D a).nll ν (θ a)) ((s.m.channels.map (·.1)).getD k ""))]
  have := sum_procs hw.chNames hm.names (fun a => (D a).nll ν (θ a))
  rw [← this]
  exact (Fin.sum_congr' _ (by simp)).symm

/-- **C98.** Two models with the same channels, templates, data and constraints, added in any order, have the same
likelihood at the same named parameters. -/
theorem C98_order (s s' : Sys) (h : s.Built) (h' : s'.Built) (hne : s.m.channels ≠ [])
    (A : Finset String) (D : String → NamedChan) (hm : NamedModel s A D) (hm' : NamedModel s' A D)
    (V E : String → ℝ) (hc : ConstraintsAre s V E) (hc' : ConstraintsAre s' V E)
    (hcon : s.m.constrained.Perm s'.m.constrained) (ν : String → ℝ)
    (θ : ∀ a, String → Fin (D a).n → ℝ) (hreg : ∀ a ∈ A, (D a).Regular ν (θ a)) :
    (s.m.nll s.w (namedVec s D ν θ)).1 = (s'.m.nll s'.w (namedVec s' D ν θ)).1 ∧
      ∃ v : ℝ, (s.m.nll s.w (namedVec s D ν θ)).1 = .ok (.fin v) := by
  have hne' : s'.m.channels ≠ [] := by
    intro e
    obtain ⟨x, hx⟩ := List.exists_mem_of_ne_nil _ hne
    have h1 : x.1 ∈ A := (hm.names _).mpr (List.mem_map.mpr ⟨x, hx, rfl⟩)
    have h2 := (hm'.names _).mp h1
    rw [e] at h2; simp at h2
  have e1 := C98_by_name s h hne A D hm V E hc ν θ hreg
  have e2 := C98_by_name s' h' hne' A D hm' V E hc' ν θ hreg
  refine ⟨?_, _, e1⟩
  rw [e1, e2, (hcon.map _).sum_eq]

end

end TF.Props
