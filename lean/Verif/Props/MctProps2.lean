import Verif.Props.MctProps

set_option linter.unusedSimpArgs false

/-!
# Properties of `MultiChannelTemplate`: the parameter vector (C41, C47, C48)
-/

namespace TF

open Classical

/-- a program state produced by a history in which the templates and systematic uncertainties of each channel
were added before its first evaluation -/
def Sys.Built (s : Sys) : Prop := ∃ ops, SetupFirst ops ∧ Sys.init.run ops = s

theorem Sys.Built.reachable {s : Sys} (h : s.Built) : s.Reachable := by
  obtain ⟨ops, -, e⟩ := h; exact ⟨ops, e⟩

theorem Sys.Built.coherent {s : Sys} (h : s.Built) : Coherent s.w := by
  obtain ⟨ops, h, rfl⟩ := h; exact run_coherent ops h

theorem SysWF.lt {s : Sys} (h : SysWF s) : ∀ c ∈ s.m.chanIds, c < s.w.nChans := by
  intro c hc
  obtain ⟨p, hp, rfl⟩ := List.mem_map.mp hc
  exact h.chLt p hp

theorem SysWF.subset {s : Sys} (h : SysWF s) : ∀ c ∈ s.m.chanIds, ∀ p ∈ (s.w.chans c).procs, p ∈ s.m.processes := by
  intro c hc p hp
  have hl := h.lt c hc
  exact h.sub c hl p (by rw [← (h.chan c hl).tkeys]; exact hp)

/-- a history without evaluations -/
theorem setupFirst_of_noEval {ops : List Op} (h : ∀ o ∈ ops, ¬ o.evaluates) : SetupFirst ops := by
  refine setupFirst_of_before ?_
  rintro pre o post rfl _ e he
  exact h e (by simp [he])

end TF

namespace TF.Spec

/-- no template object is registered twice (in two channels or under two processes) -/
def Unshared (s : Sys) : Prop :=
  (s.m.chanIds.map fun c => (s.w.chans c).templates.map (·.2)).flatten.Nodup

/-- every channel has at least one template -/
def Complete (s : Sys) : Prop := ∀ c ∈ s.m.chanIds, (s.w.chans c).templates ≠ []

/-- position of the nuisance block of template `j` of channel `k` in the parameter vector -/
def nuiOffset (s : Sys) (k j : ℕ) : ℕ :=
  s.m.processes.length + ((s.m.chanIds.take k).map fun c => (s.w.chans c).numTemplates * (s.w.chans c).bins.prod).sum +
    j * (s.w.chans (s.m.chanIds.getD k 0)).bins.prod

end TF.Spec

namespace TF.Props

open Classical Spec

noncomputable section

/-! ## C47 -/

/-- **C47.** For every model that was built channel by channel before evaluation (`Built`) and has a channel, and every
parameter vector of length `num_processes + num_nui_params`: channel number `k` receives the yields of
exactly its processes in its own order and the nuisance block that starts after the blocks of the previous
channels; the blocks joined together are the whole nuisance part. -/
theorem C47_partition (s : Sys) (h : s.Built) (hne : s.m.channels ≠ []) (x : Vec)
    (hx : x.length = s.m.numProcesses + s.m.numNui s.w) :
    ∃ ys ns : List Vec, (s.m.perChannel s.w x).1 = .ok (ys, ns) ∧
      ys.length = s.m.channels.length ∧ ns.length = s.m.channels.length ∧
      (∀ k, (hk : k < s.m.chanIds.length) →
        ys[k]? = some ((s.w.chans s.m.chanIds[k]).procs.map fun p => x.getD (s.m.processes.idxOf p) 0) ∧
        ns[k]? = some ((x.drop (nuiOffset s k 0)).take (s.w.chans s.m.chanIds[k]).numNui) ∧
        ∀ b, ns[k]? = some b → b.length = (s.w.chans s.m.chanIds[k]).numNui) ∧
      ns.flatten = x.drop s.m.numProcesses := by
  have hw := reachable_wf h.reachable
  have hl : (x.drop s.m.numProcesses).length = (nuiSizes s.w s.m).sum := by
    rw [List.length_drop, hx]; simp [nuiSizes, Mct.numNui]
  have hlen : s.m.chanIds.length = s.m.channels.length := by simp [Mct.chanIds]
  refine ⟨s.m.chanIds.map (chanYields s.w s.m x), _, ?_, ?_, ?_, ?_, blocks_flatten _ _ hl⟩
  · rw [(perChannel_coh h.coherent s.m hw.lt x).1]
    exact perChannelPure_eq s.w s.m x hne hw.subset hx
  · simp [Mct.chanIds]
  · rw [blocks_length]; simp [nuiSizes, Mct.chanIds]
  · intro k hk
    have hk' : k < (nuiSizes s.w s.m).length := by simpa [nuiSizes] using hk
    have e2 : (blocks (nuiSizes s.w s.m) (x.drop s.m.numProcesses))[k]? =
        some ((x.drop (nuiOffset s k 0)).take (s.w.chans s.m.chanIds[k]).numNui) := by
      rw [List.getElem?_eq_getElem (by rw [blocks_length]; exact hk'), blocks_get _ _ _ hk', List.drop_drop]
      simp [nuiSizes, nuiOffset, Mct.numProcesses, List.map_take, Channel.numNui, Channel.numBins]
    refine ⟨by simp [List.getElem?_eq_getElem hk, chanYields], e2, ?_⟩
    intro b hb
    rw [e2] at hb
    have hb := Option.some.inj hb
    rw [← hb, List.length_take, List.length_drop, hx]
    have hsum : ((nuiSizes s.w s.m).take k).sum + (nuiSizes s.w s.m)[k] ≤ (nuiSizes s.w s.m).sum := by
      have h1 : (nuiSizes s.w s.m) = (nuiSizes s.w s.m).take k ++ (nuiSizes s.w s.m)[k] :: (nuiSizes s.w s.m).drop (k+1) := by
        rw [← List.drop_eq_getElem_cons hk', List.take_append_drop]
      have h2 := congrArg List.sum h1
      rw [List.sum_append, List.sum_cons] at h2
      omega
    have e3 : nuiOffset s k 0 = s.m.numProcesses + ((nuiSizes s.w s.m).take k).sum := by
      simp [nuiSizes, nuiOffset, Mct.numProcesses, List.map_take, Channel.numNui, Channel.numBins]
    have e4 : (nuiSizes s.w s.m)[k] = (s.w.chans s.m.chanIds[k]).numNui := by simp [nuiSizes]
    have e5 : s.m.numNui s.w = (nuiSizes s.w s.m).sum := by simp [nuiSizes, Mct.numNui]
    rw [e3, e5]
    omega

theorem Ex.sys1_built : Ex.sys1.Built := by
  refine ⟨_, setupFirst_of_noEval ?_, Ex.run1⟩
  intro o ho
  simp only [Ex.ops0, Ex.ops1, List.cons_append, List.nil_append, List.mem_cons, List.not_mem_nil, or_false] at ho
  rcases ho with rfl | rfl | rfl | rfl | rfl | rfl | rfl | rfl | rfl | rfl | rfl | rfl | rfl | rfl <;> exact id

/-- a parameter vector of the example: yields 10, 20; nuisance parameters 1, …, 6 -/
def Ex.x1 : Vec := [.fin 10, .fin 20, .fin 1, .fin 2, .fin 3, .fin 4, .fin 5, .fin 6]

/-- non-vacuity: channel `b` of the example gets the second yield and the last two nuisance parameters -/
example : ∃ ys ns : List Vec, (Ex.sys1.m.perChannel Ex.sys1.w Ex.x1).1 = .ok (ys, ns) ∧
    ys[1]? = some [.fin 20] ∧ ns[1]? = some [.fin 5, .fin 6] := by
  obtain ⟨ys, ns, h1, -, -, h2, -⟩ := C47_partition Ex.sys1 Ex.sys1_built (by simp [Ex.sys1, Ex.m1]) Ex.x1
    (by simp [Ex.x1, Ex.sys1, Ex.m1, Mct.numProcesses, Mct.numNui, Mct.chanIds, Ex.w1, Ex.chA, Ex.chB,
      Channel.numNui, Channel.numTemplates, Channel.numBins])
  refine ⟨ys, ns, h1, ?_, ?_⟩
  · rw [(h2 1 (by simp [Ex.sys1, Ex.m1, Mct.chanIds])).1]
    simp [Ex.sys1, Ex.m1, Mct.chanIds, Ex.w1, Ex.chB, Channel.procs, Ex.x1, List.idxOf_cons]
  · rw [(h2 1 (by simp [Ex.sys1, Ex.m1, Mct.chanIds])).2.1]
    simp [Ex.sys1, Ex.m1, Mct.chanIds, Ex.w1, Ex.chA, Ex.chB, Channel.numNui, Ex.x1, nuiOffset, Channel.numTemplates,
      Channel.numBins]

/-! ## C48 -/

theorem chanReady {s : Sys} (hw : SysWF s) (hc : Complete s) {c : ℕ} (hm : c ∈ s.m.chanIds) (ys nui : Vec)
    (hy : ys.length = (s.w.chans c).templates.length) (hn : nui.length = (s.w.chans c).numNui) :
    ChanReady s.w c ys nui := by
  have hl := hw.lt c hm
  have hcw := hw.chan c hl
  have e1 : (s.w.chans c).templates.length = (s.w.chans c).numTemplates := by
    rw [← List.length_map (·.1), hcw.tkeys]; rfl
  refine ⟨?_, e1, ?_, hy.trans e1, hn, ?_⟩
  · rw [← e1]; exact List.length_pos_of_ne_nil (hc c hm)
  · rw [← List.length_map (·.1), hcw.ekeys, ← hcw.tkeys, List.length_map]
  · intro t ht
    obtain ⟨h1, h2, -⟩ := hcw.tmpl t ht
    rw [(hw.tmpl _ h1).num, h2]; rfl

theorem CacheOnly.chanTmpls' {a b : World} (h : CacheOnly a b) (c : ℕ) : b.chanTmpls c = a.chanTmpls c := by
  unfold World.chanTmpls; rw [h.chans, h.tmpls]

/-- `update_parameters` as a list of assignments -/
theorem updateParameters_eq (s : Sys) (h : s.Built) (hne : s.m.channels ≠ []) (hc : Complete s) (x : Vec)
    (hx : x.length = s.m.numProcesses + s.m.numNui s.w) :
    ∃ w1, CacheOnly s.w w1 ∧ s.m.updateParameters s.w x =
      (.ok (), w1.assign (asgAll s.w s.m.chanIds (s.m.chanIds.map (chanYields s.w s.m x))
        (blocks (nuiSizes s.w s.m) (x.drop s.m.numProcesses)))) ∧
      (asgAll s.w s.m.chanIds (s.m.chanIds.map (chanYields s.w s.m x))
        (blocks (nuiSizes s.w s.m) (x.drop s.m.numProcesses))).map (·.1) =
          (s.m.chanIds.map fun c => (s.w.chans c).templates.map (·.2)).flatten := by
  have hw := reachable_wf h.reachable
  have hp := (perChannel_coh h.coherent s.m hw.lt x).1
  rw [perChannelPure_eq s.w s.m x hne hw.subset hx] at hp
  have hf := perChannel_frame s.w s.m x
  have hl : (x.drop s.m.numProcesses).length = (nuiSizes s.w s.m).sum := by
    rw [List.length_drop, hx]; simp [nuiSizes, Mct.numNui]
  have hready : ∀ (k : ℕ) (h1 : k < s.m.chanIds.length) (h2 : k < (s.m.chanIds.map (chanYields s.w s.m x)).length)
      (h3 : k < (blocks (nuiSizes s.w s.m) (x.drop s.m.numProcesses)).length),
      ChanReady s.w s.m.chanIds[k] (s.m.chanIds.map (chanYields s.w s.m x))[k]
        (blocks (nuiSizes s.w s.m) (x.drop s.m.numProcesses))[k] := by
    intro k h1 h2 h3
    obtain ⟨ys, ns, e1, -, -, e2, -⟩ := C47_partition s h hne x hx
    rw [(perChannel_coh h.coherent s.m hw.lt x).1, perChannelPure_eq s.w s.m x hne hw.subset hx] at e1
    simp only [Except.ok.injEq, Prod.mk.injEq] at e1
    apply chanReady hw hc (List.getElem_mem h1)
    · simp [chanYields, Channel.procs]
    · have := (e2 k h1).2.2
      rw [← e1.2] at this
      exact this _ (List.getElem?_eq_getElem h3)
  refine ⟨(s.m.perChannel s.w x).2, hf, ?_, ?_⟩
  · unfold Mct.updateParameters
    generalize s.m.perChannel s.w x = r at hp hf ⊢
    obtain ⟨r1, w1⟩ := r
    simp only at hp hf
    subst hp
    simp only
    have hready' : ∀ (k : ℕ) (h1 : k < s.m.chanIds.length) (h2 : k < (s.m.chanIds.map (chanYields s.w s.m x)).length)
      (h3 : k < (blocks (nuiSizes s.w s.m) (x.drop s.m.numProcesses)).length),
      ChanReady w1 s.m.chanIds[k] (s.m.chanIds.map (chanYields s.w s.m x))[k]
        (blocks (nuiSizes s.w s.m) (x.drop s.m.numProcesses))[k] := by
      intro k h1 h2 h3
      have := hready k h1 h2 h3
      unfold ChanReady at this ⊢
      rw [hf.chans, hf.tmpls]; exact this
    rw [updateChannels_eq _ _ _ _ (by simp) (by rw [blocks_length]; simp [nuiSizes]) hready']
    congr 2
    have : ∀ (cs : List ℕ) (ys ns : List Vec), asgAll w1 cs ys ns = asgAll s.w cs ys ns := by
      intro cs
      induction cs with
      | nil => intro ys ns; cases ys <;> cases ns <;> rfl
      | cons c cs ih =>
        intro ys ns
        cases ys with
        | nil => rfl
        | cons y ys => cases ns with
          | nil => rfl
          | cons n ns => simp only [asgAll, asgChan, ih, hf.chans]
    exact this _ _ _
  · exact asgAll_ids _ _ _ _ (by simp) (by rw [blocks_length]; simp [nuiSizes]) hready

/-- **C48.** For every model that was built channel by channel before evaluation (`Built`), whose channels all have templates
and share no template object, and every `x` of the right length: `update_parameters(x)` succeeds; template
`j` of channel `k` then has yield `x[process] * efficiency` and as nuisance parameters its block of `x`;
`nui_params` returns the nuisance part of `x`; nothing but parameters of the model's templates changes. -/
theorem C48_update (s : Sys) (h : s.Built) (hne : s.m.channels ≠ []) (hc : Complete s) (hu : Unshared s) (x : Vec)
    (hx : x.length = s.m.numProcesses + s.m.numNui s.w) :
    (s.m.updateParameters s.w x).1 = .ok () ∧
    (∀ k, (hk : k < s.m.chanIds.length) → ∀ j, (hj : j < (s.w.chans s.m.chanIds[k]).templates.length) →
      ∃ eff, (s.w.chans s.m.chanIds[k]).effs[j]? = some ((s.w.chans s.m.chanIds[k]).templates[j].1, eff) ∧
        ((s.m.updateParameters s.w x).2.tmpls (s.w.chans s.m.chanIds[k]).templates[j].2).params =
          (x.getD (s.m.processes.idxOf (s.w.chans s.m.chanIds[k]).templates[j].1) 0 * eff) ::
            (x.drop (nuiOffset s k j)).take (s.w.chans s.m.chanIds[k]).bins.prod) ∧
    s.m.nuiParams (s.m.updateParameters s.w x).2 = .ok (x.drop s.m.numProcesses) ∧
    (s.m.updateParameters s.w x).2.chans = s.w.chans ∧ (s.m.updateParameters s.w x).2.hists = s.w.hists ∧
    (∀ i, ∃ v, (s.m.updateParameters s.w x).2.tmpls i = { s.w.tmpls i with params := v }) ∧
    (∀ i, i ∉ (s.m.chanIds.map fun c => (s.w.chans c).templates.map (·.2)).flatten →
      (s.m.updateParameters s.w x).2.tmpls i = s.w.tmpls i) := by
  have hw := reachable_wf h.reachable
  obtain ⟨w1, hf, he, hids⟩ := updateParameters_eq s h hne hc x hx
  set L := asgAll s.w s.m.chanIds (s.m.chanIds.map (chanYields s.w s.m x))
    (blocks (nuiSizes s.w s.m) (x.drop s.m.numProcesses)) with hL
  have hnd : (L.map (·.1)).Nodup := by rw [hids]; exact hu
  have hpo := assign_paramOnly L w1
  have hl : (x.drop s.m.numProcesses).length = (nuiSizes s.w s.m).sum := by
    rw [List.length_drop, hx]; simp [nuiSizes, Mct.numNui]
  -- parameters of one template
  have hpar : ∀ k, (hk : k < s.m.chanIds.length) → ∀ j, (hj : j < (s.w.chans s.m.chanIds[k]).templates.length) →
      ∃ eff, (s.w.chans s.m.chanIds[k]).effs[j]? = some ((s.w.chans s.m.chanIds[k]).templates[j].1, eff) ∧
        ((w1.assign L).tmpls (s.w.chans s.m.chanIds[k]).templates[j].2).params =
          (x.getD (s.m.processes.idxOf (s.w.chans s.m.chanIds[k]).templates[j].1) 0 * eff) ::
            (x.drop (nuiOffset s k j)).take (s.w.chans s.m.chanIds[k]).bins.prod := by
    intro k hk j hj
    have hcm : s.m.chanIds[k] ∈ s.m.chanIds := List.getElem_mem hk
    have hcw := hw.chan _ (hw.lt _ hcm)
    set C := s.w.chans s.m.chanIds[k] with hC
    have hlen : C.templates.length = C.numTemplates := by
      rw [← List.length_map (·.1), hcw.tkeys]; rfl
    have hje : j < C.effs.length := by
      have : C.effs.length = C.templates.length := by
        rw [← List.length_map (·.1), hcw.ekeys, ← hcw.tkeys, List.length_map]
      omega
    have hkb : k < (blocks (nuiSizes s.w s.m) (x.drop s.m.numProcesses)).length := by
      rw [blocks_length]; simpa [nuiSizes] using hk
    have hky : k < (s.m.chanIds.map (chanYields s.w s.m x)).length := by simpa using hk
    have hmem := asgLoop_get C.templates C.effs (chanYields s.w s.m x s.m.chanIds[k])
      (blocks (List.replicate C.numTemplates C.numBins) (blocks (nuiSizes s.w s.m) (x.drop s.m.numProcesses))[k])
      j hj hje (by simpa [chanYields, Channel.procs, ← hC] using hj)
      (by rw [blocks_length, List.length_replicate, ← hlen]; exact hj)
    have hmem2 := asgAll_mem s.w s.m.chanIds (s.m.chanIds.map (chanYields s.w s.m x))
      (blocks (nuiSizes s.w s.m) (x.drop s.m.numProcesses)) k hk hky hkb _ (by
        unfold asgChan
        rw [List.getElem_map]
        exact hmem)
    have hp := assign_params L w1 hnd _ hmem2
    refine ⟨C.effs[j].2, ?_, ?_⟩
    · rw [List.getElem?_eq_getElem hje]
      congr 1
      have : C.effs[j].1 = C.templates[j].1 := by
        have h1 : (C.effs.map (·.1))[j]'(by simpa using hje) = (C.templates.map (·.1))[j]'(by simpa using hj) := by
          simp only [hcw.ekeys, hcw.tkeys]
        simpa using h1
      rw [← this]
    · simp only at hp
      rw [hp]
      simp only [List.cons.injEq]
      refine ⟨by simp [chanYields, Channel.procs, ← hC], ?_⟩
      rw [blocks_get _ _ _ (by rw [List.length_replicate, ← hlen]; exact hj),
        blocks_get _ _ _ (by simpa [nuiSizes] using hk)]
      have hjK : j < C.numTemplates := by rw [← hlen]; exact hj
      simp only [List.take_replicate, List.sum_replicate, smul_eq_mul, List.getElem_replicate,
        min_eq_left hjK.le, List.drop_take, List.drop_drop, List.take_take]
      have e1 : (nuiSizes s.w s.m)[k]'(by simpa [nuiSizes] using hk) = C.numTemplates * C.numBins := by
        simp [nuiSizes, Channel.numNui, ← hC]
      have e2 : nuiOffset s k j = s.m.numProcesses + ((nuiSizes s.w s.m).take k).sum + j * C.numBins := by
        simp [nuiSizes, nuiOffset, Mct.numProcesses, List.map_take, Channel.numNui, Channel.numBins,
          List.getElem?_eq_getElem hk, ← hC]
      rw [e1, e2]
      have h2 : (j + 1) * C.numBins ≤ C.numTemplates * C.numBins := Nat.mul_le_mul_right _ hjK
      have h3 : (j + 1) * C.numBins = j * C.numBins + C.numBins := by ring
      rw [min_eq_left (by omega)]
      rfl
  refine ⟨by rw [he], ?_, ?_, ?_, ?_, ?_, ?_⟩
  · rw [he]; exact hpar
  · rw [he]
    have hch : (w1.assign L).chans = s.w.chans := by rw [hpo.chans, hf.chans]
    unfold Mct.nuiParams
    have hall : s.m.allTmpls (w1.assign L) ≠ [] := by
      obtain ⟨p, hp⟩ := List.exists_mem_of_ne_nil _ hne
      have hcm : p.2 ∈ s.m.chanIds := List.mem_map_of_mem hp
      obtain ⟨t, ht⟩ := List.exists_mem_of_ne_nil _ (hc _ hcm)
      intro e
      have : (w1.assign L).tmpls t.2 ∈ s.m.allTmpls (w1.assign L) := by
        unfold Mct.allTmpls
        rw [List.mem_flatten]
        refine ⟨_, List.mem_map_of_mem hcm, ?_⟩
        unfold World.chanTmpls
        rw [hch]
        exact List.mem_map_of_mem (f := fun q : String × ℕ => (w1.assign L).tmpls q.2) ht
      rw [e] at this; simp at this
    rw [if_neg hall]
    congr 1
    have hrow : ∀ k, (hk : k < s.m.chanIds.length) →
        (((w1.assign L).chanTmpls s.m.chanIds[k]).map (·.nuiParams)).flatten =
          (blocks (nuiSizes s.w s.m) (x.drop s.m.numProcesses))[k]'(by
            rw [blocks_length]; simpa [nuiSizes] using hk) := by
      intro k hk
      have hcm : s.m.chanIds[k] ∈ s.m.chanIds := List.getElem_mem hk
      have hcw := hw.chan _ (hw.lt _ hcm)
      have hlen : (s.w.chans s.m.chanIds[k]).templates.length = (s.w.chans s.m.chanIds[k]).numTemplates := by
        rw [← List.length_map (·.1), hcw.tkeys]; rfl
      have hkb : k < (nuiSizes s.w s.m).length := by simpa [nuiSizes] using hk
      have hbl : ((blocks (nuiSizes s.w s.m) (x.drop s.m.numProcesses))[k]'(by
          rw [blocks_length]; exact hkb)).length =
          (List.replicate (s.w.chans s.m.chanIds[k]).numTemplates (s.w.chans s.m.chanIds[k]).numBins).sum := by
        obtain ⟨ys, ns, e1, -, -, e2, -⟩ := C47_partition s h hne x hx
        rw [(perChannel_coh h.coherent s.m hw.lt x).1, perChannelPure_eq s.w s.m x hne hw.subset hx] at e1
        simp only [Except.ok.injEq, Prod.mk.injEq] at e1
        have := (e2 k hk).2.2
        rw [← e1.2] at this
        rw [this _ (List.getElem?_eq_getElem (by rw [blocks_length]; exact hkb))]
        simp [Channel.numNui]
      rw [← blocks_flatten _ _ hbl]
      congr 1
      apply List.ext_getElem
      · simp [World.chanTmpls, hch, blocks_length, hlen]
      · intro j h1 h2
        have hj : j < (s.w.chans s.m.chanIds[k]).templates.length := by
          simpa [World.chanTmpls, hch] using h1
        have hjK : j < (s.w.chans s.m.chanIds[k]).numTemplates := by rw [← hlen]; exact hj
        obtain ⟨eff, -, hp⟩ := hpar k hk j hj
        rw [blocks_get _ _ _ (by rw [List.length_replicate]; exact hjK), blocks_get _ _ _ hkb]
        simp only [World.chanTmpls, hch, List.getElem_map, Template.nuiParams, hp, List.tail_cons]
        simp only [List.take_replicate, List.sum_replicate, smul_eq_mul, List.getElem_replicate,
          min_eq_left hjK.le, List.drop_take, List.drop_drop, List.take_take]
        have e1 : (nuiSizes s.w s.m)[k] =
            (s.w.chans s.m.chanIds[k]).numTemplates * (s.w.chans s.m.chanIds[k]).numBins := by
          simp [nuiSizes, Channel.numNui]
        have e2 : nuiOffset s k j = s.m.numProcesses + ((nuiSizes s.w s.m).take k).sum +
            j * (s.w.chans s.m.chanIds[k]).numBins := by
          simp [nuiSizes, nuiOffset, Mct.numProcesses, List.map_take, Channel.numNui, Channel.numBins,
            List.getElem?_eq_getElem hk]
        rw [e1, e2]
        have h2 : (j + 1) * (s.w.chans s.m.chanIds[k]).numBins ≤
          (s.w.chans s.m.chanIds[k]).numTemplates * (s.w.chans s.m.chanIds[k]).numBins := Nat.mul_le_mul_right _ hjK
        have h3 : (j + 1) * (s.w.chans s.m.chanIds[k]).numBins =
          j * (s.w.chans s.m.chanIds[k]).numBins + (s.w.chans s.m.chanIds[k]).numBins := by ring
        rw [min_eq_left (by omega)]
        rfl
    rw [← blocks_flatten _ _ hl]
    unfold Mct.allTmpls
    rw [List.map_flatten, List.flatten_flatten, List.map_map, List.map_map]
    congr 1
    apply List.ext_getElem
    · simp [blocks_length, nuiSizes]
    · intro k h1 h2
      have hk : k < s.m.chanIds.length := by simpa using h1
      rw [← hrow k hk]
      simp
  · rw [he]; show (w1.assign L).chans = _; rw [hpo.chans, hf.chans]
  · rw [he]; show (w1.assign L).hists = _; rw [hpo.hists, hf.hists]
  · intro i
    rw [he]
    obtain ⟨f, hfp⟩ := hpo
    simp only
    rw [hfp]
    exact ⟨f i, by simp [hf.tmpls]⟩
  · intro i hi
    rw [he]
    show (w1.assign L).tmpls i = _
    rw [assign_other _ _ _ (by rw [hids]; exact hi), hf.tmpls]

theorem Ex.sys1_unshared : Unshared Ex.sys1 := by
  simp [Unshared, Ex.sys1, Ex.m1, Mct.chanIds, Ex.w1, Ex.chA, Ex.chB]

theorem Ex.sys1_complete : Complete Ex.sys1 := by
  simp [Complete, Ex.sys1, Ex.m1, Mct.chanIds, Ex.w1, Ex.chA, Ex.chB]

theorem Ex.x1_length : Ex.x1.length = Ex.sys1.m.numProcesses + Ex.sys1.m.numNui Ex.sys1.w := by
  simp [Ex.x1, Ex.sys1, Ex.m1, Mct.numProcesses, Mct.numNui, Mct.chanIds, Ex.w1, Ex.chA, Ex.chB,
      Channel.numNui, Channel.numTemplates, Channel.numBins]

/-- non-vacuity: the template of `bkg` in channel `b` of the example gets yield 20 * 1/4 and (5, 6) -/
example : ((Ex.sys1.m.updateParameters Ex.sys1.w Ex.x1).2.tmpls 2).params = [.fin 5, .fin 5, .fin 6] := by
  obtain ⟨-, h, -⟩ := C48_update Ex.sys1 Ex.sys1_built (by simp [Ex.sys1, Ex.m1]) Ex.sys1_complete Ex.sys1_unshared
    Ex.x1 Ex.x1_length
  obtain ⟨eff, h1, h2⟩ := h 1 (by simp [Ex.sys1, Ex.m1, Mct.chanIds]) 0
    (by simp [Ex.sys1, Ex.m1, Mct.chanIds, Ex.w1, Ex.chB])
  have e1 : eff = .fin (1/4) := by
    simp [Ex.sys1, Ex.m1, Mct.chanIds, Ex.w1, Ex.chB] at h1
    rw [← h1]; norm_num
  rw [e1] at h2
  have e2 : (Ex.sys1.w.chans (Ex.sys1.m.chanIds[1]'(by simp [Ex.sys1, Ex.m1, Mct.chanIds]))).templates =
      [("bkg", 2)] := by simp [Ex.sys1, Ex.m1, Mct.chanIds, Ex.w1, Ex.chB]
  simp only [e2, List.getElem_cons_zero] at h2
  rw [h2]
  simp [Ex.sys1, Ex.m1, Mct.chanIds, Ex.w1, Ex.chA, Ex.chB, Ex.x1, nuiOffset, Channel.numTemplates, List.idxOf_cons]
  norm_num

end

end TF.Props
