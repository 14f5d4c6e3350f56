import Verif.Props.MctProps2

set_option linter.unusedSimpArgs false

/-!
# Yields: round trip of the fit parameters (C49), `set_yield`/`get_yield` (C50)
-/

namespace TF.Spec

open Classical

noncomputable section

/-- efficiency with which process `p` enters channel object `c` (0 if it has no template there) -/
def effOf (w : World) (c : ℕ) (p : String) : ℝ :=
  match dictGet (w.chans c).effs p with
  | some (.fin r) => r
  | _ => 0

/-- sum of the efficiencies of process `p` over the channels -/
def effSum (s : Sys) (p : String) : ℝ := (s.m.chanIds.map fun c => effOf s.w c p).sum

/-- all efficiencies are finite numbers -/
def FiniteEffs (s : Sys) : Prop := ∀ c ∈ s.m.chanIds, ∀ e ∈ (s.w.chans c).effs, ∃ r : ℝ, e.2 = .fin r

end

end TF.Spec

namespace TF.Props

open Classical Spec

noncomputable section

/-- in a model without shared templates an object belongs to one channel and one process -/
theorem unshared_inj {s : Sys} (hw : SysWF s) (hu : Unshared s) {c d : ℕ} (hc : c ∈ s.m.chanIds)
    (hd : d ∈ s.m.chanIds) {p q : String} {t : ℕ} (h1 : (p, t) ∈ (s.w.chans c).templates)
    (h2 : (q, t) ∈ (s.w.chans d).templates) : c = d ∧ p = q := by
  unfold Unshared at hu
  rw [List.nodup_flatten] at hu
  have hcd : c = d := by
    by_contra hne
    have h3 := hu.2
    rw [List.pairwise_map] at h3
    have h4 := List.Pairwise.forall_of_forall_of_flip (R := fun a b => a ≠ b →
      List.Disjoint ((s.w.chans a).templates.map (·.2)) ((s.w.chans b).templates.map (·.2)))
      (l := s.m.chanIds) (by intro a _ h; exact absurd rfl h)
      (by refine List.Pairwise.imp ?_ h3; intro a b h _; exact h)
      (by refine List.Pairwise.imp ?_ h3; intro a b h _; exact h.symm)
    have h5 := h4 hc hd hne
    have m1 : t ∈ (s.w.chans c).templates.map (·.2) := List.mem_map.mpr ⟨_, h1, rfl⟩
    have m2 : t ∈ (s.w.chans d).templates.map (·.2) := List.mem_map.mpr ⟨_, h2, rfl⟩
    exact h5 m1 m2
  refine ⟨hcd, ?_⟩
  subst hcd
  have h3 := hu.1 _ (List.mem_map_of_mem hc)
  have := List.inj_on_of_nodup_map h3 h1 h2 rfl
  exact (Prod.mk.inj this).1

theorem effOf_mem {s : Sys} (hw : SysWF s) (hf : FiniteEffs s) {c : ℕ} (hc : c ∈ s.m.chanIds) {p : String} {e : Fl}
    (h : (p, e) ∈ (s.w.chans c).effs) : e = .fin (effOf s.w c p) := by
  have hn : ((s.w.chans c).effs.map (·.1)).Nodup := by
    have := hw.chan c (hw.lt c hc)
    rw [this.ekeys]; exact this.nodup
  have hd := dictGet_of_mem hn h
  obtain ⟨r, hr⟩ := hf c hc _ h
  simp only at hr
  subst hr
  unfold effOf
  rw [hd]

theorem effOf_absent {s : Sys} (hw : SysWF s) {c : ℕ} (hc : c ∈ s.m.chanIds) {p : String}
    (h : dictGet (s.w.chans c).templates p = none) : effOf s.w c p = 0 := by
  have hcw := hw.chan c (hw.lt c hc)
  rw [dictGet_none, hcw.tkeys, ← hcw.ekeys, ← dictGet_none] at h
  unfold effOf
  rw [h]

/-- the sum of yields over the channels -/
theorem processYield_eq {s : Sys} (hw : SysWF s) (w' : World) (hch : w'.chans = s.w.chans) (p : String) (y : ℝ)
    (cs : List ℕ) (hcs : ∀ c ∈ cs, c ∈ s.m.chanIds)
    (h : ∀ c ∈ cs, ∀ t, (p, t) ∈ (s.w.chans c).templates → (w'.tmpls t).yieldParam = .fin (y * effOf s.w c p)) :
    w'.processYield p cs = .fin (y * (cs.map fun c => effOf s.w c p).sum) := by
  induction cs with
  | nil => simp [World.processYield, Fl.zero_def]
  | cons c cs ih =>
    have ih := ih (fun d hd => hcs d (by simp [hd])) (fun d hd => h d (by simp [hd]))
    simp only [World.processYield, hch]
    cases hd : dictGet (s.w.chans c).templates p with
    | none =>
      simp only [ih, List.map_cons, List.sum_cons, effOf_absent hw (hcs c (by simp)) hd, zero_add]
    | some t =>
      simp only [ih, h c (by simp) t (dictGet_mem hd), Fl.fin_add, List.map_cons, List.sum_cons]
      congr 1; ring

/-! ## C49 -/

/-- the yields after `update_parameters(x)` -/
theorem yields_after_update (s : Sys) (h : s.Built) (hne : s.m.channels ≠ []) (hc : Complete s) (hu : Unshared s)
    (hf : FiniteEffs s) (x : Vec) (hx : x.length = s.m.numProcesses + s.m.numNui s.w) (p : String)
    (y : ℝ) (hy : x.getD (s.m.processes.idxOf p) 0 = .fin y) :
    (s.m.updateParameters s.w x).2.processYield p s.m.chanIds = .fin (y * effSum s p) := by
  have hw := reachable_wf h.reachable
  obtain ⟨-, h2, -, h4, -⟩ := C48_update s h hne hc hu x hx
  refine processYield_eq hw _ h4 p y s.m.chanIds (fun _ h => h) ?_
  intro c hcm t ht
  obtain ⟨k, hk, rfl⟩ := List.mem_iff_getElem.mp hcm
  obtain ⟨j, hj, e⟩ := List.mem_iff_getElem.mp ht
  obtain ⟨eff, h6, h7⟩ := h2 k hk j hj
  rw [e] at h6 h7
  simp only at h6 h7
  have hm := List.mem_of_getElem? h6
  rw [effOf_mem hw hf hcm hm] at h7
  unfold Template.yieldParam
  rw [h7, hy]
  simp

/-- **C49 (partial).** After `update_parameters(x)` (finite yields, finite efficiencies, no shared template
object, every channel has templates) the starting values `x0` are: for each process its entry of `x` times the
*sum of its efficiencies over the channels*, then the nuisance part of `x` unchanged. Missing: equality with
`x`, which holds exactly when these sums are 1 (`C49_roundtrip_iff_partial`, `C49_refuted`). -/
theorem C49_formula_partial (s : Sys) (h : s.Built) (hne : s.m.channels ≠ []) (hc : Complete s) (hu : Unshared s)
    (hf : FiniteEffs s) (x : Vec) (hx : x.length = s.m.numProcesses + s.m.numNui s.w) (y : String → ℝ)
    (hy : ∀ p ∈ s.m.processes, x.getD (s.m.processes.idxOf p) 0 = .fin (y p)) :
    s.m.x0 (s.m.updateParameters s.w x).2 =
      .ok ((s.m.processes.map fun p => Fl.fin (y p * effSum s p)) ++ x.drop s.m.numProcesses) := by
  obtain ⟨-, -, h3, -⟩ := C48_update s h hne hc hu x hx
  unfold Mct.x0
  rw [h3]
  simp only
  congr 2
  unfold Mct.processYields
  apply List.map_congr_left
  intro p hp
  exact yields_after_update s h hne hc hu hf x hx p (y p) (hy p hp)

/-- **C49 (partial).** The fit parameters round-trip for every vector with finite entries if and only if the
efficiencies of every process add up to 1 over the channels. -/
theorem C49_roundtrip_iff_partial (s : Sys) (h : s.Built) (hne : s.m.channels ≠ []) (hc : Complete s)
    (hu : Unshared s) (hf : FiniteEffs s) :
    (∀ xr : Fin (s.m.numProcesses + s.m.numNui s.w) → ℝ,
      s.m.x0 (s.m.updateParameters s.w (vec xr)).2 = .ok (vec xr)) ↔ ∀ p ∈ s.m.processes, effSum s p = 1 := by
  have hw := reachable_wf h.reachable
  have key : ∀ xr : Fin (s.m.numProcesses + s.m.numNui s.w) → ℝ, ∀ p, (hp : p ∈ s.m.processes) →
      (vec xr).getD (s.m.processes.idxOf p) 0 = .fin (xr ⟨s.m.processes.idxOf p, by
        have := List.idxOf_lt_length_iff.mpr hp; unfold Mct.numProcesses; omega⟩) := by
    intro xr p hp
    have := List.idxOf_lt_length_iff.mpr hp
    have hlt : s.m.processes.idxOf p < (vec xr).length := by
      rw [vec_length]; unfold Mct.numProcesses; omega
    rw [List.getD_eq_getElem?_getD, List.getElem?_eq_getElem hlt]
    simp [vec]
  have form : ∀ xr : Fin (s.m.numProcesses + s.m.numNui s.w) → ℝ,
      s.m.x0 (s.m.updateParameters s.w (vec xr)).2 =
      .ok ((s.m.processes.map fun p => Fl.fin ((if hp : p ∈ s.m.processes then xr ⟨s.m.processes.idxOf p, by
        have := List.idxOf_lt_length_iff.mpr hp; unfold Mct.numProcesses; omega⟩ else 0) * effSum s p)) ++
          (vec xr).drop s.m.numProcesses) := by
    intro xr
    apply C49_formula_partial s h hne hc hu hf (vec xr) (vec_length _)
    intro p hp
    rw [key xr p hp, dif_pos hp]
  constructor
  · intro hall p hp
    have h1 := hall (fun _ => 1)
    rw [form] at h1
    have h2 := congrArg (fun l => l[s.m.processes.idxOf p]?) (Except.ok.inj h1)
    have hlt := List.idxOf_lt_length_iff.mpr hp
    have hlt2 : s.m.processes.idxOf p < s.m.numProcesses + s.m.numNui s.w := by unfold Mct.numProcesses; omega
    rw [List.getElem?_append_left (by simpa using hlt), List.getElem?_map,
      List.getElem?_eq_getElem hlt, List.getElem?_eq_getElem (by rw [vec_length]; exact hlt2)] at h2
    simp only [Option.map_some, List.getElem_idxOf, dif_pos hp, one_mul, vec, List.getElem_ofFn, Option.some.injEq,
      Fl.fin.injEq] at h2
    exact h2
  · intro hs xr
    rw [form]
    congr 1
    have hv : vec xr = (vec xr).take s.m.numProcesses ++ (vec xr).drop s.m.numProcesses :=
      (List.take_append_drop _ _).symm
    conv_rhs => rw [hv]
    congr 1
    apply List.ext_getElem
    · rw [List.length_map, List.length_take, vec_length]; unfold Mct.numProcesses; omega
    · intro i i1 i2
      have hi : i < s.m.processes.length := by simpa using i1
      rw [List.getElem_map, dif_pos (List.getElem_mem hi), hs _ (List.getElem_mem hi), mul_one, List.getElem_take]
      simp [vec, hw.procs.idxOf_getElem]

theorem Ex.sys1_finite : FiniteEffs Ex.sys1 := by
  intro c hc e he
  simp [Ex.sys1, Ex.m1, Mct.chanIds] at hc
  rcases hc with rfl | rfl
  · simp [Ex.sys1, Ex.w1, Ex.chA] at he
    rcases he with rfl | rfl
    · exact ⟨_, rfl⟩
    · exact ⟨_, rfl⟩
  · simp [Ex.sys1, Ex.w1, Ex.chB] at he
    subst he
    exact ⟨_, rfl⟩

theorem Ex.sys1_effSum : effSum Ex.sys1 "sig" = 1/2 ∧ effSum Ex.sys1 "bkg" = 5/4 := by
  constructor <;> simp [effSum, effOf, Ex.sys1, Ex.m1, Mct.chanIds, Ex.w1, Ex.chA, Ex.chB, dictGet]
  norm_num

/-- **C49 is false of the code:** after `update_parameters([10, 20, 1, …, 6])` the example model starts the next
fit from yields 5 and 25. -/
theorem C49_refuted : ∃ (s : Sys) (x : Vec), s.Built ∧ Unshared s ∧
    x = [.fin 10, .fin 20, .fin 1, .fin 2, .fin 3, .fin 4, .fin 5, .fin 6] ∧
    s.m.x0 (s.m.updateParameters s.w x).2 =
      .ok [.fin 5, .fin 25, .fin 1, .fin 2, .fin 3, .fin 4, .fin 5, .fin 6] := by
  refine ⟨Ex.sys1, Ex.x1, Ex.sys1_built, Ex.sys1_unshared, rfl, ?_⟩
  rw [C49_formula_partial Ex.sys1 Ex.sys1_built (by simp [Ex.sys1, Ex.m1]) Ex.sys1_complete Ex.sys1_unshared
    Ex.sys1_finite Ex.x1 Ex.x1_length (fun p => if p = "sig" then 10 else 20) (by
      intro p hp
      simp [Ex.sys1, Ex.m1] at hp
      rcases hp with rfl | rfl <;> simp [Ex.sys1, Ex.m1, Ex.x1, List.idxOf_cons])]
  have hp : Ex.sys1.m.processes = ["sig", "bkg"] := rfl
  simp only [hp, List.map_cons, List.map_nil, Ex.sys1_effSum.1, Ex.sys1_effSum.2, Mct.numProcesses, Ex.x1]
  simp
  norm_num

/-! ## C50 -/

theorem setYieldLoop_spec {s : Sys} (hw : SysWF s) (hu : Unshared s) (p : String) (v : Fl) (cs : List ℕ) :
    ∀ w : World, w.chans = s.w.chans → cs.Nodup → (∀ c ∈ cs, c ∈ s.m.chanIds) →
      (w.setYieldLoop p v cs).1 = .ok () ∧
      (∀ c ∈ cs, ∀ t e, (p, t) ∈ (s.w.chans c).templates → (p, e) ∈ (s.w.chans c).effs →
        ((w.setYieldLoop p v cs).2.tmpls t).params = (v * e) :: (w.tmpls t).params.tail) ∧
      (∀ t, (∀ c ∈ cs, (p, t) ∉ (s.w.chans c).templates) → (w.setYieldLoop p v cs).2.tmpls t = w.tmpls t) := by
  induction cs with
  | nil => intro w _ _ _; exact ⟨rfl, by simp, fun _ _ => rfl⟩
  | cons c cs ih =>
    intro w hch hn hcs
    simp only [List.nodup_cons] at hn
    have hc := hcs c (by simp)
    have hcw := hw.chan c (hw.lt c hc)
    have hnt : ((s.w.chans c).templates.map (·.1)).Nodup := by rw [hcw.tkeys]; exact hcw.nodup
    have hne : ((s.w.chans c).effs.map (·.1)).Nodup := by rw [hcw.ekeys]; exact hcw.nodup
    cases hd : dictGet (s.w.chans c).templates p with
    | none =>
      obtain ⟨i1, i2, i3⟩ := ih w hch hn.2 (fun d hd => hcs d (by simp [hd]))
      have e : w.setYieldLoop p v (c :: cs) = w.setYieldLoop p v cs := by
        simp only [World.setYieldLoop, hch, hd]
      have habs : ∀ t, (p, t) ∉ (s.w.chans c).templates := by
        intro t ht
        rw [dictGet_none] at hd
        exact hd (List.mem_map_of_mem ht)
      rw [e]
      refine ⟨i1, ?_, ?_⟩
      · intro d hd' t e' ht he'
        rcases List.mem_cons.mp hd' with rfl | hd'
        · exact absurd ht (habs t)
        · exact i2 d hd' t e' ht he'
      · intro t ht; exact i3 t (fun d hd' => ht d (by simp [hd']))
    | some t0 =>
      have hmem : (p, t0) ∈ (s.w.chans c).templates := dictGet_mem hd
      have hek : ∃ e0, dictGet (s.w.chans c).effs p = some e0 := by
        by_contra hcon
        push Not at hcon
        have : dictGet (s.w.chans c).effs p = none := by
          cases h : dictGet (s.w.chans c).effs p with
          | none => rfl
          | some e => exact absurd h (hcon e)
        rw [dictGet_none, hcw.ekeys, ← hcw.tkeys] at this
        exact this (List.mem_map_of_mem hmem)
      obtain ⟨e0, he0⟩ := hek
      set w1 := w.setTmpl t0 { w.tmpls t0 with params := (v * e0) :: (w.tmpls t0).params.tail } with hw1
      have e : w.setYieldLoop p v (c :: cs) = w1.setYieldLoop p v cs := by
        simp only [World.setYieldLoop, hch, hd, he0, Template.setYield, hw1]
      have hch1 : w1.chans = s.w.chans := hch
      obtain ⟨i1, i2, i3⟩ := ih w1 hch1 hn.2 (fun d hd => hcs d (by simp [hd]))
      have hother : ∀ d ∈ cs, ∀ q, (q, t0) ∉ (s.w.chans d).templates := by
        intro d hd' q hq
        have := (unshared_inj hw hu hc (hcs d (by simp [hd'])) hmem hq).1
        exact hn.1 (this ▸ hd')
      rw [e]
      refine ⟨i1, ?_, ?_⟩
      · intro d hd' t e' ht he'
        rcases List.mem_cons.mp hd' with rfl | hd'
        · have ht0 : t = t0 := by
            have := dictGet_of_mem hnt ht
            rw [hd] at this; exact (Option.some.inj this).symm
          have he : e' = e0 := by
            have := dictGet_of_mem hne he'
            rw [he0] at this; exact (Option.some.inj this).symm
          subst ht0 he
          rw [i3 t (fun d hd' => hother d hd' p)]
          simp [hw1, World.setTmpl]
        · rw [i2 d hd' t e' ht he']
          have : t ≠ t0 := by
            rintro rfl
            exact hother d hd' p ht
          simp [hw1, World.setTmpl, Function.update_of_ne this]
      · intro t ht
        rw [i3 t (fun d hd' => ht d (by simp [hd']))]
        have : t ≠ t0 := by
          rintro rfl
          exact ht c (by simp) hmem
        simp [hw1, World.setTmpl, Function.update_of_ne this]

/-- **C50 (partial).** In every reachable model without shared template objects (finite efficiencies): an unknown
process raises `RuntimeError` and changes nothing; `set_yield(p, v)` succeeds, `get_yield(p)` then returns `v`
times the *sum of the efficiencies of `p` over the channels*, every other process keeps its yield, and only
yields of `p`'s templates change (each becomes `v * efficiency`). Missing: `get_yield(p) = v`, true exactly
when the efficiencies add up to 1 (then stated in the last clause), false otherwise (`C50_refuted`). -/
theorem C50_yield_partial (s : Sys) (h : s.Reachable) (hu : Unshared s) (hf : FiniteEffs s) (p : String) (v : ℝ) :
    (p ∉ s.m.processes → s.m.setYield s.w p (.fin v) = (.error .runtimeError, s.w) ∧
      s.m.getYield s.w p = .error .runtimeError) ∧
    (p ∈ s.m.processes →
      (s.m.setYield s.w p (.fin v)).1 = .ok () ∧
      s.m.getYield (s.m.setYield s.w p (.fin v)).2 p = .ok (.fin (v * effSum s p)) ∧
      (∀ q ∈ s.m.processes, q ≠ p →
        s.m.getYield (s.m.setYield s.w p (.fin v)).2 q = s.m.getYield s.w q) ∧
      (∀ c ∈ s.m.chanIds, ∀ t e, (p, t) ∈ (s.w.chans c).templates → (p, e) ∈ (s.w.chans c).effs →
        ((s.m.setYield s.w p (.fin v)).2.tmpls t).params = (.fin v * e) :: (s.w.tmpls t).params.tail) ∧
      (∀ t, (∀ c ∈ s.m.chanIds, (p, t) ∉ (s.w.chans c).templates) →
        (s.m.setYield s.w p (.fin v)).2.tmpls t = s.w.tmpls t) ∧
      (effSum s p = 1 → s.m.getYield (s.m.setYield s.w p (.fin v)).2 p = .ok (.fin v))) := by
  have hw := reachable_wf h
  refine ⟨fun hp => by simp [Mct.setYield, Mct.getYield, hp], fun hp => ?_⟩
  have hset : s.m.setYield s.w p (.fin v) = s.w.setYieldLoop p (.fin v) s.m.chanIds := by
    simp [Mct.setYield, hp]
  obtain ⟨i1, i2, i3⟩ := setYieldLoop_spec hw hu p (.fin v) s.m.chanIds s.w rfl hw.chIds (fun _ h => h)
  have hch := (setYieldLoop_paramOnly p (.fin v) s.m.chanIds s.w).chans
  have hget : ∀ (w : World) q, q ∈ s.m.processes → s.m.getYield w q = .ok (w.processYield q s.m.chanIds) := by
    intro w q hq
    unfold Mct.getYield Mct.processYields
    rw [if_neg (by simpa using hq)]
    congr 1
    have hlt := List.idxOf_lt_length_iff.mpr hq
    rw [List.getD_eq_getElem?_getD, List.getElem?_map, List.getElem?_eq_getElem hlt]
    simp
  have hmain : s.m.getYield (s.m.setYield s.w p (.fin v)).2 p = .ok (.fin (v * effSum s p)) := by
    rw [hset, hget _ p hp]
    congr 1
    refine processYield_eq hw _ hch p v s.m.chanIds (fun _ h => h) ?_
    intro c hc t ht
    have hcw := hw.chan c (hw.lt c hc)
    have hpk : p ∈ (s.w.chans c).effs.map (·.1) := by
      rw [hcw.ekeys, ← hcw.tkeys]; exact List.mem_map_of_mem ht
    obtain ⟨⟨p', e⟩, he, hpe⟩ := List.mem_map.mp hpk
    simp only at hpe
    subst hpe
    unfold Template.yieldParam
    rw [i2 c hc t e ht he, effOf_mem hw hf hc he]
    simp
  refine ⟨by rw [hset]; exact i1, hmain, ?_, by rw [hset]; exact i2, by rw [hset]; exact i3, ?_⟩
  · intro q hq hqp
    rw [hset, hget _ q hq, hget _ q hq]
    congr 1
    have : ∀ cs : List ℕ, (∀ c ∈ cs, c ∈ s.m.chanIds) →
        (s.w.setYieldLoop p (.fin v) s.m.chanIds).2.processYield q cs = s.w.processYield q cs := by
      intro cs
      induction cs with
      | nil => intro _; rfl
      | cons c cs ih =>
        intro hcs
        have ih := ih (fun d hd => hcs d (by simp [hd]))
        simp only [World.processYield, hch]
        cases hd : dictGet (s.w.chans c).templates q with
        | none => simp only; exact ih
        | some t =>
          simp only
          rw [ih]
          have ht : (s.w.setYieldLoop p (.fin v) s.m.chanIds).2.tmpls t = s.w.tmpls t := by
            apply i3
            intro d hd' hm
            exact hqp (unshared_inj hw hu (hcs c (by simp)) hd' (dictGet_mem hd) hm).2
          unfold Template.yieldParam
          rw [ht]
    exact this _ (fun _ h => h)
  · intro he
    rw [hmain, he, mul_one]

/-- **C50 is false of the code:** `set_yield("sig", 10)` followed by `get_yield("sig")` returns 5 in the example
(one channel contains the process, with efficiency 1/2). -/
theorem C50_refuted : ∃ (s : Sys), s.Reachable ∧ Unshared s ∧ "sig" ∈ s.m.processes ∧
    s.m.getYield (s.m.setYield s.w "sig" (.fin 10)).2 "sig" = .ok (.fin 5) := by
  refine ⟨Ex.sys1, Ex.sys1_reachable, Ex.sys1_unshared, by simp [Ex.sys1, Ex.m1], ?_⟩
  have := ((C50_yield_partial Ex.sys1 Ex.sys1_reachable Ex.sys1_unshared Ex.sys1_finite "sig" 10).2
    (by simp [Ex.sys1, Ex.m1])).2.1
  rw [this, Ex.sys1_effSum.1]
  norm_num

end

end TF.Props
