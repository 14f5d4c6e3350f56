import Verif.Props.FitterProps12
import Verif.Props.FitterProps8

set_option linter.unusedSimpArgs false

namespace TF.Props

open Classical Spec

noncomputable section

/-- **C69 (partial), scipy.** The same for the scipy minimiser: at a scan point all wanted parameters are kept at the values of the best fit
by every admissible point if and only if none is wanted besides the scanned one, and the registered bounds are handed over if and only if they
bound nothing. -/
theorem C69_scipy_partial (names : List String) (h : List FitOp) (nproc : ℕ) (fixNui : Bool)
    (fcn : Vec → Except Err Fl) (x : Vec) (hx : x.length = names.length) (hfin : ∀ a ∈ x, ∃ r : ℝ, a = .fin r) (i : ℕ) (hi : i < names.length)
    (pt : ℝ) :
    ((∀ y : Vec, y.length = names.length → Feasible (scanScipy fcn names x i (.fin pt)) y →
        ∀ k < names.length, WantedFixed names h nproc fixNui k → y[k]? = (x.set i (.fin pt))[k]?) ↔
      ∀ k < names.length, WantedFixed names h nproc fixNui k → k = i) ∧
    ((∀ k b, FitBounds names h k b → (scanScipy fcn names x i (.fin pt)).bounds[k]? = some b) ↔
      ∀ k b, FitBounds names h k b → b = (none, none)) := by
  have hget : (x.set i (.fin pt)).getD i 0 = .fin pt := by
    rw [List.getD_eq_getElem?_getD, List.getElem?_set_self (by omega)]; rfl
  have hfe : ∀ y : Vec, Feasible (scanScipy fcn names x i (.fin pt)) y ↔ y.getD i 0 = .fin pt := by
    intro y
    constructor
    · intro hf
      have := hf (fun y => y.getD i 0 - (x.set i (.fin pt)).getD i 0) (by simp [scanScipy])
      simp only [hget] at this
      cases hy : y.getD i 0 with
      | fin r =>
        rw [hy] at this
        simp only [Fl.fin_sub, Fl.zero_def, Fl.fin_inj] at this
        rw [sub_eq_zero.mp this]
      | pinf => rw [hy] at this; exact absurd this (by intro e; cases e)
      | ninf => rw [hy] at this; exact absurd this (by intro e; cases e)
      | nan => rw [hy] at this; exact absurd this (by intro e; cases e)
    · intro hy g hg
      simp only [scanScipy, List.mem_singleton] at hg
      simp only [hg, hget, hy, Fl.fin_sub, sub_self]; rfl
  constructor
  · constructor
    · intro H k hk hw
      by_contra hne
      obtain ⟨r, hr⟩ := hfin x[k] (List.getElem_mem _)
      have := H ((x.set i (.fin pt)).set k (.fin (r + 1))) (by simp [hx]) ((hfe _).mpr (by
        rw [List.getD_eq_getElem?_getD, List.getElem?_set_ne hne, List.getElem?_set_self (by omega)]; rfl)) k hk hw
      rw [List.getElem?_set_self (by simp; omega), List.getElem?_set_ne (Ne.symm hne), List.getElem?_eq_getElem (by omega), hr] at this
      have := Fl.fin.inj (Option.some.inj this)
      linarith
    · intro H y hy hf k hk hw
      obtain rfl := H k hk hw
      have := (hfe y).mp hf
      rw [List.getElem?_set_self (by omega), List.getElem?_eq_getElem (by omega)]
      rw [List.getD_eq_getElem?_getD, List.getElem?_eq_getElem (by omega)] at this
      exact congrArg some this
  · have hlim : ∀ k < names.length, (scanScipy fcn names x i (.fin pt)).bounds[k]? = some (none, none) := by
      intro k hk
      simp [scanScipy, List.getElem?_replicate, hk]
    have hlt : ∀ k b, FitBounds names h k b → k < names.length := by
      rintro k b ⟨_, _, _, _, ⟨pid, _, hd⟩, _⟩
      exact denotes_lt hd
    constructor
    · intro H k b hb
      have := H k b hb
      rw [hlim k (hlt k b hb)] at this
      exact (Option.some.inj this).symm
    · intro H k b hb
      rw [hlim k (hlt k b hb), H k b hb]

/-! ## significance of a process the model does not have -/

theorem setup_params {f : Fitter} {kd : MinKind} {names : List String} {nproc nnui : ℕ} {fixNui : Bool} {lim : Option Bounds} {z : Minimizer}
    (hz : f.setup kd names nproc nnui fixNui lim = .ok z) : z.params = Params.new names := by
  unfold Fitter.setup at hz
  have n1 := fixAll_names (if fixNui then nuiIds nproc nnui else []) (Minimizer.new kd names)
  generalize fixAll (Minimizer.new kd names) (if fixNui then nuiIds nproc nnui else []) = q at hz n1
  obtain ⟨q1, z1⟩ := q
  cases q1 with
  | error e => simp at hz
  | ok u =>
    simp only at hz
    have n2 := boundAll_names (nuiBounds nproc nnui lim) z1
    generalize boundAll z1 (nuiBounds nproc nnui lim) = q at hz n2
    obtain ⟨q1, z2⟩ := q
    cases q1 with
    | error e => simp at hz
    | ok u =>
      simp only at hz
      have n3 := fixAll_names f.fixedParams z2
      generalize fixAll z2 f.fixedParams = q at hz n3
      obtain ⟨q1, z3⟩ := q
      cases q1 with
      | error e => simp at hz
      | ok u =>
        simp only at hz
        have n4 := boundAll_names f.boundParams z3
        generalize boundAll z3 f.boundParams = q at hz n4
        obtain ⟨q1, z4⟩ := q
        cases q1 with
        | error e => simp at hz
        | ok u =>
          simp only [Except.ok.injEq] at hz
          subst hz
          rw [n4.1, n3.1, n2.1, n1.1]; rfl

/-- in no reachable model is `<p>_yield` a parameter name unless `p` is a defined process -/
theorem yield_name_mem {s : Sys} (h : s.Reachable) (p : String) : p ++ "_yield" ∈ s.m.paramNames s.w ↔ p ∈ s.m.processes := by
  rw [paramNames_form s (reachable_wf h), List.mem_append]
  constructor
  · rintro (hm | hm)
    · obtain ⟨q, hq, e⟩ := List.mem_map.mp hm
      have : q = p := by
        apply String.toList_injective
        have := congrArg String.toList e
        rw [String.toList_append, String.toList_append] at this
        exact List.append_cancel_right this
      exact this ▸ hq
    · simp only [List.mem_flatten, List.mem_map] at hm
      obtain ⟨_, ⟨c, _, rfl⟩, hm⟩ := hm
      simp only [List.mem_flatten, List.mem_map] at hm
      obtain ⟨_, ⟨q, _, rfl⟩, hm⟩ := hm
      obtain ⟨i, _, e⟩ := List.mem_map.mp hm
      exact absurd e.symm (yield_ne_nui _ _ _ _)
  · intro hp
    exact .inl (List.mem_map.mpr ⟨p, hp, rfl⟩)

/-- **C72, unknown process.** For a process the model does not have, `get_significance` raises (the exception of the nominal fit if that
fails, otherwise `ValueError`), and histograms, templates and channels are as before. -/
theorem C72_unknown_partial (s : Sys) (h : s.Reachable) (f : Fitter) (o : Optim) (p : String) (hp : p ∉ s.m.processes) (fixNui : Bool) :
    (f.getSignificance o s.w s.m p fixNui).1 =
      (match (f.doFit o s.w s.m false true fixNui none).1 with
        | .error e => .error e
        | .ok _ => .error .valueError) ∧
    (f.getSignificance o s.w s.m p fixNui).2.hists = s.w.hists ∧ (f.getSignificance o s.w s.m p fixNui).2.tmpls = s.w.tmpls ∧
    (f.getSignificance o s.w s.m p fixNui).2.chans = s.w.chans := by
  have hno : p ++ "_yield" ∉ s.m.paramNames s.w := fun hm => hp ((yield_name_mem h p).mp hm)
  unfold Fitter.getSignificance Fitter.doFit
  cases hid : minKindOf f.minimizerId with
  | error e => exact ⟨rfl, rfl, rfl, rfl⟩
  | ok kd =>
    simp only
    rw [signifSetup_first]
    cases hz : f.setup kd (s.m.paramNames s.w) s.m.numProcesses (s.m.numNui s.w) fixNui none with
    | error e => exact ⟨rfl, rfl, rfl, rfl⟩
    | ok z =>
      have hzp := setup_params hz
      simp only
      have hfr := runMinimizer_frame o s.w s.m z true
      generalize hq : runMinimizer o s.w s.m z true = q at hfr ⊢
      obtain ⟨q1, w1⟩ := q
      simp only at hfr
      cases q1 with
      | error e => exact ⟨rfl, hfr.hists, hfr.tmpls, hfr.chans⟩
      | ok v =>
        obtain ⟨r, z1⟩ := v
        have hok := runMinimizer_ok hq (by rw [hzp]; simp [Params.new]) (by rw [hzp]; simp [Params.new])
        have hrn : r.params.names = s.m.paramNames s.w := by rw [hok.2.1, hzp]; rfl
        have hgi : r.params.getItem (.str (p ++ "_yield")) = .error .valueError := by
          simp only [Params.getItem, hrn, idToIndex, if_neg hno]
        simp only [hgi, Bool.false_eq_true, if_false]
        exact ⟨trivial, hfr.hists, hfr.tmpls, hfr.chans⟩

/-- non-vacuity: the nominal fit succeeds, and the process is missing -/
example : Ex.sysQ.Reachable ∧ "nope" ∉ Ex.sysQ.m.processes ∧
    ((fitRun "iminuit" []).getSignificance Ex.optFree Ex.sysQ.w Ex.sysQ.m "nope" true).1 = .error .valueError := by
  have hp : "nope" ∉ Ex.sysQ.m.processes := by
    intro hm
    have := (yield_name_mem Ex.sysQ_built.reachable "nope").mpr hm
    rw [Ex.namesQ'] at this
    exact absurd this (by decide)
  refine ⟨Ex.sysQ_built.reachable, hp, ?_⟩
  obtain ⟨fv, C, R, hr⟩ := Ex.fitFree
  rw [(C72_unknown_partial Ex.sysQ Ex.sysQ_built.reachable _ Ex.optFree "nope" hp true).1]
  have hr' : ((fitRun "iminuit" []).doFit Ex.optFree Ex.sysQ.w Ex.sysQ.m false true true none).1 = .ok _ := hr
  rw [hr']

end

end TF.Props
