import Verif.Props.LegacySysProps4
import Verif.Props.MctProps5

set_option linter.unusedSimpArgs false

/-!
# Legacy likelihoods: stacks that grow, parameter names, Asimov closure (C93–C95)
-/

namespace TF.Props

open Classical Spec
open scoped Matrix

noncomputable section

/-! ### C93: templates put into the stack later -/

theorem bop_error {f : Fl → Fl → Fl} {a b : Vec} {e : Err} (h : bop f a b = .error e) : e = .valueError := by
  unfold bop at h
  split at h
  · cases h
  · split at h
    · cases h
    · cases h
    · exact (Except.error.inj h).symm

theorem lfractions_error {t : LTemplate} {v : Vec} {e : Err} (h : t.fractions v = .error e) : e = .valueError := by
  unfold LTemplate.fractions at h
  cases h1 : bop (· * ·) v t.relErr with
  | error e1 =>
    rw [h1] at h
    obtain rfl := bop_error h1
    exact (Except.error.inj h).symm
  | ok a =>
    rw [h1] at h
    cases h2 : bop (· * ·) t.counts (a.map (1 + ·)) with
    | error e2 =>
      obtain rfl := bop_error h2
      simp only [bind, Except.bind] at h
      rw [h2] at h
      exact (Except.error.inj h).symm
    | ok y =>
      simp only [bind, Except.bind] at h
      rw [h2] at h
      cases h

theorem legacyRows_error : ∀ {ts : List LTemplate} {ps : List Vec} {e : Err}, legacyRows ts ps = .error e → e = .valueError := by
  intro ts
  induction ts with
  | nil => intro ps e h; simp [legacyRows] at h
  | cons t ts ih =>
    intro ps e h
    cases ps with
    | nil => simp [legacyRows] at h
    | cons p ps =>
      simp only [legacyRows] at h
      cases h1 : t.fractions p with
      | error e1 =>
        rw [h1] at h
        obtain rfl := lfractions_error h1
        exact (Except.error.inj h).symm
      | ok r =>
        rw [h1] at h
        simp only at h
        cases h2 : legacyRows ts ps with
        | error e2 =>
          rw [h2] at h
          obtain rfl := ih h2
          exact (Except.error.inj h).symm
        | ok rs => rw [h2] at h; cases h

theorem sfractions_error {s : Stacked} {v : Vec} {e : Err} (hn : s.num ≠ 0) (h : s.fractions v = .error e) : e = .valueError := by
  unfold Stacked.fractions splitEq at h
  rw [if_neg hn] at h
  split at h
  · rename_i e1 h1
    split at h1
    · obtain rfl := Except.error.inj h1
      exact (Except.error.inj h).symm
    · cases h1
  · split at h
    · rename_i e2 h2
      obtain rfl := legacyRows_error h2
      exact (Except.error.inj h).symm
    · unfold stackRows at h
      simp only at h
      split at h
      · cases h
      · exact (Except.error.inj h).symm

/-- if the number of nuisance parameters is not the number of rows of the stored matrix, the call raises `ValueError` -/
theorem lcall_mismatch (N : LNll) (s : Stacked) (x : Vec) (hn : s.num ≠ 0) (hx : (x.drop s.num).length ≠ N.block.rows) :
    N.call s x = .error .valueError := by
  unfold LNll.call
  cases h1 : s.fractions (x.drop s.num) with
  | error e => obtain rfl := sfractions_error hn h1; rfl
  | ok F =>
    simp only [bind, Except.bind]
    cases h2 : vecMat (x.take s.num) F with
    | error e =>
      unfold vecMat at h2
      split at h2
      · cases h2
      · exact congrArg _ (Except.error.inj h2).symm
    | ok E =>
      simp only
      cases h3 : bop (· - ·) E N.data with
      | error e => obtain rfl := bop_error h3; rfl
      | ok D =>
        simp only
        cases h4 : bop legacyXlogyx N.data E with
        | error e => obtain rfl := bop_error h4; rfl
        | ok L =>
          simp only
          cases h5 : bop (· - ·) D L with
          | error e => obtain rfl := bop_error h5; rfl
          | ok T =>
            simp only
            unfold vecMat
            rw [if_neg hx]

/-- the binning of a stack never changes -/
theorem step_stack_bins (s : LSys) (c : LCmd) (S : ℕ) (K : LStack) (hK : s.stks[S]? = some K) :
    ∃ K', (s.step c).2.stks[S]? = some K' ∧ K'.numBins = K.numBins := by
  have hlt : S < s.stks.length := (List.getElem?_eq_some_iff.mp hK).1
  rcases step_stks s c with e | ⟨name, var, nb, lo, hi, -, -, e⟩ | ⟨S0, K0, tid, t, T, h0, -, -, -, e⟩
  · exact ⟨K, by rw [e, hK], rfl⟩
  · exact ⟨K, by rw [e, List.getElem?_append_left hlt, hK], rfl⟩
  · by_cases hne : S0 = S
    · subst hne
      rw [hK] at h0
      obtain rfl := Option.some.inj h0
      exact ⟨{ K with templates := dictSet K.templates tid t }, by rw [e, List.getElem?_set_self hlt], rfl⟩
    · exact ⟨K, by rw [e, List.getElem?_set_ne hne, hK], rfl⟩

theorem run_stack_bins (later : List LCmd) : ∀ (s : LSys) (S : ℕ) (K : LStack), s.stks[S]? = some K →
    ∃ K', (s.run later).stks[S]? = some K' ∧ K'.numBins = K.numBins := by
  induction later with
  | nil => intro s S K h; exact ⟨K, h, rfl⟩
  | cons c cs ih =>
    intro s S K h
    obtain ⟨K1, h1, b1⟩ := step_stack_bins s c S K h
    obtain ⟨K2, h2, b2⟩ := ih _ S K1 h1
    exact ⟨K2, h2, b2.trans b1⟩

/-- **C93 (grown stack).** A likelihood is made from a stack with `m` templates. After any later history after which the stack has another
number `m' ≥ 1` of templates, every call of the likelihood with a vector of the documented length `m' + m'·n` raises `ValueError`. -/
theorem C93_grown (cmds : List LCmd) (S h : ℕ) (K : LStack) (hK : (LSys.empty.run cmds).stks[S]? = some K)
    (hh : h < (LSys.empty.run cmds).hists.length) (later : List LCmd) :
    ∃ s1 s2, (LSys.empty.run cmds).step (.createNll S h) = (.ok (), s1) ∧ s2 = s1.run later ∧
      ∀ K', s2.stks[S]? = some K' → K'.templates ≠ [] → K'.templates.length ≠ K.templates.length →
        ∀ x : Vec, x.length = K'.templates.length + K'.templates.length * K'.numBins →
          s2.nll (LSys.empty.run cmds).nlls.length x = .error .valueError := by
  have hw := lwf_run cmds lwf_empty
  set s := LSys.empty.run cmds with hs
  refine ⟨_, _, createNll_step s S h K hK hh, rfl, ?_⟩
  set s1 : LSys := { s with nlls := s.nlls ++ [⟨h, S, blockDiag ((s.look K).list.map (·.invCorr))⟩] } with hs1
  set s2 := s1.run later with hs2
  intro K' hK' hne hm x hx
  obtain ⟨K'', hK'', hb⟩ := run_stack_bins later s1 S K hK
  rw [hK'] at hK''
  obtain rfl := Option.some.inj hK''
  have n2 : s2.nlls[s.nlls.length]? = some ⟨h, S, blockDiag ((s.look K).list.map (·.invCorr))⟩ :=
    run_nll later s1 _ _ (by simp [hs1])
  have h2 : h < s2.hists.length := run_hists later s1 h hh
  have hrows : (blockDiag ((s.look K).list.map (·.invCorr))).rows = K.templates.length * K.numBins := by
    have := (blockDiag_dims (n := K.numBins) ((s.look K).list.map (·.invCorr)) (by
      intro M hM
      obtain ⟨T, hT, rfl⟩ := List.mem_map.mp hM
      rw [look_list] at hT
      obtain ⟨p, hp, rfl⟩ := List.mem_map.mp hT
      obtain ⟨T, t1, t2⟩ := (hw.tmpl S K hK).2.2 p hp
      have hd := hw.dim p.2 T t1
      rw [tmpl_of t1]
      exact ⟨by rw [hd.invR, t2.2.1], by rw [hd.invC, t2.2.1]⟩)).1
    rw [this, List.length_map, look_list, List.length_map]
  have hn1 : 1 ≤ K.numBins := (hw.tmpl S K hK).1
  unfold LSys.nll
  simp only [n2, hK', List.getElem?_eq_getElem h2]
  apply lcall_mismatch
  · rw [look_num]
    exact fun h0 => hne (List.length_eq_zero_iff.mp h0)
  · rw [look_num, List.length_drop, hx, Nat.add_sub_cancel_left, hrows, hb]
    exact fun e => hm (Nat.eq_of_mul_eq_mul_right (by omega) e)

/-! ### C94: names of the parameters -/

theorem lnui_toList (p : String) (i : ℕ) :
    (p ++ "_nui" ++ ("_" ++ toString i)).toList = (p.toList ++ ['_', 'n', 'u', 'i']) ++ '_' :: (toString i).toList := by
  simp [String.toList_append]

theorem lnui_inj {p q : String} {i j : ℕ} (h : p ++ "_nui" ++ ("_" ++ toString i) = q ++ "_nui" ++ ("_" ++ toString j)) : p = q ∧ i = j := by
  have h := congrArg String.toList h
  rw [lnui_toList, lnui_toList] at h
  obtain ⟨e1, e2⟩ := last_sep (repr_no_sep i) (repr_no_sep j) h
  refine ⟨String.toList_inj.mp (List.append_cancel_right e1), ?_⟩
  have e3 : Nat.repr i = Nat.repr j := String.toList_inj.mp e2
  exact Nat.repr_injective e3

theorem lyield_ne_nui (p q : String) (i : ℕ) : p ++ "_yield" ≠ q ++ "_nui" ++ ("_" ++ toString i) := by
  intro h
  have h := congrArg String.toList h
  rw [lnui_toList] at h
  have e3 : p.toList ++ '_' :: ['y', 'i', 'e', 'l', 'd'] = (q.toList ++ ['_', 'n', 'u', 'i']) ++ '_' :: (toString i).toList := by
    simpa [String.toList_append] using h
  obtain ⟨-, e⟩ := last_sep (by decide) (repr_no_sep i) e3
  have hd : ∀ c ∈ (toString i).toList, c.isDigit := by
    intro c hc
    have hc : c ∈ (Nat.repr i).toList := hc
    rw [Nat.toList_repr] at hc
    exact Nat.isDigit_of_mem_toDigits (by decide) (by decide) hc
  rw [← e] at hd
  exact absurd (hd 'y' (by simp)) (by decide)

/-- entry `k·n + i` of a concatenation of lists of length `n` -/
theorem flatten_block {α : Type} {n : ℕ} : ∀ (l : List (List α)), (∀ r ∈ l, r.length = n) → ∀ (k i : ℕ), i < n →
    ∀ r, l[k]? = some r → l.flatten[k * n + i]? = r[i]? := by
  intro l
  induction l with
  | nil => intro _ k i _ r h; simp at h
  | cons a l ih =>
    intro hl k i hi r h
    have ha : a.length = n := hl a (by simp)
    cases k with
    | zero =>
      simp only [List.getElem?_cons_zero, Option.some.injEq] at h
      subst h
      rw [List.flatten_cons, List.getElem?_append_left (by omega)]
      simp
    | succ k =>
      rw [List.getElem?_cons_succ] at h
      rw [List.flatten_cons, List.getElem?_append_right (by rw [ha]; nlinarith), ha,
        show (k + 1) * n + i - n = k * n + i by rw [Nat.succ_mul]; omega]
      exact ih (fun r hr => hl r (by simp [hr])) k i hi r h

/-- **C94 (aligned).** `param_names` and `x0` have the same length `m + m·n` and are aligned: position `k` is the yield of the `k`-th
template, position `m + k·n + i` its nuisance parameter of bin `i` (each template having `n` nuisance parameters). -/
theorem C94_aligned (st : Stacked) (hn : ∀ t ∈ st.list, t.nuiP.value.length = st.numBins) :
    st.paramNames.length = st.num + st.num * st.numBins ∧ st.x0.length = st.num + st.num * st.numBins ∧
    ∀ (k : ℕ) (t : LTemplate), st.list[k]? = some t →
      st.paramNames[k]? = some (t.name ++ "_yield") ∧ st.x0[k]? = some t.yieldP.value ∧
      ∀ i < st.numBins, st.paramNames[st.num + k * st.numBins + i]? = some (t.name ++ "_nui_" ++ toString i) ∧
        st.x0[st.num + k * st.numBins + i]? = t.nuiP.value[i]? := by
  have hl : st.list.length = st.num := by simp [Stacked.list, Stacked.num]
  have hx0 : st.x0 = (st.list.map fun t => t.yieldP.value) ++ (st.list.map fun t => t.nuiP.value).flatten := by
    unfold Stacked.x0 Stacked.list
    simp only [List.map_map]
    rfl
  have hlenN : ((st.list.map fun t => (List.range st.numBins).map fun i => t.name ++ "_nui" ++ ("_" ++ toString i))).flatten.length =
      st.num * st.numBins := by
    rw [List.length_flatten, List.map_map]
    rw [show (List.length ∘ fun t : LTemplate => (List.range st.numBins).map fun i => t.name ++ "_nui" ++ ("_" ++ toString i)) =
      fun _ => st.numBins by funext t; simp]
    simp [hl]
  have hlenV : (st.list.map fun t => t.nuiP.value).flatten.length = st.num * st.numBins := by
    rw [List.length_flatten, List.map_map]
    rw [show st.list.map (List.length ∘ fun t : LTemplate => t.nuiP.value) = st.list.map fun _ => st.numBins from
      List.map_congr_left fun t ht => hn t ht]
    simp [hl]
  refine ⟨?_, ?_, ?_⟩
  · unfold Stacked.paramNames
    rw [List.length_append, List.length_map, hlenN, hl]
  · rw [hx0, List.length_append, List.length_map, hlenV, hl]
  · intro k t hk
    have hkl : k < st.list.length := (List.getElem?_eq_some_iff.mp hk).1
    refine ⟨?_, ?_, fun i hi => ⟨?_, ?_⟩⟩
    · unfold Stacked.paramNames
      rw [List.getElem?_append_left (by simpa using hkl), List.getElem?_map, hk]
      rfl
    · rw [hx0, List.getElem?_append_left (by simpa using hkl), List.getElem?_map, hk]
      rfl
    · unfold Stacked.paramNames
      rw [List.getElem?_append_right (by rw [List.length_map, hl]; omega), List.length_map, hl,
        show st.num + k * st.numBins + i - st.num = k * st.numBins + i by omega,
        flatten_block (n := st.numBins) _ (by
          intro r hr
          obtain ⟨t', -, rfl⟩ := List.mem_map.mp hr
          simp) k i hi _ (by rw [List.getElem?_map, hk]; rfl), List.getElem?_map, List.getElem?_range hi]
      simp only [Option.map_some, Option.some.injEq]
      apply String.toList_inj.mp
      simp [String.toList_append]
    · rw [hx0, List.getElem?_append_right (by rw [List.length_map, hl]; omega), List.length_map, hl,
        show st.num + k * st.numBins + i - st.num = k * st.numBins + i by omega]
      exact flatten_block (n := st.numBins) _ (by
          intro r hr
          obtain ⟨t', ht', rfl⟩ := List.mem_map.mp hr
          exact hn t' ht') k i hi _ (by rw [List.getElem?_map, hk]; rfl)

/-- **C94 (unique).** The parameter names are pairwise different exactly if the names of the templates are. -/
theorem C94_unique (st : Stacked) : st.paramNames.Nodup ↔ (st.list.map (·.name)).Nodup := by
  unfold Stacked.paramNames
  constructor
  · intro h
    have h1 := (List.nodup_append.mp h).1
    rw [List.Nodup, List.pairwise_map] at h1 ⊢
    exact h1.imp fun hab e => hab (by rw [e])
  · intro h
    rw [List.Nodup, List.pairwise_map] at h
    refine List.nodup_append.mpr ⟨?_, ?_, ?_⟩
    · rw [List.Nodup, List.pairwise_map]
      refine h.imp fun hab e => hab ?_
      have := congrArg String.toList e
      simp only [String.toList_append] at this
      exact String.toList_inj.mp (List.append_cancel_right this)
    · rw [List.nodup_flatten]
      constructor
      · intro l hl
        obtain ⟨t, -, rfl⟩ := List.mem_map.mp hl
        exact List.nodup_range.map fun i j e => (lnui_inj e).2
      · rw [List.pairwise_map]
        refine h.imp fun hab n h1 h2 => ?_
        obtain ⟨i, -, rfl⟩ := List.mem_map.mp h1
        obtain ⟨j, -, e⟩ := List.mem_map.mp h2
        exact hab (lnui_inj e).1.symm
    · intro a ha b hb e
      subst e
      obtain ⟨t, -, rfl⟩ := List.mem_map.mp ha
      obtain ⟨l, hl, hb⟩ := List.mem_flatten.mp hb
      obtain ⟨t', -, rfl⟩ := List.mem_map.mp hl
      obtain ⟨i, -, e⟩ := List.mem_map.mp hb
      exact lyield_ne_nui _ _ _ e.symm

/-- in a stack filled by `create_template` only, the templates carry their ids as names -/
def NamedIds (S : ℕ) (s : LSys) : Prop := ∀ K, s.stks[S]? = some K → ∀ p ∈ K.templates, ∃ T, s.tmpls[p.2]? = some T ∧ T.name = p.1

theorem make_name {name var : String} {nb : ℤ} {lo hi : ℝ} {rows : List (Fl × Fl)} {T : LTemplate}
    (h : LTemplate.make name var nb lo hi rows = .ok T) : T.name = name := by
  unfold LTemplate.make at h
  split at h
  · cases h
  · obtain rfl := Except.ok.inj h; rfl

theorem namedIds_step {S : ℕ} {s : LSys} (h : NamedIds S s) (c : LCmd) (hc : ∀ tid t, c ≠ .addTemplate S tid t) : NamedIds S (s.step c).2 := by
  have keep : ∀ K, s.stks[S]? = some K → ∀ p ∈ K.templates, ∃ T, (s.step c).2.tmpls[p.2]? = some T ∧ T.name = p.1 := by
    intro K hK p hp
    obtain ⟨T, h1, h2⟩ := h K hK p hp
    obtain ⟨T', h3, h4, -⟩ := step_tmpls s c p.2 T h1
    exact ⟨T', h3, h4.2.2.2.2.trans h2⟩
  intro K hK
  rcases step_stks s c with e | ⟨name, var, nb, lo, hi, -, -, e⟩ | ⟨S0, K0, tid, t, T, h0, hT, -, hcc, e⟩
  · rw [e] at hK
    exact keep K hK
  · rw [e] at hK
    by_cases hlt : S < s.stks.length
    · rw [List.getElem?_append_left hlt] at hK
      exact keep K hK
    · rw [List.getElem?_append_right (not_lt.mp hlt)] at hK
      have h0 : S - s.stks.length = 0 := by
        have := (List.getElem?_eq_some_iff.mp hK).1
        simpa using this
      rw [h0] at hK
      obtain rfl := Option.some.inj hK
      intro p hp
      simp at hp
  · by_cases hS : S0 = S
    · subst hS
      rcases hcc with ⟨t0, rfl⟩ | ⟨rows, rfl⟩
      · exact absurd rfl (hc tid t0)
      · cases hm : LTemplate.make tid K0.variable_ K0.numBins K0.lo K0.hi rows with
        | error er =>
          have hst : (s.step (.createTemplate S0 tid rows)).2 = s := by
            simp only [LSys.step, h0]
            rw [hm]
          rw [hst] at hK ⊢
          exact h K hK
        | ok T1 =>
          have hst : (s.step (.createTemplate S0 tid rows)).2 = { s with
              tmpls := s.tmpls ++ [T1]
              stks := s.stks.set S0 { K0 with templates := dictSet K0.templates tid s.tmpls.length } } := by
            simp only [LSys.step, h0]
            rw [hm]
          have hlt : S0 < s.stks.length := (List.getElem?_eq_some_iff.mp h0).1
          rw [hst] at hK ⊢
          rw [hst] at keep
          simp only [List.getElem?_set_self hlt, Option.some.injEq] at hK
          subst hK
          intro p hp
          simp only at hp
          rcases dictSet_mem _ _ _ _ hp with rfl | hp'
          · exact ⟨T1, by simp, make_name hm⟩
          · exact keep K0 h0 p hp'
    · rw [e, List.getElem?_set_ne hS] at hK
      exact keep K hK

theorem namedIds_run {S : ℕ} (cmds : List LCmd) : ∀ {s : LSys}, NamedIds S s → (∀ c ∈ cmds, ∀ tid t, c ≠ .addTemplate S tid t) →
    NamedIds S (s.run cmds) := by
  induction cmds with
  | nil => intro s h _; exact h
  | cons c cs ih => intro s h hc; exact ih (namedIds_step h c (hc c (by simp))) (fun d hd => hc d (by simp [hd]))

/-- **C94 (created templates).** In a stack whose templates were all made by its `create_template`, whatever else was called, parameter names
are pairwise different. Missing: stacks filled by `add_template`, where it is false (`C94_refuted`). -/
theorem C94_created_partial (cmds : List LCmd) (S : ℕ) (hc : ∀ c ∈ cmds, ∀ tid t, c ≠ .addTemplate S tid t) (st : Stacked)
    (hst : (LSys.empty.run cmds).stack S = some st) : st.paramNames.Nodup := by
  obtain ⟨K, hK, rfl⟩ := stack_some hst
  rw [C94_unique, look_list, List.map_map]
  have hn : NamedIds S (LSys.empty.run cmds) := namedIds_run cmds (fun K h => by simp [LSys.empty] at h) hc
  have : K.templates.map ((·.name) ∘ fun p => (LSys.empty.run cmds).tmpl p.2) = K.templates.map (·.1) := by
    apply List.map_congr_left
    intro p hp
    obtain ⟨T, h1, h2⟩ := hn K hK p hp
    simp only [Function.comp]
    rw [tmpl_of h1, h2]
  rw [this]
  exact ((lwf_run cmds lwf_empty).tmpl S K hK).2.1

/-- **C94 is false in general.** Two ids may stand for templates of the same name; then two parameters have the same name. -/
theorem C94_refuted : ∃ (cmds : List LCmd) (S : ℕ) (st : Stacked), (∀ c ∈ cmds, GoodCmd c) ∧
    (LSys.empty.run cmds).stack S = some st ∧ (st.templates.map (·.1)).Nodup ∧ ¬ st.paramNames.Nodup := by
  refine ⟨Ex.cmdsTwice, 0, ⟨"x", 2, 0, 1, [("p", Ex.tmplL), ("q", Ex.tmplL)]⟩, ?_, ?_, ?_, ?_⟩
  · intro c hc
    simp only [Ex.cmdsTwice, List.mem_cons, List.not_mem_nil, or_false] at hc
    rcases hc with rfl | rfl | rfl | rfl
    · exact ⟨_, rfl⟩
    all_goals trivial
  · rw [Ex.cmdsTwice_run]; rfl
  · simp
  · rw [C94_unique]
    simp [Stacked.list]

/-- C94: a stack with two created templates of two bins has the six names -/
example : ∃ st, (LSys.empty.run Ex.cmdsAB).stack 0 = some st ∧
    st.paramNames = ["p_yield", "q_yield", "p_nui_0", "p_nui_1", "q_nui_0", "q_nui_1"] ∧ st.paramNames.Nodup := by
  have hst : (LSys.empty.run Ex.cmdsAB).stack 0 = some ⟨"x", 2, 0, 1, [("p", Ex.tmplN "p"), ("q", Ex.tmplN "q")]⟩ := by
    rw [Ex.cmdsAB_run]; rfl
  refine ⟨_, hst, ?_, C94_created_partial Ex.cmdsAB 0 (by
    intro c hc tid t
    simp only [Ex.cmdsAB, List.mem_cons, List.not_mem_nil, or_false] at hc
    rcases hc with rfl | rfl | rfl <;> simp) _ hst⟩
  rfl

/-! ### C95: Asimov closure -/

theorem x0_vec {st : Stacked} {m n : ℕ} {T : Fin m → LTemplate} (hl : st.list = List.ofFn T) {ν : Fin m → ℝ} {θ : Fin m → Fin n → ℝ}
    (hy : ∀ k, (T k).yieldP.value = .fin (ν k)) (hn : ∀ k, (T k).nuiP.value = vec (θ k)) : st.x0 = vec ν ++ nuiVec θ := by
  have hx0 : st.x0 = (st.list.map fun t => t.yieldP.value) ++ (st.list.map fun t => t.nuiP.value).flatten := by
    unfold Stacked.x0 Stacked.list
    simp only [List.map_map]
    rfl
  rw [hx0, hl, List.map_ofFn, List.map_ofFn]
  have e1 : ((fun t : LTemplate => t.yieldP.value) ∘ T) = fun k => Fl.fin (ν k) := funext hy
  have e2 : ((fun t : LTemplate => t.nuiP.value) ∘ T) = fun k => vec (θ k) := funext hn
  rw [e1, e2]
  rfl

/-- **C95.** In any reachable state take a stack whose templates have contents `cnt`, covariance matrices `C`, yields `ν` and nuisance
parameters `θ`, with positive expectations `E`. Make its Asimov data set and a likelihood of the two. At the stack's own parameters `x0` the
likelihood is the penalty of `θ` alone (zero for `θ = 0`). At any other parameters with positive expectations it is a number `≥ 0`, and zero
exactly if all nuisance parameters are zero and the expectations are those of the stack. -/
theorem C95_closure (cmds : List LCmd) (S : ℕ) (st : Stacked) (hst : (LSys.empty.run cmds).stack S = some st)
    {m n : ℕ} (hm : 0 < m) (T : Fin m → LTemplate) (cnt : Fin m → Fin n → ℝ) (C : Fin m → Matrix (Fin n) (Fin n) ℝ)
    (h : StackHas st T cnt C) (ε : Fin m → Fin n → ℝ) (hε : ∀ k i, ε k i = legacyRel (C k i i) (cnt k i))
    (ν : Fin m → ℝ) (θ : Fin m → Fin n → ℝ) (hy : ∀ k, (T k).yieldP.value = .fin (ν k)) (hn : ∀ k, (T k).nuiP.value = vec (θ k))
    (hT : ∀ k, ∑ j, cnt k j * (1 + θ k j * ε k j) ≠ 0)
    (E : Fin n → ℝ) (hE : ∀ i, E i = ∑ k, ν k * (cnt k i * (1 + θ k i * ε k i) / ∑ j, cnt k j * (1 + θ k j * ε k j)))
    (hEpos : ∀ i, 0 < E i) :
    ∃ s', s' = LSys.empty.run (cmds ++ [.stackAsimov S false, .createNll S (LSys.empty.run cmds).hists.length]) ∧
      s'.nll (LSys.empty.run cmds).nlls.length st.x0 = .ok (.fin (1 / 2 * ∑ k, (θ k) ⬝ᵥ ((corrOf (C k))⁻¹.mulVec (θ k)))) ∧
      ∀ (ν' : Fin m → ℝ) (θ' : Fin m → Fin n → ℝ), (∀ k, ∑ j, cnt k j * (1 + θ' k j * ε k j) ≠ 0) →
        ∀ E' : Fin n → ℝ, (∀ i, E' i = ∑ k, ν' k * (cnt k i * (1 + θ' k i * ε k i) / ∑ j, cnt k j * (1 + θ' k j * ε k j))) →
        (∀ i, 0 < E' i) →
        ∃ L : ℝ, s'.nll (LSys.empty.run cmds).nlls.length (vec ν' ++ nuiVec θ') = .ok (.fin L) ∧ 0 ≤ L ∧
          (L = 0 ↔ θ' = 0 ∧ E' = E) := by
  set s := LSys.empty.run cmds with hs
  have hrel : ∀ k, (T k).relErr = vec (ε k) := fun k => by
    rw [h.rel k]; congr 1; funext i; exact (hε k i).symm
  have hv : st.values = .ok (vec E) := by
    have hvk : ∀ k, (T k).values = .ok (vec fun i => ν k * frac (cnt k) (ε k) (θ k) i) := fun k =>
      lvalues_eq (h.counts k) (hrel k) (hy k) (hn k) (hT k)
    have hek : ∀ k, (T k).errors = .ok (vec fun i => ε k i * (ν k * frac (cnt k) (ε k) (θ k) i)) := fun k =>
      lerrors_eq (hrel k) (hvk k)
    rw [(C92_sums hm st T h.list _ _ hvk hek).1]
    congr 2
    funext i
    rw [hE i]
    simp only [frac_eq]
  obtain ⟨H, a, hstep, ha, -, hcnt, -⟩ := C92_asimov s S st hst E hv false
  have ha' : a = E := funext fun i => by simpa using ha i
  subst ha'
  have hrun1 : LSys.empty.run (cmds ++ [.stackAsimov S false]) = { s with hists := s.hists ++ [H] } := by
    unfold LSys.run
    rw [List.foldl_append]
    show (LSys.step s (.stackAsimov S false)).2 = _
    rw [hstep]
  have hst1 : (LSys.empty.run (cmds ++ [.stackAsimov S false])).stack S = some st := by
    rw [hrun1]; exact hst
  obtain ⟨s1, s2, e1, e2, e3⟩ := C93_value (cmds ++ [.stackAsimov S false]) S s.hists.length st hst1 (by rw [hrun1]; simp) [] (by simp)
    hm T T cnt cnt C C h
  have e2' : s2 = s1 := e2
  subst e2'
  have hs' : LSys.empty.run (cmds ++ [.stackAsimov S false, .createNll S s.hists.length]) = s2 := by
    have : cmds ++ [.stackAsimov S false, .createNll S s.hists.length] = (cmds ++ [.stackAsimov S false]) ++ [.createNll S s.hists.length] := by
      simp
    rw [this]
    unfold LSys.run
    rw [List.foldl_append]
    show (LSys.step (LSys.empty.run (cmds ++ [.stackAsimov S false])) _).2 = _
    rw [e1]
  have hs2 : s2 = { s with
      hists := s.hists ++ [H]
      nlls := s.nlls ++ [⟨s.hists.length, S, blockDiag (st.list.map (·.invCorr))⟩] } := by
    obtain ⟨K, hK, rfl⟩ := stack_some hst
    rw [hrun1] at e1
    rw [createNll_step { s with hists := s.hists ++ [H] } S s.hists.length K hK (by simp)] at e1
    exact (Prod.mk.inj e1).2.symm
  have hnl : (LSys.empty.run (cmds ++ [.stackAsimov S false])).nlls.length = s.nlls.length := by rw [hrun1]
  rw [hnl] at e3
  have e4 := e3 st H a (by rw [hs2]; exact hst) (by rw [hs2]; simp) (by rw [hcnt]) h hEpos ε hε
  refine ⟨_, rfl, ?_, ?_⟩
  · rw [hs', x0_vec h.list hy hn, e4 ν θ hT a hE hEpos]
    congr 2
    have : ∀ i, a i - a i - a i * Real.log (a i / a i) = 0 := fun i => by
      rw [div_self (hEpos i).ne', Real.log_one]; ring
    simp only [this, Finset.sum_const_zero, zero_add]
  · intro ν' θ' hT' E' hE' hEpos'
    refine ⟨_, by rw [hs']; exact e4 ν' θ' hT' E' hE' hEpos', ?_⟩
    have hp := penalty_nonneg (fun k => corrOf_posDef (h.pd k)) θ'
    have hb : ∀ i, 0 ≤ E' i - a i - a i * Real.log (E' i / a i) ∧ (E' i - a i - a i * Real.log (E' i / a i) = 0 ↔ E' i = a i) := by
      intro i
      have := poissonBin_nonneg (hEpos i).le (hEpos' i)
      unfold poissonBin at this
      rwa [if_neg (hEpos i).ne'] at this
    have hsum : 0 ≤ ∑ i, (E' i - a i - a i * Real.log (E' i / a i)) := Finset.sum_nonneg fun i _ => (hb i).1
    unfold penalty at hp
    refine ⟨add_nonneg hsum hp.1, ?_⟩
    rw [add_eq_zero_iff_of_nonneg hsum hp.1, hp.2, Finset.sum_eq_zero_iff_of_nonneg fun i _ => (hb i).1]
    constructor
    · rintro ⟨h1, h2⟩
      exact ⟨h2, funext fun i => (hb i).2.mp (h1 i (Finset.mem_univ i))⟩
    · rintro ⟨h1, h2⟩
      exact ⟨fun i _ => (hb i).2.mpr (congrFun h2 i), h1⟩

/-- C95: the hypotheses hold for the stack of one template with contents (1, 1): its own parameters give zero -/
example : ∃ s', s' = LSys.empty.run (Ex.cmds11 ++ [.stackAsimov 0 false, .createNll 0 1]) ∧ ∃ x, s'.nll 0 x = .ok (.fin 0) := by
  have hst : (LSys.empty.run Ex.cmds11).stack 0 = some ⟨"x", 2, 0, 1, [("p", Ex.tmpl11)]⟩ := by rw [Ex.cmds11_run]; rfl
  have hlen : (LSys.empty.run Ex.cmds11).hists.length = 1 := by rw [Ex.cmds11_run]; rfl
  have hlen2 : (LSys.empty.run Ex.cmds11).nlls.length = 0 := by rw [Ex.cmds11_run]; rfl
  have hsum : ∀ k : Fin 1, ∑ j : Fin 2, (fun (_ : Fin 1) (_ : Fin 2) => (1 : ℝ)) k j * (1 + (0 : Fin 1 → Fin 2 → ℝ) k j * 1) = 2 := by
    intro k; norm_num [Fin.sum_univ_two]
  obtain ⟨s', e1, e2, -⟩ := C95_closure Ex.cmds11 0 _ hst (m := 1) (n := 2) one_pos (fun _ => Ex.tmpl11) (fun _ _ => 1) (fun _ => 1)
    (has_of_linv (by simp [Stacked.list]) (fun _ => Ex.tmpl11_inv)) (fun _ _ => 1) (fun k i => by simp [legacyRel]) (fun _ => 2) 0
    (fun _ => by
      show Fl.fin _ + (Fl.fin _ + 0) = _
      simp only [Fl.zero_def, Fl.fin_add]; norm_num)
    (fun _ => by simp [Ex.tmpl11, LTemplate.new, LParam.new, vec, List.replicate, Fl.zero_def]) (fun k => by rw [hsum k]; norm_num) (fun _ => 1) (fun i => by
      simp only [hsum, Finset.univ_unique, Finset.sum_singleton]; norm_num) (fun _ => one_pos)
  rw [hlen] at e1
  rw [hlen2] at e2
  exact ⟨s', e1, _, by rw [e2]; simp⟩

/-- C93 (grown stack): putting a second template into the stack of the example makes every call of the old likelihood raise -/
example : ∃ s1 s2, (LSys.empty.run Ex.cmds11).step (.createNll 0 0) = (.ok (), s1) ∧
    s2 = s1.run [.createTemplate 0 "q" (frame Ex.rows11)] ∧ s2.nll 0 (vec fun _ : Fin 6 => 1) = .error .valueError := by
  obtain ⟨s1, s2, e1, e2, e3⟩ := C93_grown Ex.cmds11 0 0 Ex.stack11 (by rw [Ex.cmds11_run]; rfl) (by rw [Ex.cmds11_run]; simp)
    [.createTemplate 0 "q" (frame Ex.rows11)]
  refine ⟨s1, s2, e1, e2, ?_⟩
  rw [Ex.cmds11_run, createNll_step ⟨[Ex.hist11], [Ex.tmpl11], [Ex.stack11], []⟩ 0 0 Ex.stack11 rfl (by simp)] at e1
  obtain rfl := (Prod.mk.inj e1).2
  have hlen2 : (LSys.empty.run Ex.cmds11).nlls.length = 0 := by rw [Ex.cmds11_run]; rfl
  rw [hlen2] at e3
  have hm := make_eq "q" "x" (n := 2) (by norm_num) (lo := 0) (hi := 1) (by norm_num) Ex.rows11
  have hK : s2.stks[0]? = some ⟨"s", "x", 2, 0, 1, [("p", 0), ("q", 1)]⟩ := by
    rw [e2]
    show (LSys.step _ _).2.stks[0]? = _
    simp only [LSys.step, List.getElem?_cons_zero, Ex.stack11]
    rw [hm]
    simp [dictSet]
  exact e3 _ hK (by simp) (by simp [Ex.stack11]) _ (by simp [vec_length])

end

end TF.Props
