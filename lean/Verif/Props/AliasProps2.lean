import Verif.Props.AliasProps

set_option linter.unusedSimpArgs false

/-!
# Arrays handed out by histograms and templates (C141)
-/

namespace TF.Spec

open Classical

noncomputable section

/-- the action gives template `t` another parameter array (`t.params = …`, `t.reset()`) -/
def Replaces (t : ℕ) : AOp → Prop
  | .api (.setTmplParams t' _) => t' = t
  | .api (.resetTmpl t') => t' = t
  | .paramsRef t' _ => t' = t
  | _ => False

/-- the action uses array number `n` of the user: writes to it or hands it over -/
def Uses (n : ℕ) : AOp → Prop
  | .api _ => False
  | .alloc _ _ => False
  | .poke i _ => i = n
  | .binnedRef i _ _ => i = n
  | .paramsRef _ i => i = n

end

end TF.Spec

namespace TF.Props

open Classical Spec

noncomputable section

theorem allocHist_counts (s : Sys) (r : Except Err Hist) : (s.allocHist r).w.nTmpls = s.w.nTmpls ∧
    ((s.allocHist r).w.nHists = s.w.nHists ∨ (s.allocHist r).w.nHists = s.w.nHists + 1) := by
  cases r with
  | error e => exact ⟨rfl, .inl rfl⟩
  | ok x => exact ⟨rfl, .inr rfl⟩

theorem allocTmpl_counts (s : Sys) (r : Except Err Template) :
    (s.allocTmpl r).w.nTmpls = s.w.nTmpls ∨ (s.allocTmpl r).w.nTmpls = s.w.nTmpls + 1 := by
  cases r with
  | error e => exact .inl rfl
  | ok x => exact .inr rfl

theorem storeTmpl_counts (s : Sys) (k : ℕ) (r : Except Err Template) : (s.storeTmpl k r).w.nTmpls = s.w.nTmpls := by
  cases r <;> rfl

/-- how many objects there are after a call -/
theorem sysStep_counts (s : Sys) (op : Op) (hop : op.kind ≠ .none) :
    ((s.step op).w.nHists = s.w.nHists ∨ (op.kind = .newHist ∧ (s.step op).w.nHists = s.w.nHists + 1)) ∧
    ((s.step op).w.nTmpls = s.w.nTmpls ∨ (op.kind = .newTmpl ∧ (s.step op).w.nTmpls = s.w.nTmpls + 1)) := by
  cases op with
  | newHist1 b r d w => exact ⟨(allocHist_counts _ _).2.imp id fun h => ⟨rfl, h⟩, .inl (allocHist_counts _ _).1⟩
  | newHist2 b r d w => exact ⟨(allocHist_counts _ _).2.imp id fun h => ⟨rfl, h⟩, .inl (allocHist_counts _ _).1⟩
  | binned1 c e er => exact ⟨(allocHist_counts _ _).2.imp id fun h => ⟨rfl, h⟩, .inl (allocHist_counts _ _).1⟩
  | binned2 c ex ey er => exact ⟨(allocHist_counts _ _).2.imp id fun h => ⟨rfl, h⟩, .inl (allocHist_counts _ _).1⟩
  | fill k x y w => simp only [Sys.step]; split <;> exact ⟨.inl rfl, .inl rfl⟩
  | newTmpl1 n k =>
    simp only [Sys.step]
    split
    · exact ⟨.inl (allocTmpl_n _ _), (allocTmpl_counts _ _).imp id fun h => ⟨rfl, h⟩⟩
    · exact ⟨.inl rfl, .inl rfl⟩
  | newTmpl2 n k =>
    simp only [Sys.step]
    split
    · exact ⟨.inl (allocTmpl_n _ _), (allocTmpl_counts _ _).imp id fun h => ⟨rfl, h⟩⟩
    · exact ⟨.inl rfl, .inl rfl⟩
  | addVariation t x y up down => simp only [Sys.step]; split <;> exact ⟨.inl rfl, .inl rfl⟩
  | addCovMat t m => simp only [Sys.step]; split <;> exact ⟨.inl rfl, .inl rfl⟩
  | setTmplYield t v =>
    simp only [Sys.step]
    split
    · exact ⟨.inl (storeTmpl_n _ _ _), .inl (storeTmpl_counts _ _ _)⟩
    · exact ⟨.inl rfl, .inl rfl⟩
  | setTmplNui t v =>
    simp only [Sys.step]
    split
    · exact ⟨.inl (storeTmpl_n _ _ _), .inl (storeTmpl_counts _ _ _)⟩
    · exact ⟨.inl rfl, .inl rfl⟩
  | setTmplParams t v =>
    simp only [Sys.step]
    split
    · exact ⟨.inl (storeTmpl_n _ _ _), .inl (storeTmpl_counts _ _ _)⟩
    · exact ⟨.inl rfl, .inl rfl⟩
  | resetTmpl t => simp only [Sys.step]; split <;> exact ⟨.inl rfl, .inl rfl⟩
  | _ => exact absurd rfl hop

/-- no template disappears -/
theorem step_nTmpls (a : AState) (o : AOp) : a.s.w.nTmpls ≤ (a.step o).s.w.nTmpls := by
  have key : ∀ op : Op, op.kind ≠ .none → a.s.w.nTmpls ≤ (a.view.step op).w.nTmpls := by
    intro op hop
    have h1 := view_nTmpls a
    rcases (sysStep_counts a.view op hop).2 with h | ⟨-, h⟩ <;> omega
  cases o with
  | alloc v b => exact le_rfl
  | poke i v => simp only [AState.step]; split <;> exact le_rfl
  | binnedRef i e er =>
    simp only [AState.step]
    split
    · split
      · exact le_rfl
      · exact key _ (by simp [Op.kind])
    · exact le_rfl
  | paramsRef t i =>
    simp only [AState.step]
    split
    · exact key (.setTmplParams t (a.arr i).data) (by simp [Op.kind])
    · exact le_rfl
  | api op =>
    show a.s.w.nTmpls ≤ (a.api op).s.w.nTmpls
    by_cases hn : op.kind = .none
    · have : a.api op = a := by unfold AState.api; simp only [hn]
      rw [this]
    · have key := key op hn
      unfold AState.api
      cases hk : op.kind <;> simp only [] <;> first | exact absurd hk hn | exact key | (split <;> first | exact le_rfl | exact key)

/-- a template keeps its parameter array unless it is replaced -/
theorem step_pref (a : AState) (o : AOp) (t : ℕ) (ht : t < a.s.w.nTmpls) (hr : ¬ Replaces t o) : (a.step o).pref t = a.pref t := by
  cases o with
  | alloc v b => rfl
  | poke i v => simp only [AState.step]; split <;> rfl
  | binnedRef i e er =>
    simp only [AState.step]
    split
    · split <;> rfl
    · rfl
  | paramsRef t' i =>
    simp only [AState.step]
    split
    · exact Function.update_of_ne (fun h => hr h.symm) _ _
    · rfl
  | api op =>
    show (a.api op).pref t = _
    unfold AState.api
    cases hk : op.kind with
    | setParams t' v =>
      have : t' ≠ t := by
        cases op <;> simp only [Op.kind] at hk <;> first | (cases hk; done) | (cases hk; exact fun h => hr h)
      simp only
      split
      · exact Function.update_of_ne (Ne.symm this) _ _
      · rfl
    | resetParams t' =>
      have : t' ≠ t := by
        cases op <;> simp only [Op.kind] at hk <;> first | (cases hk; done) | (cases hk; exact fun h => hr h)
      simp only
      split
      · exact Function.update_of_ne (Ne.symm this) _ _
      · rfl
    | newTmpl =>
      simp only
      split
      · rfl
      · exact Function.update_of_ne (by omega) _ _
    | newHist => simp only; split <;> rfl
    | inHist => simp only; split <;> rfl
    | inTmpl => simp only; split <;> rfl
    | keep => rfl
    | none => rfl

/-- **C141, what goes wrong: counts are live.** The array read from `hist.bin_counts` shows the present contents of the histogram for ever, whatever is done afterwards: a difference
of the contents before and after a fill is always zero. -/
theorem C141_counts_live (ops : List AOp) : ∀ (a : AState) (h : ℕ), h < a.s.w.nHists →
    (a.run ops).arr (a.cref h) = ((a.run ops).view.w.hists h).counts := by
  induction ops with
  | nil => intro a h hh; exact (view_hist a hh).symm
  | cons o os ih =>
    intro a h hh
    have := ih (a.step o) h (lt_of_lt_of_le hh (step_nHists a o))
    rw [step_cref a o h hh] at this
    exact this

theorem restore_self (b : AState) (t : ℕ) (ht : t < b.s.w.nTmpls) : (b.step (.paramsRef t (b.pref t))).view = b.view := by
  simp only [AState.step]
  split
  · rename_i hc
    have hr : b.view.step (.setTmplParams t (b.arr (b.pref t)).data) = b.view := by
      have e : (b.arr (b.pref t)).data = (b.view.w.tmpls t).params := (view_tmpl b ht).symm
      simp only [Sys.step]
      rw [if_pos (show t < b.view.w.nTmpls from ht), e]
      have : (b.view.w.tmpls t).setParams (b.view.w.tmpls t).params = .ok (b.view.w.tmpls t) := by
        unfold Template.setParams; simp
      rw [this]
      exact setTmpl_self b.view t
    rw [hr]
    have e2 : Function.update b.pref t (b.pref t) = b.pref := Function.update_eq_self _ _
    rw [e2]
    refine sys_ext ?_ rfl ?_ rfl rfl rfl rfl rfl rfl rfl
    · intro h
      simp only [AState.view]
      split <;> simp_all
    · intro t
      simp only [AState.view]
      split <;> simp_all
  · rfl

/-- **C141, what goes wrong: parameters are live.** The array read from `template.params` shows the present parameters of the template as long as it gets no other array, whatever else is
done (yield and nuisance setters, fits with update); and handing it back (`template.params = saved`) changes nothing at all: nothing is restored. -/
theorem C141_params_live (ops : List AOp) : ∀ (a : AState) (t : ℕ), t < a.s.w.nTmpls → (∀ o ∈ ops, ¬ Replaces t o) →
    ((a.run ops).arr (a.pref t)).data = ((a.run ops).view.w.tmpls t).params ∧
    ((a.run ops).step (.paramsRef t (a.pref t))).view = (a.run ops).view := by
  induction ops with
  | nil => intro a t ht _; exact ⟨(view_tmpl a ht).symm, restore_self a t ht⟩
  | cons o os ih =>
    intro a t ht hr
    have := ih (a.step o) t (lt_of_lt_of_le ht (step_nTmpls a o)) (fun q hq => hr q (List.mem_cons_of_mem _ hq))
    rw [step_pref a o t ht (hr o (by simp))] at this
    exact this

/-- **C141, what goes wrong: writing.** What is written into an array read from `bin_counts` or `params` is written into the histogram or template, without any check. -/
theorem C141_writes (a : AState) (v : NdArr) :
    (∀ h < a.s.w.nHists, a.cref h < a.nArr → v.shape = (a.arr (a.cref h)).shape →
      ((a.step (.poke (a.cref h) v)).view.w.hists h).counts = storeIn (a.isInt (a.cref h)) v) ∧
    ∀ t < a.s.w.nTmpls, a.pref t < a.nArr → v.shape = (a.arr (a.pref t)).shape →
      ((a.step (.poke (a.pref t) v)).view.w.tmpls t).params = (storeIn (a.isInt (a.pref t)) v).data := by
  constructor
  · intro h hh hn hs
    have e : a.step (.poke (a.cref h) v) = { a with arr := Function.update a.arr (a.cref h) (storeIn (a.isInt (a.cref h)) v) } := by
      simp only [AState.step]; rw [if_pos ⟨hn, hs⟩]
    rw [view_hist _ (by rw [e]; exact hh), e]
    simp
  · intro t ht hn hs
    have e : a.step (.poke (a.pref t) v) = { a with arr := Function.update a.arr (a.pref t) (storeIn (a.isInt (a.pref t)) v) } := by
      simp only [AState.step]; rw [if_pos ⟨hn, hs⟩]
    rw [view_tmpl _ (by rw [e]; exact ht), e]
    simp

/-! ### copies -/

/-- an array that belongs to no object and is not used keeps its content, and stays with the user -/
theorem private_step (a : AState) (o : AOp) (n : ℕ) (hn : n < a.nArr) (hr : ¬ Referenced a n) (hu : ¬ Uses n o) :
    (a.step o).arr n = a.arr n ∧ n < (a.step o).nArr ∧ ¬ Referenced (a.step o) n ∧ (a.step o).isInt n = a.isInt n := by
  have r1 : ∀ h < a.s.w.nHists, a.cref h ≠ n := fun h hh e => hr (.inl ⟨h, hh, e⟩)
  have r2 : ∀ t < a.s.w.nTmpls, a.pref t ≠ n := fun h hh e => hr (.inr ⟨h, hh, e⟩)
  cases o with
  | alloc v b =>
    refine ⟨Function.update_of_ne (by omega) _ _, Nat.lt_succ_of_lt hn, hr, Function.update_of_ne (by omega) _ _⟩
  | poke i v =>
    have hi : n ≠ i := fun h => hu h.symm
    simp only [AState.step]
    split
    · exact ⟨Function.update_of_ne hi _ _, hn, hr, rfl⟩
    · exact ⟨rfl, hn, hr, rfl⟩
  | binnedRef i e er =>
    have hi : i ≠ n := hu
    simp only [AState.step]
    split
    · split
      · exact ⟨rfl, hn, hr, rfl⟩
      · rename_i hne
        refine ⟨rfl, hn, ?_, rfl⟩
        obtain ⟨k1, k2⟩ := sysStep_counts a.view (.binned1 (a.arr i) e er) (by simp [Op.kind])
        rw [view_nHists] at k1
        rw [view_nTmpls] at k2
        rintro (⟨h, hh, e⟩ | ⟨t, ht, e⟩)
        · by_cases hl : h = a.s.w.nHists
          · subst hl
            simp only [Function.update_self] at e
            exact hi e
          · simp only at e hh
            rw [Function.update_of_ne hl] at e
            exact r1 h (by omega) e
        · simp only [Op.kind] at e ht k2
          exact r2 t (by simp at k2; omega) e
    · exact ⟨rfl, hn, hr, rfl⟩
  | paramsRef t i =>
    have hi : i ≠ n := hu
    simp only [AState.step]
    split
    · rename_i hc
      refine ⟨rfl, hn, ?_, rfl⟩
      obtain ⟨k1, k2⟩ := sysStep_counts a.view (.setTmplParams t (a.arr i).data) (by simp [Op.kind])
      rw [view_nHists] at k1
      rw [view_nTmpls] at k2
      simp only [Op.kind] at k1 k2
      rintro (⟨h, hh, e⟩ | ⟨t', ht, e⟩)
      · exact r1 h (by simp at k1 hh; omega) e
      · by_cases hl : t' = t
        · subst hl
          simp only [Function.update_self] at e
          exact hi e
        · simp only at e ht
          rw [Function.update_of_ne hl] at e
          exact r2 t' (by simp at k2; omega) e
    · exact ⟨rfl, hn, hr, rfl⟩
  | api op =>
    refine ⟨C89_user_arrays a op n hn hr, ?_⟩
    show n < (a.api op).nArr ∧ ¬ Referenced (a.api op) n ∧ (a.api op).isInt n = a.isInt n
    by_cases hnone : op.kind = .none
    · have : a.api op = a := by unfold AState.api; simp only [hnone]
      rw [this]; exact ⟨hn, hr, rfl⟩
    · obtain ⟨k1, k2⟩ := sysStep_counts a.view op hnone
      rw [view_nHists] at k1
      rw [view_nTmpls] at k2
      unfold AState.api
      cases hk : op.kind with
      | none => exact absurd hk hnone
      | newHist =>
        simp only [hk] at k1 k2
        simp only
        split
        · exact ⟨hn, hr, rfl⟩
        · refine ⟨Nat.lt_succ_of_lt hn, ?_, Function.update_of_ne (by omega) _ _⟩
          rintro (⟨h, hh, e⟩ | ⟨t, ht, e⟩)
          · by_cases hl : h = a.s.w.nHists
            · subst hl
              simp only [Function.update_self] at e
              omega
            · simp only at e hh
              rw [Function.update_of_ne hl] at e
              exact r1 h (by simp at k1; omega) e
          · simp only at e ht
            exact r2 t (by simp at k2; omega) e
      | inHist h0 =>
        simp only [hk] at k1 k2
        simp only
        split
        · refine ⟨hn, ?_, by rfl⟩
          rintro (⟨h, hh, e⟩ | ⟨t, ht, e⟩)
          · exact r1 h (by simp at k1 hh; omega) e
          · exact r2 t (by simp at k2 ht; omega) e
        · exact ⟨hn, hr, rfl⟩
      | newTmpl =>
        simp only [hk] at k1 k2
        simp only
        split
        · exact ⟨hn, hr, rfl⟩
        · refine ⟨Nat.lt_succ_of_lt hn, ?_, Function.update_of_ne (by omega) _ _⟩
          rintro (⟨h, hh, e⟩ | ⟨t, ht, e⟩)
          · simp only at e hh
            exact r1 h (by simp at k1; omega) e
          · by_cases hl : t = a.s.w.nTmpls
            · subst hl
              simp only [Function.update_self] at e
              omega
            · simp only at e ht
              rw [Function.update_of_ne hl] at e
              exact r2 t (by simp at k2; omega) e
      | inTmpl t0 =>
        simp only [hk] at k1 k2
        simp only
        split
        · refine ⟨hn, ?_, by rfl⟩
          rintro (⟨h, hh, e⟩ | ⟨t, ht, e⟩)
          · exact r1 h (by simp at k1 hh; omega) e
          · exact r2 t (by simp at k2 ht; omega) e
        · exact ⟨hn, hr, rfl⟩
      | keep =>
        simp only [hk] at k1 k2
        simp only
        refine ⟨hn, ?_, by first | rfl | trivial⟩
        rintro (⟨h, hh, e⟩ | ⟨t, ht, e⟩)
        · exact r1 h (by simp at k1 hh; omega) e
        · exact r2 t (by simp at k2 ht; omega) e
      | setParams t0 v =>
        simp only [hk] at k1 k2
        simp only
        split
        · refine ⟨Nat.lt_succ_of_lt hn, ?_, Function.update_of_ne (by omega) _ _⟩
          rintro (⟨h, hh, e⟩ | ⟨t, ht, e⟩)
          · exact r1 h (by simp at k1 hh; omega) e
          · by_cases hl : t = t0
            · subst hl
              simp only [Function.update_self] at e
              omega
            · simp only at e ht
              rw [Function.update_of_ne hl] at e
              exact r2 t (by simp at k2; omega) e
        · exact ⟨hn, hr, rfl⟩
      | resetParams t0 =>
        simp only [hk] at k1 k2
        simp only
        split
        · refine ⟨Nat.lt_succ_of_lt hn, ?_, Function.update_of_ne (by omega) _ _⟩
          rintro (⟨h, hh, e⟩ | ⟨t, ht, e⟩)
          · exact r1 h (by simp at k1 hh; omega) e
          · by_cases hl : t = t0
            · subst hl
              simp only [Function.update_self] at e
              omega
            · simp only at e ht
              rw [Function.update_of_ne hl] at e
              exact r2 t (by simp at k2; omega) e
        · exact ⟨hn, hr, rfl⟩

theorem private_run (ops : List AOp) : ∀ (a : AState) (n : ℕ), n < a.nArr → ¬ Referenced a n → (∀ o ∈ ops, ¬ Uses n o) →
    (a.run ops).arr n = a.arr n ∧ n < (a.run ops).nArr ∧ ¬ Referenced (a.run ops) n ∧ (a.run ops).isInt n = a.isInt n := by
  induction ops with
  | nil => intro a n h1 h2 _; exact ⟨rfl, h1, h2, rfl⟩
  | cons o os ih =>
    intro a n h1 h2 h3
    obtain ⟨p1, p2, p3, p4⟩ := private_step a o n h1 h2 (h3 o (by simp))
    obtain ⟨q1, q2, q3, q4⟩ := ih (a.step o) n p2 p3 (fun q hq => h3 q (List.mem_cons_of_mem _ hq))
    exact ⟨q1.trans p1, q2, q3, q4.trans p4⟩

/-- handing over an array of the user -/
theorem restore_from (b : AState) (t n : ℕ) (v : Vec) (ht : t < b.s.w.nTmpls) (hn : n < b.nArr) (hv : b.arr n = NdArr.of1d v)
    (hl : v.length = (b.view.w.tmpls t).params.length) :
    ((b.step (.paramsRef t n)).view.w.tmpls t).params = v ∧
    (∀ j < b.s.w.nTmpls, j ≠ t → ((b.step (.paramsRef t n)).view.w.tmpls j).params = (b.view.w.tmpls j).params) ∧
    ∀ h < b.s.w.nHists, ((b.step (.paramsRef t n)).view.w.hists h).counts = (b.view.w.hists h).counts := by
  rw [view_tmpl b ht] at hl
  have e : b.step (.paramsRef t n) = { b with s := b.view.step (.setTmplParams t (b.arr n).data), pref := Function.update b.pref t n } := by
    simp only [AState.step]
    rw [if_pos ⟨ht, hn, by rw [hv]; rfl, by rw [hv]; exact hl⟩]
  obtain ⟨k1, k2⟩ := sysStep_counts b.view (.setTmplParams t (b.arr n).data) (by simp [Op.kind])
  rw [view_nHists] at k1
  rw [view_nTmpls] at k2
  have n1 : (b.step (.paramsRef t n)).s.w.nHists = b.s.w.nHists := by
    rw [e]; rcases k1 with h | ⟨h, -⟩
    · exact h
    · cases h
  have n2 : (b.step (.paramsRef t n)).s.w.nTmpls = b.s.w.nTmpls := by
    rw [e]; rcases k2 with h | ⟨h, -⟩
    · exact h
    · cases h
  refine ⟨?_, ?_, ?_⟩
  · rw [view_tmpl _ (by rw [n2]; exact ht), e]
    simp only [Function.update_self]
    rw [hv]; rfl
  · intro j hj hne
    rw [view_tmpl _ (by rw [n2]; exact hj), view_tmpl b hj, e]
    simp only
    rw [Function.update_of_ne hne]
  · intro h hh
    rw [view_hist _ (by rw [n1]; exact hh), view_hist b hh, e]

/-- **C141, partial: copies.** Save a copy of the parameters of a template (`saved = t.params.copy()`). After any program that does not use this copy - any fills, setters, resets of any
objects, writes into any other arrays - `t.params = saved` gives the template exactly the parameters it had, and changes no other object. (The number of parameters must be the same,
else the setter raises.) -/
theorem C141_copy_partial (a : AState) (t : ℕ) (ht : t < a.s.w.nTmpls) (hlt : ∀ h < a.s.w.nHists, a.cref h < a.nArr)
    (hlt' : ∀ j < a.s.w.nTmpls, a.pref j < a.nArr) (ops : List AOp) (hu : ∀ o ∈ ops, ¬ Uses a.nArr o)
    (b : AState) (hb : b = (a.step (.alloc (NdArr.of1d (a.view.w.tmpls t).params) false)).run ops)
    (hl : (b.view.w.tmpls t).params.length = (a.view.w.tmpls t).params.length) :
    ((b.step (.paramsRef t a.nArr)).view.w.tmpls t).params = (a.view.w.tmpls t).params ∧
    (∀ j < b.s.w.nTmpls, j ≠ t → ((b.step (.paramsRef t a.nArr)).view.w.tmpls j).params = (b.view.w.tmpls j).params) ∧
    ∀ h < b.s.w.nHists, ((b.step (.paramsRef t a.nArr)).view.w.hists h).counts = (b.view.w.hists h).counts := by
  have hr : ¬ Referenced (a.step (.alloc (NdArr.of1d (a.view.w.tmpls t).params) false)) a.nArr := by
    rintro (⟨h, hh, e⟩ | ⟨j, hj, e⟩)
    · have := hlt h hh; have e : a.cref h = a.nArr := e; omega
    · have := hlt' j hj; have e : a.pref j = a.nArr := e; omega
  obtain ⟨p1, p2, p3, p4⟩ := private_run ops _ a.nArr (Nat.lt_succ_self _) hr hu
  rw [← hb] at p1 p2 p3 p4
  have hmono : ∀ (ops : List AOp) (c : AState), c.s.w.nTmpls ≤ (c.run ops).s.w.nTmpls := by
    intro ops
    induction ops with
    | nil => intro c; exact le_rfl
    | cons o os ih => intro c; exact (step_nTmpls c o).trans (ih (c.step o))
  have htb : t < b.s.w.nTmpls := by
    rw [hb]
    exact lt_of_lt_of_le (show t < (a.step (.alloc (NdArr.of1d (a.view.w.tmpls t).params) false)).s.w.nTmpls from ht) (hmono ops _)
  exact restore_from b t a.nArr _ htb p2 (by
    rw [p1]
    show Function.update a.arr a.nArr (storeIn false _) a.nArr = _
    rw [Function.update_self]; rfl) hl.symm

/-- **C141, partial: reset.** An array read from `template.params` that no other object uses is left alone after `template.reset()`: after any program that does not use it,
`template.params = saved` gives the template exactly the parameters it had when the array was read. -/
theorem C141_reset_partial (a : AState) (t : ℕ) (ht : t < a.s.w.nTmpls) (hlt : a.pref t < a.nArr)
    (hun : (∀ h < a.s.w.nHists, a.cref h ≠ a.pref t) ∧ ∀ j < a.s.w.nTmpls, j ≠ t → a.pref j ≠ a.pref t)
    (h1d : (a.arr (a.pref t)).shape = [(a.arr (a.pref t)).data.length])
    (ops : List AOp) (hu : ∀ o ∈ ops, ¬ Uses (a.pref t) o) (b : AState) (hb : b = (a.step (.api (.resetTmpl t))).run ops)
    (hl : (b.view.w.tmpls t).params.length = (a.view.w.tmpls t).params.length) :
    ((b.step (.paramsRef t (a.pref t))).view.w.tmpls t).params = (a.view.w.tmpls t).params := by
  obtain ⟨k1, k2⟩ := sysStep_counts a.view (.resetTmpl t) (by simp [Op.kind])
  rw [view_nHists] at k1
  rw [view_nTmpls] at k2
  simp only [Op.kind] at k1 k2
  have e : a.step (.api (.resetTmpl t)) = { a with
      s := a.view.step (.resetTmpl t)
      arr := Function.update a.arr a.nArr (NdArr.of1d ((a.view.step (.resetTmpl t)).w.tmpls t).params)
      isInt := Function.update a.isInt a.nArr false
      nArr := a.nArr + 1
      pref := Function.update a.pref t a.nArr } := by
    simp only [AState.step]
    unfold AState.api
    simp only [Op.kind]
    rw [if_pos ht]
  have hr : ¬ Referenced (a.step (.api (.resetTmpl t))) (a.pref t) := by
    rw [e]
    rintro (⟨h, hh, e⟩ | ⟨j, hj, e⟩)
    · exact hun.1 h (by simp at k1 hh; omega) e
    · by_cases hl : j = t
      · subst hl
        simp only [Function.update_self] at e
        omega
      · simp only at e hj
        rw [Function.update_of_ne hl] at e
        exact hun.2 j (by simp at k2; omega) hl e
  have ha : (a.step (.api (.resetTmpl t))).arr (a.pref t) = a.arr (a.pref t) := by
    rw [e]; exact Function.update_of_ne (by omega) _ _
  obtain ⟨p1, p2, p3, p4⟩ := private_run ops _ (a.pref t) (by rw [e]; exact Nat.lt_succ_of_lt hlt) hr hu
  rw [← hb] at p1 p2 p3 p4
  have hmono : ∀ (ops : List AOp) (c : AState), c.s.w.nTmpls ≤ (c.run ops).s.w.nTmpls := by
    intro ops
    induction ops with
    | nil => intro c; exact le_rfl
    | cons o os ih => intro c; exact (step_nTmpls c o).trans (ih (c.step o))
  have htb : t < b.s.w.nTmpls := by
    rw [hb]; exact lt_of_lt_of_le (lt_of_lt_of_le ht (step_nTmpls a _)) (hmono ops _)
  refine (restore_from b t (a.pref t) (a.view.w.tmpls t).params htb p2 ?_ hl.symm).1
  rw [p1, ha, view_tmpl a ht]
  show a.arr (a.pref t) = ⟨[(a.arr (a.pref t)).data.length], (a.arr (a.pref t)).data⟩
  rw [← h1d]

/-! ### The claim is refuted, examples -/

/-- a template of the histogram `Ex.h5` -/
def Ex.t5 : Template :=
  { cls := .t1, name := "t", hist := 0
    flatCounts := Ex.h5.counts.data, flatErrSq := Ex.h5.errSq.data
    bins := Ex.h5.shape, numBins := 1, range := Ex.h5.range
    params := initParams 1 Ex.h5
    cov := Mat.diagOf (statErrSq Ex.h5.errSq.data)
    covMats := [Mat.diagOf (statErrSq Ex.h5.errSq.data)]
    corr := Mat.diagOf (List.replicate 1 1), invCorr := Mat.diagOf (List.replicate 1 1)
    relErr := relErrs (Mat.diagOf (statErrSq Ex.h5.errSq.data)) Ex.h5.counts.data }

theorem Ex.t5_eq : Template1d.new "t" 0 Ex.h5 = .ok Ex.t5 := by
  unfold Template1d.new
  show Template.build .t1 "t" 0 Ex.h5 1 = _
  unfold Template.build
  rw [if_pos ⟨rfl, rfl⟩]
  rfl

theorem Ex.t5_params : Ex.t5.params = [.fin 5, .fin 0] := by
  show initParams 1 Ex.h5 = _
  simp [initParams, Ex.h5, Hist.setBinned, npSum]
  rfl

/-- a histogram and its template -/
def Ex.b1 : AState :=
  { Ex.a1 with
    s := { Ex.a1.view with w := (Ex.a1.view.w.newTmpl Ex.t5).2 }
    arr := Function.update Ex.a1.arr 1 (NdArr.of1d [.fin 5, .fin 0])
    isInt := Function.update Ex.a1.isInt 1 false
    nArr := 2
    pref := Function.update Ex.a1.pref 0 1 }

theorem Ex.a1_hist : Ex.a1.view.w.hists 0 = Ex.h5 := by
  simp [Ex.a1, Ex.a0, AState.view, AState.step, AState.init, Sys.init, World.init, World.newHist, storeIn, Ex.h5,
    Hist.setBinned]

theorem Ex.b1_step : Ex.a1.step (.api (.newTmpl1 "t" 0)) = Ex.b1 := by
  have hr : Ex.a1.view.step (.newTmpl1 "t" 0) = { Ex.a1.view with w := (Ex.a1.view.w.newTmpl Ex.t5).2 } := by
    simp only [Sys.step]
    rw [if_pos (show 0 < Ex.a1.view.w.nHists from Nat.one_pos), Ex.a1_hist, Ex.t5_eq]
    rfl
  simp only [AState.step]
  unfold AState.api
  simp only [Op.kind, hr]
  rw [if_neg (show ¬ (Ex.a1.view.w.newTmpl Ex.t5).2.nTmpls = Ex.a1.s.w.nTmpls from Nat.succ_ne_self _)]
  have e : ((Ex.a1.view.w.newTmpl Ex.t5).2.tmpls Ex.a1.s.w.nTmpls).params = [.fin 5, .fin 0] := by
    rw [← Ex.t5_params]
    refine congrArg Template.params ?_
    exact Function.update_self (β := fun _ => Template) Ex.a1.view.w.nTmpls Ex.t5 Ex.a1.view.w.tmpls
  rw [e]
  rfl

/-- `a = np.array([5.]); h = Hist1d.from_binned_data(a, (0, 1)); t = Template1d("t", ..., h)` -/
def Ex.oneTmpl : List AOp := [.alloc ⟨[1], [.fin 5]⟩ false, .binnedRef 0 ⟨true, [0, 1]⟩ none, .api (.newTmpl1 "t" 0)]

theorem Ex.one_run : AState.init.run Ex.oneTmpl = Ex.b1 := by
  show (Ex.a0.step (.binnedRef 0 ⟨true, [0, 1]⟩ none)).step (.api (.newTmpl1 "t" 0)) = _
  rw [Ex.a0_step, Ex.b1_step]

theorem Ex.b1_n : Ex.b1.s.w.nTmpls = 1 ∧ Ex.b1.s.w.nHists = 1 ∧ Ex.b1.pref 0 = 1 ∧ Ex.b1.cref 0 = 0 ∧ Ex.b1.isInt 1 = false ∧
    Ex.b1.nArr = 2 := ⟨rfl, rfl, rfl, rfl, rfl, rfl⟩

theorem Ex.b1_arr : Ex.b1.arr 1 = NdArr.of1d [.fin 5, .fin 0] := by simp [Ex.b1]

theorem Ex.b1_params : (Ex.b1.view.w.tmpls 0).params = [.fin 5, .fin 0] := by
  rw [view_tmpl Ex.b1 (show 0 < Ex.b1.s.w.nTmpls from Nat.one_pos)]
  rw [Ex.b1_n.2.2.1, Ex.b1_arr]; rfl

/-- **C141 is refuted.** `saved = t.params` reads `[5, 0]`; after `t.yield_param = 7.0` the saved array reads `[7, 0]`, and `t.params = saved` does not bring the old yield back: the
template keeps the yield 7. -/
theorem C141_refuted :
    (Ex.b1.view.w.tmpls 0).params = [.fin 5, .fin 0] ∧
    (AState.init.run (Ex.oneTmpl ++ [.api (.setTmplYield 0 (.float (.fin 7)))])).arr (Ex.b1.pref 0) = NdArr.of1d [.fin 7, .fin 0] ∧
    ((AState.init.run (Ex.oneTmpl ++ [.api (.setTmplYield 0 (.float (.fin 7))), .paramsRef 0 (Ex.b1.pref 0)])).view.w.tmpls 0).params =
      [.fin 7, .fin 0] := by
  have h1 : (Ex.b1.step (.api (.setTmplYield 0 (.float (.fin 7))))).arr (Ex.b1.pref 0) = NdArr.of1d [.fin 7, .fin 0] := by
    simp only [AState.step]
    unfold AState.api
    simp only [Op.kind]
    rw [if_pos ⟨Nat.one_pos, by simp [Ex.b1_n.2.2.2.2.1, Ex.b1_n.2.2.1]⟩]
    simp only
    rw [Function.update_self, Ex.b1_n.2.2.1, Ex.b1_n.2.2.2.2.1]
    have : ((Ex.b1.view.step (.setTmplYield 0 (.float (.fin 7)))).w.tmpls 0).params = [.fin 7, .fin 0] := by
      simp only [Sys.step]
      rw [if_pos (show 0 < Ex.b1.view.w.nTmpls from Nat.one_pos)]
      refine (congrArg Template.params (Function.update_self (β := fun _ => Template) 0 { Ex.b1.view.w.tmpls 0 with
        params := .fin 7 :: (Ex.b1.view.w.tmpls 0).params.tail } Ex.b1.view.w.tmpls)).trans ?_
      show (.fin 7 :: (Ex.b1.view.w.tmpls 0).params.tail : Vec) = _
      rw [Ex.b1_params]; rfl
    rw [this]; rfl
  have e1 : AState.init.run (Ex.oneTmpl ++ [.api (.setTmplYield 0 (.float (.fin 7)))]) =
      Ex.b1.step (.api (.setTmplYield 0 (.float (.fin 7)))) := by
    rw [← Ex.one_run]; rfl
  have e2 : AState.init.run (Ex.oneTmpl ++ [.api (.setTmplYield 0 (.float (.fin 7))), .paramsRef 0 (Ex.b1.pref 0)]) =
      (Ex.b1.run [.api (.setTmplYield 0 (.float (.fin 7)))]).step (.paramsRef 0 (Ex.b1.pref 0)) := by
    rw [← Ex.one_run]; rfl
  obtain ⟨l1, l2⟩ := C141_params_live [.api (.setTmplYield 0 (.float (.fin 7)))] Ex.b1 0 Nat.one_pos (by simp [Replaces])
  refine ⟨Ex.b1_params, by rw [e1]; exact h1, ?_⟩
  rw [e2, l2, ← l1]
  exact (congrArg NdArr.data h1)

/-- the hypotheses of `C141_copy_partial` and `C141_reset_partial` are met -/
example : (∀ h < Ex.b1.s.w.nHists, Ex.b1.cref h < Ex.b1.nArr) ∧ (∀ j < Ex.b1.s.w.nTmpls, Ex.b1.pref j < Ex.b1.nArr) ∧
    ((∀ h < Ex.b1.s.w.nHists, Ex.b1.cref h ≠ Ex.b1.pref 0) ∧ ∀ j < Ex.b1.s.w.nTmpls, j ≠ 0 → Ex.b1.pref j ≠ Ex.b1.pref 0) ∧
    (Ex.b1.arr (Ex.b1.pref 0)).shape = [(Ex.b1.arr (Ex.b1.pref 0)).data.length] ∧
    (∀ o ∈ [AOp.api (.setTmplYield 0 (.float (.fin 7))), .api (.fill 0 [.fin (1 / 2)] [] .none)], ¬ Uses (Ex.b1.pref 0) o) ∧
    ((((Ex.b1.step (.alloc (NdArr.of1d (Ex.b1.view.w.tmpls 0).params) false)).run []).step (.paramsRef 0 2)).view.w.tmpls 0).params =
      [.fin 5, .fin 0] := by
  obtain ⟨b1, b2, b3, b4, b5, b6⟩ := Ex.b1_n
  have e0 : ∀ h < Ex.b1.s.w.nHists, h = 0 := fun h hh => by omega
  have e1 : ∀ h < Ex.b1.s.w.nTmpls, h = 0 := fun h hh => by omega
  refine ⟨fun h hh => by rw [e0 h hh, b4, b6]; norm_num, fun h hh => by rw [e1 h hh, b3, b6]; norm_num,
    ⟨fun h hh => by rw [e0 h hh, b4, b3]; norm_num, fun j hj hn => absurd (e1 j hj) hn⟩, ?_, ?_, ?_⟩
  · rw [b3, Ex.b1_arr]; rfl
  · simp [Uses]
  · rw [← Ex.b1_params]
    exact (C141_copy_partial Ex.b1 0 Nat.one_pos (fun h hh => by rw [e0 h hh, b4, b6]; norm_num)
      (fun h hh => by rw [e1 h hh, b3, b6]; norm_num) [] (by simp) _ rfl (by
        have h2 : 0 < (Ex.b1.step (.alloc (NdArr.of1d (Ex.b1.view.w.tmpls 0).params) false)).s.w.nTmpls := Nat.one_pos
        show ((Ex.b1.step (.alloc (NdArr.of1d (Ex.b1.view.w.tmpls 0).params) false)).view.w.tmpls 0).params.length = _
        rw [view_tmpl _ h2, view_tmpl Ex.b1 Nat.one_pos]
        have : (Ex.b1.step (.alloc (NdArr.of1d (Ex.b1.arr (Ex.b1.pref 0)).data) false)).arr (Ex.b1.pref 0) = Ex.b1.arr (Ex.b1.pref 0) :=
          Function.update_of_ne (β := fun _ => NdArr) (a := Ex.b1.pref 0) (a' := Ex.b1.nArr) (by rw [b3, b6]; norm_num)
            (storeIn false (NdArr.of1d (Ex.b1.arr (Ex.b1.pref 0)).data)) Ex.b1.arr
        exact congrArg (fun v => v.data.length) this)).1

end

end TF.Props
