import Verif.Props.LegacySysProps
import Verif.Lemmas.Total

set_option linter.unusedSimpArgs false

/-!
# Legacy stacks over histories of calls (C92)
-/

namespace TF.Props

open Classical Spec
open scoped Matrix

noncomputable section

/-! ### the setters on objects and on values -/

/-- the four setters of `Stacked` in one -/
def setG {α : Type} (f : LTemplate → α → LTemplate) : List (String × LTemplate) → List α → List (String × LTemplate)
  | (k, t) :: ts, v :: vs => (k, f t v) :: setG f ts vs
  | ts, _ => ts

theorem setG_yields (ts : List (String × LTemplate)) : ∀ vs, setG LTemplate.setYield ts vs = setYields ts vs := by
  induction ts with
  | nil => intro vs; cases vs <;> rfl
  | cons p ts ih => intro vs; cases vs with
    | nil => rfl
    | cons v vs => simp only [setG, setYields, ih]; rfl

theorem setG_yieldErrs (ts : List (String × LTemplate)) : ∀ vs, setG LTemplate.setYieldErr ts vs = setYieldErrs ts vs := by
  induction ts with
  | nil => intro vs; cases vs <;> rfl
  | cons p ts ih => intro vs; cases vs with
    | nil => rfl
    | cons v vs => simp only [setG, setYieldErrs, ih]; rfl

theorem setG_nuis (ts : List (String × LTemplate)) : ∀ vs, setG LTemplate.setNui ts vs = setNuis ts vs := by
  induction ts with
  | nil => intro vs; cases vs <;> rfl
  | cons p ts ih => intro vs; cases vs with
    | nil => rfl
    | cons v vs => simp only [setG, setNuis, ih]; rfl

theorem setG_nuiErrs (ts : List (String × LTemplate)) : ∀ vs, setG LTemplate.setNuiErr ts vs = setNuiErrs ts vs := by
  induction ts with
  | nil => intro vs; cases vs <;> rfl
  | cons p ts ih => intro vs; cases vs with
    | nil => rfl
    | cons v vs => simp only [setG, setNuiErrs, ih]; rfl

theorem setAll_length {α : Type} (f : LTemplate → α → LTemplate) : ∀ (ids : List ℕ) (vs : List α) (ts : List LTemplate),
    (setAll f ids vs ts).length = ts.length := by
  intro ids
  induction ids with
  | nil => intro vs ts; simp [setAll]
  | cons i is ih =>
    intro vs ts
    cases vs with
    | nil => simp [setAll]
    | cons v vs => simp [setAll, ih]

theorem setAll_other {α : Type} (f : LTemplate → α → LTemplate) : ∀ (ids : List ℕ) (vs : List α) (ts : List LTemplate) (j : ℕ),
    j ∉ ids → (setAll f ids vs ts)[j]? = ts[j]? := by
  intro ids
  induction ids with
  | nil => intro vs ts j _; simp [setAll]
  | cons i is ih =>
    intro vs ts j hj
    cases vs with
    | nil => simp [setAll]
    | cons v vs =>
      simp only [setAll]
      rw [ih _ _ _ (fun h => hj (by simp [h])), List.getElem?_modify]
      have : i ≠ j := fun h => hj (by simp [h])
      simp [this]

/-- the dict entries with the templates they refer to -/
def lookIn (ts : List LTemplate) (d : List (String × ℕ)) : List (String × LTemplate) :=
  d.map fun p => (p.1, ts.getD p.2 LTemplate.dummy)

theorem lookIn_congr {ts us : List LTemplate} {d : List (String × ℕ)} (h : ∀ p ∈ d, ts[p.2]? = us[p.2]?) :
    lookIn ts d = lookIn us d := by
  unfold lookIn
  apply List.map_congr_left
  intro p hp
  simp only [List.getD_eq_getElem?_getD, h p hp]

theorem lookIn_setAll {α : Type} (f : LTemplate → α → LTemplate) : ∀ (d : List (String × ℕ)) (vs : List α) (ts : List LTemplate),
    (d.map (·.2)).Nodup → (∀ p ∈ d, p.2 < ts.length) →
    lookIn (setAll f (d.map (·.2)) vs ts) d = setG f (lookIn ts d) vs := by
  intro d
  induction d with
  | nil => intro vs ts _ _; cases vs <;> rfl
  | cons p d ih =>
    intro vs ts hnd hlt
    obtain ⟨k, i⟩ := p
    cases vs with
    | nil => simp [setAll, setG, lookIn]
    | cons v vs =>
      simp only [List.map_cons, List.nodup_cons] at hnd
      have hi : i < ts.length := hlt (k, i) (by simp)
      have e1 := ih vs (ts.modify i fun t => f t v) hnd.2 (fun p hp => by
        rw [List.length_modify]; exact hlt p (by simp [hp]))
      simp only [List.map_cons, setAll]
      have e2 : lookIn (ts.modify i fun t => f t v) d = lookIn ts d := by
        apply lookIn_congr
        intro p hp
        have : i ≠ p.2 := fun h => hnd.1 (List.mem_map.mpr ⟨p, hp, h.symm⟩)
        rw [List.getElem?_modify]; simp [this]
      rw [e2] at e1
      have e3 : (setAll f (d.map (·.2)) vs (ts.modify i fun t => f t v))[i]? = some (f (ts.getD i LTemplate.dummy) v) := by
        rw [setAll_other _ _ _ _ _ hnd.1, List.getElem?_modify]
        simp [hi]
      show (k, (setAll f (d.map (·.2)) vs (ts.modify i fun t => f t v)).getD i LTemplate.dummy) ::
        lookIn (setAll f (d.map (·.2)) vs (ts.modify i fun t => f t v)) d = _
      rw [e1, List.getD_eq_getElem?_getD, e3]
      rfl

theorem look_templates (s : LSys) (K : LStack) : (s.look K).templates = lookIn s.tmpls K.templates := rfl

theorem look_num (s : LSys) (K : LStack) : (s.look K).num = K.templates.length := by
  simp [Stacked.num, look_templates, lookIn]

/-- `update_parameters` on the objects is `update_parameters` on their values, if the objects are distinct -/
theorem updateObjs_look (s : LSys) (K : LStack) (hnd : (K.templates.map (·.2)).Nodup) (hlt : ∀ p ∈ K.templates, p.2 < s.tmpls.length)
    (x err : Vec) :
    (s.look K).updateParameters x err = ((updateObjs (K.templates.map (·.2)) x err s.tmpls).1,
      LSys.look { s with tmpls := (updateObjs (K.templates.map (·.2)) x err s.tmpls).2 } K) := by
  have h1 := lookIn_setAll LTemplate.setYield K.templates (x.take K.templates.length) s.tmpls hnd hlt
  rw [setG_yields] at h1
  have hl : (lookIn s.tmpls K.templates).length = K.templates.length := by simp [lookIn]
  have l1 : ∀ v, (setYields (lookIn s.tmpls K.templates) v).length = K.templates.length := fun v => by
    rw [(setYields_maps _ _).2.2.2.2, hl]
  have l3 : ∀ v ns v', (setYieldErrs (setNuis (setYields (lookIn s.tmpls K.templates) v) ns) v').length = K.templates.length :=
    fun v ns v' => by rw [(setYieldErrs_maps _ _).2.2.2.2, (setNuis_maps _ _).2.2.2.2, l1]
  unfold Stacked.updateParameters updateObjs
  simp only [look_num, List.length_map, look_templates, Stacked.num, l1, l3, hl]
  cases splitEq (x.drop K.templates.length) K.templates.length with
  | error e =>
    simp only [Prod.mk.injEq, true_and]
    rw [← h1]; rfl
  | ok ns =>
    simp only
    have hlt2 : ∀ p ∈ K.templates, p.2 < (setAll LTemplate.setYield (K.templates.map (·.2)) (x.take K.templates.length) s.tmpls).length :=
      fun p hp => by rw [setAll_length]; exact hlt p hp
    have h2 := lookIn_setAll LTemplate.setNui K.templates ns _ hnd hlt2
    rw [setG_nuis] at h2
    have hlt3 : ∀ p ∈ K.templates, p.2 < (setAll LTemplate.setNui (K.templates.map (·.2)) ns
        (setAll LTemplate.setYield (K.templates.map (·.2)) (x.take K.templates.length) s.tmpls)).length :=
      fun p hp => by rw [setAll_length]; exact hlt2 p hp
    have h3 := lookIn_setAll LTemplate.setYieldErr K.templates (err.take K.templates.length) _ hnd hlt3
    rw [setG_yieldErrs] at h3
    cases splitEq (err.drop K.templates.length) K.templates.length with
    | error e =>
      simp only [Prod.mk.injEq, true_and]
      rw [← h1, ← h2, ← h3]; rfl
    | ok es =>
      have hlt4 : ∀ p ∈ K.templates, p.2 < (setAll LTemplate.setYieldErr (K.templates.map (·.2)) (err.take K.templates.length)
          (setAll LTemplate.setNui (K.templates.map (·.2)) ns
          (setAll LTemplate.setYield (K.templates.map (·.2)) (x.take K.templates.length) s.tmpls))).length :=
        fun p hp => by rw [setAll_length]; exact hlt3 p hp
      have h4 := lookIn_setAll LTemplate.setNuiErr K.templates es _ hnd hlt4
      rw [setG_nuiErrs] at h4
      simp only [Prod.mk.injEq, true_and]
      rw [← h1, ← h2, ← h3, ← h4]; rfl

theorem updateObjs_other (ids : List ℕ) (x err : Vec) (ts : List LTemplate) (j : ℕ) (hj : j ∉ ids) :
    (updateObjs ids x err ts).2[j]? = ts[j]? := by
  unfold updateObjs
  simp only
  split
  · exact setAll_other _ _ _ _ _ hj
  · split
    · simp only [setAll_other _ _ _ _ _ hj]
    · simp only [setAll_other _ _ _ _ _ hj]

theorem reset_reset (T : LTemplate) : T.reset.reset = T.reset := rfl

theorem resetObjs_get (ids : List ℕ) : ∀ (ts : List LTemplate) (j : ℕ),
    (resetObjs ids ts)[j]? = if j ∈ ids then (ts[j]?).map LTemplate.reset else ts[j]? := by
  induction ids with
  | nil => intro ts j; simp [resetObjs]
  | cons i is ih =>
    intro ts j
    have : resetObjs (i :: is) ts = resetObjs is (ts.modify i LTemplate.reset) := rfl
    rw [this, ih, List.getElem?_modify]
    by_cases hij : i = j
    · subst hij
      cases h : ts[i]? with
      | none => simp
      | some T => by_cases h2 : i ∈ is <;> simp [h2, reset_reset]
    · have hji : j ≠ i := fun h => hij h.symm
      by_cases h2 : j ∈ is <;> simp [hij, hji, h2]

/-! ### structural invariants of every reachable state -/

/-- shape of a template -/
structure LDim (T : LTemplate) : Prop where
  pos : 1 ≤ T.numBins
  covR : T.cov.rows = T.numBins
  covC : T.cov.cols = T.numBins
  invR : T.invCorr.rows = T.numBins
  invC : T.invCorr.cols = T.numBins
  counts : T.counts.length = T.numBins
  rel : T.relErr.length = T.numBins

theorem binnedSum_shape {edges : List ℝ} {a b : Vec} {r : NdArr} (h : binnedSum edges a b = .ok r) :
    validEdges edges ∧ r.shape = [edges.length - 1] ∧ r.data.length = edges.length - 1 := by
  unfold binnedSum at h
  split at h
  · cases h
  · split at h
    · rename_i hv
      obtain rfl := Except.ok.inj h
      exact ⟨hv, rfl, by simp⟩
    · cases h

theorem iadd_shape {a b r : NdArr} (h : a.iadd b = .ok r) : r.shape = a.shape ∧ r.data.length = a.data.length := by
  unfold NdArr.iadd at h
  split at h
  · rename_i hh
    obtain rfl := Except.ok.inj h
    exact ⟨rfl, by simp [hh.2]⟩
  · cases h

theorem make_dims {name var : String} {nb : ℤ} {lo hi : ℝ} {rows : List (Fl × Fl)} {T : LTemplate}
    (h : LTemplate.make name var nb lo hi rows = .ok T) :
    LDim T ∧ T.name = name ∧ T.variable_ = var ∧ T.numBins = nb.toNat ∧ T.lo = lo ∧ T.hi = hi := by
  unfold LTemplate.make at h
  split at h
  · cases h
  rename_i H hH
  obtain rfl := Except.ok.inj h
  unfold LH1.new LH1.init at hH
  simp only at hH
  by_cases hneg : nb < 0
  · rw [if_pos hneg] at hH; cases hH
  rw [if_neg hneg] at hH
  simp only at hH
  have key : 1 ≤ nb.toNat ∧ H.counts.data.length = nb.toNat ∧ H.errSq.data.length = nb.toNat := by
    generalize hF : LH1.fill _ _ _ = r at hH
    obtain ⟨r1, r2⟩ := r
    cases r1 with
    | error e => simp at hH
    | ok u =>
      simp only at hH
      obtain rfl := Except.ok.inj hH
      unfold LH1.fill at hF
      simp only at hF
      split at hF
      · cases hF
      rename_i s1 h1
      split at hF
      · cases hF
      rename_i c hc
      split at hF
      · cases hF
      split at hF
      · cases hF
      rename_i s2 h2
      split at hF
      · cases hF
      rename_i q hq
      have hv := (binnedSum_shape h1).1.1
      rw [linspace_length] at hv
      have := (Prod.mk.inj hF).2
      rw [← this]
      simp only
      exact ⟨by omega, by rw [(iadd_shape hc).2]; simp [NdArr.zeros], by rw [(iadd_shape hq).2]; simp [NdArr.zeros]⟩
  obtain ⟨k1, k2, k3⟩ := key
  refine ⟨⟨k1, ?_, ?_, ?_, ?_, k2, ?_⟩, rfl, rfl, rfl, rfl, rfl⟩
  · simp [LTemplate.new, Mat.diagOf, statErrSq, k3]
  · simp [LTemplate.new, Mat.diagOf, statErrSq, k3]
  · simp [LTemplate.new, Mat.diagOf]
  · simp [LTemplate.new, Mat.diagOf]
  · simp only [LTemplate.new]
    rw [relErrs_length] <;> simp [Mat.diagOf, statErrSq, k2, k3]

theorem addCov_dims {T : LTemplate} (h : LDim T) (m : Mat) : LDim (T.addCov m).2 ∧ (T.addCov m).2.numBins = T.numBins ∧
    (T.addCov m).2.variable_ = T.variable_ ∧ (T.addCov m).2.lo = T.lo ∧ (T.addCov m).2.hi = T.hi ∧
    (T.addCov m).2.name = T.name := by
  unfold LTemplate.addCov
  split
  · simp only
    split
    · exact ⟨⟨h.pos, h.covR, h.covC, h.invR, h.invC, h.counts, h.rel⟩, rfl, rfl, rfl, rfl, rfl⟩
    · rename_i inv hi
      have hd := npInv_dims hi
      rw [cov2corr_rows] at hd
      have hr : (T.cov.add m).rows = T.numBins := h.covR
      refine ⟨⟨h.pos, h.covR, h.covC, hd.1.trans hr, hd.2.trans hr, h.counts, ?_⟩, rfl, rfl, rfl, rfl, rfl⟩
      show (relErrs (T.cov.add m) T.counts).length = _
      rw [relErrs_length (by rw [h.counts, hr]), hr]
  · exact ⟨h, rfl, rfl, rfl, rfl, rfl⟩

theorem paramOf_dims {T T' : LTemplate} (hp : ParamOf T T') : (LDim T → LDim T') ∧ T'.numBins = T.numBins ∧
    T'.variable_ = T.variable_ ∧ T'.lo = T.lo ∧ T'.hi = T.hi ∧ T'.name = T.name := by
  obtain ⟨_, _, _, _, rfl⟩ := hp
  exact ⟨fun h => ⟨h.pos, h.covR, h.covC, h.invR, h.invC, h.counts, h.rel⟩, rfl, rfl, rfl, rfl, rfl⟩

/-- the same name, variable and binning -/
def SameKind (T T' : LTemplate) : Prop := T'.numBins = T.numBins ∧ T'.variable_ = T.variable_ ∧ T'.lo = T.lo ∧ T'.hi = T.hi ∧
  T'.name = T.name

theorem accepts_same {K : LStack} {T T' : LTemplate} (h : K.accepts T) (hs : SameKind T T') : K.accepts T' := by
  obtain ⟨h1, h2, h3, h4⟩ := h
  obtain ⟨s1, s2, s3, s4, -⟩ := hs
  exact ⟨h1.trans s2.symm, h2.trans s1.symm, h3.trans s3.symm, h4.trans s4.symm⟩

/-- no call removes a template or changes its name, variable or binning -/
theorem step_tmpls (s : LSys) (c : LCmd) (t : ℕ) (T : LTemplate) (h : s.tmpls[t]? = some T) :
    ∃ T', (s.step c).2.tmpls[t]? = some T' ∧ SameKind T T' ∧ (LDim T → LDim T') := by
  by_cases hc : ∃ t' m, c = .addCov t' m
  · obtain ⟨t', m, rfl⟩ := hc
    by_cases ht : t' = t
    · subst ht
      refine ⟨_, step_addCov_self s t' m T h, ?_, fun hd => (addCov_dims hd m).1⟩
      unfold SameKind LTemplate.addCov
      split
      · simp only
        split <;> simp
      · simp
    · exact ⟨T, by rw [step_addCov_other s t t' m ht, h], ⟨rfl, rfl, rfl, rfl, rfl⟩, id⟩
  · obtain ⟨T', h1, h2⟩ := step_param s c (fun t' m e => hc ⟨t', m, e⟩) t T h
    have := paramOf_dims h2
    exact ⟨T', h1, this.2, this.1⟩

/-- what a call does to the list of templates: it does not grow, or one template is made and put at its end -/
theorem step_heap (s : LSys) (c : LCmd) :
    (s.step c).2.tmpls.length ≤ s.tmpls.length ∨ ∃ T0 name var nb lo hi rows, (s.step c).2.tmpls = s.tmpls ++ [T0] ∧
      LTemplate.make name var nb lo hi rows = .ok T0 ∧
      (c = .newTemplate name var nb lo hi rows ∨ ∃ S, c = .createTemplate S name rows) := by
  have hon : ∀ (f : LTemplate → Except Err Unit × LTemplate) t', (s.onTmpl t' f).2.tmpls.length ≤ s.tmpls.length := by
    intro f t'
    unfold LSys.onTmpl
    split <;> simp
  cases c with
  | newHist | fromBinned => left; simp only [LSys.step, addHist_tmpls]; exact le_refl _
  | fill h data w => left; simp only [LSys.step]; split <;> exact le_refl _
  | newTemplate name var nb lo hi rows =>
    simp only [LSys.step]
    split
    · left; exact le_refl _
    · rename_i T0 h0
      right; exact ⟨T0, _, _, _, _, _, rows, rfl, h0, Or.inl rfl⟩
  | addCov | setYield | setYieldErr | setNui | setNuiErr | resetTemplate => left; exact hon _ _
  | templateAsimov | templateToy | stackAsimov | stackToy =>
    left; simp only [LSys.step]; split <;> simp [addHist_tmpls]
  | newStack => left; simp only [LSys.step]; split <;> exact le_refl _
  | addTemplate =>
    left; simp only [LSys.step]; split
    · split <;> exact le_refl _
    · exact le_refl _
  | createTemplate S tid rows =>
    simp only [LSys.step]
    split
    · left; exact le_refl _
    · split
      · left; exact le_refl _
      · rename_i T0 h0
        right; exact ⟨T0, _, _, _, _, _, rows, rfl, h0, Or.inr ⟨S, rfl⟩⟩
  | update S x err =>
    left; simp only [LSys.step]; split
    · exact le_refl _
    · simp only [updateObjs]
      split
      · simp [setAll_length]
      · split <;> simp [setAll_length]
  | resetStack S =>
    left; simp only [LSys.step]; split
    · exact le_refl _
    · rename_i K _
      have : ∀ (ids : List ℕ) (ts : List LTemplate), (resetObjs ids ts).length = ts.length := by
        intro ids
        induction ids with
        | nil => intro ts; rfl
        | cons i is ih => intro ts; exact (ih _).trans (by simp)
      simp [this]
  | createNll => left; simp only [LSys.step]; split <;> exact le_refl _

theorem step_new' (s : LSys) (c : LCmd) (t : ℕ) (T : LTemplate) (hn : s.tmpls[t]? = none) (h : (s.step c).2.tmpls[t]? = some T) :
    ∃ name var nb lo hi rows, LTemplate.make name var nb lo hi rows = .ok T ∧
      (c = .newTemplate name var nb lo hi rows ∨ ∃ S, c = .createTemplate S name rows) := by
  have hlen : s.tmpls.length ≤ t := List.getElem?_eq_none_iff.mp hn
  rcases step_heap s c with h1 | ⟨T0, name, var, nb, lo, hi, rows, h1, h2⟩
  · rw [List.getElem?_eq_none (by omega)] at h; cases h
  · rw [h1, List.getElem?_append_right hlen] at h
    have : t - s.tmpls.length = 0 := by
      have := (List.getElem?_eq_some_iff.mp h).1
      simpa using this
    rw [this] at h
    simp at h
    exact ⟨name, var, nb, lo, hi, rows, h ▸ h2⟩

/-- a template that was not there before has the right dimensions -/
theorem step_new (s : LSys) (c : LCmd) (t : ℕ) (T : LTemplate) (hn : s.tmpls[t]? = none) (h : (s.step c).2.tmpls[t]? = some T) :
    LDim T := by
  obtain ⟨_, _, _, _, _, _, h0, -⟩ := step_new' s c t T hn h
  exact (make_dims h0).1

/-- what a call does to the stacks: nothing, or it adds an empty one, or it puts one (fitting, existing) template into one of them -/
theorem step_stks (s : LSys) (c : LCmd) :
    (s.step c).2.stks = s.stks ∨
    (∃ name var nb lo hi, c = .newStack name var nb lo hi ∧ 1 ≤ nb.toNat ∧
      (s.step c).2.stks = s.stks ++ [⟨name, var, nb.toNat, lo, hi, []⟩]) ∨
    (∃ S K tid t T, s.stks[S]? = some K ∧ (s.step c).2.tmpls[t]? = some T ∧ K.accepts T ∧
      ((∃ t0, c = .addTemplate S tid t0) ∨ ∃ rows, c = .createTemplate S tid rows) ∧
      (s.step c).2.stks = s.stks.set S { K with templates := dictSet K.templates tid t }) := by
  have hadd : ∀ r, (s.addHist r).2.stks = s.stks := by intro r; unfold LSys.addHist; cases r <;> rfl
  have hon : ∀ (f : LTemplate → Except Err Unit × LTemplate) t', (s.onTmpl t' f).2.stks = s.stks := by
    intro f t'
    unfold LSys.onTmpl
    split <;> rfl
  cases c with
  | newHist | fromBinned => left; exact hadd _
  | fill h data w => left; simp only [LSys.step]; split <;> rfl
  | newTemplate => left; simp only [LSys.step]; split <;> rfl
  | addCov | setYield | setYieldErr | setNui | setNuiErr | resetTemplate => left; exact hon _ _
  | templateAsimov | templateToy | stackAsimov | stackToy =>
    left; simp only [LSys.step]; split <;> simp [hadd]
  | newStack name var nb lo hi =>
    simp only [LSys.step, LStack.new]
    by_cases h1 : nb < -1
    · left; rw [if_pos h1]
    · rw [if_neg h1]
      by_cases h2 : nb < 1
      · left; rw [if_pos h2]
      · right; left
        rw [if_neg h2]
        exact ⟨name, var, nb, lo, hi, rfl, by omega, rfl⟩
  | addTemplate S tid t =>
    simp only [LSys.step]
    split
    · rename_i K T h1 h2
      split
      · rename_i ha
        right; right
        exact ⟨S, K, tid, t, T, h1, h2, ha, Or.inl ⟨t, rfl⟩, rfl⟩
      · left; rfl
    · left; rfl
  | createTemplate S tid rows =>
    simp only [LSys.step]
    split
    · left; rfl
    · rename_i K h1
      split
      · left; rfl
      · rename_i T h0
        right; right
        have hk := (make_dims h0).2
        refine ⟨S, K, tid, s.tmpls.length, T, h1, by simp, ?_, Or.inr ⟨rows, rfl⟩, rfl⟩
        exact ⟨hk.2.1.symm, by rw [hk.2.2.1]; simp, hk.2.2.2.1.symm, hk.2.2.2.2.symm⟩
  | update S x err => left; simp only [LSys.step]; split <;> rfl
  | resetStack S => left; simp only [LSys.step]; split <;> rfl
  | createNll => left; simp only [LSys.step]; split <;> rfl

theorem step_hists_length (s : LSys) (c : LCmd) : s.hists.length ≤ (s.step c).2.hists.length := by
  have hadd : ∀ r, s.hists.length ≤ (s.addHist r).2.hists.length := by
    intro r; unfold LSys.addHist; cases r <;> simp
  have hon : ∀ (f : LTemplate → Except Err Unit × LTemplate) t', (s.onTmpl t' f).2.hists = s.hists := by
    intro f t'
    unfold LSys.onTmpl
    split <;> rfl
  cases c with
  | newHist | fromBinned => exact hadd _
  | fill h data w => simp only [LSys.step]; split <;> simp
  | newTemplate => simp only [LSys.step]; split <;> simp
  | addCov | setYield | setYieldErr | setNui | setNuiErr | resetTemplate => simp only [LSys.step, hon]; exact le_refl _
  | templateAsimov | templateToy | stackAsimov | stackToy =>
    simp only [LSys.step]; split
    · exact le_refl _
    · exact hadd _
  | newStack => simp only [LSys.step]; split <;> simp
  | addTemplate =>
    simp only [LSys.step]; split
    · split <;> exact le_refl _
    · exact le_refl _
  | createTemplate =>
    simp only [LSys.step]; split
    · exact le_refl _
    · split <;> exact le_refl _
  | update | resetStack | createNll => simp only [LSys.step]; split <;> exact le_refl _

theorem step_nlls (s : LSys) (c : LCmd) : (s.step c).2.nlls = s.nlls ∨
    ∃ S h K, c = .createNll S h ∧ s.stks[S]? = some K ∧ h < s.hists.length ∧
      (s.step c).2.nlls = s.nlls ++ [⟨h, S, blockDiag ((s.look K).list.map (·.invCorr))⟩] := by
  have hadd : ∀ r, (s.addHist r).2.nlls = s.nlls := by
    intro r; unfold LSys.addHist; cases r <;> rfl
  have hon : ∀ (f : LTemplate → Except Err Unit × LTemplate) t', (s.onTmpl t' f).2.nlls = s.nlls := by
    intro f t'
    unfold LSys.onTmpl
    split <;> rfl
  cases c with
  | newHist | fromBinned => left; exact hadd _
  | fill h data w => left; simp only [LSys.step]; split <;> rfl
  | newTemplate => left; simp only [LSys.step]; split <;> rfl
  | addCov | setYield | setYieldErr | setNui | setNuiErr | resetTemplate => left; exact hon _ _
  | templateAsimov | templateToy | stackAsimov | stackToy =>
    left; simp only [LSys.step]; split <;> simp [hadd]
  | newStack => left; simp only [LSys.step]; split <;> rfl
  | addTemplate =>
    left; simp only [LSys.step]; split
    · split <;> rfl
    · rfl
  | createTemplate =>
    left; simp only [LSys.step]; split
    · rfl
    · split <;> rfl
  | update | resetStack => left; simp only [LSys.step]; split <;> rfl
  | createNll S h =>
    simp only [LSys.step]
    split
    · rename_i K H h1 h2
      right
      exact ⟨S, h, K, rfl, h1, (List.getElem?_eq_some_iff.mp h2).1, rfl⟩
    · left; rfl

/-- references are valid: dict entries refer to templates that fit the stack, likelihoods to existing stacks and histograms -/
structure LWf (s : LSys) : Prop where
  tmpl : ∀ (S : ℕ) (K : LStack), s.stks[S]? = some K → 1 ≤ K.numBins ∧ (K.templates.map (·.1)).Nodup ∧
    ∀ p ∈ K.templates, ∃ T, s.tmpls[p.2]? = some T ∧ K.accepts T
  dim : ∀ (t : ℕ) (T : LTemplate), s.tmpls[t]? = some T → LDim T
  nll : ∀ (q : ℕ) (N : LNllObj), s.nlls[q]? = some N → N.stack < s.stks.length ∧ N.hist < s.hists.length

theorem dictSet_keys_nodup {κ ν : Type} [DecidableEq κ] (d : List (κ × ν)) (k : κ) (v : ν) (h : (d.map (·.1)).Nodup) :
    ((dictSet d k v).map (·.1)).Nodup := by
  by_cases hk : k ∈ d.map (·.1)
  · rw [dictSet_keys_old d k v hk]; exact h
  · rw [dictSet_new d k v hk, List.map_append, List.map_singleton]
    exact List.nodup_append.mpr ⟨h, by simp, by
      intro a ha b hb
      simp only [List.mem_singleton] at hb
      subst hb
      intro hab
      exact hk (hab ▸ ha)⟩

theorem stks_length (s : LSys) (c : LCmd) : s.stks.length ≤ (s.step c).2.stks.length := by
  rcases step_stks s c with h | ⟨_, _, _, _, _, _, _, h⟩ | ⟨_, _, _, _, _, _, _, _, _, h⟩ <;> rw [h] <;> simp

theorem lwf_step {s : LSys} (h : LWf s) (c : LCmd) : LWf (s.step c).2 := by
  have hold : ∀ K : LStack, ∀ p : String × ℕ, (∃ T, s.tmpls[p.2]? = some T ∧ K.accepts T) →
      ∃ T, (s.step c).2.tmpls[p.2]? = some T ∧ K.accepts T := by
    rintro K p ⟨T, h1, h2⟩
    obtain ⟨T', h3, h4, -⟩ := step_tmpls s c p.2 T h1
    exact ⟨T', h3, accepts_same h2 h4⟩
  refine ⟨?_, ?_, ?_⟩
  · intro S K hK
    rcases step_stks s c with e | ⟨name, var, nb, lo, hi, -, hnb, e⟩ | ⟨S0, K0, tid, t, T, h1, h2, h3, -, e⟩
    · rw [e] at hK
      obtain ⟨a, b, d⟩ := h.tmpl S K hK
      exact ⟨a, b, fun p hp => hold K p (d p hp)⟩
    · rw [e] at hK
      by_cases hlt : S < s.stks.length
      · rw [List.getElem?_append_left hlt] at hK
        obtain ⟨a, b, d⟩ := h.tmpl S K hK
        exact ⟨a, b, fun p hp => hold K p (d p hp)⟩
      · rw [List.getElem?_append_right (by omega)] at hK
        have hz : S - s.stks.length = 0 := by
          have := (List.getElem?_eq_some_iff.mp hK).1
          simpa using this
        rw [hz] at hK
        simp at hK
        subst hK
        exact ⟨hnb, by simp, fun p hp => by simp at hp⟩
    · rw [e] at hK
      by_cases hS : S0 = S
      · subst hS
        have hlt : S0 < s.stks.length := (List.getElem?_eq_some_iff.mp h1).1
        simp [List.getElem?_set, hlt] at hK
        subst hK
        obtain ⟨a, b, d⟩ := h.tmpl S0 K0 h1
        refine ⟨a, dictSet_keys_nodup _ _ _ b, fun p hp => ?_⟩
        rcases dictSet_mem _ _ _ _ hp with rfl | hp
        · exact ⟨T, h2, h3⟩
        · obtain ⟨T', q1, q2⟩ := hold K0 p (d p hp)
          exact ⟨T', q1, q2⟩
      · rw [List.getElem?_set_ne hS] at hK
        obtain ⟨a, b, d⟩ := h.tmpl S K hK
        exact ⟨a, b, fun p hp => hold K p (d p hp)⟩
  · intro t T hT
    cases hs : s.tmpls[t]? with
    | none => exact step_new s c t T hs hT
    | some T0 =>
      obtain ⟨T', h3, -, h5⟩ := step_tmpls s c t T0 hs
      rw [h3] at hT
      obtain rfl := Option.some.inj hT
      exact h5 (h.dim t T0 hs)
  · intro q N hN
    have l1 := stks_length s c
    have l2 := step_hists_length s c
    rcases step_nlls s c with e | ⟨S, hh, K, -, h1, h2, e⟩
    · rw [e] at hN
      have := h.nll q N hN
      omega
    · rw [e] at hN
      by_cases hlt : q < s.nlls.length
      · rw [List.getElem?_append_left hlt] at hN
        have := h.nll q N hN
        omega
      · rw [List.getElem?_append_right (by omega)] at hN
        have hz : q - s.nlls.length = 0 := by
          have := (List.getElem?_eq_some_iff.mp hN).1
          simpa using this
        rw [hz] at hN
        simp at hN
        subst hN
        have := (List.getElem?_eq_some_iff.mp h1).1
        simp only
        omega

/-- every state reached from nothing by any history of calls is well-formed -/
theorem lwf_run (cmds : List LCmd) : ∀ {s : LSys}, LWf s → LWf (s.run cmds) := by
  induction cmds with
  | nil => intro s h; exact h
  | cons c cmds ih => intro s h; exact ih (lwf_step h c)

theorem lwf_empty : LWf LSys.empty := by
  refine ⟨?_, ?_, ?_⟩ <;> intro a b h <;> simp [LSys.empty] at h

end

end TF.Props
