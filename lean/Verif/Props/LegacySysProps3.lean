import Verif.Props.LegacySysProps2

set_option linter.unusedSimpArgs false

/-!
# Stacked templates (C92)
-/

namespace TF.Spec

open Classical
open scoped Matrix

noncomputable section

/-- a call whose data frame has finite weights, or whose matrix is positive semidefinite; other calls are not restricted -/
def GoodCmd : LCmd → Prop
  | .newTemplate _ _ _ _ _ rows => ∃ r, rows = frame r
  | .createTemplate _ _ rows => ∃ r, rows = frame r
  | .addCov _ m => ∃ (n : ℕ) (A : Matrix (Fin n) (Fin n) ℝ), IsReal m A ∧ A.PosSemidef
  | _ => True

/-- the templates `T 0, T 1, …` of a stack have contents `cnt`, total covariance matrices `C`, yields `ν`, nuisance parameters `θ` -/
structure StackHas (st : Stacked) {K n : ℕ} (T : Fin K → LTemplate) (cnt : Fin K → Fin n → ℝ)
    (C : Fin K → Matrix (Fin n) (Fin n) ℝ) : Prop where
  list : st.list = List.ofFn T
  counts : ∀ k, (T k).counts = vec (cnt k)
  cov : ∀ k, IsReal (T k).cov (C k)
  pd : ∀ k, (C k).PosDef
  inv : ∀ k, IsReal (T k).invCorr (corrOf (C k))⁻¹
  rel : ∀ k, (T k).relErr = vec fun i => legacyRel (C k i i) (cnt k i)

end

end TF.Spec

namespace TF.Props

open Classical Spec
open scoped Matrix

noncomputable section

/-! ### templates of a good history have real contents and a positive-definite covariance matrix -/

/-- every template has finite contents and a positive-definite covariance matrix -/
def Sound (s : LSys) : Prop := ∀ (t : ℕ) (T : LTemplate), s.tmpls[t]? = some T →
  ∃ (c : Fin T.numBins → ℝ) (C : Matrix (Fin T.numBins) (Fin T.numBins) ℝ), LInv T c C

theorem linv_param {T T' : LTemplate} {n : ℕ} {c : Fin n → ℝ} {C : Matrix (Fin n) (Fin n) ℝ}
    (h : LInv T c C) (hp : ParamOf T T') : LInv T' c C := by
  obtain ⟨_, _, _, _, rfl⟩ := hp
  exact h

theorem linv_bins {T : LTemplate} {n : ℕ} {c : Fin n → ℝ} {C : Matrix (Fin n) (Fin n) ℝ} (h : LInv T c C) :
    ∃ (c : Fin T.numBins → ℝ) (C : Matrix (Fin T.numBins) (Fin T.numBins) ℝ), LInv T c C := by
  obtain rfl := h.1
  exact ⟨c, C, h⟩

theorem make_arguments {name var : String} {nb : ℤ} {lo hi : ℝ} {rows : List (Fl × Fl)} {T : LTemplate}
    (h : LTemplate.make name var nb lo hi rows = .ok T) : 1 ≤ nb ∧ lo < hi := by
  by_contra hc
  have := C91_rejected LSys.empty name var nb lo hi rows (by
    by_cases h1 : nb < 1
    · exact Or.inl h1
    · exact Or.inr (not_lt.mp fun h2 => hc ⟨by omega, h2⟩))
  simp only [LSys.step, h] at this
  cases this

theorem addCov_linv {T : LTemplate} {n : ℕ} {c : Fin n → ℝ} {C : Matrix (Fin n) (Fin n) ℝ}
    (h : LInv T c C) (m : Mat) (A : Matrix (Fin n) (Fin n) ℝ) (hm : IsReal m A) (hA : A.PosSemidef) :
    (T.addCov m).1 = .ok () ∧ LInv (T.addCov m).2 c (C + A) := by
  obtain ⟨h1, h2, h3, h4, h5, h6, h7⟩ := h
  have hC : (C + A).PosDef := h4.add_posSemidef hA
  have hr : IsReal (T.cov.add m) (C + A) := h3.add hm
  have hcorr : IsReal (cov2corr (T.cov.add m)) (corrOf (C + A)) :=
    cov2corr_isReal hr (fun i => (posSemidef_diag_nonneg hC.posSemidef i))
      (fun i j => posSemidef_zero hC.posSemidef i j)
  have hdet : (corrOf (C + A)).det ≠ 0 :=
    ((Matrix.isUnit_iff_isUnit_det _).mp (Matrix.PosDef.isUnit (corrOf_posDef hC))).ne_zero
  obtain ⟨inv, hi, hir⟩ := npInv_isReal hcorr hdet
  have e : T.addCov m = (.ok (),
      { T with
        cov := T.cov.add m
        corr := cov2corr (T.cov.add m)
        invCorr := inv
        relErr := relErrs (T.cov.add m) T.counts }) := by
    unfold LTemplate.addCov
    rw [if_pos ⟨by rw [hm.1, h3.1], by rw [hm.2.1, h3.2.1]⟩]
    simp only
    rw [hi]
  rw [e]
  refine ⟨rfl, h1, h2, hr, hC, hcorr, hir, ?_⟩
  show relErrs _ T.counts = _
  rw [h2]
  exact relErrs_vec hr (fun i => posSemidef_diag_nonneg hC.posSemidef i) c

theorem sound_step {s : LSys} (h : Sound s) (c : LCmd) (hc : GoodCmd c) : Sound (s.step c).2 := by
  intro t T hT
  cases hs : s.tmpls[t]? with
  | none =>
    obtain ⟨name, var, nb, lo, hi, rows, h0, hcmd⟩ := step_new' s c t T hs hT
    have hr : ∃ r, rows = frame r := by
      rcases hcmd with rfl | ⟨S, rfl⟩ <;> exact hc
    obtain ⟨r, rfl⟩ := hr
    obtain ⟨h1, h2⟩ := make_arguments h0
    obtain ⟨n, rfl⟩ : ∃ n : ℕ, nb = n := ⟨nb.toNat, by omega⟩
    rw [make_eq name var (by omega) h2] at h0
    have e := Except.ok.inj h0
    have h3 := (new_tIs name var lo hi (fun i : Fin n => rowSum (grid lo hi n) r id i)
      (fun i : Fin n => rowSum (grid lo hi n) r (fun w => w ^ 2) i) (fun i => rowSum_sq_nonneg _ _ _)).inv
    rw [e] at h3
    exact linv_bins h3
  | some T0 =>
    obtain ⟨cc, C, hi⟩ := h t T0 hs
    by_cases hadd : ∃ t' m, c = .addCov t' m
    · obtain ⟨t', m, rfl⟩ := hadd
      by_cases ht : t' = t
      · subst ht
        have h4 := step_addCov_self s t' m T0 hs
        rw [h4] at hT
        obtain rfl := Option.some.inj hT
        obtain ⟨n, A, hm, hA⟩ := hc
        by_cases hn : n = T0.numBins
        · subst hn
          have h5 := (addCov_linv hi m A hm hA).2
          exact linv_bins h5
        · rw [addCov_mismatch hi m (by rw [hm.1, hm.2.1]; exact fun h => hn h.1)]
          exact ⟨cc, C, hi⟩
      · rw [step_addCov_other s t t' m ht, hs] at hT
        obtain rfl := Option.some.inj hT
        exact ⟨cc, C, hi⟩
    · obtain ⟨T', h1, h2⟩ := step_param s c (fun t' m e => hadd ⟨t', m, e⟩) t T0 hs
      rw [h1] at hT
      obtain rfl := Option.some.inj hT
      exact linv_bins (linv_param hi h2)

theorem sound_run (cmds : List LCmd) : ∀ {s : LSys}, Sound s → (∀ c ∈ cmds, GoodCmd c) → Sound (s.run cmds) := by
  induction cmds with
  | nil => intro s h _; exact h
  | cons c cmds ih => intro s h hg; exact ih (sound_step h c (hg c (by simp))) (fun d hd => hg d (by simp [hd]))

theorem sound_empty : Sound LSys.empty := by
  intro t T h; simp [LSys.empty] at h

theorem stack_some {s : LSys} {S : ℕ} {st : Stacked} (h : s.stack S = some st) :
    ∃ K, s.stks[S]? = some K ∧ st = s.look K := by
  unfold LSys.stack at h
  cases hK : s.stks[S]? with
  | none => rw [hK] at h; cases h
  | some K => rw [hK] at h; exact ⟨K, rfl, (Option.some.inj h).symm⟩

theorem look_list (s : LSys) (K : LStack) : (s.look K).list = K.templates.map fun p => s.tmpl p.2 := by
  unfold LSys.look Stacked.list
  simp

theorem tmpl_of {s : LSys} {t : ℕ} {T : LTemplate} (h : s.tmpls[t]? = some T) : s.tmpl t = T := by
  unfold LSys.tmpl
  rw [List.getD_eq_getElem?_getD, h]; rfl

/-- every stack of a well-formed state whose templates are sound -/
theorem stackHas_of {s : LSys} (hw : LWf s) (hs : Sound s) {S : ℕ} {st : Stacked} (h : s.stack S = some st) :
    ∃ (T : Fin st.num → LTemplate) (cnt : Fin st.num → Fin st.numBins → ℝ)
      (C : Fin st.num → Matrix (Fin st.numBins) (Fin st.numBins) ℝ), StackHas st T cnt C := by
  obtain ⟨K, hK, rfl⟩ := stack_some h
  have hall : ∀ t ∈ (s.look K).list, ∃ q : (Fin K.numBins → ℝ) × Matrix (Fin K.numBins) (Fin K.numBins) ℝ, LInv t q.1 q.2 := by
    intro t ht
    rw [look_list] at ht
    obtain ⟨p, hp, rfl⟩ := List.mem_map.mp ht
    obtain ⟨T, h1, h2⟩ := (hw.tmpl S K hK).2.2 p hp
    rw [tmpl_of h1]
    obtain ⟨c, C, hi⟩ := hs p.2 T h1
    have hn : K.numBins = T.numBins := h2.2.1
    rw [hn]
    exact ⟨(c, C), hi⟩
  obtain ⟨T, B, h1, h2⟩ := ofFn_of_list (fun t (q : (Fin K.numBins → ℝ) × Matrix (Fin K.numBins) (Fin K.numBins) ℝ) => LInv t q.1 q.2) _ hall
  have hl : (s.look K).list.length = (s.look K).num := by simp [Stacked.num, Stacked.list]
  have hb : (s.look K).numBins = K.numBins := rfl
  rw [hb]
  revert T B h1 h2
  rw [hl]
  intro T B h1 h2
  exact ⟨T, fun k => (B k).1, fun k => (B k).2, h1, fun k => (h2 k).2.1, fun k => (h2 k).2.2.1, fun k => (h2 k).2.2.2.1,
    fun k => (h2 k).2.2.2.2.2.1, fun k => (h2 k).2.2.2.2.2.2⟩

theorem stackHas_is {st : Stacked} {K n : ℕ} {T : Fin K → LTemplate} {cnt : Fin K → Fin n → ℝ}
    {C : Fin K → Matrix (Fin n) (Fin n) ℝ} (h : StackHas st T cnt C) :
    LStackIs st cnt (fun k i => legacyRel (C k i i) (cnt k i)) (fun k => corrOf (C k)) :=
  ⟨T, h.list, fun k => ⟨h.counts k, h.rel k, h.inv k⟩⟩

/-! ### C92 -/

/-- **C92 (sums).** The values of a stack are the sums of its templates' values, its errors their quadratic sums. -/
theorem C92_sums {K n : ℕ} (hK : 0 < K) (st : Stacked) (T : Fin K → LTemplate) (hT : st.list = List.ofFn T)
    (v e : Fin K → Fin n → ℝ) (hv : ∀ k, (T k).values = .ok (vec (v k))) (he : ∀ k, (T k).errors = .ok (vec (e k))) :
    st.values = .ok (vec fun i => ∑ k, v k i) ∧ st.errors = .ok (vec fun i => Real.sqrt (∑ k, e k i ^ 2)) := by
  constructor
  · unfold Stacked.values
    rw [hT, mapE_ofFn LTemplate.values T (fun k => vec (v k)) hv]
    exact sumRows_ofFn hK v
  · unfold Stacked.errors
    rw [hT, mapE_ofFn LTemplate.errors T (fun k => vec (e k)) he]
    exact quadSum_ofFn hK e

/-- **C92 (every stack).** After any history of calls with finite weights and positive-semidefinite matrices, every stack consists of
templates with finite contents and positive-definite covariance matrices, and for finite parameters at which no template's varied contents
add up to zero its values are the sums of yields times fractions, its errors the quadratic sums of the templates' errors. -/
theorem C92_values (cmds : List LCmd) (hg : ∀ c ∈ cmds, GoodCmd c) (S : ℕ) (st : Stacked)
    (hst : (LSys.empty.run cmds).stack S = some st) :
    ∃ (T : Fin st.num → LTemplate) (cnt : Fin st.num → Fin st.numBins → ℝ)
      (C : Fin st.num → Matrix (Fin st.numBins) (Fin st.numBins) ℝ), StackHas st T cnt C ∧
      ∀ (ε : Fin st.num → Fin st.numBins → ℝ) (ν : Fin st.num → ℝ) (θ : Fin st.num → Fin st.numBins → ℝ), 0 < st.num →
        (∀ k i, ε k i = legacyRel (C k i i) (cnt k i)) →
        (∀ k, (T k).yieldP.value = .fin (ν k)) → (∀ k, (T k).nuiP.value = vec (θ k)) →
        (∀ k, ∑ j, cnt k j * (1 + θ k j * ε k j) ≠ 0) →
        st.values = .ok (vec fun i => ∑ k, ν k * (cnt k i * (1 + θ k i * ε k i) / ∑ j, cnt k j * (1 + θ k j * ε k j))) ∧
        st.errors = .ok (vec fun i => Real.sqrt (∑ k, (ε k i *
          (ν k * (cnt k i * (1 + θ k i * ε k i) / ∑ j, cnt k j * (1 + θ k j * ε k j)))) ^ 2)) := by
  obtain ⟨T, cnt, C, h⟩ := stackHas_of (lwf_run cmds lwf_empty) (sound_run cmds sound_empty hg) hst
  refine ⟨T, cnt, C, h, fun ε ν θ hK hε hy hn hT => ?_⟩
  have hrel : ∀ k, (T k).relErr = vec (ε k) := fun k => by
    rw [h.rel k]; congr 1; funext i; exact (hε k i).symm
  have hv : ∀ k, (T k).values = .ok (vec fun i => ν k * frac (cnt k) (ε k) (θ k) i) := fun k =>
    lvalues_eq (h.counts k) (hrel k) (hy k) (hn k) (hT k)
  have he : ∀ k, (T k).errors = .ok (vec fun i => ε k i * (ν k * frac (cnt k) (ε k) (θ k) i)) := fun k =>
    lerrors_eq (hrel k) (hv k)
  have := C92_sums hK st T h.list _ _ hv he
  simp only [frac_eq] at this
  exact this

theorem fromBinned_vec {n : ℕ} (e : Edges) (hne : e.vals ≠ []) (c : Fin n → ℝ) :
    ∃ H, LH1.fromBinned e (vec c) none = .ok H ∧ H.edges = e ∧ H.counts = ⟨[n], vec c⟩ ∧
      ((∀ i, 0 ≤ c i) → H.errSq = ⟨[n], vec c⟩) := by
  unfold LH1.fromBinned LH1.init
  simp only
  rw [if_neg hne]
  simp only [Option.getD]
  refine ⟨_, rfl, rfl, by rw [vec_length], fun h => ?_⟩
  simp only
  rw [map_vec c Fl.sqrt (fun i => Real.sqrt (c i)) (fun i => Fl.sqrt_fin (h i)), vec_length,
    map_vec (fun i => Real.sqrt (c i)) Fl.sq c (fun i => by rw [Fl.sq_fin, Real.sq_sqrt (h i)])]

theorem stack_edges_ne (st : Stacked) : st.edges.vals ≠ [] := by
  intro h
  have := congrArg List.length h
  simp [Stacked.edges, linspace_length] at this

/-- **C92 (Asimov data).** `generate_asimov_dataset` makes one new histogram over the stack's bins that holds the present values (rounded to
the nearest integers if asked for), each with the square root of its content as error, and changes nothing else. -/
theorem C92_asimov {n : ℕ} (s : LSys) (S : ℕ) (st : Stacked) (hst : s.stack S = some st) (v : Fin n → ℝ)
    (hv : st.values = .ok (vec v)) (integer : Bool) :
    ∃ (H : LH1) (a : Fin n → ℝ), s.step (.stackAsimov S integer) = (.ok (), { s with hists := s.hists ++ [H] }) ∧
      (∀ i, if integer then IsRint (v i) (a i) else a i = v i) ∧
      H.edges.vals = grid st.lo st.hi st.numBins ∧ H.counts = ⟨[n], vec a⟩ ∧
      ((∀ i, 0 ≤ v i) → H.binErrors = ⟨[n], vec fun i => Real.sqrt (a i)⟩) := by
  obtain ⟨K, hK, rfl⟩ := stack_some hst
  set a : Fin n → ℝ := fun i => if integer then Fl.rintR (v i) else v i with ha
  have hdat : (if integer = true then (vec v).map Fl.rint else vec v) = vec a := by
    cases integer with
    | false => simp [ha]
    | true => simpa [ha] using map_vec v Fl.rint (fun i => Fl.rintR (v i)) (fun i => rfl)
  obtain ⟨H, h1, h2, h3, h4⟩ := fromBinned_vec (s.look K).edges (stack_edges_ne _) a
  refine ⟨H, a, ?_, ?_, ?_, h3, ?_⟩
  · simp only [LSys.step, hK, Stacked.asimov]
    rw [hv]
    simp only
    rw [hdat, h1]; rfl
  · intro i
    cases integer with
    | false => simp [ha]
    | true => simp only [ha, if_true]; exact (isRint_iff _ _).mpr rfl
  · rw [h2]; exact grid_eq _ _ _
  · intro hnn
    have hnn' : ∀ i, 0 ≤ a i := by
      intro i
      simp only [ha]
      cases integer with
      | false => exact hnn i
      | true =>
        simp only [if_true]
        have h0 : (0:ℝ) ≤ ⌊v i⌋ := by exact_mod_cast Int.floor_nonneg.mpr (hnn i)
        unfold Fl.rintR
        split_ifs <;> linarith
    unfold LH1.binErrors NdArr.map
    rw [h4 hnn']
    simp only
    rw [map_vec a Fl.sqrt (fun i => Real.sqrt (a i)) (fun i => Fl.sqrt_fin (hnn' i))]

/-- **C92 (toy data).** `generate_toy_dataset` hands the present values to the random generator as means and makes one new histogram over the
stack's bins holding the drawn numbers; if some value is negative it raises `ValueError`. Nothing else changes. -/
theorem C92_toy {n : ℕ} (s : LSys) (S : ℕ) (st : Stacked) (hst : s.stack S = some st) (v : Fin n → ℝ)
    (hv : st.values = .ok (vec v)) (draw : Vec → ℕ → ℕ) :
    ((∀ i, 0 ≤ v i) → ∃ H : LH1, s.step (.stackToy S draw) = (.ok (), { s with hists := s.hists ++ [H] }) ∧
      H.edges.vals = grid st.lo st.hi st.numBins ∧ H.counts = ⟨[n], vec fun i : Fin n => (draw (vec v) i : ℝ)⟩ ∧
      H.binErrors = ⟨[n], vec fun i : Fin n => Real.sqrt (draw (vec v) i)⟩) ∧
    ((∃ i, v i < 0) → s.step (.stackToy S draw) = (.error .valueError, s)) := by
  obtain ⟨K, hK, rfl⟩ := stack_some hst
  constructor
  · intro hnn
    have hok : poissonOk (vec v) := by
      intro m hm
      obtain ⟨i, rfl⟩ := List.mem_ofFn.mp hm
      exact ⟨v i, rfl, hnn i⟩
    have hd : ((List.range (vec v).length).map fun i => Fl.fin (draw (vec v) i : ℝ)) = vec fun i : Fin n => (draw (vec v) i : ℝ) := by
      apply List.ext_getElem
      · simp [vec_length]
      · intro i h1 h2
        simp [vec]
    obtain ⟨H, h1, h2, h3, h4⟩ := fromBinned_vec (s.look K).edges (stack_edges_ne _) (fun i : Fin n => (draw (vec v) i : ℝ))
    have h4' := h4 (fun i => Nat.cast_nonneg _)
    refine ⟨H, ?_, ?_, h3, ?_⟩
    · simp only [LSys.step, hK, Stacked.toy]
      rw [hv]
      simp only
      rw [if_pos hok, hd, h1]; rfl
    · rw [h2]; exact grid_eq _ _ _
    · unfold LH1.binErrors NdArr.map
      rw [h4']
      simp only
      rw [map_vec _ Fl.sqrt (fun i : Fin n => Real.sqrt (draw (vec v) i)) (fun i => Fl.sqrt_fin (Nat.cast_nonneg _))]
  · rintro ⟨i, hi⟩
    have hno : ¬ poissonOk (vec v) := by
      intro h
      obtain ⟨r, h1, h2⟩ := h (.fin (v i)) (List.mem_ofFn.mpr ⟨i, rfl⟩)
      rw [← Fl.fin.inj h1] at h2
      linarith
    simp only [LSys.step, hK, Stacked.toy]
    rw [hv]
    simp only
    rw [if_neg hno]; rfl

theorem tmpl_edges_ne (T : LTemplate) : T.edges.vals ≠ [] := by
  intro h
  have := congrArg List.length h
  simp [LTemplate.edges, linspace_length] at this

/-- **C91 (Asimov data).** `generate_asimov_dataset` makes one new histogram over the template's bins that holds the present values (rounded to
the nearest integers if asked for), each with the square root of its content as error, and changes nothing else. -/
theorem C91_asimov {n : ℕ} (s : LSys) (t : ℕ) (T : LTemplate) (hT : s.tmpls[t]? = some T) (v : Fin n → ℝ)
    (hv : T.values = .ok (vec v)) (integer : Bool) :
    ∃ (H : LH1) (a : Fin n → ℝ), s.step (.templateAsimov t integer) = (.ok (), { s with hists := s.hists ++ [H] }) ∧
      (∀ i, if integer then IsRint (v i) (a i) else a i = v i) ∧
      H.edges.vals = grid T.lo T.hi T.numBins ∧ H.counts = ⟨[n], vec a⟩ ∧
      ((∀ i, 0 ≤ v i) → H.binErrors = ⟨[n], vec fun i => Real.sqrt (a i)⟩) := by
  set a : Fin n → ℝ := fun i => if integer then Fl.rintR (v i) else v i with ha
  have hdat : (if integer = true then (vec v).map Fl.rint else vec v) = vec a := by
    cases integer with
    | false => simp [ha]
    | true => simpa [ha] using map_vec v Fl.rint (fun i => Fl.rintR (v i)) (fun i => rfl)
  obtain ⟨H, h1, h2, h3, h4⟩ := fromBinned_vec T.edges (tmpl_edges_ne _) a
  refine ⟨H, a, ?_, ?_, ?_, h3, ?_⟩
  · simp only [LSys.step, hT, LTemplate.asimov]
    rw [hv]
    simp only
    rw [hdat, h1]; rfl
  · intro i
    cases integer with
    | false => simp [ha]
    | true => simp only [ha, if_true]; exact (isRint_iff _ _).mpr rfl
  · rw [h2]; exact grid_eq _ _ _
  · intro hnn
    have hnn' : ∀ i, 0 ≤ a i := by
      intro i
      simp only [ha]
      cases integer with
      | false => exact hnn i
      | true =>
        simp only [if_true]
        have h0 : (0:ℝ) ≤ ⌊v i⌋ := by exact_mod_cast Int.floor_nonneg.mpr (hnn i)
        unfold Fl.rintR
        split_ifs <;> linarith
    unfold LH1.binErrors NdArr.map
    rw [h4 hnn']
    simp only
    rw [map_vec a Fl.sqrt (fun i => Real.sqrt (a i)) (fun i => Fl.sqrt_fin (hnn' i))]

/-- **C91 (toy data).** `generate_toy_dataset` hands the present values to the random generator as means and makes one new histogram over the
template's bins holding the drawn numbers; if some value is negative it raises `ValueError`. Nothing else changes. -/
theorem C91_toy {n : ℕ} (s : LSys) (t : ℕ) (T : LTemplate) (hT : s.tmpls[t]? = some T) (v : Fin n → ℝ)
    (hv : T.values = .ok (vec v)) (draw : Vec → ℕ → ℕ) :
    ((∀ i, 0 ≤ v i) → ∃ H : LH1, s.step (.templateToy t draw) = (.ok (), { s with hists := s.hists ++ [H] }) ∧
      H.edges.vals = grid T.lo T.hi T.numBins ∧ H.counts = ⟨[n], vec fun i : Fin n => (draw (vec v) i : ℝ)⟩ ∧
      H.binErrors = ⟨[n], vec fun i : Fin n => Real.sqrt (draw (vec v) i)⟩) ∧
    ((∃ i, v i < 0) → s.step (.templateToy t draw) = (.error .valueError, s)) := by
  constructor
  · intro hnn
    have hok : poissonOk (vec v) := by
      intro m hm
      obtain ⟨i, rfl⟩ := List.mem_ofFn.mp hm
      exact ⟨v i, rfl, hnn i⟩
    have hd : ((List.range (vec v).length).map fun i => Fl.fin (draw (vec v) i : ℝ)) = vec fun i : Fin n => (draw (vec v) i : ℝ) := by
      apply List.ext_getElem
      · simp [vec_length]
      · intro i h1 h2
        simp [vec]
    obtain ⟨H, h1, h2, h3, h4⟩ := fromBinned_vec T.edges (tmpl_edges_ne _) (fun i : Fin n => (draw (vec v) i : ℝ))
    have h4' := h4 (fun i => Nat.cast_nonneg _)
    refine ⟨H, ?_, ?_, h3, ?_⟩
    · simp only [LSys.step, hT, LTemplate.toy]
      rw [hv]
      simp only
      rw [if_pos hok, hd, h1]; rfl
    · rw [h2]; exact grid_eq _ _ _
    · unfold LH1.binErrors NdArr.map
      rw [h4']
      simp only
      rw [map_vec _ Fl.sqrt (fun i : Fin n => Real.sqrt (draw (vec v) i)) (fun i => Fl.sqrt_fin (Nat.cast_nonneg _))]
  · rintro ⟨i, hi⟩
    have hno : ¬ poissonOk (vec v) := by
      intro h
      obtain ⟨r, h1, h2⟩ := h (.fin (v i)) (List.mem_ofFn.mpr ⟨i, rfl⟩)
      rw [← Fl.fin.inj h1] at h2
      linarith
    simp only [LSys.step, hT, LTemplate.toy]
    rw [hv]
    simp only
    rw [if_neg hno]; rfl

/-- **C92 (update).** In every reachable state: `update_parameters` of a stack of `m ≥ 1` distinct template objects, with vectors of length
`m + m·n`, stores them; reading the parameters and errors back gives these vectors; no other template, no stack, histogram or likelihood
object changes. -/
theorem C92_update_partial (cmds : List LCmd) (S : ℕ) (K : LStack) (hK : (LSys.empty.run cmds).stks[S]? = some K)
    (hpos : K.templates ≠ []) (hnd : (K.templates.map (·.2)).Nodup) (x err : Vec)
    (hx : x.length = K.templates.length + K.templates.length * K.numBins)
    (he : err.length = K.templates.length + K.templates.length * K.numBins) :
    ∃ s', (LSys.empty.run cmds).step (.update S x err) = (.ok (), s') ∧
      (s'.look K).x0 = x ∧
      ((s'.look K).list.map fun t => t.yieldP.error) ++ ((s'.look K).list.map fun t => t.nuiP.error).flatten = err ∧
      (s'.look K).reset = ((LSys.empty.run cmds).look K).reset ∧
      (∀ t ∉ K.templates.map (·.2), s'.tmpls[t]? = (LSys.empty.run cmds).tmpls[t]?) ∧
      s'.stks = (LSys.empty.run cmds).stks ∧ s'.hists = (LSys.empty.run cmds).hists ∧ s'.nlls = (LSys.empty.run cmds).nlls := by
  have hw := lwf_run cmds lwf_empty
  set s := LSys.empty.run cmds with hs
  have hlt : ∀ p ∈ K.templates, p.2 < s.tmpls.length := fun p hp => by
    obtain ⟨T, h1, -⟩ := (hw.tmpl S K hK).2.2 p hp
    exact (List.getElem?_eq_some_iff.mp h1).1
  have e := updateObjs_look s K hnd hlt x err
  have hm : 0 < K.templates.length := List.length_pos_iff.mpr hpos
  obtain ⟨c1, c2, c3, c4⟩ := C81_update (s.look K) K.templates.length K.numBins K.numBins hm
    (by rw [look_templates]; simp [lookIn]) x err hx he
  rw [e] at c1 c2 c3 c4
  simp only at c1 c2 c3 c4
  refine ⟨{ s with tmpls := (updateObjs (K.templates.map (·.2)) x err s.tmpls).2 }, ?_, c2, ?_, c4, ?_, rfl, rfl, rfl⟩
  · simp only [LSys.step, hK]
    rw [c1]
  · simp only [Stacked.list, List.map_map]
    exact c3
  · intro t ht
    exact updateObjs_other _ _ _ _ _ ht

/-- **C92 (reset).** `reset_parameters` of a stack restores the original parameters of each of its templates; nothing else changes. -/
theorem C92_reset (cmds : List LCmd) (S : ℕ) (K : LStack) (hK : (LSys.empty.run cmds).stks[S]? = some K) :
    ∃ s', (LSys.empty.run cmds).step (.resetStack S) = (.ok (), s') ∧
      s'.look K = ((LSys.empty.run cmds).look K).reset ∧
      (∀ t ∉ K.templates.map (·.2), s'.tmpls[t]? = (LSys.empty.run cmds).tmpls[t]?) ∧
      s'.stks = (LSys.empty.run cmds).stks ∧ s'.hists = (LSys.empty.run cmds).hists ∧ s'.nlls = (LSys.empty.run cmds).nlls := by
  have hw := lwf_run cmds lwf_empty
  set s := LSys.empty.run cmds with hs
  refine ⟨{ s with tmpls := resetObjs (K.templates.map (·.2)) s.tmpls }, by simp only [LSys.step, hK], ?_, ?_, rfl, rfl, rfl⟩
  · unfold LSys.look Stacked.reset
    simp only [List.map_map]
    congr 1
    apply List.map_congr_left
    intro p hp
    obtain ⟨T, h1, -⟩ := (hw.tmpl S K hK).2.2 p hp
    simp only [Function.comp, LSys.tmpl]
    rw [List.getD_eq_getElem?_getD, resetObjs_get, if_pos (List.mem_map.mpr ⟨p, hp, rfl⟩), List.getD_eq_getElem?_getD, h1]
    rfl
  · intro t ht
    simp only
    rw [resetObjs_get, if_neg ht]

theorem x0_yield (st : Stacked) (i : ℕ) (hi : i < st.templates.length) : st.x0[i]? = some st.templates[i].2.yieldP.value := by
  unfold Stacked.x0
  rw [List.getElem?_append_left (by simpa using hi), List.getElem?_map, List.getElem?_eq_getElem hi]
  rfl

/-- **C92 fails for shared objects.** If a stack holds the same template object under two ids (positions `i` and `j`), then in no state do the
parameters of the stack read back as a vector with different yields at these positions. -/
theorem C92_shared (s : LSys) (K : LStack) (i j : ℕ) (hi : i < K.templates.length) (hj : j < K.templates.length)
    (h : K.templates[i].2 = K.templates[j].2) (x : Vec) (hx : x[i]? ≠ x[j]?) : (s.look K).x0 ≠ x := by
  intro e
  have hl : (s.look K).templates.length = K.templates.length := by rw [look_templates]; simp [lookIn]
  have h1 := x0_yield (s.look K) i (by omega)
  have h2 := x0_yield (s.look K) j (by omega)
  rw [e] at h1 h2
  apply hx
  rw [h1, h2]
  simp only [look_templates, lookIn, List.getElem_map, h]

namespace Ex

/-- one template, put into a stack under two ids -/
def cmdsTwice : List LCmd :=
  [.newTemplate "a" "x" 2 0 1 (frame rowsL), .newStack "s" "x" 2 0 1, .addTemplate 0 "p" 0, .addTemplate 0 "q" 0]

/-- the template it holds -/
def tmplL : LTemplate := LTemplate.new "a" "x" 2 0 1 (vec fun i : Fin 2 => rowSum (grid 0 1 2) rowsL id i)
  (vec fun i : Fin 2 => rowSum (grid 0 1 2) rowsL (fun w => w ^ 2) i)

theorem cmdsTwice_run : LSys.empty.run cmdsTwice = ⟨[], [tmplL], [⟨"s", "x", 2, 0, 1, [("p", 0), ("q", 0)]⟩], []⟩ := by
  have e := make_eq "a" "x" (n := 2) (by norm_num) (lo := 0) (hi := 1) (by norm_num) rowsL
  have h1 : LSys.empty.step (.newTemplate "a" "x" 2 0 1 (frame rowsL)) = (.ok (), ⟨[], [tmplL], [], []⟩) := by
    simp only [LSys.step]
    have e' : LTemplate.make "a" "x" 2 0 1 (frame rowsL) = .ok tmplL := e
    rw [e']
    rfl
  have h2 : LSys.step ⟨[], [tmplL], [], []⟩ (.newStack "s" "x" 2 0 1) = (.ok (), ⟨[], [tmplL], [⟨"s", "x", 2, 0, 1, []⟩], []⟩) := by
    simp only [LSys.step, LStack.new]
    rw [if_neg (by norm_num), if_neg (by norm_num)]
    rfl
  have hacc : ∀ d, LStack.accepts ⟨"s", "x", 2, 0, 1, d⟩ tmplL := fun d => ⟨rfl, rfl, rfl, rfl⟩
  have h3 : LSys.step ⟨[], [tmplL], [⟨"s", "x", 2, 0, 1, []⟩], []⟩ (.addTemplate 0 "p" 0) =
      (.ok (), ⟨[], [tmplL], [⟨"s", "x", 2, 0, 1, [("p", 0)]⟩], []⟩) := by
    simp only [LSys.step, List.getElem?_cons_zero]
    rw [if_pos (hacc _)]
    simp [dictSet]
  have h4 : LSys.step ⟨[], [tmplL], [⟨"s", "x", 2, 0, 1, [("p", 0)]⟩], []⟩ (.addTemplate 0 "q" 0) =
      (.ok (), ⟨[], [tmplL], [⟨"s", "x", 2, 0, 1, [("p", 0), ("q", 0)]⟩], []⟩) := by
    simp only [LSys.step, List.getElem?_cons_zero]
    rw [if_pos (hacc _)]
    simp [dictSet]
  unfold LSys.run cmdsTwice
  simp only [List.foldl_cons, List.foldl_nil, h1, h2, h3, h4]

end Ex

/-- **C92 (update) is false in general.** A history of accepted calls after which `update_parameters` with vectors of the documented length
returns normally, but the parameters read back differ from those handed in: the same template object was added under two ids. -/
theorem C92_update_refuted : ∃ (cmds : List LCmd) (S : ℕ) (K : LStack) (x err : Vec),
    (∀ c ∈ cmds, GoodCmd c) ∧ (LSys.empty.run cmds).stks[S]? = some K ∧
    x.length = K.templates.length + K.templates.length * K.numBins ∧
    err.length = K.templates.length + K.templates.length * K.numBins ∧
    ((LSys.empty.run cmds).step (.update S x err)).1 = .ok () ∧
    (((LSys.empty.run cmds).step (.update S x err)).2.look K).x0 ≠ x := by
  refine ⟨Ex.cmdsTwice, 0, ⟨"s", "x", 2, 0, 1, [("p", 0), ("q", 0)]⟩, vec ![1, 2, 0, 0, 0, 0], vec ![1, 1, 1, 1, 1, 1], ?_, ?_, ?_, ?_, ?_, ?_⟩
  · intro c hc
    simp only [Ex.cmdsTwice, List.mem_cons, List.not_mem_nil, or_false] at hc
    rcases hc with rfl | rfl | rfl | rfl
    · exact ⟨_, rfl⟩
    all_goals trivial
  · rw [Ex.cmdsTwice_run]; rfl
  · simp [vec_length]
  · simp [vec_length]
  · rw [Ex.cmdsTwice_run]
    simp [LSys.step, updateObjs, splitEq, vec]
  · apply C92_shared _ _ 0 1 (by simp) (by simp) rfl
    simp [vec]

namespace Ex

/-- two templates made by the stack itself: the hypotheses of C92 (values, update, reset) hold -/
def cmdsAB : List LCmd :=
  [.newStack "s" "x" 2 0 1, .createTemplate 0 "p" (frame rowsL), .createTemplate 0 "q" (frame rowsL)]

/-- the template made from `rowsL` under a name -/
def tmplN (name : String) : LTemplate := LTemplate.new name "x" 2 0 1 (vec fun i : Fin 2 => rowSum (grid 0 1 2) rowsL id i)
  (vec fun i : Fin 2 => rowSum (grid 0 1 2) rowsL (fun w => w ^ 2) i)

theorem cmdsAB_run : LSys.empty.run cmdsAB = ⟨[], [tmplN "p", tmplN "q"], [⟨"s", "x", 2, 0, 1, [("p", 0), ("q", 1)]⟩], []⟩ := by
  have e : ∀ name, LTemplate.make name "x" ((2 : ℕ) : ℤ) 0 1 (frame rowsL) = .ok (tmplN name) := fun name =>
    make_eq name "x" (n := 2) (by norm_num) (lo := 0) (hi := 1) (by norm_num) rowsL
  have h2 : LSys.empty.step (.newStack "s" "x" 2 0 1) = (.ok (), ⟨[], [], [⟨"s", "x", 2, 0, 1, []⟩], []⟩) := by
    simp only [LSys.step, LStack.new]
    rw [if_neg (by norm_num), if_neg (by norm_num)]
    rfl
  have h3 : LSys.step ⟨[], [], [⟨"s", "x", 2, 0, 1, []⟩], []⟩ (.createTemplate 0 "p" (frame rowsL)) =
      (.ok (), ⟨[], [tmplN "p"], [⟨"s", "x", 2, 0, 1, [("p", 0)]⟩], []⟩) := by
    simp only [LSys.step, List.getElem?_cons_zero]
    rw [e]
    simp [dictSet]
  have h4 : LSys.step ⟨[], [tmplN "p"], [⟨"s", "x", 2, 0, 1, [("p", 0)]⟩], []⟩ (.createTemplate 0 "q" (frame rowsL)) =
      (.ok (), ⟨[], [tmplN "p", tmplN "q"], [⟨"s", "x", 2, 0, 1, [("p", 0), ("q", 1)]⟩], []⟩) := by
    simp only [LSys.step, List.getElem?_cons_zero]
    rw [e]
    simp [dictSet]
  unfold LSys.run cmdsAB
  simp only [List.foldl_cons, List.foldl_nil, h2, h3, h4]

theorem cmdsAB_good : ∀ c ∈ cmdsAB, GoodCmd c := by
  intro c hc
  simp only [cmdsAB, List.mem_cons, List.not_mem_nil, or_false] at hc
  rcases hc with rfl | rfl | rfl
  · trivial
  · exact ⟨_, rfl⟩
  · exact ⟨_, rfl⟩

theorem tmplN_values (name : String) : (tmplN name).values = .ok (vec ![3, 0]) ∧ (tmplN name).errors = .ok (vec ![3, 0]) := by
  have hs : (∑ i : Fin 2, rowSum (grid 0 1 2) rowsL id i) = 3 := by
    rw [Fin.sum_univ_two]
    show rowSum (grid 0 1 2) rowsL id 0 + rowSum (grid 0 1 2) rowsL id 1 = 3
    rw [rowsL_sum0, rowsL_sum1]; norm_num
  have h0 := new_tIs name "x" 0 1 (fun i : Fin 2 => rowSum (grid 0 1 2) rowsL id i)
    (fun i : Fin 2 => rowSum (grid 0 1 2) rowsL (fun w => w ^ 2) i) (fun i => rowSum_sq_nonneg _ _ _)
  have hv := reset_values h0 (by rw [hs]; norm_num)
  have e : (fun i : Fin 2 => rowSum (grid 0 1 2) rowsL id i) = ![3, 0] := by
    funext i
    fin_cases i
    · exact rowsL_sum0 id
    · exact rowsL_sum1 id
  have hv' : (tmplN name).values = .ok (vec ![3, 0]) := by rw [← e]; exact hv
  refine ⟨hv', ?_⟩
  rw [show (tmplN name).errors = _ from lerrors_eq (T := tmplN name) h0.inv.2.2.2.2.2.2 hv']
  congr 2
  funext i
  fin_cases i
  · show relOf _ _ * (3 : ℝ) = 3
    have e0 : rowSum (grid 0 1 2) rowsL id ((0 : Fin 2) : ℕ) = 3 := rowsL_sum0 id
    have e1 : rowSum (grid 0 1 2) rowsL (fun w => w ^ 2) ((0 : Fin 2) : ℕ) = 9 := by
      have := rowsL_sum0 (fun w => w ^ 2); norm_num at this; exact this
    simp only [Fin.zero_eta, Matrix.diagonal_apply_eq, e0, e1]
    have h9 : Real.sqrt 9 = 3 := by rw [show (9:ℝ) = 3 ^ 2 by norm_num]; exact Real.sqrt_sq (by norm_num)
    have e0' : rowSum (grid 0 1 2) rowsL id 0 = 3 := rowsL_sum0 id
    norm_num [relOf, statVar, h9, e0']
  · show relOf _ _ * (0 : ℝ) = 0
    rw [mul_zero]

/-- C92: the stack predicts (6, 0) with error √18 in the first bin; its Asimov data are accepted, and its template objects are distinct -/
example : (∀ c ∈ cmdsAB, GoodCmd c) ∧ ∃ st K, (LSys.empty.run cmdsAB).stack 0 = some st ∧
    (LSys.empty.run cmdsAB).stks[0]? = some K ∧ (K.templates.map (·.2)).Nodup ∧ K.templates ≠ [] ∧
    st.values = .ok (vec ![6, 0]) ∧ st.errors = .ok (vec ![Real.sqrt 18, 0]) := by
  have hst : (LSys.empty.run cmdsAB).stack 0 = some ⟨"x", 2, 0, 1, [("p", tmplN "p"), ("q", tmplN "q")]⟩ := by
    rw [cmdsAB_run]; rfl
  refine ⟨cmdsAB_good, _, ⟨"s", "x", 2, 0, 1, [("p", 0), ("q", 1)]⟩, hst, by rw [cmdsAB_run]; rfl, by simp, by simp, ?_⟩
  have h := C92_sums (K := 2) (n := 2) (by norm_num) ⟨"x", 2, 0, 1, [("p", tmplN "p"), ("q", tmplN "q")]⟩ ![tmplN "p", tmplN "q"]
    (by simp [Stacked.list, List.ofFn_succ]) (fun _ => ![3, 0]) (fun _ => ![3, 0])
    (fun k => by fin_cases k <;> exact (tmplN_values _).1) (fun k => by fin_cases k <;> exact (tmplN_values _).2)
  constructor
  · rw [h.1]
    congr 2
    funext i
    fin_cases i
    · simp; norm_num
    · simp
  · rw [h.2]
    congr 2
    funext i
    fin_cases i
    · show Real.sqrt (∑ k : Fin 2, (3 : ℝ) ^ 2) = Real.sqrt 18
      congr 1
      rw [Fin.sum_univ_two]; norm_num
    · simp

end Ex

end

end TF.Props
