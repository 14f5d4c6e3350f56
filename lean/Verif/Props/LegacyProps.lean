import Verif.Model.Legacy
import Verif.Props.ChannelProps
import Verif.Lemmas.MctEval

set_option linter.unusedSimpArgs false

/-!
# Legacy templates and likelihood (C78, C81, C82)
-/

namespace TF.Spec

open Classical
open scoped Matrix

noncomputable section

/-- The legacy stack `s` holds `K` templates with `n` bins each: template `k` (in insertion order) has nominal contents
`cnt k`, relative errors `ε k`, and stores the inverse of the correlation matrix `R k`. -/
def LStackIs (s : Stacked) {K n : ℕ} (cnt ε : Fin K → Fin n → ℝ) (R : Fin K → Matrix (Fin n) (Fin n) ℝ) : Prop :=
  ∃ T : Fin K → LTemplate, s.templates.map (·.2) = List.ofFn T ∧
    ∀ k, (T k).counts = vec (cnt k) ∧ (T k).relErr = vec (ε k) ∧ IsReal (T k).invCorr (R k)⁻¹

/-- A legacy template with `n` bins as the public interface makes it: constructed from a histogram with finite contents,
then any number of positive-semidefinite covariance matrices added and any parameter values assigned. -/
inductive LTemplate.Made (n : ℕ) : LTemplate → Prop
  | new (name var : String) (lo hi : ℝ) (c s : Fin n → ℝ) (hs : ∀ i, 0 ≤ s i) :
      LTemplate.Made n (LTemplate.new name var n lo hi (vec c) (vec s))
  | cov (t : LTemplate) (m : Mat) (A : Matrix (Fin n) (Fin n) ℝ) (hm : IsReal m A) (hA : A.PosSemidef) :
      LTemplate.Made n t → LTemplate.Made n (t.addCov m).2
  | params (t : LTemplate) (y e : Fl) (v f : Vec) :
      LTemplate.Made n t → LTemplate.Made n
        { t with yieldP := { t.yieldP with value := y, error := e },
                 nuiP := { t.nuiP with value := v, error := f } }

end

end TF.Spec

namespace TF.Props

open Classical Spec
open scoped Matrix

noncomputable section

/-- all derived numbers of a legacy template are those of its total covariance matrix -/
def LInv {n : ℕ} (t : LTemplate) (c : Fin n → ℝ) (C : Matrix (Fin n) (Fin n) ℝ) : Prop :=
  t.numBins = n ∧ t.counts = vec c ∧ IsReal t.cov C ∧ C.PosDef ∧ IsReal t.corr (corrOf C) ∧
    IsReal t.invCorr (corrOf C)⁻¹ ∧ t.relErr = vec fun i => relOf (C i i) (c i)

theorem corrOf_diagonal {n : ℕ} (v : Fin n → ℝ) (hv : ∀ i, 0 < v i) : corrOf (Matrix.diagonal v) = 1 := by
  ext i j
  simp only [corrOf, Matrix.of_apply, Matrix.diagonal_apply_eq, (hv i).ne', (hv j).ne', or_self, if_false]
  by_cases h : i = j
  · subst h
    rw [Matrix.diagonal_apply_eq, Matrix.one_apply_eq, Real.mul_self_sqrt (hv i).le, div_self (hv i).ne']
  · rw [Matrix.diagonal_apply_ne _ h, Matrix.one_apply_ne h, zero_div]

theorem isReal_ones {n : ℕ} : IsReal (Mat.diagOf (List.replicate n 1)) (1 : Matrix (Fin n) (Fin n) ℝ) := by
  have : (List.replicate n (1 : Fl)) = vec (fun _ : Fin n => (1:ℝ)) := by
    unfold vec; rw [List.ofFn_const]; rfl
  rw [this, ← Matrix.diagonal_one]
  exact isReal_diagOf _

theorem made_inv {n : ℕ} {t : LTemplate} (h : LTemplate.Made n t) :
    ∃ (c : Fin n → ℝ) (C : Matrix (Fin n) (Fin n) ℝ), LInv t c C := by
  induction h with
  | new name var lo hi c s hs =>
    have hd : IsReal (Mat.diagOf (statErrSq (vec s))) (Matrix.diagonal fun i => statVar (s i)) := by
      rw [statErrSq_vec]; exact isReal_diagOf _
    have hp : ∀ i, 0 < statVar (s i) := fun i => statVar_pos (hs i)
    refine ⟨c, Matrix.diagonal fun i => statVar (s i), rfl, rfl, hd, Matrix.PosDef.diagonal hp, ?_, ?_, ?_⟩
    · rw [corrOf_diagonal _ hp]; exact isReal_ones
    · rw [corrOf_diagonal _ hp, inv_one]; exact isReal_ones
    · exact relErrs_vec hd (fun i => by rw [Matrix.diagonal_apply_eq]; exact (hp i).le) c
  | cov t m A hm hA _ ih =>
    obtain ⟨c, C, h1, h2, h3, h4, h5, h6, h7⟩ := ih
    have hC : (C + A).PosDef := h4.add_posSemidef hA
    have hr : IsReal (t.cov.add m) (C + A) := h3.add hm
    have hcorr : IsReal (cov2corr (t.cov.add m)) (corrOf (C + A)) :=
      cov2corr_isReal hr (fun i => (posSemidef_diag_nonneg hC.posSemidef i))
        (fun i j => posSemidef_zero hC.posSemidef i j)
    have hdet : (corrOf (C + A)).det ≠ 0 :=
      ((Matrix.isUnit_iff_isUnit_det _).mp (Matrix.PosDef.isUnit (corrOf_posDef hC))).ne_zero
    obtain ⟨inv, hi, hir⟩ := npInv_isReal hcorr hdet
    have e : t.addCov m = (.ok (),
        { t with
          cov := t.cov.add m
          corr := cov2corr (t.cov.add m)
          invCorr := inv
          relErr := relErrs (t.cov.add m) t.counts }) := by
      unfold LTemplate.addCov
      rw [if_pos ⟨by rw [hm.1, h3.1], by rw [hm.2.1, h3.2.1]⟩]
      simp only
      rw [hi]
    refine ⟨c, C + A, ?_⟩
    rw [e]
    refine ⟨h1, h2, hr, hC, hcorr, hir, ?_⟩
    show relErrs _ t.counts = _
    rw [h2]
    exact relErrs_vec hr (fun i => posSemidef_diag_nonneg hC.posSemidef i) c
  | params t y e v f _ ih =>
    obtain ⟨c, C, h⟩ := ih
    exact ⟨c, C, h⟩

theorem ofFn_of_list {α β : Type} (P : α → β → Prop) : ∀ l : List α, (∀ a ∈ l, ∃ b, P a b) →
    ∃ (T : Fin l.length → α) (B : Fin l.length → β), l = List.ofFn T ∧ ∀ k, P (T k) (B k) := by
  intro l h
  choose f hf using h
  exact ⟨fun k => l[k], fun k => f l[k] (List.getElem_mem _), (List.ofFn_getElem (xs := l)).symm,
    fun k => hf _ _⟩

/-- every stack of templates made through the interface has the shape the likelihood theorems assume -/
theorem stackIs_of_made {n : ℕ} (s : Stacked) (h : ∀ p ∈ s.templates, LTemplate.Made n p.2) :
    ∃ (cnt : Fin s.num → Fin n → ℝ) (C : Fin s.num → Matrix (Fin n) (Fin n) ℝ), (∀ k, (C k).PosDef) ∧
      LStackIs s cnt (fun k i => relOf (C k i i) (cnt k i)) (fun k => corrOf (C k)) := by
  have h' : ∀ t ∈ s.templates.map (·.2), ∃ q : (Fin n → ℝ) × Matrix (Fin n) (Fin n) ℝ, LInv t q.1 q.2 := by
    intro t ht
    obtain ⟨p, hp, rfl⟩ := List.mem_map.mp ht
    obtain ⟨c, C, hc⟩ := made_inv (h p hp)
    exact ⟨(c, C), hc⟩
  obtain ⟨T, B, h1, h2⟩ := ofFn_of_list (fun t (q : (Fin n → ℝ) × Matrix (Fin n) (Fin n) ℝ) => LInv t q.1 q.2) _ h'
  have hl : (s.templates.map (·.2)).length = s.num := by simp [Stacked.num]
  revert T B h1 h2
  generalize hL : s.templates.map (·.2) = L at *
  subst_vars
  obtain ⟨K, hK⟩ : ∃ K, K = s.num := ⟨_, rfl⟩
  rw [← hK] at hl
  rw [← hK]
  subst hl
  intro T B h1 h2
  exact ⟨fun k => (B k).1, fun k => (B k).2, fun k => (h2 k).2.2.2.1, T, h1,
    fun k => ⟨(h2 k).2.1, (h2 k).2.2.2.2.2.2, (h2 k).2.2.2.2.2.1⟩⟩

theorem legacyRows_ofFn {K : ℕ} (T : Fin K → LTemplate) (P F : Fin K → Vec)
    (h : ∀ k, (T k).fractions (P k) = .ok (F k)) :
    legacyRows (List.ofFn T) (List.ofFn P) = .ok (List.ofFn F) := by
  induction K with
  | zero => simp [legacyRows]
  | succ K ih =>
    simp only [List.ofFn_succ, legacyRows, h 0]
    rw [ih (fun k => T k.succ) (fun k => P k.succ) (fun k => F k.succ) (fun k => h k.succ)]

theorem legacy_fractions {n : ℕ} {t : LTemplate} {c ε : Fin n → ℝ} (hc : t.counts = vec c) (hε : t.relErr = vec ε)
    (θ : Fin n → ℝ) (hT : ∑ j, c j * (1 + θ j * ε j) ≠ 0) :
    t.fractions (vec θ) = .ok (vec (frac c ε θ)) := by
  unfold LTemplate.fractions
  rw [hc, hε]
  simp only [bind, Except.bind, pure, Except.pure]
  rw [bop_vec _ _ _ _ (fun i => rfl)]
  simp only
  rw [map_vec _ _ (fun i => 1 + θ i * ε i) (fun i => rfl), bop_vec _ _ _ _ (fun i => rfl)]
  simp only [npSum]
  rw [vec_sum]
  congr 1
  apply map_vec
  intro i
  rw [Fl.fin_div _ _ hT]
  rfl

/-- one bin of the legacy Poisson term -/
def lbin (d e : Fl) : Fl := e - d - legacyXlogyx d e

/-- value of a likelihood object whose stored block matrix was formed from the inverse correlation matrices `B` -/
theorem legacy_call_block {K n : ℕ} (s : Stacked) (cnt ε : Fin K → Fin n → ℝ) (R0 R : Fin K → Matrix (Fin n) (Fin n) ℝ)
    (hs : LStackIs s cnt ε R0) (hK : 0 < K) (N : LNll) (B : Fin K → Mat) (hblock : N.block = blockDiag (List.ofFn B))
    (hB : ∀ k, IsReal (B k) (R k)⁻¹) (d : Fin n → ℝ) (hdata : N.data = vec d) (ν : Fin K → ℝ) (θ : Fin K → Fin n → ℝ)
    (hT : ∀ k, ∑ j, cnt k j * (1 + θ k j * ε k j) ≠ 0) :
    N.call s (vec ν ++ nuiVec θ) =
      .ok ((List.ofFn fun i => lbin (.fin (d i)) (.fin (expected cnt ε (fun _ => 1) ν θ i))).sum +
        .fin (penalty R θ)) := by
  obtain ⟨T, hT1, hT2⟩ := hs
  have hnum : s.num = K := by
    have := congrArg List.length hT1
    simpa [Stacked.num] using this
  have ht : (vec ν ++ nuiVec θ).take K = vec ν := by
    rw [List.take_append, vec_length]; simp [List.take_of_length_le, vec_length]
  have hd : (vec ν ++ nuiVec θ).drop K = nuiVec θ := by
    rw [List.drop_append, vec_length]; simp [List.drop_of_length_le, vec_length]
  have h3 := legacyRows_ofFn T (fun k => vec (θ k)) (fun k => vec (frac (cnt k) (ε k) (θ k)))
    (fun k => legacy_fractions (hT2 k).1 (hT2 k).2.1 (θ k) (hT k))
  obtain ⟨M, h4, h5⟩ := stackRows_ofFn hK (fun k => frac (cnt k) (ε k) (θ k))
  have hF : s.fractions (nuiVec θ) = .ok M := by
    unfold Stacked.fractions
    rw [hnum]
    have : splitEq (nuiVec θ) K = .ok (List.ofFn fun k => vec (θ k)) := splitEq_nui hK θ
    rw [this]
    simp only
    rw [hT1, h3]; exact h4
  have he : vecMat (vec ν) M = .ok (vec (expected cnt ε (fun _ => 1) ν θ)) := by
    rw [vecMat_vec _ h5]
    congr 2
    funext i
    unfold expected
    exact Finset.sum_congr rfl fun k _ => by rw [Matrix.of_apply, frac_eq, mul_one]
  obtain ⟨N', B', Θ, hB', hΘ, hq⟩ := blockDiag_form B (fun k => (R k)⁻¹) hB θ
  have hb : ∀ (op : Fl → Fl → Fl) (a b : Vec), a.length = b.length →
      bop op a b = .ok (List.zipWith op a b) := by
    intro op a b h; simp [bop, h]
  unfold LNll.call
  rw [hnum, ht, hd, hF, hblock, hdata]
  simp only [bind, Except.bind, pure, Except.pure]
  rw [he]
  simp only
  rw [hb _ _ _ (by simp [vec_length])]
  simp only
  rw [hb _ _ _ (by simp [vec_length])]
  simp only
  rw [hb _ _ _ (by simp [vec_length])]
  simp only [npSum]
  have hnui : nuiVec θ = vec Θ := hΘ
  rw [hnui, vecMat_vec _ hB']
  simp only
  rw [dot_vec]
  simp only [Fl.fin_mul]
  congr 2
  · congr 1
    apply List.ext_getElem
    · simp [vec_length]
    · intro i h1 h2
      simp [vec, lbin]
  · congr 1
    unfold penalty
    congr 1
    rw [hq]
    apply Finset.sum_congr rfl
    intro k _
    simp only [dotProduct, Matrix.mulVec]
    simp only [Finset.sum_mul, Finset.mul_sum]
    rw [Finset.sum_comm]
    refine Finset.sum_congr rfl fun i _ => Finset.sum_congr rfl fun j _ => by ring

theorem legacy_call {K n : ℕ} (s : Stacked) (cnt ε : Fin K → Fin n → ℝ) (R : Fin K → Matrix (Fin n) (Fin n) ℝ)
    (hs : LStackIs s cnt ε R) (hK : 0 < K) (d : Fin n → ℝ) (ν : Fin K → ℝ) (θ : Fin K → Fin n → ℝ)
    (hT : ∀ k, ∑ j, cnt k j * (1 + θ k j * ε k j) ≠ 0) :
    (LNll.new s (vec d)).call s (vec ν ++ nuiVec θ) =
      .ok ((List.ofFn fun i => lbin (.fin (d i)) (.fin (expected cnt ε (fun _ => 1) ν θ i))).sum +
        .fin (penalty R θ)) := by
  obtain ⟨T, hT1, hT2⟩ := hs
  refine legacy_call_block s cnt ε R R ⟨T, hT1, hT2⟩ hK _ (fun k => (T k).invCorr) ?_ (fun k => (hT2 k).2.2) d rfl ν θ hT
  unfold LNll.new
  have : s.templates.map (fun p => p.2.invCorr) = (s.templates.map (·.2)).map (·.invCorr) := by
    rw [List.map_map]; rfl
  simp only
  rw [this, hT1, List.map_ofFn]; rfl

theorem lxlogyx_pos {d e : ℝ} (hd : 0 < d) (he : 0 < e) :
    legacyXlogyx (.fin d) (.fin e) = .fin (d * Real.log (e / d)) := by
  unfold legacyXlogyx
  by_cases h : d < e
  · have hlt : (Fl.fin d).lt (Fl.fin e) := h
    rw [if_pos hlt, Fl.fin_sub, Fl.fin_div _ _ hd.ne', Fl.log1p_fin (by
      have : 0 < (e - d) / d := div_pos (by linarith) hd
      linarith), Fl.fin_mul]
    show Fl.fin _ = _
    congr 3
    field_simp; ring
  · have hlt : ¬ (Fl.fin d).lt (Fl.fin e) := h
    rw [if_neg hlt, Fl.fin_sub, Fl.fin_div _ _ he.ne', Fl.log1p_fin (by
      have : 0 ≤ (d - e) / e := div_nonneg (by linarith) he.le
      linarith), Fl.fin_neg, Fl.fin_mul]
    show Fl.fin _ = _
    congr 1
    rw [show 1 + (d - e) / e = (e / d)⁻¹ by field_simp; ring, Real.log_inv]
    ring

theorem lxlogyx_empty {e : ℝ} (he : 0 ≤ e) : legacyXlogyx (.fin 0) (.fin e) = .pinf := by
  unfold legacyXlogyx
  rcases he.lt_or_eq with h | h
  · have hlt : (Fl.fin 0).lt (Fl.fin e) := h
    rw [if_pos hlt, Fl.fin_sub, sub_zero, Fl.fin_pos_div_zero _ h]
    have : Fl.fin 0 * Fl.log1p Fl.pinf = Fl.nan := by
      show Fl.fin 0 * Fl.pinf = Fl.nan
      show Fl.mulPinf 0 = Fl.nan
      simp [Fl.mulPinf]
    rw [this]; rfl
  · subst h
    have hlt : ¬ (Fl.fin 0).lt (Fl.fin 0) := lt_irrefl _
    rw [if_neg hlt, Fl.fin_sub, sub_zero, Fl.fin_div_zero]
    simp [Fl.log1p, Fl.nanToNumInf]

theorem lxlogyx_negative {d e : ℝ} (hd : 0 < d) (he : e < 0) : legacyXlogyx (.fin d) (.fin e) = .pinf := by
  unfold legacyXlogyx
  have hlt : ¬ (Fl.fin d).lt (Fl.fin e) := by
    intro h; have : d < e := h; linarith
  have h1 : (d - e) / e < -1 := by
    rw [div_lt_iff_of_neg he]; linarith
  rw [if_neg hlt, Fl.fin_sub, Fl.fin_div _ _ he.ne]
  have : Fl.log1p (.fin ((d - e) / e)) = .nan := by simp [Fl.log1p, h1]
  rw [this]
  simp [Fl.nanToNumInf]

theorem sum_ninf (l : Vec) (h : ∀ x ∈ l, x = .ninf ∨ ∃ r : ℝ, x = .fin r) :
    (∃ r : ℝ, l.sum = .fin r) ∨ l.sum = .ninf := by
  induction l with
  | nil => exact Or.inl ⟨0, rfl⟩
  | cons a l ih =>
    rw [List.sum_cons]
    rcases h a (by simp) with rfl | ⟨r, rfl⟩ <;>
    rcases ih (fun x hx => h x (by simp [hx])) with ⟨q, hq⟩ | hq <;> rw [hq]
    · exact Or.inr rfl
    · exact Or.inr rfl
    · exact Or.inl ⟨_, rfl⟩
    · exact Or.inr rfl

theorem sum_ninf_of_mem (l : Vec) (h : ∀ x ∈ l, x = .ninf ∨ ∃ r : ℝ, x = .fin r) (hm : Fl.ninf ∈ l) :
    l.sum = .ninf := by
  induction l with
  | nil => simp at hm
  | cons a l ih =>
    rw [List.sum_cons]
    rcases List.mem_cons.mp hm with rfl | hm'
    · rcases sum_ninf l (fun x hx => h x (by simp [hx])) with ⟨q, hq⟩ | hq <;> rw [hq] <;> rfl
    · rw [ih (fun x hx => h x (by simp [hx])) hm']
      rcases h a (by simp) with rfl | ⟨r, rfl⟩ <;> rfl

theorem lbin_sum {n : ℕ} (d e : Fin n → ℝ) (hd : ∀ i, 0 < d i) (he : ∀ i, 0 < e i) :
    (List.ofFn fun i => lbin (.fin (d i)) (.fin (e i))).sum = .fin (∑ i, (e i - d i - d i * Real.log (e i / d i))) := by
  have : (List.ofFn fun i => lbin (.fin (d i)) (.fin (e i))) = vec fun i => e i - d i - d i * Real.log (e i / d i) := by
    unfold vec
    congr 1
    funext i
    unfold lbin
    rw [lxlogyx_pos (hd i) (he i)]
    simp
  rw [this, vec_sum]

/-- **C78, the part that holds.** For data without empty bins and positive expectations the legacy likelihood of any
stack has the value of the new one: the same formula, with all efficiencies equal to one.
Missing for the full property: empty data bins, see `C78_empty_refuted`. -/
theorem C78_positive_partial {K n : ℕ} (s : Stacked) (cnt ε : Fin K → Fin n → ℝ)
    (R : Fin K → Matrix (Fin n) (Fin n) ℝ) (hs : LStackIs s cnt ε R) (hK : 0 < K) (d : Fin n → ℝ) (hd : ∀ i, 0 < d i)
    (ν : Fin K → ℝ) (θ : Fin K → Fin n → ℝ) (hT : ∀ k, ∑ j, cnt k j * (1 + θ k j * ε k j) ≠ 0)
    (hE : ∀ i, 0 < expected cnt ε (fun _ => 1) ν θ i) :
    (LNll.new s (vec d)).call s (vec ν ++ nuiVec θ) =
      .ok (.fin ((∑ i, (expected cnt ε (fun _ => 1) ν θ i - d i
            - d i * Real.log (expected cnt ε (fun _ => 1) ν θ i / d i))) +
          1 / 2 * ∑ k, (θ k) ⬝ᵥ ((R k)⁻¹.mulVec (θ k)))) := by
  rw [legacy_call s cnt ε R hs hK d ν θ hT, lbin_sum _ _ hd hE, Fl.fin_add]
  rfl

/-- **C78, relation to the new likelihood.** On data in which no bin is empty (or below the threshold 1e-100 of the new code),
the legacy likelihood equals the contribution of a channel of the new code holding the same templates with unit efficiencies. -/
theorem C78_same_partial {K n : ℕ} (s : Stacked) (cnt ε : Fin K → Fin n → ℝ)
    (R : Fin K → Matrix (Fin n) (Fin n) ℝ) (hs : LStackIs s cnt ε R) (hR : ∀ k, (R k).PosDef) (hK : 0 < K)
    (w : World) (hw : Coherent w) (c hid : ℕ) (hc : ChanIs w c cnt ε (fun _ => 1) R)
    (hdat : (w.chans c).hdata = some hid) (d : Fin n → ℝ) (hdd : (w.hists hid).counts.data = vec d)
    (hd : ∀ i, (1e-100 : ℝ) ≤ d i)
    (ν : Fin K → ℝ) (θ : Fin K → Fin n → ℝ) (hT : ∀ k, ∑ j, cnt k j * (1 + θ k j * ε k j) ≠ 0)
    (hE : ∀ i, 0 < expected cnt ε (fun _ => 1) ν θ i) :
    (LNll.new s (vec d)).call s (vec ν ++ nuiVec θ) = (w.nllContribution c (vec ν) (nuiVec θ)).1 := by
  have hd0 : ∀ i, 0 < d i := fun i => lt_of_lt_of_le (by norm_num) (hd i)
  obtain ⟨v, h1, h2, -⟩ := C36_nll w c cnt ε (fun _ => 1) R hc hK hw hR hid hdat d hdd (fun i => Or.inr (hd i)) ν θ hT hE
  rw [C78_positive_partial s cnt ε R hs hK d hd0 ν θ hT hE, h1, h2]
  simp [fun i => (hd0 i).ne']

/-- **C78 is false.** Whenever some data bin is empty, the legacy likelihood is minus infinity at *every* parameter point with
positive expectations (the new likelihood is finite there): the fit has nothing left to minimise. -/
theorem C78_empty_refuted {K n : ℕ} (s : Stacked) (cnt ε : Fin K → Fin n → ℝ)
    (R : Fin K → Matrix (Fin n) (Fin n) ℝ) (hs : LStackIs s cnt ε R) (hK : 0 < K) (d : Fin n → ℝ) (hd : ∀ i, 0 ≤ d i)
    (h0 : ∃ i, d i = 0)
    (ν : Fin K → ℝ) (θ : Fin K → Fin n → ℝ) (hT : ∀ k, ∑ j, cnt k j * (1 + θ k j * ε k j) ≠ 0)
    (hE : ∀ i, 0 < expected cnt ε (fun _ => 1) ν θ i) :
    (LNll.new s (vec d)).call s (vec ν ++ nuiVec θ) = .ok .ninf := by
  rw [legacy_call s cnt ε R hs hK d ν θ hT]
  have h : (List.ofFn fun i => lbin (.fin (d i)) (.fin (expected cnt ε (fun _ => 1) ν θ i))).sum = .ninf := by
    apply sum_ninf_of_mem
    · intro x hx
      obtain ⟨i, rfl⟩ := List.mem_ofFn.mp hx
      rcases (hd i).lt_or_eq with h | h
      · right; unfold lbin; rw [lxlogyx_pos h (hE i), Fl.fin_sub, Fl.fin_sub]; exact ⟨_, rfl⟩
      · left; unfold lbin; rw [← h, lxlogyx_empty (hE i).le]; rfl
    · obtain ⟨i, hi⟩ := h0
      refine List.mem_ofFn.mpr ⟨i, ?_⟩
      unfold lbin; rw [hi, lxlogyx_empty (hE i).le]; rfl
  rw [h]; rfl

/-- **C78 is also false for negative expectations**: if some bin with data has a negative expectation while no expectation is zero
and no data bin is empty, the legacy likelihood is minus infinity, so the minimiser is drawn to unphysical points (the new
likelihood is NaN there). -/
theorem C78_negative_refuted {K n : ℕ} (s : Stacked) (cnt ε : Fin K → Fin n → ℝ)
    (R : Fin K → Matrix (Fin n) (Fin n) ℝ) (hs : LStackIs s cnt ε R) (hK : 0 < K) (d : Fin n → ℝ) (hd : ∀ i, 0 < d i)
    (ν : Fin K → ℝ) (θ : Fin K → Fin n → ℝ) (hT : ∀ k, ∑ j, cnt k j * (1 + θ k j * ε k j) ≠ 0)
    (hE : ∀ i, expected cnt ε (fun _ => 1) ν θ i ≠ 0) (h0 : ∃ i, expected cnt ε (fun _ => 1) ν θ i < 0) :
    (LNll.new s (vec d)).call s (vec ν ++ nuiVec θ) = .ok .ninf := by
  rw [legacy_call s cnt ε R hs hK d ν θ hT]
  have h : (List.ofFn fun i => lbin (.fin (d i)) (.fin (expected cnt ε (fun _ => 1) ν θ i))).sum = .ninf := by
    apply sum_ninf_of_mem
    · intro x hx
      obtain ⟨i, rfl⟩ := List.mem_ofFn.mp hx
      rcases lt_or_gt_of_ne (hE i) with h | h
      · left; unfold lbin; rw [lxlogyx_negative (hd i) h, Fl.fin_sub]; rfl
      · right; unfold lbin; rw [lxlogyx_pos (hd i) h, Fl.fin_sub, Fl.fin_sub]; exact ⟨_, rfl⟩
    · obtain ⟨i, hi⟩ := h0
      refine List.mem_ofFn.mpr ⟨i, ?_⟩
      unfold lbin; rw [lxlogyx_negative (hd i) hi, Fl.fin_sub]; rfl
  rw [h]; rfl

/-! ### C81 -/

/-- what `setYields`, `setYieldErrs`, `setNuis`, `setNuiErrs` do to the four parameter lists -/
theorem setYields_maps (ts : List (String × LTemplate)) : ∀ vs : Vec,
    (vs.length = ts.length → (setYields ts vs).map (fun p => p.2.yieldP.value) = vs) ∧
    (setYields ts vs).map (fun p => p.2.yieldP.error) = ts.map (fun p => p.2.yieldP.error) ∧
    (setYields ts vs).map (fun p => p.2.nuiP) = ts.map (fun p => p.2.nuiP) ∧
    (setYields ts vs).map (fun p => (p.1, p.2.reset)) = ts.map (fun p => (p.1, p.2.reset)) ∧
    (setYields ts vs).length = ts.length := by
  induction ts with
  | nil => intro vs; cases vs <;> simp [setYields]
  | cons p ts ih =>
    intro vs
    obtain ⟨k, t⟩ := p
    cases vs with
    | nil => simp [setYields]
    | cons v vs =>
      obtain ⟨h1, h2, h3, h4, h5⟩ := ih vs
      refine ⟨fun h => ?_, ?_, ?_, ?_, ?_⟩
      · simp [setYields, h1 (by simpa using h)]
      · simp [setYields, h2]
      · simp [setYields, h3]
      · simp only [setYields, List.map_cons, h4]; rfl
      · simp [setYields, h5]

theorem setYieldErrs_maps (ts : List (String × LTemplate)) : ∀ vs : Vec,
    (vs.length = ts.length → (setYieldErrs ts vs).map (fun p => p.2.yieldP.error) = vs) ∧
    (setYieldErrs ts vs).map (fun p => p.2.yieldP.value) = ts.map (fun p => p.2.yieldP.value) ∧
    (setYieldErrs ts vs).map (fun p => p.2.nuiP) = ts.map (fun p => p.2.nuiP) ∧
    (setYieldErrs ts vs).map (fun p => (p.1, p.2.reset)) = ts.map (fun p => (p.1, p.2.reset)) ∧
    (setYieldErrs ts vs).length = ts.length := by
  induction ts with
  | nil => intro vs; cases vs <;> simp [setYieldErrs]
  | cons p ts ih =>
    intro vs
    obtain ⟨k, t⟩ := p
    cases vs with
    | nil => simp [setYieldErrs]
    | cons v vs =>
      obtain ⟨h1, h2, h3, h4, h5⟩ := ih vs
      refine ⟨fun h => ?_, ?_, ?_, ?_, ?_⟩
      · simp [setYieldErrs, h1 (by simpa using h)]
      · simp [setYieldErrs, h2]
      · simp [setYieldErrs, h3]
      · simp only [setYieldErrs, List.map_cons, h4]; rfl
      · simp [setYieldErrs, h5]

theorem setNuis_maps (ts : List (String × LTemplate)) : ∀ vs : List Vec,
    (vs.length = ts.length → (setNuis ts vs).map (fun p => p.2.nuiP.value) = vs) ∧
    (setNuis ts vs).map (fun p => p.2.nuiP.error) = ts.map (fun p => p.2.nuiP.error) ∧
    (setNuis ts vs).map (fun p => p.2.yieldP) = ts.map (fun p => p.2.yieldP) ∧
    (setNuis ts vs).map (fun p => (p.1, p.2.reset)) = ts.map (fun p => (p.1, p.2.reset)) ∧
    (setNuis ts vs).length = ts.length := by
  induction ts with
  | nil => intro vs; cases vs <;> simp [setNuis]
  | cons p ts ih =>
    intro vs
    obtain ⟨k, t⟩ := p
    cases vs with
    | nil => simp [setNuis]
    | cons v vs =>
      obtain ⟨h1, h2, h3, h4, h5⟩ := ih vs
      refine ⟨fun h => ?_, ?_, ?_, ?_, ?_⟩
      · simp [setNuis, h1 (by simpa using h)]
      · simp [setNuis, h2]
      · simp [setNuis, h3]
      · simp only [setNuis, List.map_cons, h4]; rfl
      · simp [setNuis, h5]

theorem setNuiErrs_maps (ts : List (String × LTemplate)) : ∀ vs : List Vec,
    (vs.length = ts.length → (setNuiErrs ts vs).map (fun p => p.2.nuiP.error) = vs) ∧
    (setNuiErrs ts vs).map (fun p => p.2.nuiP.value) = ts.map (fun p => p.2.nuiP.value) ∧
    (setNuiErrs ts vs).map (fun p => p.2.yieldP) = ts.map (fun p => p.2.yieldP) ∧
    (setNuiErrs ts vs).map (fun p => (p.1, p.2.reset)) = ts.map (fun p => (p.1, p.2.reset)) ∧
    (setNuiErrs ts vs).length = ts.length := by
  induction ts with
  | nil => intro vs; cases vs <;> simp [setNuiErrs]
  | cons p ts ih =>
    intro vs
    obtain ⟨k, t⟩ := p
    cases vs with
    | nil => simp [setNuiErrs]
    | cons v vs =>
      obtain ⟨h1, h2, h3, h4, h5⟩ := ih vs
      refine ⟨fun h => ?_, ?_, ?_, ?_, ?_⟩
      · simp [setNuiErrs, h1 (by simpa using h)]
      · simp [setNuiErrs, h2]
      · simp [setNuiErrs, h3]
      · simp only [setNuiErrs, List.map_cons, h4]; rfl
      · simp [setNuiErrs, h5]

theorem map_comp' {α β γ : Type} {a b : List α} {f : α → β} (g : β → γ) (h : a.map f = b.map f) :
    a.map (fun x => g (f x)) = b.map (fun x => g (f x)) := by
  have := congrArg (List.map g) h
  rw [List.map_map, List.map_map] at this
  exact this

/-- **C81 (update).** `update_parameters` of a stack of `K` templates with vectors of length `K + K·n` and `K + K·m` stores them:
the parameters read back are the given ones in order, and the errors too; shapes, contents, covariances and the values that
`reset_parameters` restores are untouched. -/
theorem C81_update (s : Stacked) (K n m : ℕ) (hK : 0 < K) (hn : s.templates.length = K) (x err : Vec)
    (hx : x.length = K + K * n) (he : err.length = K + K * m) :
    (s.updateParameters x err).1 = .ok () ∧
    (s.updateParameters x err).2.x0 = x ∧
    ((s.updateParameters x err).2.templates.map fun p => p.2.yieldP.error) ++
      ((s.updateParameters x err).2.templates.map fun p => p.2.nuiP.error).flatten = err ∧
    (s.updateParameters x err).2.reset = s.reset := by
  have hnum : s.num = K := hn
  have hs1 := splitEq_blocks (l := x.drop K) hK (N := n) (by simp [hx])
  have hs2 := splitEq_blocks (l := err.drop K) hK (N := m) (by simp [he])
  set A := setYields s.templates (x.take K) with hA
  have a1 := setYields_maps s.templates (x.take K)
  have hAl : A.length = K := by rw [hA, a1.2.2.2.2, hn]
  set bx := blocks (List.replicate K n) (x.drop K) with hbx
  have hbxl : bx.length = K := by rw [hbx, blocks_length, List.length_replicate]
  set B := setNuis A bx with hB
  have b1 := setNuis_maps A bx
  have hBl : B.length = K := by rw [hB, b1.2.2.2.2, hAl]
  set C := setYieldErrs B (err.take K) with hC
  have c1 := setYieldErrs_maps B (err.take K)
  have hCl : C.length = K := by rw [hC, c1.2.2.2.2, hBl]
  set be := blocks (List.replicate K m) (err.drop K) with hbe
  have hbel : be.length = K := by rw [hbe, blocks_length, List.length_replicate]
  set D := setNuiErrs C be with hD
  have d1 := setNuiErrs_maps C be
  have e : s.updateParameters x err = (.ok (), { s with templates := D }) := by
    unfold Stacked.updateParameters
    simp only [Stacked.num, hn]
    rw [← hA, hAl, hs1]
    simp only
    rw [← hB, ← hC, hCl, hs2]
  rw [e]
  refine ⟨rfl, ?_, ?_, ?_⟩
  · unfold Stacked.x0
    simp only
    have e1 : D.map (fun p => p.2.yieldP.value) = x.take K := by
      rw [hD, map_comp' (fun q : LParam Fl => q.value) d1.2.2.1, hC, c1.2.1, hB,
        map_comp' (fun q : LParam Fl => q.value) b1.2.2.1, hA, a1.1 (by simp [hx, hn])]
    have e2 : D.map (fun p => p.2.nuiP.value) = bx := by
      rw [hD, d1.2.1, hC, map_comp' (fun q : LParam Vec => q.value) c1.2.2.1, hB, b1.1 (by rw [hbxl, hAl])]
    rw [e1, e2, hbx, blocks_flatten _ _ (by simp [hx]), List.take_append_drop]
  · have e1 : D.map (fun p => p.2.yieldP.error) = err.take K := by
      rw [hD, map_comp' (fun q : LParam Fl => q.error) d1.2.2.1, hC, c1.1 (by simp [he, hBl])]
    have e2 : D.map (fun p => p.2.nuiP.error) = be := by
      rw [hD, d1.1 (by rw [hbel, hCl])]
    simp only
    rw [e1, e2, hbe, blocks_flatten _ _ (by simp [he]), List.take_append_drop]
  · unfold Stacked.reset
    simp only
    rw [hD, d1.2.2.2.1, hC, c1.2.2.2.1, hB, b1.2.2.2.1, hA, a1.2.2.2.1]

theorem update_reset (s : Stacked) (x err : Vec) : (s.updateParameters x err).2.reset = s.reset := by
  have h : ∀ (t : Stacked) (ts : List (String × LTemplate)),
      ts.map (fun p => (p.1, p.2.reset)) = t.templates.map (fun p => (p.1, p.2.reset)) →
      ({ t with templates := ts } : Stacked).reset = t.reset := by
    intro t ts h
    unfold Stacked.reset
    simp only [h]
  unfold Stacked.updateParameters
  simp only
  split
  · exact h s _ (setYields_maps _ _).2.2.2.1
  · split
    · refine h s _ ?_
      rw [(setYieldErrs_maps _ _).2.2.2.1, (setNuis_maps _ _).2.2.2.1, (setYields_maps _ _).2.2.2.1]
    · refine h s _ ?_
      rw [(setNuiErrs_maps _ _).2.2.2.1, (setYieldErrs_maps _ _).2.2.2.1, (setNuis_maps _ _).2.2.2.1,
        (setYields_maps _ _).2.2.2.1]

/-- **C81 (reset).** Take a stack of templates whose parameters are those of their construction. After any sequence of
`update_parameters` calls, accepted or rejected, `reset_parameters` gives back exactly the original stack. -/
theorem C81_reset (s : Stacked)
    (hs : ∀ p ∈ s.templates, p.2.yieldP = LParam.new p.2.yieldP.value p.2.yieldP.error ∧
      p.2.nuiP = LParam.new p.2.nuiP.value p.2.nuiP.error)
    (calls : List (Vec × Vec)) :
    (calls.foldl (fun (t : Stacked) c => (t.updateParameters c.1 c.2).2) s).reset = s := by
  have h0 : s.reset = s := by
    unfold Stacked.reset
    have : s.templates.map (fun p => (p.1, p.2.reset)) = s.templates := by
      conv_rhs => rw [← List.map_id s.templates]
      apply List.map_congr_left
      rintro ⟨k, t⟩ hp
      obtain ⟨h1, h2⟩ := hs _ hp
      obtain ⟨_, _, _, _, _, _, _, _, _, _, ⟨yv, yo, ye, yp⟩, ⟨nv, no, ne, np⟩⟩ := t
      simp only [LParam.new, LParam.mk.injEq] at h1 h2
      obtain ⟨-, rfl, -, rfl⟩ := h1
      obtain ⟨-, rfl, -, rfl⟩ := h2
      rfl
    rw [this]
  have : ∀ (calls : List (Vec × Vec)) (t : Stacked), t.reset = s →
      (calls.foldl (fun (t : Stacked) c => (t.updateParameters c.1 c.2).2) t).reset = s := by
    intro calls
    induction calls with
    | nil => intro t h; exact h
    | cons c cs ih => intro t h; exact ih _ (by rw [update_reset, h])
  exact this calls s h0

/-- **C81 (wrong lengths).** A vector whose nuisance part cannot be divided among the templates raises `ValueError`, but the yields
have been overwritten by then. -/
theorem C81_wrong_length (s : Stacked) (hK : 0 < s.templates.length) (x err : Vec)
    (hlen : s.templates.length ≤ x.length) (hx : (x.length - s.templates.length) % s.templates.length ≠ 0) :
    (s.updateParameters x err).1 = .error .valueError ∧
    ((s.updateParameters x err).2.templates.map fun p => p.2.yieldP.value) = x.take s.templates.length := by
  have a1 := setYields_maps s.templates (x.take s.templates.length)
  have e : s.updateParameters x err =
      (.error .valueError, { s with templates := setYields s.templates (x.take s.templates.length) }) := by
    unfold Stacked.updateParameters
    simp only [Stacked.num, a1.2.2.2.2]
    have : splitEq (x.drop s.templates.length) s.templates.length = .error .valueError := by
      unfold splitEq
      rw [if_neg hK.ne', if_pos (by rw [List.length_drop]; exact hx)]
    rw [this]
  rw [e]
  exact ⟨rfl, a1.1 (by simp [hlen])⟩

/-! ### C82 -/

/-- **C82 is false.** Whatever the recursion limit, `corr_mat` of any legacy template ends in `RecursionError`. -/
theorem C82_refuted (t : LTemplate) (limit : ℕ) : t.corrMat limit = .error .recursionError := by
  induction limit with
  | zero => rfl
  | succ k ih => exact ih

/-! ### the hypotheses are met by templates made through the interface -/

namespace Ex

/-- histogram contents (4, 1) with a systematic covariance matrix added -/
def ltA : LTemplate := (LTemplate.new "a" "x" 2 0 1 (vec ![4, 1]) (vec ![4, 1])).addCov (Mat.ofMatrix !![1, 1; 1, 1]) |>.2

/-- a second one, unweighted contents (2, 2) -/
def ltB : LTemplate := LTemplate.new "b" "x" 2 0 1 (vec ![2, 2]) (vec ![2, 2])

/-- the stack of both -/
def stackAB : Stacked := ⟨"x", 2, 0, 1, [("a", ltA), ("b", ltB)]⟩

theorem stackAB_made : ∀ p ∈ stackAB.templates, LTemplate.Made 2 p.2 := by
  intro p hp
  simp only [stackAB, List.mem_cons, List.not_mem_nil, or_false] at hp
  rcases hp with rfl | rfl
  · refine LTemplate.Made.cov _ _ !![1, 1; 1, 1] (isReal_ofMatrix _) ?_ (LTemplate.Made.new "a" "x" 0 1 ![4, 1] ![4, 1] ?_)
    · have : (!![1, 1; 1, 1] : Matrix (Fin 2) (Fin 2) ℝ) = Matrix.vecMulVec ![1, 1] (star ![1, 1]) := by
        ext i j; fin_cases i <;> fin_cases j <;> simp [Matrix.vecMulVec_apply]
      rw [this]; exact Matrix.posSemidef_vecMulVec_self_star _
    · intro i; fin_cases i <;> simp
  · exact LTemplate.Made.new "b" "x" 0 1 ![2, 2] ![2, 2] (by intro i; fin_cases i <;> simp)

/-- the hypotheses of C78 hold for every stack of made templates; of the other theorems, for this stack: an update with six
numbers of each kind is accepted, `[1, 2, 3]` is rejected with the yields written -/
example : (∃ (cnt ε : Fin stackAB.num → Fin 2 → ℝ) (R : Fin stackAB.num → Matrix (Fin 2) (Fin 2) ℝ),
      LStackIs stackAB cnt ε R ∧ ∀ k, (R k).PosDef) ∧
    (stackAB.updateParameters (vec ![1, 2, 3, 4, 5, 6]) (vec ![1, 1, 1, 1, 1, 1])).1 = .ok () ∧
    (stackAB.updateParameters (vec ![1, 2, 3]) (vec ![1, 1, 1])).1 = .error .valueError ∧
    ltA.corrMat 1000 = .error .recursionError := by
  obtain ⟨cnt, C, hC, h⟩ := stackIs_of_made stackAB stackAB_made
  refine ⟨⟨cnt, _, _, h, fun k => corrOf_posDef (hC k)⟩, ?_, ?_, C82_refuted _ _⟩
  · exact (C81_update stackAB 2 2 2 (by norm_num) rfl _ _ (by simp [vec_length]) (by simp [vec_length])).1
  · exact (C81_wrong_length stackAB (by simp [stackAB]) _ _ (by simp [stackAB, vec_length])
      (by simp [stackAB, vec_length])).1

/-- C78: a stack with one template (2, 2), data (0, 4), yield 4: minus infinity, although the model predicts (2, 2) -/
example : (LNll.new ⟨"x", 2, 0, 1, [("b", ltB)]⟩ (vec ![0, 4])).call ⟨"x", 2, 0, 1, [("b", ltB)]⟩
      (vec ![4] ++ nuiVec (fun _ : Fin 1 => ![0, 0])) = .ok .ninf := by
  have hs : LStackIs ⟨"x", 2, 0, 1, [("b", ltB)]⟩ (fun _ : Fin 1 => ![2, 2])
      (fun (_ : Fin 1) i => relOf ((Matrix.diagonal fun i => statVar (![2, 2] i)) i i) (![2, 2] i))
      (fun _ => (1 : Matrix (Fin 2) (Fin 2) ℝ)) := by
    refine ⟨fun _ => ltB, by simp, fun k => ⟨rfl, ?_, ?_⟩⟩
    · have hd : IsReal (Mat.diagOf (statErrSq (vec ![2, 2]))) (Matrix.diagonal fun i => statVar (![2, 2] i)) := by
        rw [statErrSq_vec]; exact isReal_diagOf _
      exact relErrs_vec hd (fun i => by
        rw [Matrix.diagonal_apply_eq]
        exact (statVar_pos (by fin_cases i <;> simp)).le) _
    · rw [inv_one]; exact isReal_ones
  refine C78_empty_refuted _ _ _ _ hs (by norm_num) ![0, 4] ?_ ⟨0, rfl⟩ ![4] _ ?_ ?_
  · intro i; fin_cases i <;> simp
  · intro k; simp
  · intro i; fin_cases i <;> simp [expected]

end Ex

end

end TF.Props
