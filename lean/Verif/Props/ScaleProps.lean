import Verif.Props.TemplateProps2
import Verif.Props.MctProps14

set_option linter.unusedSimpArgs false

/-!
# The normalisation of a template's histogram does not matter (C99)
-/

namespace TF.Spec

open Classical

noncomputable section

/-- `W'` are the weights `W` of `n` events, each multiplied by `l` -/
structure ScaledWeights (l : ℝ) (n : ℕ) (W W' : Weights) : Prop where
  fin : W.Finite
  kind : W'.noPow = W.noPow
  vals : W'.values n = (W.values n).map (Fl.fin l * ·)

/-- `o'` is the call `o` for a template whose events all weigh `l` times as much: variation weights are multiplied
by `l`, covariance matrices by `l²`; parameter setters and `reset` are not constrained. -/
inductive Rescaled (l : ℝ) (n : ℕ) : TOp → TOp → Prop where
  | setYield (v v' : YieldVal) : Rescaled l n (.setYield v) (.setYield v')
  | setNui (v v' : Vec) : Rescaled l n (.setNui v) (.setNui v')
  | setParams (v v' : Vec) : Rescaled l n (.setParams v) (.setParams v')
  | reset (h h' : Hist) : Rescaled l n (.reset h) (.reset h')
  | addCovMat (m m' : Mat) (A : Matrix (Fin n) (Fin n) ℝ) : IsReal m A → IsReal m' (l ^ 2 • A) → A.PosSemidef →
      Rescaled l n (.addCovMat m) (.addCovMat m')
  | wrongShape (m m' : Mat) : ¬ (m.rows = n ∧ m.cols = n) → ¬ (m'.rows = n ∧ m'.cols = n) →
      Rescaled l n (.addCovMat m) (.addCovMat m')
  | addVariation (h h' : Hist) (x y : Vec) (up down up' down' : Weights) : h'.numBins = h.numBins →
      ScaledWeights l x.length up up' → ScaledWeights l x.length down down' →
      Rescaled l n (.addVariation h x y up down) (.addVariation h' x y up' down')

end

end TF.Spec

namespace TF.Props

open Classical Spec

noncomputable section

/-! ### scaling lemmas -/

theorem sum_scaled {l : ℝ} : ∀ {v : Vec}, (∀ x ∈ v, x.isFin) → (v.map (Fl.fin l * ·)).sum = Fl.fin l * v.sum
  | [], _ => by simp [Fl.zero_def]
  | a :: v, h => by
    have ih := sum_scaled (l := l) (v := v) fun x hx => h x (by simp [hx])
    have ha := h a (by simp)
    have hv := sum_isFin (l := v) fun x hx => h x (by simp [hx])
    rw [List.map_cons, List.sum_cons, ih, List.sum_cons]
    cases a with
    | fin a =>
      cases hs : v.sum with
      | fin b => simp [mul_add]
      | _ => rw [hs] at hv; simp [Fl.isFin] at hv
    | _ => simp [Fl.isFin] at ha

theorem filter_zip_map {l : ℝ} (P : Fl → Bool) : ∀ (d v : Vec),
    (((d.zip (v.map (Fl.fin l * ·))).filter fun p => P p.1).map (·.2)) =
      (((d.zip v).filter fun p => P p.1).map (·.2)).map (Fl.fin l * ·)
  | [], _ => by simp
  | _ :: _, [] => by simp
  | a :: d, b :: v => by
    have ih := filter_zip_map (l := l) P d v
    simp only [List.map_cons, List.zip_cons_cons, List.filter_cons]
    split
    · simp only [List.map_cons, ih]
    · exact ih

theorem binnedSum_scaled {l : ℝ} {e : List ℝ} {d v : Vec} {a : NdArr} (h : binnedSum e d v = .ok a)
    (hv : ∀ x ∈ v, x.isFin) : binnedSum e d (v.map (Fl.fin l * ·)) = .ok ⟨a.shape, a.data.map (Fl.fin l * ·)⟩ := by
  unfold binnedSum at h ⊢
  split at h
  · simp at h
  · rename_i hl
    split at h
    · rename_i hvv
      have := Except.ok.inj h
      subst this
      rw [List.length_map, if_neg hl, if_pos hvv]
      simp only [List.map_map, Except.ok.injEq, NdArr.mk.injEq, true_and]
      apply List.map_congr_left
      intro i _
      have := filter_zip_map (l := l) (fun x => decide (binIndex e x = some i)) d v
      rw [this, sum_scaled]
      · rfl
      · intro x hx
        simp only [List.mem_map, List.mem_filter] at hx
        obtain ⟨p, ⟨hp, _⟩, rfl⟩ := hx
        exact hv _ (List.of_mem_zip hp).2
    · simp at h

theorem scaledWeights_finite {l : ℝ} {n : ℕ} {W W' : Weights} (h : ScaledWeights l n W W') : W'.Finite := by
  have hv := h.vals
  have hf := values_finite h.fin n
  have key : ∀ x ∈ (W.values n).map (Fl.fin l * ·), x.isFin := by
    intro x hx
    obtain ⟨y, hy, rfl⟩ := List.mem_map.mp hx
    have := hf y hy
    cases y <;> simp_all [Fl.isFin]
  rw [← hv] at key
  cases W' <;> first | exact trivial | exact key

theorem binnedSum_ok_len {e : List ℝ} {d v v' : Vec} {a : NdArr} (h : binnedSum e d v = .ok a)
    (hl : v'.length = v.length) : ∃ a', binnedSum e d v' = .ok a' ∧ a'.shape = a.shape ∧
      a'.data.length = a.data.length := by
  unfold binnedSum at h ⊢
  rw [hl]
  split at h
  · simp at h
  · rename_i h1
    rw [if_neg h1]
    split at h
    · rename_i h2
      have := Except.ok.inj h
      subst this
      rw [if_pos h2]
      exact ⟨_, rfl, rfl, by simp⟩
    · simp at h

theorem iadd_ok {a b c : NdArr} (h : a.iadd b = .ok c) :
    (a.shape = b.shape ∧ a.data.length = b.data.length) ∧ c = ⟨a.shape, List.zipWith (· + ·) a.data b.data⟩ := by
  unfold NdArr.iadd at h
  split at h
  · rename_i hs
    exact ⟨hs, (Except.ok.inj h).symm⟩
  · simp at h

theorem iadd_of_shape {a b : NdArr} (h : a.shape = b.shape ∧ a.data.length = b.data.length) :
    a.iadd b = .ok ⟨a.shape, List.zipWith (· + ·) a.data b.data⟩ := by
  unfold NdArr.iadd
  rw [if_pos h]

theorem zeros_add_scaled {l : ℝ} : ∀ (k : ℕ) (v : Vec), (∀ x ∈ v, x.isFin) →
    List.zipWith (· + ·) (List.replicate k (0 : Fl)) (v.map (Fl.fin l * ·)) =
      (List.zipWith (· + ·) (List.replicate k (0 : Fl)) v).map (Fl.fin l * ·)
  | 0, _, _ => by simp
  | k + 1, [], _ => by simp
  | k + 1, a :: v, h => by
    have ih := zeros_add_scaled (l := l) k v fun x hx => h x (by simp [hx])
    have ha := h a (by simp)
    rw [List.replicate_succ, List.map_cons, List.zipWith_cons_cons, ih, List.zipWith_cons_cons, List.map_cons]
    cases a with
    | fin a => simp [Fl.zero_def]
    | _ => simp [Fl.isFin] at ha

/-- the histogram of events that all weigh `l` times as much has `l` times the contents -/
theorem hist1_new_scaled {l : ℝ} {n : ℕ} {r : PyRange} {d : Vec} {W W' : Weights} {h : Hist}
    (hn : Hist1d.new (.int n) (some r) (some d) W = .ok h) (hW : ScaledWeights l d.length W W') :
    ∃ h', Hist1d.new (.int n) (some r) (some d) W' = .ok h' ∧
      h'.counts.data = h.counts.data.map (Fl.fin l * ·) := by
  cases r with
  | d2 => simp [Hist1d.new, Hist1d.init, uniform1] at hn
  | d1 k lo hi =>
    have hb : ¬ ((n : ℤ) < 0) := by omega
    simp only [Hist1d.new, Hist1d.init, uniform1, if_neg hb] at hn ⊢
    have hfin := values_finite hW.fin d.length
    have hlen : (W'.values d.length).length = (W.values d.length).length := by rw [hW.vals, List.length_map]
    unfold Hist1d.fill at hn ⊢
    rw [hW.kind, hW.vals]
    generalize hB : Hist.blank .h1 [⟨true, linspace lo hi ((n : ℤ).toNat + 1)⟩] [(n : ℤ).toNat] (.d1 k lo hi) = B at hn ⊢
    have hz : B.counts = NdArr.zeros [(n : ℤ).toNat] ∧ B.errSq = NdArr.zeros [(n : ℤ).toNat] := by rw [← hB]; exact ⟨rfl, rfl⟩
    unfold Hist.accumulate at hn ⊢
    simp only at hn ⊢
    cases h1 : binnedSum (B.edges.getD 0 ⟨true, []⟩).vals d (W.values d.length) with
    | error e => rw [h1] at hn; simp at hn
    | ok a =>
      rw [h1] at hn
      rw [binnedSum_scaled (l := l) h1 hfin]
      simp only at hn ⊢
      cases h2 : B.counts.iadd a with
      | error e => rw [h2] at hn; simp at hn
      | ok cc =>
        rw [h2] at hn
        obtain ⟨hs, hcc⟩ := iadd_ok h2
        rw [iadd_of_shape (b := ⟨a.shape, a.data.map (Fl.fin l * ·)⟩) (by simpa using hs)]
        simp only at hn ⊢
        cases hp : W.noPow with
        | true => rw [hp] at hn; simp at hn
        | false =>
          rw [hp] at hn
          simp only [Bool.false_eq_true, if_false] at hn ⊢
          obtain ⟨a2, h3, h3s⟩ := binnedSum_ok_len (v' := ((W.values d.length).map (Fl.fin l * ·)).map Fl.sq) h1 (by simp)
          obtain ⟨a4, h4, h4s⟩ := binnedSum_ok_len (v' := (W.values d.length).map Fl.sq) h1 (by simp)
          rw [h4] at hn
          rw [h3]
          simp only at hn ⊢
          rw [iadd_of_shape (by rw [hz.2, ← hz.1, h4s.1, h4s.2]; exact hs)] at hn
          rw [iadd_of_shape (by rw [hz.2, ← hz.1, h3s.1, h3s.2]; exact hs)]
          simp only [Except.ok.injEq] at hn ⊢
          refine ⟨_, rfl, ?_⟩
          rw [← hn, hcc, hz.1]
          simp only [NdArr.zeros]
          exact zeros_add_scaled _ _ (binnedSum_finite h1 hfin)

theorem shift_scaled {l : ℝ} (hl : 0 < l) (a b c : ℝ) : shift (l * a) (l * b) (l * c) = l * shift a b c := by
  unfold shift
  rw [← mul_sub, ← mul_sub, abs_mul, abs_mul, abs_of_pos hl]
  simp only [mul_lt_mul_iff_of_pos_left hl]
  ring

theorem map_scaled_vec {n : ℕ} (l : ℝ) (f : Fin n → ℝ) : (vec f).map (Fl.fin l * ·) = vec fun i => l * f i :=
  map_vec f _ _ fun i => by simp

theorem scaledWeights_symm {l : ℝ} (hl : 0 < l) {n : ℕ} {W W' : Weights} (h : ScaledWeights l n W W') :
    ScaledWeights l⁻¹ n W' W := by
  refine ⟨scaledWeights_finite h, h.kind.symm, ?_⟩
  rw [h.vals, List.map_map]
  have hf := values_finite h.fin n
  conv_lhs => rw [← List.map_id (W.values n)]
  apply List.map_congr_left
  intro x hx
  have := hf x hx
  cases x with
  | fin r => simp; field_simp
  | _ => simp [Fl.isFin] at this

/-- the covariance matrix of a systematic variation scales with the square -/
theorem variationMat_scaled {l : ℝ} (hl : 0 < l) {n : ℕ} {t t' : Template} {c : Fin n → ℝ} (hc : t.flatCounts = vec c)
    (hc' : t'.flatCounts = vec fun i => l * c i) (hr : t'.range = t.range) {h h' : Hist} (hh : h'.numBins = h.numBins)
    {x : Vec} {up down up' down' : Weights} (hu : ScaledWeights l x.length up up')
    (hd : ScaledWeights l x.length down down') {m : Mat} (hm : variationMat t h x up down = .ok m) :
    ∃ (m' : Mat) (A : Matrix (Fin n) (Fin n) ℝ), variationMat t' h' x up' down' = .ok m' ∧ IsReal m A ∧ IsReal m' (l ^ 2 • A) ∧ A.PosSemidef := by
  unfold variationMat at hm ⊢
  rw [hr, hh]
  cases h1 : Hist1d.new (.int (h.numBins.getD 0 0)) (some t.range) (some x) up with
  | error e => rw [h1] at hm; simp [bind, Except.bind] at hm
  | ok a =>
    cases h2 : Hist1d.new (.int (h.numBins.getD 0 0)) (some t.range) (some x) down with
    | error e => rw [h1, h2] at hm; simp [bind, Except.bind] at hm
    | ok b =>
      rw [h1, h2] at hm
      obtain ⟨a', ha', hav⟩ := hist1_new_scaled h1 hu
      obtain ⟨b', hb', hbv⟩ := hist1_new_scaled h2 hd
      rw [ha', hb']
      simp only [bind, Except.bind] at hm ⊢
      have hlen : t.flatCounts.length = a.counts.data.length ∧ a.counts.data.length = b.counts.data.length := by
        unfold getSystematicCovMat at hm
        split at hm
        · assumption
        · simp at hm
      rw [hc, vec_length] at hlen
      obtain ⟨f, hf⟩ := allFin_vec hlen.1.symm (hist1_new_finite h1 hu.fin)
      obtain ⟨g, hg⟩ := allFin_vec (hlen.2.symm.trans hlen.1.symm) (hist1_new_finite h2 hd.fin)
      rw [hc, hf, hg, sysCov_eq] at hm
      rw [hc', hav, hbv, hf, hg, map_scaled_vec, map_scaled_vec, sysCov_eq]
      have := Except.ok.inj hm
      subst this
      refine ⟨_, _, rfl, isReal_outer _ _, ?_, ?_⟩
      · have := isReal_outer (fun i => shift (l * c i) (l * f i) (l * g i)) (fun i => shift (l * c i) (l * f i) (l * g i))
        convert this using 1
        ext i j
        simp only [Matrix.smul_apply, Matrix.vecMulVec_apply, shift_scaled hl, smul_eq_mul]
        ring
      · have := Matrix.posSemidef_vecMulVec_self_star (R := ℝ)
          (fun i => shift (c i) (f i) (g i))
        simpa using this

theorem corrOf_scaled {l : ℝ} (hl : 0 < l) {n : ℕ} (C : Matrix (Fin n) (Fin n) ℝ) :
    corrOf (l ^ 2 • C) = corrOf C := by
  ext i j
  have h2 : l ^ 2 ≠ 0 := by positivity
  simp only [corrOf, Matrix.of_apply, Matrix.smul_apply, smul_eq_mul, mul_eq_zero, h2, false_or]
  split
  · rfl
  · rw [Real.sqrt_mul (by positivity), Real.sqrt_mul (by positivity), Real.sqrt_sq hl.le,
      show l * √(C i i) * (l * √(C j j)) = l ^ 2 * (√(C i i) * √(C j j)) by ring, mul_div_mul_left _ _ h2]

theorem relOf_scaled {l : ℝ} (hl : 0 < l) (v c : ℝ) : relOf (l ^ 2 * v) (l * c) = relOf v c := by
  unfold relOf
  simp only [mul_eq_zero, hl.ne', false_or]
  split
  · rfl
  · rw [Real.sqrt_mul (by positivity), Real.sqrt_sq hl.le, mul_div_mul_left _ _ hl.ne']

/-! ### two templates in step -/

/-- `t'` is the template `t` with all events weighing `l` times as much -/
structure Twin (l : ℝ) {n : ℕ} (c : Fin n → ℝ) (C : Matrix (Fin n) (Fin n) ℝ) (t t' : Template) : Prop where
  one : CovInv t c C
  two : CovInv t' (fun i => l * c i) (l ^ 2 • C)
  cls : t'.cls = t.cls
  range : t'.range = t.range

theorem Twin.params {l : ℝ} {n : ℕ} {c : Fin n → ℝ} {C : Matrix (Fin n) (Fin n) ℝ} {t t' : Template}
    (h : Twin l c C t t') (p p' : Vec) : Twin l c C { t with params := p } { t' with params := p' } :=
  ⟨⟨h.one.bins, h.one.counts, h.one.pos, h.one.cov, h.one.corr, h.one.inv, h.one.rel⟩,
   ⟨h.two.bins, h.two.counts, h.two.pos, h.two.cov, h.two.corr, h.two.inv, h.two.rel⟩, h.cls, h.range⟩

theorem Twin.addCov {l : ℝ} {n : ℕ} {c : Fin n → ℝ} {C A : Matrix (Fin n) (Fin n) ℝ} {t t' : Template}
    (h : Twin l c C t t') {m m' : Mat} (hm : IsReal m A) (hm' : IsReal m' (l ^ 2 • A)) (hA : A.PosSemidef) :
    Twin l c (C + A) (t.addCov m).2 (t'.addCov m').2 := by
  have h1 := (addCov_inv h.one hm hA).2
  have h2 := (addCov_inv h.two hm' (hA.smul (by positivity))).2
  rw [← smul_add] at h2
  have f1 := (addCov_frame t m).1
  have f2 := (addCov_frame t' m').1
  exact ⟨h1, h2, by rw [f1.cls, f2.cls, h.cls], by rw [f1.range, f2.range, h.range]⟩

theorem twin_apply {l : ℝ} (hl : 0 < l) {n : ℕ} {c : Fin n → ℝ} {C : Matrix (Fin n) (Fin n) ℝ} {t t' : Template}
    (h : Twin l c C t t') {o o' : TOp} (ho : Rescaled l n o o') :
    ∃ C', Twin l c C' (t.apply o).2 (t'.apply o').2 := by
  have key : ∀ o o', (∀ m, o ≠ .addCovMat m) → (∀ m, o' ≠ .addCovMat m) →
      (∀ a b d e f, o ≠ .addVariation a b d e f) → (∀ a b d e f, o' ≠ .addVariation a b d e f) →
      ∃ C', Twin l c C' (t.apply o).2 (t'.apply o').2 := by
    intro o o' h1 h2 h3 h4
    rcases apply_params_only t o with ⟨p, hp⟩ | ⟨m, _, _, hm, _⟩ | ⟨_, _, _, _, _, m, hm, _⟩
    · rcases apply_params_only t' o' with ⟨p', hp'⟩ | ⟨m, _, _, hm, _⟩ | ⟨_, _, _, _, _, m, hm, _⟩
      · rw [hp, hp']; exact ⟨C, h.params p p'⟩
      · exact absurd hm (h2 _)
      · exact absurd hm (h4 _ _ _ _ _)
    · exact absurd hm (h1 _)
    · exact absurd hm (h3 _ _ _ _ _)
  cases ho with
  | setYield v v' => apply key <;> simp
  | setNui v v' => apply key <;> simp
  | setParams v v' => apply key <;> simp
  | reset v v' => apply key <;> simp
  | addCovMat m m' A hm hm' hA =>
    simp only [Template.apply, Template.addCovMat, h.cls]
    split
    · unfold Template1d.addCovMat
      rw [if_neg (by rw [not_not]; exact ⟨by rw [hm.1, h.one.bins], by rw [hm.2.1, h.one.bins]⟩),
        if_neg (by rw [not_not]; exact ⟨by rw [hm'.1, h.two.bins], by rw [hm'.2.1, h.two.bins]⟩)]
      exact ⟨_, h.addCov hm hm' hA⟩
    · exact ⟨C, h⟩
  | wrongShape m m' hm hm' =>
    simp only [Template.apply, Template.addCovMat, h.cls]
    split
    · unfold Template1d.addCovMat
      rw [if_pos (by rw [h.one.bins]; exact hm), if_pos (by rw [h.two.bins]; exact hm')]
      exact ⟨C, h⟩
    · exact ⟨C, h⟩
  | addVariation hh hh' x y up down up' down' hb hu hd =>
    simp only [Template.apply, Template.addVariation, h.cls]
    split
    · rw [addVariation1_eq, addVariation1_eq]
      cases hv : variationMat t hh x up down with
      | ok m =>
        obtain ⟨m', A, e, h1, h2, h3⟩ := variationMat_scaled hl h.one.counts h.two.counts h.range hb hu hd hv
        rw [e]
        exact ⟨_, h.addCov h1 h2 h3⟩
      | error e =>
        cases hv' : variationMat t' hh' x up' down' with
        | error e' => exact ⟨C, h⟩
        | ok m' =>
          obtain ⟨m, A, e, _⟩ := variationMat_scaled (inv_pos.mpr hl) (c := fun i => l * c i) h.two.counts
            (by rw [h.one.counts]; congr 1; funext i; field_simp) h.range.symm hb.symm (scaledWeights_symm hl hu)
            (scaledWeights_symm hl hd) hv'
          rw [hv] at e; simp at e
    · rw [(addVariation2_cases t hh x y up down).1, (addVariation2_cases t' hh' x y up' down').1]
      exact ⟨C, h⟩

theorem twin_run {l : ℝ} (hl : 0 < l) {n : ℕ} {c : Fin n → ℝ} {ops ops' : List TOp}
    (ho : List.Forall₂ (Rescaled l n) ops ops') : ∀ {C : Matrix (Fin n) (Fin n) ℝ} {t t' : Template},
    Twin l c C t t' → ∃ C', Twin l c C' (t.run ops) (t'.run ops') := by
  induction ho with
  | nil => intro C t t' h; exact ⟨C, h⟩
  | cons h1 _ ih =>
    intro C t t' h
    obtain ⟨C', h'⟩ := twin_apply hl h h1
    exact ih h'

/-! ### fractions -/

theorem fin_div_scaled {l : ℝ} (hl : 0 < l) (a b : ℝ) : Fl.fin (l * a) / Fl.fin (l * b) = Fl.fin a / Fl.fin b := by
  by_cases hb : b = 0
  · subst hb
    show Fl.div _ _ = Fl.div _ _
    rw [mul_zero]
    simp [Fl.div, hl.ne', mul_pos_iff_of_pos_left hl]
  · rw [Fl.fin_div _ _ (mul_ne_zero hl.ne' hb), Fl.fin_div _ _ hb, mul_div_mul_left _ _ hl.ne']

theorem fractions_scaled {l : ℝ} (hl : 0 < l) {n : ℕ} {c ε : Fin n → ℝ} {t t' : Template}
    (h1 : t.flatCounts = vec c) (h2 : t'.flatCounts = vec fun i => l * c i) (e1 : t.relErr = vec ε)
    (e2 : t'.relErr = vec ε) (θ : Fin n → ℝ) : t'.fractions (vec θ) = t.fractions (vec θ) := by
  have a1 := bop_vec θ ε (· * ·) (fun i => θ i * ε i) (fun i => by simp)
  have a2 := map_vec (fun i => θ i * ε i) ((1 : Fl) + ·) (fun i => 1 + θ i * ε i) (fun i => by
    rw [Fl.one_def, Fl.fin_add])
  have a3 := bop_vec c (fun i => 1 + θ i * ε i) (· * ·) (varied c ε θ) (fun i => by simp [varied])
  have a4 := bop_vec (fun i => l * c i) (fun i => 1 + θ i * ε i) (· * ·) (fun i => l * varied c ε θ i)
    (fun i => by simp [varied, mul_assoc])
  simp only [Template.fractions, binFractions, h1, h2, e1, e2, a1, a2, a3, a4, bind, Except.bind, pure, Except.pure]
  congr 1
  rw [npSum, vec_sum, npSum, vec_sum, ← Finset.mul_sum]
  unfold vec
  rw [List.map_ofFn, List.map_ofFn]
  congr 1
  funext i
  exact fin_div_scaled hl _ _

theorem values_scaled {t t' : Template} {n : ℕ} {c c' ε : Fin n → ℝ} (hs : HasShape t c ε) (hs' : HasShape t' c' ε)
    (hb : t'.bins = t.bins) {y : ℝ} {θ : Fin n → ℝ} (hf : t'.fractions (vec θ) = t.fractions (vec θ))
    (hp : HasParams t y θ) (hp' : HasParams t' y θ) : t'.values = t.values ∧ t'.errors = t.errors := by
  have hv : t'.values = t.values := by
    unfold Template.values
    have e1 : t.nuiParams = vec θ := by unfold Template.nuiParams; rw [hp]; rfl
    have e2 : t'.nuiParams = vec θ := by unfold Template.nuiParams; rw [hp']; rfl
    have e3 : t'.yieldParam = t.yieldParam := by unfold Template.yieldParam; rw [hp, hp']
    rw [e1, e2, hf, hb, e3]
  refine ⟨hv, ?_⟩
  unfold Template.errors
  rw [hv, hs.rel, hs'.rel, hb]

/-! ## C99 -/

/-- **C99, histories.** Two templates from histograms of the same binning, the second holding `l > 0` times the
contents and `l²` times the (positive) squared errors of the first; then any two sequences of calls that correspond to
each other (`Rescaled`: variation weights times `l`, covariance matrices times `l²`, parameters set in any way): the two
templates have the same relative errors, the same correlation matrix and inverse, the same fractions at all nuisance
parameters, and the same values and errors at the same parameters; only the covariance is `l²` times as large. -/
theorem C99_history {n : ℕ} {l : ℝ} (hl : 0 < l) (name name' : String) (hid hid' : ℕ) (h h' : Hist) (c s : Fin n → ℝ)
    (hh : HistIs h c s) (hh' : HistIs h' (fun i => l * c i) (fun i => l ^ 2 * s i)) (hpos : ∀ i, 0 < s i)
    (hcls : h'.cls = h.cls) (hr : h'.range = h.range) (hsh : h'.shape = h.shape) (t0 t0' : Template)
    (h0 : newTemplate name hid h = .ok t0) (h0' : newTemplate name' hid' h' = .ok t0') (ops ops' : List TOp)
    (ho : List.Forall₂ (Rescaled l n) ops ops') (t t' : Template) (ht : t = t0.run ops) (ht' : t' = t0'.run ops') :
    t'.relErr = t.relErr ∧
    (∃ C R S : Matrix (Fin n) (Fin n) ℝ, IsReal t.cov C ∧ IsReal t'.cov (l ^ 2 • C) ∧
      IsReal t.corr R ∧ IsReal t'.corr R ∧ IsReal t.invCorr S ∧ IsReal t'.invCorr S) ∧
    (∀ θ : Fin n → ℝ, t'.fractions (vec θ) = t.fractions (vec θ)) ∧
    (∀ (y : ℝ) (θ : Fin n → ℝ), HasParams t y θ → HasParams t' y θ → t'.values = t.values ∧ t'.errors = t.errors) := by
  obtain ⟨u, hu, hf⟩ := newTemplate_fresh name hid h c s hh
  rw [hu] at h0
  obtain rfl := Except.ok.inj h0
  obtain ⟨u', hu', hf'⟩ := newTemplate_fresh name' hid' h' _ _ hh'
  rw [hu'] at h0'
  obtain rfl := Except.ok.inj h0'
  have i1 := fresh_inv hh hf
  have i2 := fresh_inv hh' hf'
  have hd : (Matrix.diagonal fun i => statVar (l ^ 2 * s i)) = l ^ 2 • Matrix.diagonal fun i => statVar (s i) := by
    ext i j
    by_cases hij : i = j
    · subst hij
      simp [statVar, (hpos i).ne', hl.ne']
    · simp [hij]
  rw [hd] at i2
  have hcl : u'.cls = u.cls := by
    have a := hf.cls
    have b := hf'.cls
    rw [hcls] at b
    cases h1 : u.cls <;> cases h2 : u'.cls <;> simp_all
  obtain ⟨C, hT⟩ := twin_run hl ho (⟨i1, i2, hcl, by rw [hf.range, hf'.range, hr]⟩ :
    Twin l c (Matrix.diagonal fun i => statVar (s i)) u u')
  have f1 := run_frame u ops
  have f2 := run_frame u' ops'
  rw [← ht] at f1
  rw [← ht'] at f2
  rw [← ht, ← ht'] at hT
  have hrel : t'.relErr = vec fun i => relOf (C i i) (c i) := by
    rw [hT.two.rel]
    congr 1; funext i
    simp only [Matrix.smul_apply, smul_eq_mul]
    exact relOf_scaled hl _ _
  have hfr : ∀ θ : Fin n → ℝ, t'.fractions (vec θ) = t.fractions (vec θ) :=
    fractions_scaled hl hT.one.counts hT.two.counts hT.one.rel hrel
  refine ⟨by rw [hrel, hT.one.rel], ⟨C, corrOf C, (corrOf C)⁻¹, hT.one.cov, hT.two.cov, hT.one.corr, ?_, hT.one.inv, ?_⟩,
    hfr, ?_⟩
  · have := hT.two.corr; rwa [corrOf_scaled hl] at this
  · have := hT.two.inv; rwa [corrOf_scaled hl] at this
  · intro y θ hp hp'
    exact values_scaled ⟨hT.one.bins, hT.one.counts, hT.one.rel, by rw [f1.bins, hf.bins]; exact hh.shape⟩
      ⟨hT.two.bins, hT.two.counts, hrel, by rw [f2.bins, hf'.bins]; exact hh'.shape⟩
      (by rw [f2.bins, f1.bins, hf'.bins, hf.bins, hsh]) (hfr θ) hp hp'

/-- **C99, fresh templates** (exact): multiplying all weights by `l > 0`, `l ≠ 1`, multiplies the yield by `l`; it
leaves the relative errors of the fresh template unchanged if and only if every bin with content has a non-zero
statistical error (the floor of `1e-7` is absolute), and then all fractions are the same. -/
theorem C99_fresh {n : ℕ} {l : ℝ} (hl : 0 < l) (hl1 : l ≠ 1) (name name' : String) (hid hid' : ℕ) (h h' : Hist)
    (c s : Fin n → ℝ) (hh : HistIs h c s) (hh' : HistIs h' (fun i => l * c i) (fun i => l ^ 2 * s i)) (t t' : Template)
    (h0 : newTemplate name hid h = .ok t) (h0' : newTemplate name' hid' h' = .ok t') :
    t'.yieldParam = Fl.fin l * t.yieldParam ∧
    (t'.relErr = t.relErr ↔ ∀ i, c i ≠ 0 → s i ≠ 0) ∧
    ((∀ i, c i ≠ 0 → s i ≠ 0) → ∀ θ : Fin n → ℝ, t'.fractions (vec θ) = t.fractions (vec θ)) := by
  obtain ⟨u, hu, hf⟩ := newTemplate_fresh name hid h c s hh
  rw [hu] at h0
  obtain rfl := Except.ok.inj h0
  obtain ⟨u', hu', hf'⟩ := newTemplate_fresh name' hid' h' _ _ hh'
  rw [hu'] at h0'
  obtain rfl := Except.ok.inj h0'
  have hiff : u'.relErr = u.relErr ↔ ∀ i, c i ≠ 0 → s i ≠ 0 := by
    rw [hf.relErr, hf'.relErr]
    constructor
    · intro e i hc hs
      have e1 := congrFun (vec_inj e) i
      simp only [hs, mul_zero] at e1
      have hsq : √(1e-14 : ℝ) ≠ 0 := by
        rw [Real.sqrt_ne_zero'] ; norm_num
      simp only [relOf, statVar, hc, hl.ne', mul_eq_zero, or_self, if_false, if_true] at e1
      rw [div_eq_div_iff (mul_ne_zero hl.ne' hc) hc] at e1
      have e2 : c i = l * c i := mul_left_cancel₀ hsq e1
      have : (l - 1) * c i = 0 := by linarith
      rcases mul_eq_zero.mp this with h1 | h1
      · exact hl1 (by linarith)
      · exact hc h1
    · intro hs
      congr 1; funext i
      by_cases hc : c i = 0
      · simp [relOf, hc]
      · have h1 := hs i hc
        have h2 : l ^ 2 * s i ≠ 0 := mul_ne_zero (by positivity) h1
        simp only [statVar, h1, h2, if_false]
        exact relOf_scaled hl _ _
  refine ⟨?_, hiff, fun hs => ?_⟩
  · unfold Template.yieldParam
    rw [hf.params, hf'.params, ← Finset.mul_sum]
    simp
  · exact fractions_scaled hl hf.flatCounts hf'.flatCounts hf.relErr ((hiff.mpr hs).trans hf.relErr)

/-- **C99, likelihood.** Two models with the same channels, the second with the contents of every template multiplied
by some non-zero number (its relative errors, correlations, efficiencies and the data being the same): the likelihood
is the same at the same parameters. -/
theorem C99_nll (s s' : Sys) (h : s.Built) (h' : s'.Built) (hne : s.m.channels ≠ [])
    (A : Finset String) (D : String → NamedChan) (l : String → String → ℝ) (hl : ∀ a p, l a p ≠ 0)
    (hm : NamedModel s A D)
    (hm' : NamedModel s' A fun a => { D a with cnt := fun p i => l a p * (D a).cnt p i })
    (V E : String → ℝ) (hc : ConstraintsAre s V E) (hc' : ConstraintsAre s' V E)
    (hcon : s.m.constrained.Perm s'.m.constrained) (ν : String → ℝ)
    (θ : ∀ a, String → Fin (D a).n → ℝ) (hreg : ∀ a ∈ A, (D a).Regular ν (θ a)) :
    ∃ v : ℝ, (s.m.nll s.w (namedVec s D ν θ)).1 = .ok (.fin v) ∧
      (s'.m.nll s'.w (namedVec s' (fun a => { D a with cnt := fun p i => l a p * (D a).cnt p i }) ν θ)).1 =
        .ok (.fin v) := by
  have hne' : s'.m.channels ≠ [] := by
    intro e
    obtain ⟨x, hx⟩ := List.exists_mem_of_ne_nil _ hne
    have h1 : x.1 ∈ A := (hm.names _).mpr (List.mem_map.mpr ⟨x, hx, rfl⟩)
    have h2 := (hm'.names _).mp h1
    rw [e] at h2; simp at h2
  have hS : ∀ a p (u : Fin (D a).n → ℝ), ∑ i, l a p * (D a).cnt p i * (1 + u i * (D a).ε p i) =
      l a p * ∑ i, (D a).cnt p i * (1 + u i * (D a).ε p i) := by
    intro a p u
    rw [Finset.mul_sum]
    exact Finset.sum_congr rfl fun i _ => by ring
  have hexp : ∀ a i, NamedChan.expected { D a with cnt := fun p i => l a p * (D a).cnt p i } ν (θ a) i =
      (D a).expected ν (θ a) i := by
    intro a i
    unfold NamedChan.expected
    refine Finset.sum_congr rfl fun p _ => ?_
    congr 1
    simp only
    rw [hS a p, mul_assoc, mul_div_mul_left _ _ (hl a p)]
  have hnll : ∀ a, NamedChan.nll { D a with cnt := fun p i => l a p * (D a).cnt p i } ν (θ a) = (D a).nll ν (θ a) := by
    intro a
    unfold NamedChan.nll
    simp only [hexp]
  have e1 := C98_by_name s h hne A D hm V E hc ν θ hreg
  have e2 := C98_by_name s' h' hne' A _ hm' V E hc' ν θ (fun a ha => ⟨(hreg a ha).data, fun p hp => by
    simp only
    rw [hS a p]
    exact mul_ne_zero (hl a p) ((hreg a ha).sums p hp), fun i => by
    rw [hexp]; exact (hreg a ha).pos i⟩)
  refine ⟨_, e1, ?_⟩
  rw [e2, (hcon.map _).sum_eq]
  simp only [hnll]

/-! ### concrete cases -/

/-- a histogram with contents (3, 1) and errors (2, 1), one with all weights doubled, and calls on their templates: a
set of nuisance parameters, a systematic variation (unweighted up, weights 3 and 0 down) and a covariance matrix -/
example : ∃ t0 t0', newTemplate "a" 0 (Ex.bh ![3, 1] ![2, 1]) = .ok t0 ∧ newTemplate "a" 0 (Ex.bh ![6, 2] ![4, 2]) = .ok t0' ∧
    HistIs (Ex.bh ![3, 1] ![2, 1]) (![3, 1] : Fin 2 → ℝ) (fun i => (![2, 1] : Fin 2 → ℝ) i ^ 2) ∧
    HistIs (Ex.bh ![6, 2] ![4, 2]) (fun i => 2 * (![3, 1] : Fin 2 → ℝ) i) (fun i => 2 ^ 2 * (![2, 1] : Fin 2 → ℝ) i ^ 2) ∧
    List.Forall₂ (Rescaled 2 2)
      [.setNui (vec ![1, -1]), .addVariation (Ex.bh ![3, 1] ![2, 1]) (vec ![1/2, 3/2]) [] .none (.array (vec ![3, 0])),
        .addCovMat (Mat.diagOf (vec ![1, 1]))]
      [.setNui (vec ![1, -1]), .addVariation (Ex.bh ![6, 2] ![4, 2]) (vec ![1/2, 3/2]) [] (.array (vec ![2, 2]))
          (.array (vec ![6, 0])), .addCovMat (Mat.diagOf (vec ![4, 4]))] := by
  refine ⟨_, _, Ex.bt_eq "a" 0 ![3, 1] ![2, 1], Ex.bt_eq "a" 0 ![6, 2] ![4, 2], Ex.bh_is _ _, ?_, ?_⟩
  · have := Ex.bh_is ![6, 2] ![4, 2]
    convert this using 2
    · rename_i i; fin_cases i
      · simp; norm_num
      · simp
    · rename_i i; fin_cases i
      · simp; norm_num
      · simp
  · refine .cons (.setNui _ _) (.cons (.addVariation _ _ _ _ _ _ _ _ rfl ⟨trivial, rfl, ?_⟩ ⟨?_, rfl, ?_⟩)
      (.cons (.addCovMat _ _ 1 ?_ ?_ Matrix.PosSemidef.one) .nil))
    · simp [Weights.values, vec, List.ofFn_succ, Fl.one_def]
    · intro x hx
      simp [vec, List.ofFn_succ] at hx
      rcases hx with rfl | rfl <;> exact trivial
    · simp [Weights.values, vec, List.ofFn_succ]; norm_num
    · have := isReal_diagOf (![1, 1] : Fin 2 → ℝ)
      convert this using 1
      ext i j; fin_cases i <;> fin_cases j <;> simp [Matrix.one_apply, Matrix.diagonal]
    · have := isReal_diagOf (![4, 4] : Fin 2 → ℝ)
      convert this using 1
      ext i j; fin_cases i <;> fin_cases j <;> simp [Matrix.one_apply, Matrix.diagonal] <;> norm_num

/-- The floor on statistical errors is absolute: contents (1, 1) with zero errors, and contents (2, 2) with zero errors,
have different fractions at `θ = (1, 0)`. -/
theorem C99_floor : ∃ t t' : Template,
    newTemplate "a" 0 (Ex.bh ![1, 1] ![0, 0]) = .ok t ∧ newTemplate "a" 0 (Ex.bh ![2, 2] ![0, 0]) = .ok t' ∧
    t'.fractions (vec ![1, 0]) ≠ t.fractions (vec ![1, 0]) := by
  obtain ⟨t, ht, hf⟩ := newTemplate_fresh "a" 0 _ _ _ (Ex.bh_is ![1, 1] ![0, 0])
  obtain ⟨t', ht', hf'⟩ := newTemplate_fresh "a" 0 _ _ _ (Ex.bh_is ![2, 2] ![0, 0])
  refine ⟨t, t', ht, ht', ?_⟩
  have hq : √(1e-14 : ℝ) = 1e-7 := by
    rw [show (1e-14 : ℝ) = (1e-7) ^ 2 by norm_num, Real.sqrt_sq (by norm_num)]
  have key : ∀ (t : Template) (k : ℝ), 0 < k → t.flatCounts = vec (fun _ : Fin 2 => k) → t.numBins = 2 → t.bins.prod = 2 →
      t.relErr = vec (fun _ : Fin 2 => 1e-7 / k) →
      ∃ f : Fin 2 → ℝ, t.fractions (vec ![1, 0]) = .ok (vec f) ∧ f 0 = (1 + 1e-7 / k) / (2 + 1e-7 / k) := by
    intro t k hk h1 h2 h3 h4
    have hp : 0 < 2 + 1e-7 / k := by positivity
    have hT : ∑ j : Fin 2, k * (1 + (![1, 0] : Fin 2 → ℝ) j * (1e-7 / k)) = k * (2 + 1e-7 / k) := by
      simp [Fin.sum_univ_two]; ring
    obtain ⟨f, hf, hv, -⟩ := C19_fractions t (fun _ => k) (fun _ => 1e-7 / k) ⟨h2, h1, h4, h3⟩ ![1, 0] (by
      rw [hT]; positivity)
    refine ⟨f, hf, ?_⟩
    rw [hv 0, hT]
    simp only [Matrix.cons_val_zero, one_mul]
    exact mul_div_mul_left _ _ hk.ne'
  have e1 : (![1, 1] : Fin 2 → ℝ) = fun _ => 1 := by funext i; fin_cases i <;> rfl
  have e2 : (![2, 2] : Fin 2 → ℝ) = fun _ => 2 := by funext i; fin_cases i <;> rfl
  have e0 : ∀ i, (![0, 0] : Fin 2 → ℝ) i ^ 2 = 0 := by intro i; fin_cases i <;> simp
  obtain ⟨f, hf1, hf2⟩ := key t 1 one_pos (by rw [hf.flatCounts, e1]) hf.numBins (by rw [hf.bins]; rfl) (by
    rw [hf.relErr, e1]; congr 1; funext i; rw [e0]; simp only [relOf, statVar, one_ne_zero, if_false, if_true, hq])
  obtain ⟨g, hg1, hg2⟩ := key t' 2 two_pos (by rw [hf'.flatCounts, e2]) hf'.numBins (by rw [hf'.bins]; rfl) (by
    rw [hf'.relErr, e2]; congr 1; funext i; rw [e0]; simp only [relOf, statVar, two_ne_zero, if_false, if_true, hq])
  rw [hf1, hg1]
  intro h
  have := congrFun (vec_inj (Except.ok.inj h)) 0
  rw [hf2, hg2] at this
  norm_num at this

namespace Ex

/-- the program `ops0` with all weights of the histogram behind the template of `sig` doubled -/
def ops0d : List Op :=
  [.binned1 ⟨[2], vec ![8, 12]⟩ ⟨true, [0, 1, 2]⟩ (some ⟨[2], vec ![4, 6]⟩),
   .binned1 ⟨[2], vec ![5, 5]⟩ ⟨true, [0, 1, 2]⟩ (some ⟨[2], vec ![1, 1]⟩),
   .binned1 ⟨[2], vec ![10, 5]⟩ ⟨true, [0, 1, 2]⟩ (some ⟨[2], vec ![3, 2]⟩),
   .newTmpl1 "s" 0, .newTmpl1 "b" 1, .newTmpl1 "c" 1]

/-- the heap after `ops0d` -/
def w0d : World :=
  { World.init with
    hists := Function.update (Function.update (Function.update (fun _ => dummyHist) 0 (bh ![8, 12] ![4, 6]))
      1 (bh ![5, 5] ![1, 1])) 2 (bh ![10, 5] ![3, 2])
    nHists := 3
    tmpls := Function.update (Function.update (Function.update (fun _ => dummyTmpl) 0
      (bt "s" 0 ![8, 12] ![4, 6])) 1 (bt "b" 1 ![5, 5] ![1, 1])) 2 (bt "c" 1 ![5, 5] ![1, 1])
    nTmpls := 3 }

theorem run0d : Sys.init.run ops0d = ⟨w0d, Mct.empty⟩ := by
  have hb := fun (n : String) (i : ℕ) (c e : Fin 2 → ℝ) => bt_eq n i c e
  simp only [ops0d, Sys.run, List.foldl_cons, List.foldl_nil, Sys.step, bh_eq, Sys.allocHist, World.newHist,
    Sys.init, World.init, Sys.allocTmpl, World.newTmpl]
  simp [bt_eq, Sys.allocTmpl, World.newTmpl, Function.update_apply]
  rfl

/-- the heap after `ops0d ++ ops1` -/
def w1d : World :=
  { w0d with
    chans := Function.update (Function.update (fun _ => dummyChan) 0 chA) 1 chB
    nChans := 2 }

/-- the complete example -/
def sys1d : Sys := ⟨w1d, m1⟩

theorem run1d : Sys.init.run (ops0d ++ ops1) = sys1d := by
  rw [run_append, run0d]
  have e : ∀ (x y : Channel) , (Function.update (Function.update (fun _ : ℕ => dummyChan) 0 x) 1 y) 1 = y := by
    intro x y; simp
  simp only [ops1, Sys.run, List.foldl_cons, List.foldl_nil, Sys.step, Mct.defineChannel, Mct.defineProcess,
    Mct.addTemplate, World.addTemplate, Mct.empty, World.newChan, dictSet, dictGet, Mct.addData, World.addData,
    World.setChan]
  simp [w0d, World.init, Channel.new, Channel.addTemplate, Channel.checkTemplate, Channel.procs, bt, bh,
    Hist.setBinned, Hist.blank, ChanBins.toTuple, dictSet, dictGet, Channel.addData, Channel.checkHist,
    Function.update_apply, sys1d, w1d, m1, chA, chB]
  funext i
  by_cases h0 : i = 0
  · subst h0; simp
  · by_cases h1 : i = 1
    · subst h1; simp
    · simp [h0, h1]

theorem tmd_s : sys1d.w.tmpls 0 = bt "s" 0 ![8, 12] ![4, 6] := by simp [sys1d, w1d, w0d]
theorem tmd_b : sys1d.w.tmpls 1 = bt "b" 1 ![5, 5] ![1, 1] := by simp [sys1d, w1d, w0d]
theorem tmd_c : sys1d.w.tmpls 2 = bt "c" 1 ![5, 5] ![1, 1] := by simp [sys1d, w1d, w0d]

/-- the factors on the weights -/
def lam (_ p : String) : ℝ := if p = "sig" then 2 else 1

theorem shape_congr {t : Template} {n : ℕ} {c ε c' ε' : Fin n → ℝ} (h : HasShape t c ε) (h1 : c = c') (h2 : ε = ε') :
    HasShape t c' ε' := h1 ▸ h2 ▸ h

theorem named1d : NamedModel sys1d {"a", "b"} fun a => { D1 a with cnt := fun p i => lam a p * (D1 a).cnt p i } := by
  refine ⟨by intro a; simp [sys1d, m1], ?_⟩
  intro a c hc
  have hc : (a = "a" ∧ c = 0) ∨ (a = "b" ∧ c = 1) := by simpa [sys1d, m1] using hc
  rcases hc with ⟨rfl, rfl⟩ | ⟨rfl, rfl⟩
  · refine ⟨Nat.two_pos, ⟨"sig", by simp [D1, DA, DB]⟩, ?_, ?_, ?_, 2, ?_, ?_⟩
    · intro p; simp [D1, DA, DB, sys1d, w1d, chA, Channel.procs]
    · intro p e hm
      simp [sys1d, w1d, chA] at hm
      rcases hm with ⟨rfl, rfl⟩ | ⟨rfl, rfl⟩ <;> simp [D1, DA]
    · intro p t hm
      have hm : (p = "sig" ∧ t = 0) ∨ (p = "bkg" ∧ t = 1) := by simpa [sys1d, w1d, chA] using hm
      rcases hm with ⟨rfl, rfl⟩ | ⟨rfl, rfl⟩
      · refine ⟨?_, Matrix.PosDef.one, ?_, ?_⟩
        · rw [tmd_s]
          refine shape_congr (bt_shape "s" 0 ![8, 12] ![4, 6] (by intro i; fin_cases i <;> simp)
            (by intro i; fin_cases i <;> simp)) ?_ ?_
          · show (![8, 12] : Fin 2 → ℝ) = fun i => 2 * (![4, 6] : Fin 2 → ℝ) i
            funext i; fin_cases i <;> simp <;> norm_num
          · show (fun i => (![4, 6] : Fin 2 → ℝ) i / (![8, 12] : Fin 2 → ℝ) i) =
              fun i => (![2, 3] : Fin 2 → ℝ) i / (![4, 6] : Fin 2 → ℝ) i
            funext i; fin_cases i <;> simp <;> norm_num
        · rw [tmd_s]; exact one_real
        · show IsReal _ (1 : Matrix (Fin 2) (Fin 2) ℝ)⁻¹
          rw [inv_one]
          rw [tmd_s]; exact one_real
      · refine ⟨?_, Matrix.PosDef.one, ?_, ?_⟩
        · rw [tmd_b]
          refine shape_congr (bt_shape "b" 1 ![5, 5] ![1, 1] (by intro i; fin_cases i <;> simp)
            (by intro i; fin_cases i <;> simp)) ?_ ?_
          · show (![5, 5] : Fin 2 → ℝ) = fun i => 1 * (![5, 5] : Fin 2 → ℝ) i
            funext i; simp
          · rfl
        · rw [tmd_b]; exact one_real
        · show IsReal _ (1 : Matrix (Fin 2) (Fin 2) ℝ)⁻¹
          rw [inv_one]
          rw [tmd_b]; exact one_real
    · simp [sys1d, w1d, chA]
    · show _ = vec (![10, 5] : Fin 2 → ℝ)
      simp [sys1d, w1d, w0d, bh, Hist.setBinned]
  · refine ⟨Nat.two_pos, ⟨"bkg", by simp [D1, DA, DB]⟩, ?_, ?_, ?_, 2, ?_, ?_⟩
    · intro p; simp [D1, DA, DB, sys1d, w1d, chB, Channel.procs]
    · intro p e hm
      simp [sys1d, w1d, chB] at hm
      obtain ⟨rfl, rfl⟩ := hm
      simp [D1, DB]
    · intro p t hm
      have hm : (p = "bkg" ∧ t = 2) := by simpa [sys1d, w1d, chB] using hm
      obtain ⟨rfl, rfl⟩ := hm
      refine ⟨?_, Matrix.PosDef.one, ?_, ?_⟩
      · rw [tmd_c]
        refine shape_congr (bt_shape "c" 1 ![5, 5] ![1, 1] (by intro i; fin_cases i <;> simp)
          (by intro i; fin_cases i <;> simp)) ?_ ?_
        · show (![5, 5] : Fin 2 → ℝ) = fun i => 1 * (![5, 5] : Fin 2 → ℝ) i
          funext i; simp
        · rfl
      · rw [tmd_c]; exact one_real
      · show IsReal _ (1 : Matrix (Fin 2) (Fin 2) ℝ)⁻¹
        rw [inv_one]
        rw [tmd_c]; exact one_real
    · simp [sys1d, w1d, chB]
    · show _ = vec (![10, 5] : Fin 2 → ℝ)
      simp [sys1d, w1d, w0d, bh, Hist.setBinned]

theorem built1 : sys1.Built := by
  refine ⟨ops0 ++ ops1, setupFirst_noEval ?_, run1⟩
  intro o ho
  simp only [ops0, ops1, List.mem_append, List.mem_cons, List.not_mem_nil, or_false] at ho
  rcases ho with (rfl | rfl | rfl | rfl | rfl | rfl) | (rfl | rfl | rfl | rfl | rfl | rfl | rfl | rfl) <;> exact id

theorem built1d : sys1d.Built := by
  refine ⟨ops0d ++ ops1, setupFirst_noEval ?_, run1d⟩
  intro o ho
  simp only [ops0d, ops1, List.mem_append, List.mem_cons, List.not_mem_nil, or_false] at ho
  rcases ho with (rfl | rfl | rfl | rfl | rfl | rfl) | (rfl | rfl | rfl | rfl | rfl | rfl | rfl | rfl) <;> exact id

end Ex

/-- non-vacuity of `C99_nll`: doubling all weights of the signal template -/
example : ∃ v : ℝ, (Ex.sys1.m.nll Ex.sys1.w (namedVec Ex.sys1 Ex.D1 (fun _ => 10) (fun _ _ => 0))).1 = .ok (.fin v) ∧
    (Ex.sys1d.m.nll Ex.sys1d.w (namedVec Ex.sys1d (fun a => { Ex.D1 a with cnt := fun p i => Ex.lam a p * (Ex.D1 a).cnt p i })
      (fun _ => 10) (fun _ _ => 0))).1 = .ok (.fin v) :=
  C99_nll Ex.sys1 Ex.sys1d Ex.built1 Ex.built1d (by simp [Ex.sys1, Ex.m1]) {"a", "b"} Ex.D1 Ex.lam
    (by intro a p; unfold Ex.lam; split <;> norm_num) Ex.named1 Ex.named1d (fun _ => 0) (fun _ => 1)
    (by intro p hp; simp [Ex.sys1, Ex.m1] at hp) (by intro p hp; simp [Ex.sys1d, Ex.m1] at hp) (List.Perm.refl _)
    (fun _ => 10) (fun _ _ => 0) Ex.regular1

end

end TF.Props
