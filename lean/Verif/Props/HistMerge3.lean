import Verif.Props.HistMerge
import Verif.Props.TemplateProps

set_option linter.unusedSimpArgs false
set_option linter.unusedVariables false

/-!
# Templates of a fine and of a coarse histogram (C149)
-/

namespace TF.Spec

/-- the bins `a`, …, `b - 1` of a histogram with `n` bins -/
def binsFrom (n a b : ℕ) : Finset (Fin n) := Finset.univ.filter fun i => a ≤ i.val ∧ i.val < b

end TF.Spec

namespace TF.Props

open Classical Spec

noncomputable section

theorem sum_Ico_fin {n : ℕ} (f : Fin n → ℝ) {a b : ℕ} (hb : b ≤ n) : ∑ i ∈ Finset.Ico a b, (if h : i < n then f ⟨i, h⟩ else 0) = ∑ i ∈ binsFrom n a b, f i := by
  have h1 : ∑ i ∈ binsFrom n a b, f i = ∑ i : Fin n, (fun k : ℕ => if a ≤ k ∧ k < b then (if h : k < n then f ⟨k, h⟩ else 0) else 0) i := by
    rw [binsFrom, Finset.sum_filter]
    exact Finset.sum_congr rfl fun i _ => by simp
  rw [h1, Fin.sum_univ_eq_sum_range (fun k : ℕ => if a ≤ k ∧ k < b then (if h : k < n then f ⟨k, h⟩ else 0) else 0) n, ← Finset.sum_filter]
  refine Finset.sum_congr ?_ fun _ _ => rfl
  ext k
  simp only [Finset.mem_Ico, Finset.mem_filter, Finset.mem_range]
  omega

theorem sum_pieces (f : ℕ → ℝ) (m : ℕ → ℕ) (h0 : m 0 = 0) (k : ℕ) (hm : ∀ j < k, m j ≤ m (j + 1)) : ∑ j ∈ Finset.range k, ∑ i ∈ Finset.Ico (m j) (m (j + 1)), f i = ∑ i ∈ Finset.range (m k), f i := by
  induction k with
  | zero => simp [h0]
  | succ k ih =>
    rw [Finset.sum_range_succ, ih fun j hj => hm j (by omega), Finset.range_eq_Ico, Finset.range_eq_Ico, Finset.sum_Ico_consecutive _ (Nat.zero_le _) (hm k (by omega))]

theorem sum_pieces_fin {n k : ℕ} (f : Fin n → ℝ) (m : ℕ → ℕ) (h0 : m 0 = 0) (h1 : m k = n) (hm : ∀ j < k, m j ≤ m (j + 1)) :
    ∑ j : Fin k, ∑ i ∈ binsFrom n (m j) (m (j + 1)), f i = ∑ i, f i := by
  have hle : ∀ j ≤ k, m j ≤ n := by
    intro j hj
    have : ∀ d ≤ k, m (k - d) ≤ n := by
      intro d
      induction d with
      | zero => intro _; rw [Nat.sub_zero, h1]
      | succ d ih =>
        intro hd
        have := hm (k - (d + 1)) (by omega)
        rw [show k - (d + 1) + 1 = k - d by omega] at this
        exact this.trans (ih (by omega))
    have h := this (k - j) (by omega)
    rwa [show k - (k - j) = j by omega] at h
  rw [Finset.sum_congr rfl fun (j : Fin k) _ => (sum_Ico_fin f (hle (j + 1) j.2)).symm]
  rw [Fin.sum_univ_eq_sum_range (fun j => ∑ i ∈ Finset.Ico (m j) (m (j + 1)), (if h : i < n then f ⟨i, h⟩ else 0)) k, sum_pieces _ m h0 k hm, h1, ← Fin.sum_univ_eq_sum_range]
  exact Finset.sum_congr rfl fun i _ => by simp

/-- what the merged contents are for histograms with finite contents -/
theorem merged_real {n n' : ℕ} {h h' : Hist} {c s : Fin n → ℝ} {c' s' : Fin n' → ℝ} (hh : HistIs h c s) (hh' : HistIs h' c' s') (m : ℕ → ℕ) (hle : ∀ j ≤ n', m j ≤ n) (hm : MergedContents m n' h h') (j : Fin n') :
    c' j = ∑ i ∈ binsFrom n (m j) (m (j + 1)), c i ∧ s' j = ∑ i ∈ binsFrom n (m j) (m (j + 1)), s i := by
  obtain ⟨m1, m2⟩ := hm j j.2
  have key : ∀ (d d' : List Fl) (f : Fin n → ℝ) (g : Fin n' → ℝ), d = vec f → d' = vec g → d'[(j : ℕ)]? = some (∑ i ∈ Finset.Ico (m j) (m (j + 1)), (d[i]?).getD 0) →
      g j = ∑ i ∈ binsFrom n (m j) (m (j + 1)), f i := by
    rintro _ _ f g rfl rfl h1
    rw [vec_getElem?] at h1
    have h2 : ∑ i ∈ Finset.Ico (m j) (m (j + 1)), ((vec f)[i]?).getD 0 = ∑ i ∈ Finset.Ico (m j) (m (j + 1)), Fl.fin (if h : i < n then f ⟨i, h⟩ else 0) := by
      refine Finset.sum_congr rfl fun i hi => ?_
      have hi' : i < n := lt_of_lt_of_le (Finset.mem_Ico.mp hi).2 (hle (j + 1) j.2)
      rw [dif_pos hi']
      exact congrArg (fun o => o.getD 0) (vec_getElem? f ⟨i, hi'⟩)
    rw [h2, Fl.sum_fin, sum_Ico_fin f (hle (j + 1) j.2)] at h1
    exact Fl.fin.inj (Option.some.inj h1)
  exact ⟨key _ _ _ _ hh.counts hh'.counts m1, key _ _ _ _ hh.errSq hh'.errSq m2⟩

/-- **C149, templates.** `h` and `h'` are histograms with finite contents, `h'` holds the merged contents of `h`. Templates made from them have the same initial yield, and after both yields are set to any `y` the value of every bin of the coarse template is the sum of the values of the bins
merged into it; if no bin is empty, its squared error is the sum of the squared errors of these bins. -/
theorem C149_template_partial {n n' : ℕ} (name name' : String) (hid hid' : ℕ) (h h' : Hist) (c s : Fin n → ℝ) (c' s' : Fin n' → ℝ) (hh : HistIs h c s) (hh' : HistIs h' c' s') (htot : ∑ i, c i ≠ 0)
    (m : ℕ → ℕ) (h0 : m 0 = 0) (h1 : m n' = n) (hmono : ∀ j < n', m j < m (j + 1)) (hm : MergedContents m n' h h') (y : ℝ) :
    ∃ t t' T T' : Template, newTemplate name hid h = .ok t ∧ newTemplate name' hid' h' = .ok t' ∧ t'.yieldParam = t.yieldParam ∧
      t.setYield (.float (.fin y)) = .ok T ∧ t'.setYield (.float (.fin y)) = .ok T' ∧
      ∃ (v e : Fin n → ℝ) (v' e' : Fin n' → ℝ), T.values = .ok ⟨h.shape, vec v⟩ ∧ T'.values = .ok ⟨h'.shape, vec v'⟩ ∧ T.errors = .ok ⟨h.shape, vec e⟩ ∧ T'.errors = .ok ⟨h'.shape, vec e'⟩ ∧
        (∀ j : Fin n', v' j = ∑ i ∈ binsFrom n (m j) (m (j + 1)), v i) ∧
        ((∀ i, 0 < c i ∧ 0 < s i) → ∀ j : Fin n', e' j ^ 2 = ∑ i ∈ binsFrom n (m j) (m (j + 1)), e i ^ 2) := by
  have hle : ∀ j ≤ n', m j ≤ n := by
    intro j hj
    have : ∀ d ≤ n', m (n' - d) ≤ n := by
      intro d
      induction d with
      | zero => intro _; rw [Nat.sub_zero, h1]
      | succ d ih =>
        intro hd
        have := hmono (n' - (d + 1)) (by omega)
        rw [show n' - (d + 1) + 1 = n' - d by omega] at this
        exact this.le.trans (ih (by omega))
    have h := this (n' - j) (by omega)
    rwa [show n' - (n' - j) = j by omega] at h
  have hr := merged_real hh hh' m hle hm
  have hsum : ∑ j, c' j = ∑ i, c i := by
    rw [← sum_pieces_fin c m h0 h1 fun j hj => (hmono j hj).le]
    exact Finset.sum_congr rfl fun j _ => (hr j).1
  have gen : ∀ {k : ℕ} (nm : String) (id : ℕ) (H : Hist) (a b : Fin k → ℝ), HistIs H a b → ∑ i, a i ≠ 0 → ∃ t T : Template, newTemplate nm id H = .ok t ∧ t.yieldParam = .fin (∑ i, a i) ∧
      t.setYield (.float (.fin y)) = .ok T ∧ T.values = .ok ⟨H.shape, vec fun i => y * (a i / ∑ j, a j)⟩ ∧ T.errors = .ok ⟨H.shape, vec fun i => relOf (statVar (b i)) (a i) * (y * (a i / ∑ j, a j))⟩ := by
    intro k nm id H a b hH ha
    obtain ⟨t, ht, hf⟩ := newTemplate_fresh nm id H a b hH
    have hs : HasShape { t with params := .fin y :: t.params.tail } a (fun i => relOf (statVar (b i)) (a i)) :=
      ⟨hf.numBins, hf.flatCounts, hf.relErr, by show t.bins.prod = k; rw [hf.bins]; exact hH.shape⟩
    have hp : HasParams { t with params := .fin y :: t.params.tail } y (fun _ : Fin k => (0:ℝ)) := by
      unfold HasParams; simp [hf.params, ← replicate_zero_vec]
    have e1 : ∀ i, frac a (fun i => relOf (statVar (b i)) (a i)) (fun _ => 0) i = a i / ∑ j, a j := fun i => by simp [frac, varied]
    refine ⟨t, _, ht, by rw [Template.yieldParam, hf.params]; rfl, rfl, ?_, ?_⟩
    · rw [values_vec hs hp (by simpa [varied] using ha)]
      simp only [e1, hf.bins]
    · rw [errors_vec hs hp (by simpa [varied] using ha)]
      simp only [e1, hf.bins]
  obtain ⟨t, T, a1, a2, a3, a4, a5⟩ := gen name hid h c s hh htot
  obtain ⟨t', T', b1, b2, b3, b4, b5⟩ := gen name' hid' h' c' s' hh' (by rwa [hsum])
  refine ⟨t, t', T, T', a1, b1, by rw [a2, b2, hsum], a3, b3, _, _, _, _, a4, b4, a5, b5, fun j => ?_, fun hpos j => ?_⟩
  · rw [hsum, (hr j).1, Finset.sum_div, Finset.mul_sum]
  · have sq : ∀ a b : ℝ, 0 < a → 0 < b → (relOf (statVar b) a * (y * (a / ∑ i, c i))) ^ 2 = (y / ∑ i, c i) ^ 2 * b := by
      intro a b ha hb
      have : relOf (statVar b) a = Real.sqrt b / a := by simp [relOf, statVar, ha.ne', hb.ne']
      rw [this, show Real.sqrt b / a * (y * (a / ∑ i, c i)) = y / (∑ i, c i) * Real.sqrt b by field_simp, mul_pow, Real.sq_sqrt hb.le]
    have hne : (binsFrom n (m j) (m (j + 1))).Nonempty :=
      ⟨⟨m j, lt_of_lt_of_le (hmono j j.2) (hle (j + 1) j.2)⟩, by simp [binsFrom, hmono j j.2]⟩
    have c0 : 0 < c' j := by rw [(hr j).1]; exact Finset.sum_pos (fun i _ => (hpos i).1) hne
    have s0 : 0 < s' j := by rw [(hr j).2]; exact Finset.sum_pos (fun i _ => (hpos i).2) hne
    simp only [hsum]
    rw [sq _ _ c0 s0, (hr j).2, Finset.mul_sum]
    exact Finset.sum_congr rfl fun i _ => (sq _ _ (hpos i).1 (hpos i).2).symm

/-- non-vacuity: contents 1, 2, 4 with the last two bins merged -/
example : ∃ h h' : Hist, HistIs h ![1, 2, 4] ![1, 2, 4] ∧ HistIs h' ![1, 6] ![1, 6] ∧ MergedContents (fun j => if j = 2 then 3 else j) 2 h h' ∧ ∑ i, (![1, 2, 4] : Fin 3 → ℝ) i ≠ 0 ∧
    ∀ j < 2, (fun j => if j = 2 then 3 else j) j < (fun j => if j = 2 then 3 else j) (j + 1) := by
  refine ⟨⟨.h1, ⟨[3], vec ![1, 2, 4]⟩, ⟨[3], vec ![1, 2, 4]⟩, [⟨true, [0, 1, 2, 3]⟩], [3], [3], .d1 .tuple 0 3, false⟩, ⟨.h1, ⟨[2], vec ![1, 6]⟩, ⟨[2], vec ![1, 6]⟩, [⟨true, [0, 1, 3]⟩], [2], [2], .d1 .tuple 0 3, false⟩,
    ⟨rfl, rfl, by intro i; fin_cases i <;> simp, rfl, rfl, Or.inl rfl⟩, ⟨rfl, rfl, by intro i; fin_cases i <;> simp, rfl, rfl, Or.inl rfl⟩, ?_, ?_, ?_⟩
  · intro j hj
    have : j = 0 ∨ j = 1 := by omega
    rcases this with rfl | rfl <;> simp [contentOf, errSqOf, vec, Finset.sum_Ico_succ_top] <;> norm_num
  · simp [Fin.sum_univ_three]; norm_num
  · intro j hj
    have : j = 0 ∨ j = 1 := by omega
    rcases this with rfl | rfl <;> simp

end

end TF.Props
