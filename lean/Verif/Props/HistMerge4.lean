import Verif.Props.HistMerge2

set_option linter.unusedSimpArgs false
set_option linter.unusedVariables false

/-!
# Projections of fine and of coarse histograms (C149)
-/

namespace TF.Props

open Classical Spec

noncomputable section

theorem list_range_sum (n : ℕ) (f : ℕ → Fl) : ((List.range n).map f).sum = ∑ i ∈ Finset.range n, f i := rfl

theorem sum_pieces_fl (f : ℕ → Fl) (m : ℕ → ℕ) (h0 : m 0 = 0) (k : ℕ) (hm : ∀ j < k, m j ≤ m (j + 1)) : ∑ j ∈ Finset.range k, ∑ i ∈ Finset.Ico (m j) (m (j + 1)), f i = ∑ i ∈ Finset.range (m k), f i := by
  induction k with
  | zero => simp [h0]
  | succ k ih =>
    rw [Finset.sum_range_succ, ih fun j hj => hm j (by omega), Finset.range_eq_Ico, Finset.range_eq_Ico, Finset.sum_Ico_consecutive _ (Nat.zero_le _) (hm k (by omega))]

/-- **C149, projections.** `h'` holds the merged contents of the two-dimensional histogram `h` (coarser or equal binning of either axis). Then the contents of the `x` projection of `h'` are the merged contents of the `x` projection of `h`; if the `x` axes agree (`c = id`), the
binning of `y` has no influence on the projection. -/
theorem C149_projection_partial (h h' : Hist) (ex ey ex' ey' : List ℝ) (hg : Good2 h ex ey) (hg' : Good2 h' ex' ey') (c d : ℕ → ℕ) (hc : Coarser ex ex' c) (hd : Coarser ey ey' d)
    (hm : MergedContents2 c d (ey.length - 1) (ex'.length - 1) (ey'.length - 1) h h') :
    ∃ p p', Hist2d.xProjection h = .ok p ∧ Hist2d.xProjection h' = .ok p' ∧ Good1 p ex ∧ Good1 p' ex' ∧
      ∀ j < ex'.length - 1, p'.counts.data[j]? = some (∑ i ∈ Finset.Ico (c j) (c (j + 1)), contentOf p i) := by
  obtain ⟨p, e, g, a, -, -⟩ := C09_xprojection h ex ey hg
  obtain ⟨p', e', g', a', -, -⟩ := C09_xprojection h' ex' ey' hg'
  refine ⟨p, p', e, e', g, g', fun j hj => ?_⟩
  have hlt := coarser_lt hc (j := j + 1) (by omega)
  rw [a' j hj, list_range_sum]
  congr 1
  have h1 : ∀ k ∈ Finset.range (ey'.length - 1), h'.counts.data.getD (j * (ey'.length - 1) + k) 0 = ∑ i ∈ Finset.Ico (c j) (c (j + 1)), ∑ l ∈ Finset.Ico (d k) (d (k + 1)), contentOf h (i * (ey.length - 1) + l) := fun k hk => by
    rw [List.getD_eq_getElem?_getD, (hm j hj k (Finset.mem_range.mp hk)).1]; rfl
  rw [Finset.sum_congr rfl h1, Finset.sum_comm]
  refine Finset.sum_congr rfl fun i hi => ?_
  have hi' := Finset.mem_Ico.mp hi
  rw [sum_pieces_fl (fun l => contentOf h (i * (ey.length - 1) + l)) d hd.first _ fun k hk => (hd.mono k hk).le, hd.last]
  unfold contentOf
  rw [a i (by omega), list_range_sum]
  simp [List.getD_eq_getElem?_getD]

/-- **C149, projections on the other axis.** The same for the `y` projection. -/
theorem C149_yprojection_partial (h h' : Hist) (ex ey ex' ey' : List ℝ) (hg : Good2 h ex ey) (hg' : Good2 h' ex' ey') (c d : ℕ → ℕ) (hc : Coarser ex ex' c) (hd : Coarser ey ey' d)
    (hm : MergedContents2 c d (ey.length - 1) (ex'.length - 1) (ey'.length - 1) h h') :
    ∃ p p', Hist2d.yProjection h = .ok p ∧ Hist2d.yProjection h' = .ok p' ∧ Good1 p ey ∧ Good1 p' ey' ∧
      ∀ k < ey'.length - 1, p'.counts.data[k]? = some (∑ l ∈ Finset.Ico (d k) (d (k + 1)), contentOf p l) := by
  obtain ⟨p, e, g, a, -, -⟩ := C09_yprojection h ex ey hg
  obtain ⟨p', e', g', a', -, -⟩ := C09_yprojection h' ex' ey' hg'
  refine ⟨p, p', e, e', g, g', fun k hk => ?_⟩
  have hlt := coarser_lt hd (j := k + 1) (by omega)
  rw [a' k hk, list_range_sum]
  congr 1
  have h1 : ∀ j ∈ Finset.range (ex'.length - 1), h'.counts.data.getD (j * (ey'.length - 1) + k) 0 = ∑ i ∈ Finset.Ico (c j) (c (j + 1)), ∑ l ∈ Finset.Ico (d k) (d (k + 1)), contentOf h (i * (ey.length - 1) + l) := fun j hj => by
    rw [List.getD_eq_getElem?_getD, (hm j (Finset.mem_range.mp hj) k hk).1]; rfl
  rw [Finset.sum_congr rfl h1, sum_pieces_fl (fun i => ∑ l ∈ Finset.Ico (d k) (d (k + 1)), contentOf h (i * (ey.length - 1) + l)) c hc.first _ fun j hj => (hc.mono j hj).le, hc.last, Finset.sum_comm]
  refine Finset.sum_congr rfl fun l hl => ?_
  have hl' := Finset.mem_Ico.mp hl
  unfold contentOf
  rw [a l (by omega), list_range_sum]
  simp [List.getD_eq_getElem?_getD]

/-- non-vacuity: a 2 by 2 binning against one with a single bin in `y`, filled with two weighted events -/
example : ∃ h h' : Hist, Good2 h [0, 1, 2] [0, 1, 4] ∧ Good2 h' [0, 1, 2] [0, 4] ∧ Coarser [0, 1, 2] [0, 1, 2] id ∧ Coarser [0, 1, 4] [0, 4] (fun j => 2 * j) ∧ MergedContents2 id (fun j => 2 * j) 2 2 1 h h' ∧
    h = (Hist2d.fill (Hist.blank .h2 [⟨false, [0, 1, 2]⟩, ⟨false, [0, 1, 4]⟩] [2, 2] (.d2 .tuple .tuple .tuple 0 2 0 4)) [.fin 1, .fin 2] [.fin 0, .fin 1] (.array [.fin 5, .fin 7])).2 := by
  have hb : Binning2 (.edges ⟨false, [0, 1, 2]⟩ ⟨false, [0, 1, 4]⟩) none [0, 1, 2] [0, 1, 4] := .inr ⟨_, _, rfl, ⟨by simp, by simp⟩, ⟨by simp, by simp⟩, rfl, rfl⟩
  have hb' : Binning2 (.edges ⟨false, [0, 1, 2]⟩ ⟨false, [0, 4]⟩) none [0, 1, 2] [0, 4] := .inr ⟨_, _, rfl, ⟨by simp, by simp⟩, ⟨by simp, by simp⟩, rfl, rfl⟩
  have hc : Coarser [0, 1, 2] [0, 1, 2] id := ⟨rfl, rfl, fun j _ => Nat.lt_succ_self j, fun j _ => rfl⟩
  have hd : Coarser [0, 1, 4] [0, 4] (fun j => 2 * j) := by
    refine ⟨rfl, rfl, fun j hj => by omega, fun j hj => ?_⟩
    have : j = 0 ∨ j = 1 := by simp at hj; omega
    rcases this with rfl | rfl <;> rfl
  have hok : ∀ b ∈ ([⟨[.fin 1, .fin 2], [.fin 0, .fin 1], [.fin 5, .fin 7], .array [.fin 5, .fin 7]⟩] : List Batch2), b.Ok := by
    intro b hb; simp at hb; subst hb; exact ⟨Or.inr (Or.inr rfl), rfl, rfl, by simp⟩
  obtain ⟨H, H', n1, n2, hm⟩ := C149_program2_partial _ _ _ _ _ _ _ _ hb hb' _ _ hc hd none (by simp) _ hok
    (by intro b hb r hr; simp at hb; subst hb; simp at hr; rcases hr with rfl | rfl <;> simp) (by intro b hb r hr; simp at hb; subst hb; simp at hr; rcases hr with rfl | rfl <;> simp)
  obtain ⟨K, k1, g⟩ := acc2_any hb none (by simp) _ hok
  obtain ⟨K', k1', g'⟩ := acc2_any hb' none (by simp) _ hok
  rw [n1] at k1
  rw [n2] at k1'
  obtain rfl := Except.ok.inj k1
  obtain rfl := Except.ok.inj k1'
  refine ⟨_, _, g.good, g'.good, hc, hd, hm, ?_⟩
  have : H = Hist.blank .h2 [⟨false, [0, 1, 2]⟩, ⟨false, [0, 1, 4]⟩] [2, 2] (.d2 .tuple .tuple .tuple 0 2 0 4) := (Except.ok.inj n1).symm
  rw [this]
  rfl

end

end TF.Props
