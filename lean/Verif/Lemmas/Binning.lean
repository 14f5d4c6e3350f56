import Verif.Spec
import Mathlib.Tactic.Linarith
import Mathlib.Tactic.Ring

namespace TF

open Classical Spec

noncomputable section

theorem filter_le_length {edges : List ℝ} (h : edges.Pairwise (· < ·)) (r : ℝ) (i : ℕ) (a : ℝ)
    (hi : edges[i]? = some a) :
    a ≤ r ↔ i < (edges.filter (fun e => decide (e ≤ r))).length := by
  induction edges generalizing i with
  | nil => simp at hi
  | cons e es ih =>
    rw [List.pairwise_cons] at h
    by_cases he : e ≤ r
    · simp only [List.filter_cons, he, decide_true, if_true, List.length_cons]
      cases i with
      | zero => simp at hi; subst hi; simp [he]
      | succ i =>
        simp only [List.getElem?_cons_succ] at hi
        rw [ih h.2 i hi]; omega
    · have hempty : es.filter (fun e => decide (e ≤ r)) = [] := by
        rw [List.filter_eq_nil_iff]
        intro b hb
        have := h.1 b hb
        simp; linarith [not_le.mp he]
      simp only [List.filter_cons, he, decide_false]
      cases i with
      | zero => simp at hi; subst hi; simp [he, hempty]
      | succ i =>
        simp only [List.getElem?_cons_succ] at hi
        have hb := List.mem_of_getElem? hi
        have := h.1 a hb
        simp [hempty]; linarith [not_le.mp he]

theorem getLast_getElem? {edges : List ℝ} (h : 1 ≤ edges.length) :
    edges[edges.length - 1]? = some (edges.getLastD 0) := by
  rw [← List.getLast?_eq_getElem?, List.getLastD_eq_getLast?]
  cases edges with
  | nil => simp at h
  | cons a l => simp [List.getLast?_cons]

/-- The bin search of the model implements the specification's bins. -/
theorem binIndex_iff {edges : List ℝ} (h : edges.Pairwise (· < ·)) (h2 : 2 ≤ edges.length)
    (x : Fl) (i : ℕ) : binIndex edges x = some i ↔ InBin edges i x := by
  have hlen : ∀ r : ℝ, (edges.filter (fun e => decide (e ≤ r))).length ≤ edges.length :=
    fun r => List.length_filter_le _ _
  cases x with
  | fin r =>
    simp only [binIndex, binNumber, digitize, InBin, InHalfOpen]
    have hl := getLast_getElem? (edges := edges) (by omega)
    by_cases hr : onRightEdge edges r
    · have hr' : AtRightEdge edges r := hr
      have hk := (filter_le_length h r _ _ hl).mp hr.1
      have hk' : (edges.filter (fun e => decide (e ≤ r))).length = edges.length := by
        have := hlen r; omega
      simp only [hr, if_true, hk']
      constructor
      · intro hh
        split at hh
        · simp at hh; right; exact ⟨by omega, hr'⟩
        · simp at hh
      · rintro (⟨a, b, ha, hb, hab, hxb⟩ | ⟨hi, _⟩)
        · exfalso
          have hbi := List.getElem?_eq_some_iff.mp hb
          obtain ⟨hlt, _⟩ := hbi
          have := (filter_le_length h r _ _ hb).mpr (by rw [hk']; exact hlt)
          linarith
        · rw [if_pos (by omega)]; simp; omega
    · have hr' : ¬ AtRightEdge edges r := hr
      simp only [hr, if_false, hr', and_false, or_false]
      constructor
      · intro hh
        split at hh
        · rename_i hc
          simp at hh
          have hi : i < edges.length := by omega
          have hi1 : i + 1 < edges.length := by omega
          refine ⟨edges[i], edges[i+1], by simp [hi], by simp [hi1], ?_, ?_⟩
          · exact (filter_le_length h r i _ (by simp [hi])).mpr (by omega)
          · have := (filter_le_length h r (i+1) (edges[i+1]) (by simp [hi1])).not.mpr (by omega)
            exact not_le.mp this
        · simp at hh
      · rintro ⟨a, b, ha, hb, hab, hxb⟩
        have h1 := (filter_le_length h r i a ha).mp hab
        have h2 := (filter_le_length h r (i+1) b hb).not.mp (not_le.mpr hxb)
        obtain ⟨hlt, _⟩ := List.getElem?_eq_some_iff.mp hb
        rw [if_pos (by omega)]; simp; omega
  | pinf => simp [binIndex, binNumber, digitize, InBin]
  | ninf => simp [binIndex, binNumber, digitize, InBin]
  | nan => simp [binIndex, binNumber, digitize, InBin]

theorem inBin_lt {edges : List ℝ} {i : ℕ} {x : Fl} (h : InBin edges i x) : i + 1 < edges.length := by
  cases x with
  | fin r =>
    rcases h with ⟨a, b, ha, hb, _⟩ | ⟨hi, _⟩
    · exact (List.getElem?_eq_some_iff.mp hb).1
    · omega
  | _ => exact h.elim

theorem inBin_unique {edges : List ℝ} (h : edges.Pairwise (· < ·)) (h2 : 2 ≤ edges.length)
    {i j : ℕ} {x : Fl} (hi : InBin edges i x) (hj : InBin edges j x) : i = j := by
  rw [← binIndex_iff h h2] at hi hj
  rw [hi] at hj; simpa using hj

/-- content of one bin returned by the modelled `binned_statistic` -/
theorem binnedSum_eq {edges : List ℝ} (h : edges.Pairwise (· < ·)) (h2 : 2 ≤ edges.length)
    (data values : Vec) (hl : data.length = values.length) :
    binnedSum edges data values =
      .ok ⟨[edges.length - 1], (List.range (edges.length - 1)).map
        fun i => weightIn edges i data values⟩ := by
  have hv : validEdges edges := ⟨h2, h⟩
  simp only [binnedSum, hl, ne_eq, not_true_eq_false, if_false, hv, if_true]
  congr 2
  apply List.map_congr_left
  intro i _
  simp only [weightIn]
  congr 2
  apply List.filter_congr
  intro p _
  simp only [binIndex_iff h h2]

theorem weightIn_map_sq (edges : List ℝ) (i : ℕ) (data w : Vec) :
    weightIn edges i data (w.map Fl.sq) = weightSqIn edges i data w := by
  unfold weightIn weightSqIn
  rw [List.zip_map_right, List.filter_map, List.map_map]
  rfl

theorem weightIn_append (edges : List ℝ) (i : ℕ) (d1 w1 d2 w2 : Vec) (h : d1.length = w1.length) :
    weightIn edges i (d1 ++ d2) (w1 ++ w2) = weightIn edges i d1 w1 + weightIn edges i d2 w2 := by
  simp [weightIn, List.zip_append h]

theorem weightSqIn_append (edges : List ℝ) (i : ℕ) (d1 w1 d2 w2 : Vec) (h : d1.length = w1.length) :
    weightSqIn edges i (d1 ++ d2) (w1 ++ w2) = weightSqIn edges i d1 w1 + weightSqIn edges i d2 w2 := by
  simp [weightSqIn, List.zip_append h]

theorem filter_map_sum_perm {α : Type} {l1 l2 : List α} (h : l1.Perm l2) (p : α → Bool) (f : α → Fl) :
    ((l1.filter p).map f).sum = ((l2.filter p).map f).sum :=
  ((h.filter p).map f).sum_eq

theorem iadd_ok {a b : NdArr} (hs : a.shape = b.shape) (hl : a.data.length = b.data.length) :
    a.iadd b = .ok ⟨a.shape, List.zipWith (· + ·) a.data b.data⟩ := by
  simp [NdArr.iadd, hs, hl]

theorem list_range_sum (n : ℕ) (f : ℕ → Fl) :
    ((List.range n).map f).sum = ∑ i ∈ Finset.range n, f i := rfl

/-- distributing the content over bins: the sum over all bins of the per-bin sums is the sum over
all events that lie in some bin -/
theorem sum_weightIn (edges : List ℝ) (h : edges.Pairwise (· < ·)) (h2 : 2 ≤ edges.length)
    (data w : Vec) :
    ((List.range (edges.length - 1)).map fun i => weightIn edges i data w).sum
      = weightInRange edges data w := by
  unfold weightIn weightInRange
  generalize data.zip w = l
  induction l with
  | nil => simp
  | cons p l ih =>
    have key : ∀ i, ((((p :: l).filter fun p => decide (InBin edges i p.1)).map (·.2)).sum : Fl)
        = (if InBin edges i p.1 then p.2 else 0)
          + (((l.filter fun p => decide (InBin edges i p.1)).map (·.2)).sum : Fl) := by
      intro i
      by_cases hi : InBin edges i p.1 <;> simp [hi]
    simp only [key]
    rw [List.sum_map_add, ih]
    have h1 : ((List.range (edges.length - 1)).map fun i => if InBin edges i p.1 then p.2 else 0).sum
        = (if ∃ i, InBin edges i p.1 then p.2 else 0) := by
      by_cases hex : ∃ i, InBin edges i p.1
      · obtain ⟨k, hk⟩ := hex
        have hlt := inBin_lt hk
        rw [if_pos ⟨k, hk⟩]
        have hfun : (fun i => if InBin edges i p.1 then p.2 else (0 : Fl)) =
            fun i => if i = k then p.2 else 0 := by
          funext i
          by_cases hik : i = k
          · subst hik; simp [hk]
          · have : ¬ InBin edges i p.1 := fun hi => hik (inBin_unique h h2 hi hk)
            simp [hik, this]
        rw [hfun, list_range_sum, Finset.sum_ite_eq' (Finset.range _) k (fun _ => p.2)]
        rw [if_pos (by simp; omega)]
      · rw [if_neg hex]
        apply List.sum_eq_zero
        intro x hx
        simp only [List.mem_map] at hx
        obtain ⟨i, _, rfl⟩ := hx
        rw [if_neg (fun hi => hex ⟨i, hi⟩)]
    rw [h1]
    by_cases hex : ∃ i, InBin edges i p.1 <;> simp [hex]

end

end TF
