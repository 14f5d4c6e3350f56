import Verif.Props.HistProps4
import Verif.Props.UtilityProps

set_option linter.unusedSimpArgs false

/-!
# Total content for every accepted binning, in one and two dimensions (C04); infinite data in the likelihood term (C13)
-/

namespace TF.Spec

open TF Classical

/-- the weights of the events `(x, y)` that lie in the range of both axes -/
noncomputable def weightInRange2 (ex ey : List ℝ) (x y w : Vec) : Fl :=
  ((((x.zip y).zip w).filter fun p => decide ((∃ i, InBin ex i p.1.1) ∧ ∃ j, InBin ey j p.1.2)).map (·.2)).sum

end TF.Spec

namespace TF.Props

open Classical Spec

noncomputable section

/-- the sum over disjoint classes of the sums within the classes is the sum over all members of a class -/
theorem sum_over_classes {α : Type} (P : ℕ → α → Prop) [∀ i a, Decidable (P i a)] (n : ℕ) (hu : ∀ a, ∀ i < n, ∀ j < n, P i a → P j a → i = j) (f : α → Fl) (l : List α) :
    ((List.range n).map fun i => ((l.filter fun a => decide (P i a)).map f).sum).sum =
      ((l.filter fun a => decide (∃ i < n, P i a)).map f).sum := by
  induction l with
  | nil => simp
  | cons p l ih =>
    have key : ∀ i, (((p :: l).filter fun a => decide (P i a)).map f).sum =
        (if P i p then f p else 0) + ((l.filter fun a => decide (P i a)).map f).sum := by
      intro i
      by_cases hi : P i p <;> simp [hi]
    simp only [key]
    rw [List.sum_map_add, ih]
    have h1 : ((List.range n).map fun i => if P i p then f p else 0).sum = (if ∃ i < n, P i p then f p else 0) := by
      by_cases hex : ∃ i < n, P i p
      · obtain ⟨k, hk, hp⟩ := hex
        rw [if_pos ⟨k, hk, hp⟩]
        have hfun : ((List.range n).map fun i => if P i p then f p else (0 : Fl)) =
            (List.range n).map fun i => if i = k then f p else 0 := by
          apply List.map_congr_left
          intro i hi
          rw [List.mem_range] at hi
          by_cases hik : i = k
          · subst hik; simp [hp]
          · have : ¬ P i p := fun h => hik (hu p i hi k hk h hp)
            simp [hik, this]
        rw [hfun, list_range_sum, Finset.sum_ite_eq' (Finset.range _) k (fun _ => f p)]
        rw [if_pos (by simpa using hk)]
      · rw [if_neg hex]
        apply List.sum_eq_zero
        intro x hx
        obtain ⟨i, hi, rfl⟩ := List.mem_map.mp hx
        rw [if_neg (fun h => hex ⟨i, by simpa using hi, h⟩)]
    rw [h1]
    by_cases hex : ∃ i < n, P i p
    · rw [if_pos hex, List.filter_cons_of_pos (by simpa using hex)]; simp
    · rw [if_neg hex, List.filter_cons_of_neg (by simpa using hex)]; simp

theorem sum_weightIn2 {ex ey : List ℝ} (hx : ex.Pairwise (· < ·)) (hx2 : 2 ≤ ex.length) (hy : ey.Pairwise (· < ·))
    (hy2 : 2 ≤ ey.length) (x y w : Vec) :
    ((List.range ((ex.length - 1) * (ey.length - 1))).map fun k =>
      weightIn2 ex ey (k / (ey.length - 1)) (k % (ey.length - 1)) x y w).sum = weightInRange2 ex ey x y w := by
  unfold weightIn2 weightInRange2
  rw [sum_over_classes (fun k (p : (Fl × Fl) × Fl) => InBin ex (k / (ey.length - 1)) p.1.1 ∧ InBin ey (k % (ey.length - 1)) p.1.2)]
  · congr 2
    apply List.filter_congr
    intro p _
    rw [decide_eq_decide]
    constructor
    · rintro ⟨k, -, h1, h2⟩; exact ⟨⟨_, h1⟩, _, h2⟩
    · rintro ⟨⟨i, h1⟩, j, h2⟩
      have hi := inBin_lt h1
      have hj := inBin_lt h2
      refine ⟨i * (ey.length - 1) + j, cell_lt (by omega) (by omega), ?_⟩
      have hd : (i * (ey.length - 1) + j) / (ey.length - 1) = i := by
        rw [mul_comm, Nat.mul_add_div (by omega), Nat.div_eq_of_lt (by omega), add_zero]
      have hm : (i * (ey.length - 1) + j) % (ey.length - 1) = j := by
        rw [mul_comm, Nat.mul_add_mod, Nat.mod_eq_of_lt (by omega)]
      rw [hd, hm]; exact ⟨h1, h2⟩
  · rintro p a - b - ⟨h1, h2⟩ ⟨h3, h4⟩
    have e1 := inBin_unique hx hx2 h1 h3
    have e2 := inBin_unique hy hy2 h2 h4
    rw [← Nat.div_add_mod a (ey.length - 1), ← Nat.div_add_mod b (ey.length - 1), e1, e2]

/-- **C04, every binning.** Whatever form of the constructor call is used (number of bins and range, tuple, explicit edges), with or without a first
batch of events, and after any number of further fills, the bin contents add up to the weights of the events inside the range. -/
theorem C04_total_any (bins : Bins1) (range : Option PyRange) (edges : List ℝ) (hb : Binning1 bins range edges)
    (first : Option Batch1) (hf : ∀ b ∈ first, b.Ok) (bs : List Batch1) (hbs : ∀ b ∈ bs, b.Ok) :
    ∃ H, Hist1d.new bins range (first.map (·.data)) ((first.map (·.arg)).getD .none) = .ok H ∧
      (bs.foldl (fun h b => (Hist1d.fill h b.data b.arg).2) H).counts.data.sum =
        ((first.toList ++ bs).map fun b => weightInRange edges b.data b.w).sum := by
  obtain ⟨H, h1, -, -, -, h2⟩ := C85_hist1 bins range edges hb first hf bs hbs
  refine ⟨H, h1, ?_⟩
  obtain ⟨H0, -, h3, -⟩ := acc1_init hb
  have hall : ∀ b ∈ first.toList ++ bs, b.Ok := by
    intro b hb'
    rcases List.mem_append.mp hb' with h | h
    · exact hf b (by simpa using h)
    · exact hbs b h
  generalize first.toList ++ bs = l at *
  obtain ⟨n1, -, -, -, -, n2⟩ := h2
  have e : (bs.foldl (fun h b => (Hist1d.fill h b.data b.arg).2) H).counts.data =
      (List.range (edges.length - 1)).map fun i => weightIn edges i (l.map (·.data)).flatten (l.map (·.w)).flatten := by
    apply List.ext_getElem?
    intro i
    by_cases hi : i < edges.length - 1
    · rw [(n2 i hi).1]; simp [hi]
    · rw [List.getElem?_eq_none (by omega), List.getElem?_eq_none (by simpa using hi)]
  rw [e, sum_weightIn edges h3.good.incr h3.good.two]
  clear e n1 n2 h1
  induction l with
  | nil => simp [weightInRange]
  | cons b l ih =>
    have hl := (hall b (by simp)).2
    simp only [List.map_cons, List.flatten_cons, List.sum_cons]
    rw [← ih (fun b' hb' => hall b' (by simp [hb']))]
    simp [weightInRange, List.zip_append hl]

/-- **C04, two dimensions.** The same for `Hist2d`: the cell contents add up to the weights of the events inside the range of both axes. -/
theorem C04_total2 (bins : Bins2) (range : Option PyRange) (ex ey : List ℝ) (hb : Binning2 bins range ex ey)
    (first : Option Batch2) (hf : ∀ b ∈ first, b.Ok) (bs : List Batch2) (hbs : ∀ b ∈ bs, b.Ok) :
    ∃ H, Hist2d.new bins range (first.map fun b => (b.x, b.y)) ((first.map (·.arg)).getD .none) = .ok H ∧
      (bs.foldl (fun h b => (Hist2d.fill h b.x b.y b.arg).2) H).counts.data.sum =
        ((first.toList ++ bs).map fun b => weightInRange2 ex ey b.x b.y b.w).sum := by
  obtain ⟨H, h1, -, -, h2⟩ := C85_hist2 bins range ex ey hb first hf bs hbs
  refine ⟨H, h1, ?_⟩
  obtain ⟨H0, -, h3, -⟩ := acc2_init hb
  have hall : ∀ b ∈ first.toList ++ bs, b.Ok := by
    intro b hb'
    rcases List.mem_append.mp hb' with h | h
    · exact hf b (by simpa using h)
    · exact hbs b h
  generalize first.toList ++ bs = l at *
  obtain ⟨-, -, -, n1, n2⟩ := h2
  have e : (bs.foldl (fun h b => (Hist2d.fill h b.x b.y b.arg).2) H).counts.data =
      (List.range ((ex.length - 1) * (ey.length - 1))).map fun k => weightIn2 ex ey (k / (ey.length - 1)) (k % (ey.length - 1))
        (l.map (·.x)).flatten (l.map (·.y)).flatten (l.map (·.w)).flatten := by
    apply List.ext_getElem?
    intro k
    by_cases hk : k < (ex.length - 1) * (ey.length - 1)
    · have hy0 : 0 < ey.length - 1 := by
        rcases Nat.eq_zero_or_pos (ey.length - 1) with h | h
        · rw [h] at hk; simp at hk
        · exact h
      have := (n2 (k / (ey.length - 1)) (Nat.div_lt_of_lt_mul (by rwa [mul_comm])) (k % (ey.length - 1)) (Nat.mod_lt _ hy0)).1
      rw [mul_comm, Nat.div_add_mod] at this
      rw [this]; simp [hk]
    · rw [List.getElem?_eq_none (by omega), List.getElem?_eq_none (by simpa using hk)]
  rw [e, sum_weightIn2 h3.good.xincr h3.good.xtwo h3.good.yincr h3.good.ytwo]
  clear e n1 n2 h1
  induction l with
  | nil => simp [weightInRange2]
  | cons b l ih =>
    obtain ⟨-, l1, l2, -⟩ := hall b (by simp)
    simp only [List.map_cons, List.flatten_cons, List.sum_cons]
    rw [← ih (fun b' hb' => hall b' (by simp [hb']))]
    simp [weightInRange2, List.zip_append l1, List.zip_append (show (b.x.zip b.y).length = b.w.length by simp [← l1, l2])]

/-- non-vacuity: three equal bins, a constructor batch with an event outside and a weighted batch with one on the last edge -/
example : ∃ H, Hist1d.new (.int 3) (some (.d1 .tuple 0 3)) (some [.fin (1 / 2), .fin 7]) .none = .ok H ∧
    (Hist1d.fill H [.fin 3] (.array [.fin 5])).2.counts.data.sum = .fin 6 := by
  have hb : Binning1 (.int 3) (some (.d1 .tuple 0 3)) [0, 1, 2, 3] :=
    Or.inl ⟨3, .tuple, 0, 3, Or.inl rfl, rfl, by norm_num, by norm_num, rfl, by intro i hi; interval_cases i <;> simp⟩
  obtain ⟨H, h1, h2⟩ := C04_total_any _ _ _ hb (some ⟨[.fin (1 / 2), .fin 7], [1, 1], .none⟩)
    (by rintro b ⟨⟩; exact ⟨Or.inl ⟨rfl, rfl⟩, rfl⟩) [⟨[.fin 3], [.fin 5], .array [.fin 5]⟩]
    (by intro b hb; simp at hb; subst hb; exact ⟨Or.inr (Or.inr rfl), rfl⟩)
  refine ⟨H, h1, ?_⟩
  simp only [List.foldl_cons, List.foldl_nil] at h2
  rw [h2]
  have a1 : ∃ i, InBin [0, 1, 2, 3] i (.fin (1 / 2)) := ⟨0, Or.inl ⟨0, 1, rfl, rfl, by norm_num, by norm_num⟩⟩
  have a2 : ∃ i, InBin [0, 1, 2, 3] i (.fin 3) := ⟨2, Or.inr ⟨rfl, C01_right_edge _⟩⟩
  have a3 : ¬ ∃ i, InBin [0, 1, 2, 3] i (.fin 7) := by
    rintro ⟨i, hi⟩
    rcases hi with ⟨a, b, ha, hb', -, h⟩ | ⟨hi, h⟩
    · have : b ∈ ([0, 1, 2, 3] : List ℝ) := List.mem_of_getElem? hb'
      simp at this
      rcases this with rfl | rfl | rfl | rfl <;> linarith
    · have hi : i = 2 := by simpa using hi
      subst hi
      have := (C01_right_edge_tolerance [0, 1, 2, 3] (by simp; norm_num) (by simp) 7 h 0 1 0 rfl rfl).2
      norm_num at this
  simp only [Option.toList, List.singleton_append, List.map_cons, List.map_nil, weightInRange, List.zip_cons_cons, List.zip_nil_right,
    List.filter_cons, List.filter_nil, a1, a2, a3, decide_true, decide_false, if_true, Bool.false_eq_true, if_false, List.sum_cons, List.sum_nil]
  show Fl.fin 1 + 0 + (Fl.fin 5 + 0 + 0) = _
  simp
  norm_num

/-- **C13, infinite data.** For `x = +inf` the value is `-inf` for finite `y ≥ 0` and NaN for negative, infinite or NaN `y`. -/
theorem C13_infinite (y : ℝ) :
    (0 ≤ y → xlogyx .pinf (.fin y) = .ninf) ∧ (y < 0 → xlogyx .pinf (.fin y) = .nan) ∧
    xlogyx .pinf .pinf = .nan ∧ xlogyx .pinf .ninf = .nan ∧ xlogyx .pinf .nan = .nan := by
  have h1 : ¬ Fl.pinf.isNan := id
  have h2 : ¬ Fl.pinf.lt (Fl.fin (1e-100 : ℝ)) := id
  have key : ∀ y : Fl, xlogyx .pinf y = -Fl.pinf * Fl.log1p ((Fl.pinf - y) / y) := by
    intro y
    have h3 : ¬ Fl.pinf.lt y := by cases y <;> exact id
    unfold xlogyx
    rw [if_neg h1, if_neg h2, if_neg h3]
  have hf : Fl.pinf - Fl.fin y = .pinf := rfl
  refine ⟨fun h => ?_, fun h => ?_, (C13_special 1 (by norm_num)).2.2, ?_, ?_⟩
  · rw [key, hf]
    have : Fl.pinf / Fl.fin y = .pinf := by
      show Fl.div Fl.pinf (Fl.fin y) = _
      simp [Fl.div, h.not_gt]
    rw [this]; rfl
  · rw [key, hf]
    have : Fl.pinf / Fl.fin y = .ninf := by
      show Fl.div Fl.pinf (Fl.fin y) = _
      simp [Fl.div, h]
    rw [this]; rfl
  · rw [key]; rfl
  · rw [key]; rfl

/-- non-vacuity: both kinds of `y` occur -/
example : xlogyx .pinf (.fin 3) = .ninf ∧ xlogyx .pinf (.fin (-1)) = .nan :=
  ⟨(C13_infinite 3).1 (by norm_num), (C13_infinite (-1)).2.1 (by norm_num)⟩

end

end TF.Props
