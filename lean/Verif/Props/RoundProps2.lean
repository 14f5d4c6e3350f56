import Verif.Props.RoundProps

set_option linter.unusedSimpArgs false

/-!
# Fractions in floating point (C125)
-/

namespace TF.Spec

open TF

/-- what IEEE 754 guarantees of every rounding mode and precision (up to the sign of zero): results are ordered as the exact ones,
representable numbers are kept, 0 and ±1 are representable, nothing finite rounds to NaN -/
structure Ieee (ρ : ℝ → Fl) : Prop where
  zero : ρ 0 = .fin 0
  one : ρ 1 = .fin 1
  negOne : ρ (-1) = .fin (-1)
  mono : ∀ x y, x ≤ y → ¬ (ρ y).lt (ρ x)
  notNan : ∀ x, ρ x ≠ .nan
  idem : ∀ x y, ρ x = .fin y → ρ y = .fin y

/-- a summation algorithm: the additions of `np.sum` in any order and bracketing -/
def Summation (ρ : ℝ → Fl) (sum : Vec → Fl) : Prop := ∀ l, SumR ρ l (sum l)

/-- `x` is a floating-point number -/
def Representable (ρ : ℝ → Fl) (x : ℝ) : Prop := ρ x = .fin x

/-- NaN or a real number between `a` and `b` -/
def NanOrBetween (a b : ℝ) (x : Fl) : Prop := x = .nan ∨ ∃ r, x = .fin r ∧ a ≤ r ∧ r ≤ b

end TF.Spec

namespace TF.Props

open Classical Spec

noncomputable section

/-- double precision is an IEEE arithmetic -/
theorem float64_ieee : Ieee float64 where
  zero := by simpa using float64_int 0 (by norm_num)
  one := by simpa using float64_int 1 (by norm_num)
  negOne := by simpa using float64_int (-1) (by norm_num)
  mono := by
    intro x y h
    have hm := round64_mono h
    have hM := maxFloat_pos
    unfold float64
    split_ifs <;> simp only [Fl.lt, not_false_eq_true, not_true_eq_false, not_lt, implies_true] <;> linarith
  notNan := by
    intro x
    unfold float64
    split_ifs <;> simp
  idem := by
    intro x y h
    unfold float64 at h
    split_ifs at h with h1 h2
    obtain rfl := Fl.fin.inj h
    have e := round64_idem x
    unfold float64
    rw [e, if_neg h1, if_neg h2]

/-- rounding a number between two representable ones stays between them -/
theorem ieee_between {ρ : ℝ → Fl} (hρ : Ieee ρ) {x a b : ℝ} (ha : Representable ρ a) (hb : Representable ρ b) (h1 : a ≤ x) (h2 : x ≤ b) :
    ∃ r, ρ x = .fin r ∧ a ≤ r ∧ r ≤ b ∧ Representable ρ r := by
  have m1 := hρ.mono a x h1
  have m2 := hρ.mono x b h2
  rw [ha] at m1
  rw [hb] at m2
  cases hx : ρ x with
  | fin r =>
    rw [hx] at m1 m2
    exact ⟨r, rfl, not_lt.mp m1, not_lt.mp m2, hρ.idem x r hx⟩
  | pinf => rw [hx] at m2; exact absurd trivial m2
  | ninf => rw [hx] at m1; exact absurd trivial m1
  | nan => exact absurd hx (hρ.notNan x)

/-- a number that is not below a representable one rounds to infinity or to a representable number not below it -/
theorem ieee_above {ρ : ℝ → Fl} (hρ : Ieee ρ) {x a : ℝ} (ha : Representable ρ a) (h1 : a ≤ x) :
    ρ x = .pinf ∨ ∃ r, ρ x = .fin r ∧ a ≤ r ∧ Representable ρ r := by
  have m1 := hρ.mono a x h1
  rw [ha] at m1
  cases hx : ρ x with
  | fin r =>
    rw [hx] at m1
    exact .inr ⟨r, rfl, not_lt.mp m1, hρ.idem x r hx⟩
  | pinf => exact .inl rfl
  | ninf => rw [hx] at m1; exact absurd trivial m1
  | nan => exact absurd hx (hρ.notNan x)

/-- a non-negative floating-point number or infinity -/
def NNFl (ρ : ℝ → Fl) (x : Fl) : Prop := x = .pinf ∨ ∃ r, x = .fin r ∧ 0 ≤ r ∧ Representable ρ r

theorem sumR_nonneg {ρ : ℝ → Fl} (hρ : Ieee ρ) {l : Vec} {v : Fl} (h : SumR ρ l v) (hl : ∀ x ∈ l, NNFl ρ x) :
    NNFl ρ v ∧ (v = .pinf ∨ ∀ x ∈ l, ∃ r s, x = .fin r ∧ v = .fin s ∧ r ≤ s) := by
  induction h with
  | nil => exact ⟨.inr ⟨0, rfl, le_rfl, hρ.zero⟩, .inr (by simp)⟩
  | one x =>
    have := hl x (by simp)
    refine ⟨this, ?_⟩
    rcases this with h | ⟨r, h, -⟩
    · exact .inl h
    · right
      intro y hy
      rw [List.mem_singleton] at hy
      exact ⟨r, r, by rw [hy, h], h, le_rfl⟩
  | @add l l' a b _ _ h1 h2 =>
    obtain ⟨a1, a2⟩ := h1 fun x hx => hl x (List.mem_append_left _ hx)
    obtain ⟨b1, b2⟩ := h2 fun x hx => hl x (List.mem_append_right _ hx)
    rcases a1 with rfl | ⟨r, rfl, hr, hr'⟩
    · have : (Fl.pinf + b).rd ρ = .pinf := by
        rcases b1 with rfl | ⟨s, rfl, -, -⟩ <;> rfl
      rw [this]
      exact ⟨.inl rfl, .inl rfl⟩
    rcases b1 with rfl | ⟨s, rfl, hs, hs'⟩
    · exact ⟨.inl rfl, .inl rfl⟩
    rw [Fl.fin_add, rd_fin]
    rcases ieee_above hρ hr' (show r ≤ r + s by linarith) with h | ⟨t, ht, hrt, htr⟩
    · exact ⟨.inl h, .inl h⟩
    rcases ieee_above hρ hs' (show s ≤ r + s by linarith) with h | ⟨t', ht', hst, -⟩
    · exact ⟨.inl h, .inl h⟩
    rw [ht] at ht'
    obtain rfl := Fl.fin.inj ht'
    refine ⟨.inr ⟨t, ht, by linarith, htr⟩, .inr ?_⟩
    intro x hx
    rw [ht]
    rcases List.mem_append.mp hx with hx | hx
    · rcases a2 with h | h
      · cases h
      · obtain ⟨p, q, e1, e2, hpq⟩ := h x hx
        obtain rfl := Fl.fin.inj e2
        exact ⟨p, t, e1, rfl, by linarith⟩
    · rcases b2 with h | h
      · cases h
      · obtain ⟨p, q, e1, e2, hpq⟩ := h x hx
        obtain rfl := Fl.fin.inj e2
        exact ⟨p, t, e1, rfl, by linarith⟩
  | perm _ hp ih =>
    obtain ⟨i1, i2⟩ := ih fun x hx => hl x (hp.mem_iff.mp hx)
    refine ⟨i1, i2.imp id fun h x hx => h x (hp.mem_iff.mpr hx)⟩

theorem div_nonneg_between {ρ : ℝ → Fl} (hρ : Ieee ρ) {x v : Fl} (hx : NNFl ρ x) (hv : NNFl ρ v)
    (h : v = .pinf ∨ ∃ r s, x = .fin r ∧ v = .fin s ∧ r ≤ s) :
    NanOrBetween 0 1 ((x / v).rd ρ) ∧ ((x / v).rd ρ = .nan → x = .pinf ∨ v = 0) := by
  rcases h with rfl | ⟨r, s, rfl, rfl, hrs⟩
  · rcases hx with rfl | ⟨r, rfl, -, -⟩
    · exact ⟨.inl rfl, fun _ => .inl rfl⟩
    · have : ((Fl.fin r / Fl.pinf).rd ρ) = .fin 0 := hρ.zero
      rw [this]
      exact ⟨.inr ⟨0, rfl, le_rfl, zero_le_one⟩, fun h => by cases h⟩
  · rcases hx with h | ⟨r', h, hr, -⟩
    · cases h
    obtain rfl := Fl.fin.inj h
    by_cases hs : s = 0
    · subst hs
      have : r = 0 := le_antisymm hrs hr
      subst this
      rw [Fl.fin_div_zero]
      exact ⟨.inl rfl, fun _ => .inr rfl⟩
    · have hs' : 0 < s := lt_of_le_of_ne (hr.trans hrs) (Ne.symm hs)
      rw [Fl.fin_div _ _ hs, rd_fin]
      obtain ⟨t, ht, h1, h2, -⟩ := ieee_between hρ hρ.zero hρ.one (div_nonneg hr hs'.le) ((div_le_one hs').mpr hrs)
      rw [ht]
      exact ⟨.inr ⟨t, rfl, h1, h2⟩, fun h => by cases h⟩

theorem bop_vec (f : Fl → Fl → Fl) {n : ℕ} (a b : Fin n → Fl) : bop f (List.ofFn a) (List.ofFn b) = .ok (List.ofFn fun i => f (a i) (b i)) := by
  unfold bop
  rw [if_pos (by simp)]
  congr 1
  apply List.ext_getElem
  · simp
  · intro i h1 h2
    simp

theorem vec_eq {n : ℕ} (f : Fin n → ℝ) : vec f = List.ofFn fun i => Fl.fin (f i) := rfl

/-- the rounded weighted counts `c (1 + θ ε)` -/
def weightedR (ρ : ℝ → Fl) {n : ℕ} (θ c ε : Fin n → ℝ) (i : Fin n) : Fl :=
  (Fl.fin (c i) * (1 + (Fl.fin (θ i * ε i)).rd ρ).rd ρ).rd ρ

theorem binFractionsR_eq (ρ : ℝ → Fl) (sum : Vec → Fl) {n : ℕ} (θ c ε : Fin n → ℝ) :
    binFractionsR ρ sum (vec θ) (vec c) (vec ε) =
      .ok (List.ofFn fun i => (weightedR ρ θ c ε i / sum (List.ofFn (weightedR ρ θ c ε))).rd ρ) := by
  unfold binFractionsR
  simp only [vec_eq, bop_vec]
  show (do
    let y ← bop (fun x y => (x * y).rd ρ) (List.ofFn fun i => Fl.fin (c i))
      ((List.ofFn fun i => (Fl.fin (θ i) * Fl.fin (ε i)).rd ρ).map fun x : Fl => (1 + x).rd ρ)
    pure (y.map fun x => (x / sum y).rd ρ)) = _
  rw [List.map_ofFn]
  simp only [Function.comp_def, bop_vec]
  show Except.ok _ = _
  rw [List.map_ofFn]
  rfl

theorem weightedR_nonneg {ρ : ℝ → Fl} (hρ : Ieee ρ) {n : ℕ} (θ c ε : Fin n → ℝ) (i : Fin n) (hc : 0 ≤ c i) (M : ℝ)
    (hM : Representable ρ M) (hM1 : Representable ρ (1 + M)) (h1 : -1 ≤ θ i * ε i) (h2 : θ i * ε i ≤ M) :
    NNFl ρ (weightedR ρ θ c ε i) := by
  unfold weightedR
  obtain ⟨a, ha, a1, a2, -⟩ := ieee_between hρ hρ.negOne hM h1 h2
  rw [rd_fin, ha, Fl.one_def, Fl.fin_add, rd_fin]
  obtain ⟨b, hb, b1, b2, -⟩ := ieee_between hρ hρ.zero hM1 (show 0 ≤ 1 + a by linarith) (by linarith)
  rw [hb, Fl.fin_mul, rd_fin]
  rcases ieee_above hρ hρ.zero (mul_nonneg hc b1) with h | ⟨r, h, hr, hr'⟩
  · exact .inl h
  · exact .inr ⟨r, h, hr, hr'⟩

/-- **C125, fractions.** In any IEEE arithmetic and for any order of summation, the fractions of a template whose bins have
non-negative counts and factors `1 + θ ε` lie between 0 and 1 exactly, without any tolerance, or are NaN; none is NaN if the
rounded sum `S` of the weighted counts is neither zero nor infinite. -/
theorem C125_fractions {ρ : ℝ → Fl} (hρ : Ieee ρ) {sum : Vec → Fl} (hsum : Summation ρ sum) {n : ℕ} (θ c ε : Fin n → ℝ)
    (hc : ∀ i, 0 ≤ c i) (M : ℝ) (hM : Representable ρ M) (hM1 : Representable ρ (1 + M))
    (hw : ∀ i, -1 ≤ θ i * ε i ∧ θ i * ε i ≤ M) :
    ∃ fs, binFractionsR ρ sum (vec θ) (vec c) (vec ε) = .ok fs ∧ fs.length = n ∧ (∀ x ∈ fs, NanOrBetween 0 1 x) ∧
      (sum (List.ofFn (weightedR ρ θ c ε)) ≠ 0 → sum (List.ofFn (weightedR ρ θ c ε)) ≠ .pinf → ∀ x ∈ fs, x ≠ .nan) := by
  refine ⟨_, binFractionsR_eq ρ sum θ c ε, by simp, ?_⟩
  have hnn : ∀ x ∈ List.ofFn (weightedR ρ θ c ε), NNFl ρ x := by
    intro x hx
    obtain ⟨i, rfl⟩ := (List.mem_ofFn' _ _).mp hx
    exact weightedR_nonneg hρ θ c ε i (hc i) M hM hM1 (hw i).1 (hw i).2
  obtain ⟨s1, s2⟩ := sumR_nonneg hρ (hsum _) hnn
  have key : ∀ i, NanOrBetween 0 1 ((weightedR ρ θ c ε i / sum (List.ofFn (weightedR ρ θ c ε))).rd ρ) ∧
      ((weightedR ρ θ c ε i / sum (List.ofFn (weightedR ρ θ c ε))).rd ρ = .nan →
        weightedR ρ θ c ε i = .pinf ∨ sum (List.ofFn (weightedR ρ θ c ε)) = 0) := fun i =>
    div_nonneg_between hρ (hnn _ ((List.mem_ofFn' _ _).mpr ⟨i, rfl⟩)) s1
      (s2.imp id fun h => h _ ((List.mem_ofFn' _ _).mpr ⟨i, rfl⟩))
  constructor
  · intro x hx
    obtain ⟨i, rfl⟩ := (List.mem_ofFn' _ _).mp hx
    exact (key i).1
  · intro h0 hinf x hx
    obtain ⟨i, rfl⟩ := (List.mem_ofFn' _ _).mp hx
    intro hnan
    rcases (key i).2 hnan with h | h
    · rcases s2 with h' | h'
      · exact hinf h'
      · obtain ⟨r, s, e1, -⟩ := h' _ ((List.mem_ofFn' _ _).mpr ⟨i, rfl⟩)
        rw [h] at e1; cases e1
    · exact h0 h

/-- a product of a non-negative floating-point number and a number between 0 and 1 does not exceed it after rounding -/
theorem mul_between {ρ : ℝ → Fl} (hρ : Ieee ρ) {y : ℝ} (hy : 0 ≤ y) (hyr : Representable ρ y) {x : Fl} (hx : NanOrBetween 0 1 x) :
    NanOrBetween 0 y ((Fl.fin y * x).rd ρ) := by
  rcases hx with rfl | ⟨r, rfl, h1, h2⟩
  · left
    rw [Fl.mul_nan]; rfl
  · right
    rw [Fl.fin_mul, rd_fin]
    obtain ⟨t, ht, a, b, -⟩ := ieee_between hρ hρ.zero hyr (mul_nonneg hy h1) (mul_le_of_le_one_right hy h2)
    exact ⟨t, ht, a, b⟩

/-- **C125, values.** For a template object: every bin of `values` lies between 0 and the yield exactly, or is NaN. -/
theorem C125_values {ρ : ℝ → Fl} (hρ : Ieee ρ) {sum : Vec → Fl} (hsum : Summation ρ sum) (t : Template) {n : ℕ} (y : ℝ)
    (θ c ε : Fin n → ℝ) (hp : t.params = .fin y :: vec θ) (hcnt : t.flatCounts = vec c) (hrel : t.relErr = vec ε)
    (hbins : t.bins.prod = n) (hy : 0 ≤ y) (hyr : Representable ρ y)
    (hc : ∀ i, 0 ≤ c i) (M : ℝ) (hM : Representable ρ M) (hM1 : Representable ρ (1 + M))
    (hw : ∀ i, -1 ≤ θ i * ε i ∧ θ i * ε i ≤ M) :
    ∃ v, t.valuesR ρ sum = .ok v ∧ v.shape = t.bins ∧ v.data.length = n ∧ ∀ x ∈ v.data, NanOrBetween 0 y x := by
  obtain ⟨fs, h1, h2, h3, -⟩ := C125_fractions hρ hsum θ c ε hc M hM hM1 hw
  unfold Template.valuesR Template.fractionsR
  have e1 : t.nuiParams = vec θ := by unfold Template.nuiParams; rw [hp]; rfl
  have e2 : t.yieldParam = .fin y := by unfold Template.yieldParam; rw [hp]; rfl
  rw [e1, e2, hcnt, hrel, h1]
  refine ⟨⟨t.bins, fs.map fun x => (Fl.fin y * x).rd ρ⟩, ?_, rfl, by simp [h2], ?_⟩
  · show (do
      let r ← reshape fs t.bins
      pure (r.map fun x => (Fl.fin y * x).rd ρ)) = _
    unfold reshape
    rw [if_pos (by rw [h2, hbins])]
    rfl
  · intro x hx
    obtain ⟨z, hz, rfl⟩ := List.mem_map.mp hx
    exact mul_between hρ hy hyr (h3 z hz)

/-- left-to-right summation is one -/
def sumLeft (ρ : ℝ → Fl) : Vec → Fl
  | [] => 0
  | x :: l => l.foldl (fun a v => (a + v).rd ρ) x

theorem sumLeft_ok (ρ : ℝ → Fl) : Summation ρ (sumLeft ρ) := by
  intro l
  cases l with
  | nil => exact .nil
  | cons x l =>
    have : ∀ (l pre : Vec) (a : Fl), SumR ρ pre a → SumR ρ (pre ++ l) (l.foldl (fun a v => (a + v).rd ρ) a) := by
      intro l
      induction l with
      | nil => intro pre a h; simpa using h
      | cons y l ih =>
        intro pre a h
        have := ih (pre ++ [y]) ((a + y).rd ρ) (.add h (.one y))
        simpa using this
    exact this l [x] x (.one x)

/-- non-vacuity of C125: double precision, three bins with counts 1, 1, 1, nuisance parameters ±1 and relative errors 1/3: the rounded
fractions are not thirds but lie between 0 and 1 -/
example : Ieee float64 ∧ Summation float64 (sumLeft float64) ∧ Representable float64 4 ∧ Representable float64 (1 + 4) ∧
    ∃ fs, binFractionsR float64 (sumLeft float64) (vec ![1, -1, 0]) (vec ![1, 1, 1]) (vec ![1 / 3, 1 / 3, 1 / 3]) = .ok fs ∧
      fs.length = 3 ∧ ∀ x ∈ fs, NanOrBetween 0 1 x := by
  have h4 : Representable float64 4 := by simpa [Representable] using float64_int 4 (by norm_num)
  have h5 : Representable float64 (1 + 4) := by
    have := float64_int 5 (by norm_num)
    rw [Representable]
    norm_num
    simpa using this
  refine ⟨float64_ieee, sumLeft_ok _, h4, h5, ?_⟩
  obtain ⟨fs, a, b, c, -⟩ := C125_fractions float64_ieee (sumLeft_ok _) ![1, -1, 0] ![1, 1, 1] ![1 / 3, 1 / 3, 1 / 3]
    (by intro i; fin_cases i <;> simp) 4 h4 h5 (by intro i; fin_cases i <;> simp <;> norm_num)
  exact ⟨fs, a, b, c⟩

end

end TF.Props
