import Verif.Lemmas.Total
import Verif.Lemmas.ChanEval

set_option linter.unusedSimpArgs false

/-!
# When results are numbers: a finite sum, product or quotient has finite operands
-/

namespace TF

open Classical Spec

noncomputable section

theorem Fl.add_eq_fin {x y : Fl} {a : ℝ} (h : x + y = .fin a) : ∃ b c, x = .fin b ∧ y = .fin c := by
  cases x <;> cases y <;> first | exact ⟨_, _, rfl, rfl⟩ | cases h

theorem Fl.neg_eq_fin {x : Fl} {a : ℝ} (h : -x = .fin a) : ∃ b, x = .fin b := by
  cases x <;> first | exact ⟨_, rfl⟩ | cases h

theorem Fl.sub_eq_fin {x y : Fl} {a : ℝ} (h : x - y = .fin a) : ∃ b c, x = .fin b ∧ y = .fin c := by
  cases x <;> cases y <;> first | exact ⟨_, _, rfl, rfl⟩ | cases h

theorem Fl.mulPinf_ne (r a : ℝ) : Fl.mulPinf r ≠ .fin a := by
  unfold Fl.mulPinf
  split
  · simp
  · split <;> simp

theorem Fl.neg_mulPinf_ne (r a : ℝ) : Fl.neg (Fl.mulPinf r) ≠ .fin a := by
  unfold Fl.mulPinf
  split
  · simp [Fl.neg]
  · split <;> simp [Fl.neg]

theorem Fl.mul_eq_fin {x y : Fl} {a : ℝ} (h : x * y = .fin a) : ∃ b c, x = .fin b ∧ y = .fin c := by
  cases x <;> cases y <;>
    first
    | exact ⟨_, _, rfl, rfl⟩
    | exact absurd h (Fl.mulPinf_ne _ _)
    | exact absurd h (Fl.neg_mulPinf_ne _ _)
    | cases h

/-- a finite quotient has a finite numerator -/
theorem Fl.div_eq_fin {x y : Fl} {a : ℝ} (h : x / y = .fin a) : ∃ b, x = .fin b := by
  cases x
  · exact ⟨_, rfl⟩
  all_goals
    exfalso
    cases y
    all_goals
      first
      | (have h' : (Fl.div _ _) = Fl.fin a := h; simp only [Fl.div] at h'; split at h' <;> cases h')
      | cases h

theorem Fl.div_eq_fin' {b c a : ℝ} (h : Fl.fin b / Fl.fin c = .fin a) : c ≠ 0 := by
  rintro rfl
  have h' : Fl.div (.fin b) (.fin 0) = Fl.fin a := h
  simp only [Fl.div, if_true] at h'
  split at h'
  · cases h'
  · split at h' <;> cases h'

theorem Fl.list_sum_eq_fin : ∀ {l : Vec} {a : ℝ}, l.sum = .fin a → ∀ x ∈ l, ∃ r : ℝ, x = .fin r
  | [], _, _ => by simp
  | y :: l, a, h => by
    rw [List.sum_cons] at h
    obtain ⟨b, c, h1, h2⟩ := Fl.add_eq_fin h
    intro x hx
    rcases List.mem_cons.mp hx with rfl | hx
    · exact ⟨b, h1⟩
    · exact Fl.list_sum_eq_fin h2 x hx

theorem Fl.sum_eq_fin {ι : Type} {s : Finset ι} {f : ι → Fl} {a : ℝ} (h : ∑ i ∈ s, f i = .fin a) :
    ∀ i ∈ s, ∃ r : ℝ, f i = .fin r := by
  induction s using Finset.induction_on generalizing a with
  | empty => simp
  | insert i s hi ih =>
    rw [Finset.sum_insert hi] at h
    obtain ⟨b, c, h1, h2⟩ := Fl.add_eq_fin h
    intro j hj
    rcases Finset.mem_insert.mp hj with rfl | hj
    · exact ⟨b, h1⟩
    · exact ih h2 j hj

/-- a list of finite values is a vector of reals -/
theorem eq_vec_of_fin {n : ℕ} (f : Fin n → Fl) (h : ∀ i, ∃ r : ℝ, f i = .fin r) : ∃ g : Fin n → ℝ, List.ofFn f = vec g ∧
    ∀ i, f i = .fin (g i) := by
  choose g hg using h
  exact ⟨g, by unfold vec; congr 1; funext i; exact hg i, hg⟩

theorem ofFn_get {n : ℕ} {l : Vec} (h : l.length = n) : ∃ f : Fin n → Fl, l = List.ofFn f := by
  subst h; exact ⟨l.get, (List.ofFn_get l).symm⟩

theorem ofFn_blocks {K n : ℕ} {l : Vec} (h : l.length = K * n) :
    ∃ P : Fin K → Fin n → Fl, l = (List.ofFn fun k => List.ofFn (P k)).flatten := by
  obtain ⟨f, rfl⟩ := ofFn_get h
  exact ⟨_, List.ofFn_mul f⟩

theorem fractions_ofFn {t : Template} {n : ℕ} {cnt ε : Fin n → ℝ} (h : HasShape t cnt ε) (p : Fin n → Fl) :
    t.fractions (List.ofFn p) = .ok (List.ofFn fun i => Fl.fin (cnt i) * (1 + p i * Fl.fin (ε i)) /
      (List.ofFn fun i => Fl.fin (cnt i) * (1 + p i * Fl.fin (ε i))).sum) := by
  have e : List.zipWith (· * ·) t.flatCounts ((List.zipWith (· * ·) (List.ofFn p) t.relErr).map (1 + ·)) =
      List.ofFn fun i => Fl.fin (cnt i) * (1 + p i * Fl.fin (ε i)) := by
    rw [h.counts, h.rel]
    apply List.ext_getElem
    · simp [vec_length]
    · intro i h1 h2
      simp [vec]
  unfold Template.fractions binFractions
  rw [bop_ok (by simp [h.rel, vec_length])]
  simp only [bind, Except.bind, pure, Except.pure]
  rw [bop_ok (by simp [h.rel, h.counts, vec_length]), e]
  simp only [npSum, List.map_ofFn]
  rfl

/-- the fractions are numbers only at finite nuisance parameters for which the varied contents do not sum to zero -/
theorem fractions_fin {n : ℕ} (hn : 0 < n) {cnt ε : Fin n → ℝ} (p : Fin n → Fl)
    (h : ∀ i, ∃ r : ℝ, Fl.fin (cnt i) * (1 + p i * Fl.fin (ε i)) /
      (List.ofFn fun i => Fl.fin (cnt i) * (1 + p i * Fl.fin (ε i))).sum = .fin r) :
    ∃ θ : Fin n → ℝ, List.ofFn p = vec θ ∧ ∑ i, cnt i * (1 + θ i * ε i) ≠ 0 := by
  have hp : ∀ i, ∃ r : ℝ, p i = .fin r := by
    intro i
    obtain ⟨r, hr⟩ := h i
    obtain ⟨b, hb⟩ := Fl.div_eq_fin hr
    obtain ⟨_, c, -, hc⟩ := Fl.mul_eq_fin hb
    obtain ⟨_, d, -, hd⟩ := Fl.add_eq_fin hc
    obtain ⟨e, _, he, -⟩ := Fl.mul_eq_fin hd
    exact ⟨e, he⟩
  obtain ⟨θ, h1, h2⟩ := eq_vec_of_fin p hp
  refine ⟨θ, h1, ?_⟩
  have e : (List.ofFn fun i => Fl.fin (cnt i) * (1 + p i * Fl.fin (ε i))) = vec fun i => cnt i * (1 + θ i * ε i) := by
    unfold vec
    congr 1
    funext i
    rw [h2 i, Fl.one_def, Fl.fin_mul, Fl.fin_add, Fl.fin_mul]
  obtain ⟨r, hr⟩ := h ⟨0, hn⟩
  rw [e, vec_sum, h2, Fl.one_def, Fl.fin_mul, Fl.fin_add, Fl.fin_mul] at hr
  exact Fl.div_eq_fin' hr

theorem expectedPure_ofFn {w : World} {c K n : ℕ} {cnt ε : Fin K → Fin n → ℝ} {eff : Fin K → ℝ}
    {R : Fin K → Matrix (Fin n) (Fin n) ℝ} (h : ChanIs w c cnt ε eff R) (hK : 0 < K)
    (Y : Fin K → Fl) (P : Fin K → Fin n → Fl) :
    ∃ F : Fin K → Fin n → Fl, (F = fun k i => Fl.fin (cnt k i) * (1 + P k i * Fl.fin (ε k i)) /
      (List.ofFn fun i => Fl.fin (cnt k i) * (1 + P k i * Fl.fin (ε k i))).sum) ∧
    expectedPure w c (List.ofFn Y) (List.ofFn fun k => List.ofFn (P k)).flatten =
      .ok ((List.range n).map fun i => ∑ k ∈ Finset.range K, (List.ofFn fun k => Y k * .fin (eff k)).getD k 0 *
        ((List.ofFn fun k => List.ofFn (F k)).getD k []).getD i 0) := by
  obtain ⟨T, hT1, hT2⟩ := h.tmpls
  have h1 : bop (· * ·) (List.ofFn Y) ((w.chans c).effs.map (·.2)) = .ok (List.ofFn fun k => Y k * .fin (eff k)) := by
    rw [h.effs, bop_ok (by simp [vec_length])]
    congr 1
    apply List.ext_getElem
    · simp [vec_length]
    · intro i h1 h2; simp [vec]
  have hb : ∀ b ∈ List.ofFn (fun k => List.ofFn (P k)), b.length = n := by
    intro b hb
    obtain ⟨k, rfl⟩ := List.mem_ofFn.mp hb
    simp
  have h2 : splitEq (List.ofFn fun k => List.ofFn (P k)).flatten (w.chans c).numTemplates =
      .ok (List.ofFn fun k => List.ofFn (P k)) := by
    have := splitEq_flatten n _ hb (by
      intro h; have := congrArg List.length h; simp at this; omega)
    rw [h.num]; rwa [List.length_ofFn] at this
  refine ⟨_, rfl, ?_⟩
  set F : Fin K → Fin n → Fl := fun k i => Fl.fin (cnt k i) * (1 + P k i * Fl.fin (ε k i)) /
    (List.ofFn fun i => Fl.fin (cnt k i) * (1 + P k i * Fl.fin (ε k i))).sum with hF
  have h3 := fractionRows_ofFn T (fun k => List.ofFn (P k)) (fun k => List.ofFn (F k))
    (fun k => fractions_ofFn (hT2 k).1 (P k))
  have hhead : ((List.ofFn fun k => List.ofFn (F k)).headD []).length = n := by
    cases K with
    | zero => omega
    | succ K => simp [List.ofFn_succ]
  have h4 : stackRows (List.ofFn fun k => List.ofFn (F k)) =
      .ok ⟨K, n, fun i j => ((List.ofFn fun k => List.ofFn (F k)).getD i []).getD j 0⟩ := by
    unfold stackRows
    simp only [hhead]
    rw [if_pos (by
      simp only [List.all_eq_true]; intro r hr
      obtain ⟨k, rfl⟩ := List.mem_ofFn.mp hr
      simp)]
    simp
  have h6 : w.chanFractions c (List.ofFn fun k => List.ofFn (P k)).flatten =
      .ok ⟨K, n, fun i j => ((List.ofFn fun k => List.ofFn (F k)).getD i []).getD j 0⟩ := by
    unfold World.chanFractions
    rw [h2]; simp only; rw [hT1, h3]; exact h4
  unfold expectedPure
  rw [h1]; simp only; rw [h6]; simp only
  unfold vecMat
  rw [if_pos (by simp)]

theorem expectedPure_length {w : World} {c K n : ℕ} {cnt ε : Fin K → Fin n → ℝ} {eff : Fin K → ℝ}
    {R : Fin K → Matrix (Fin n) (Fin n) ℝ} (h : ChanIs w c cnt ε eff R) (hK : 0 < K)
    {y nui e : Vec} (hy : y.length = K) (hnl : nui.length = K * n) (he : expectedPure w c y nui = .ok e) :
    e.length = n := by
  obtain ⟨Y, rfl⟩ := ofFn_get hy
  obtain ⟨P, rfl⟩ := ofFn_blocks hnl
  obtain ⟨F, -, h1⟩ := expectedPure_ofFn h hK Y P
  rw [h1] at he
  rw [← Except.ok.inj he]
  simp

/-- the expected bin contents are numbers only at finite parameters for which no template's varied contents sum to zero -/
theorem expectedPure_fin {w : World} {c K n : ℕ} {cnt ε : Fin K → Fin n → ℝ} {eff : Fin K → ℝ}
    {R : Fin K → Matrix (Fin n) (Fin n) ℝ} (h : ChanIs w c cnt ε eff R) (hK : 0 < K) (hn : 0 < n)
    {y nui e : Vec} (hy : y.length = K) (hnl : nui.length = K * n) (he : expectedPure w c y nui = .ok e)
    (hfin : ∀ x ∈ e, ∃ r : ℝ, x = .fin r) :
    ∃ (ν : Fin K → ℝ) (θ : Fin K → Fin n → ℝ), y = vec ν ∧ nui = nuiVec θ ∧
      ∀ k, ∑ j, cnt k j * (1 + θ k j * ε k j) ≠ 0 := by
  obtain ⟨Y, rfl⟩ := ofFn_get hy
  obtain ⟨P, rfl⟩ := ofFn_blocks hnl
  obtain ⟨F, hF, h1⟩ := expectedPure_ofFn h hK Y P
  rw [h1] at he
  have he := Except.ok.inj he
  have hkey : ∀ (k : Fin K) (i : Fin n), ∃ a b : ℝ, Y k = .fin a ∧ F k i = .fin b := by
    intro k i
    have hm : (∑ k ∈ Finset.range K, (List.ofFn fun k => Y k * .fin (eff k)).getD k 0 *
        ((List.ofFn fun k => List.ofFn (F k)).getD k []).getD i 0) ∈ e := by
      rw [← he]
      exact List.mem_map.mpr ⟨i, List.mem_range.mpr i.2, rfl⟩
    obtain ⟨r, hr⟩ := hfin _ hm
    obtain ⟨q, hq⟩ := Fl.sum_eq_fin hr k.1 (Finset.mem_range.mpr k.2)
    obtain ⟨a, b, ha, hb⟩ := Fl.mul_eq_fin hq
    have ha' : Y k * .fin (eff k) = .fin a := by
      rw [← ha]; simp [List.getD]
    have hb' : F k i = .fin b := by
      rw [← hb]; simp [List.getD]
    obtain ⟨a', _, ha'', -⟩ := Fl.mul_eq_fin ha'
    exact ⟨a', b, ha'', hb'⟩
  obtain ⟨ν, hν, -⟩ := eq_vec_of_fin Y (fun k => by obtain ⟨a, b, h1, -⟩ := hkey k ⟨0, hn⟩; exact ⟨a, h1⟩)
  have hθ : ∀ k, ∃ θ : Fin n → ℝ, List.ofFn (P k) = vec θ ∧ ∑ i, cnt k i * (1 + θ i * ε k i) ≠ 0 := fun k =>
    fractions_fin hn (P k) (fun i => by obtain ⟨a, b, -, h2⟩ := hkey k i; rw [hF] at h2; exact ⟨b, h2⟩)
  choose θ hθ1 hθ2 using hθ
  refine ⟨ν, θ, hν, ?_, hθ2⟩
  unfold nuiVec
  congr 2
  funext k
  exact hθ1 k

/-- a finite Poisson term has finite expectations, positive in the bins with data -/
theorem binTerm_eq_fin {d : ℝ} {e : Fl} {a : ℝ} (h : binTerm (.fin d) e = .fin a) : ∃ r, e = .fin r := by
  unfold binTerm at h
  obtain ⟨b, _, hb, -⟩ := Fl.sub_eq_fin h
  obtain ⟨c, _, hc, -⟩ := Fl.sub_eq_fin hb
  exact ⟨c, hc⟩

theorem poissonTerm_list {d e : Vec} {v : Fl} (hl : d.length = e.length) (h : poissonTerm d e = .ok v) :
    v = (List.zipWith binTerm d e).sum := by
  simp only [poissonTerm, bind, Except.bind, pure, Except.pure] at h
  rw [bop_ok hl.symm] at h
  simp only at h
  rw [bop_ok hl] at h
  simp only at h
  rw [bop_ok (by simp [hl])] at h
  simp only [npSum] at h
  rw [← Except.ok.inj h]
  congr 1
  apply List.ext_getElem
  · simp [hl]
  · intro i h1 h2
    simp [binTerm]

/-- one channel: its contribution is a number exactly if the parameters are numbers, no template's varied contents sum to
zero, and the expectation is positive in each bin with data -/
theorem contribPure_fin {w : World} {c K n : ℕ} {cnt ε : Fin K → Fin n → ℝ} {eff : Fin K → ℝ}
    {R : Fin K → Matrix (Fin n) (Fin n) ℝ} (h : ChanIs w c cnt ε eff R) (hK : 0 < K) (hn : 0 < n)
    {hid : ℕ} (hd : (w.chans c).hdata = some hid) {d : Fin n → ℝ} (hdd : (w.hists hid).counts.data = vec d)
    (hpos : ∀ i, d i = 0 ∨ (1e-100 : ℝ) ≤ d i)
    {y nui : Vec} (hy : y.length = K) (hnl : nui.length = K * n) {a : ℝ} (hv : contribPure w c y nui = .ok (.fin a)) :
    ∃ (ν : Fin K → ℝ) (θ : Fin K → Fin n → ℝ), y = vec ν ∧ nui = nuiVec θ ∧
      (∀ k, ∑ j, cnt k j * (1 + θ k j * ε k j) ≠ 0) ∧ ∀ i, d i ≠ 0 → 0 < expected cnt ε eff ν θ i := by
  unfold contribPure at hv
  simp only [hd] at hv
  split at hv
  · cases hv
  · rename_i e he
    split at hv
    · cases hv
    · rename_i p hp
      split at hv
      · cases hv
      · rename_i g hg
        obtain ⟨b, _, hb, -⟩ := Fl.add_eq_fin (Except.ok.inj hv)
        have hl : (w.hists hid).counts.data.length = e.length := by
          rw [hdd, vec_length, expectedPure_length h hK hy hnl he]
        have hp' := poissonTerm_list hl hp
        rw [hb] at hp'
        have hall := Fl.list_sum_eq_fin hp'.symm
        have hfin : ∀ x ∈ e, ∃ r : ℝ, x = .fin r := by
          intro x hx
          obtain ⟨i, hi, rfl⟩ := List.mem_iff_getElem.mp hx
          have hi' : i < n := by rw [← hl, hdd, vec_length] at hi; exact hi
          obtain ⟨r, hr⟩ := hall ((List.zipWith binTerm (w.hists hid).counts.data e)[i]'(by simp [hl, hi]))
            (List.getElem_mem _)
          rw [List.getElem_zipWith] at hr
          have e1 : (w.hists hid).counts.data[i]'(by rw [hl]; exact hi) = .fin (d ⟨i, hi'⟩) := by simp [hdd, vec]
          rw [e1] at hr
          exact binTerm_eq_fin hr
        obtain ⟨ν, θ, h1, h2, h3⟩ := expectedPure_fin h hK hn hy hnl he hfin
        refine ⟨ν, θ, h1, h2, h3, ?_⟩
        intro i hi
        rw [h1, h2, expectedPure_eq h hK ν θ h3] at he
        have he := Except.ok.inj he
        obtain ⟨r, hr⟩ := hall (binTerm (.fin (d i)) (.fin (expected cnt ε eff ν θ i))) (by
          rw [← he, hdd]
          exact List.mem_iff_getElem.mpr ⟨i, by simp [vec_length], by simp [vec]⟩)
        by_contra hle
        have hd1 : (1e-100 : ℝ) ≤ d i := (hpos i).resolve_left hi
        rcases lt_or_eq_of_le (not_lt.mp hle) with h0 | h0
        · rw [binTerm_neg hd1 h0] at hr; cases hr
        · rw [h0, binTerm_zero hd1] at hr; cases hr

end

end TF
