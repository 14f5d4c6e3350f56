import Verif.Lemmas.Cache
import Verif.Lemmas.ChanLemmas
import Verif.Props.StatsProps
import Verif.Props.UtilityProps

set_option linter.unusedSimpArgs false

/-!
# Evaluating a channel on real parameters
-/

namespace TF

open Classical Spec
open scoped Matrix

noncomputable section

theorem frac_eq {n : ℕ} (c ε θ : Fin n → ℝ) (i : Fin n) :
    frac c ε θ i = c i * (1 + θ i * ε i) / ∑ j, c j * (1 + θ j * ε j) := rfl

theorem expectedPure_eq {w : World} {c K n : ℕ} {cnt ε : Fin K → Fin n → ℝ} {eff : Fin K → ℝ}
    {R : Fin K → Matrix (Fin n) (Fin n) ℝ} (h : ChanIs w c cnt ε eff R) (hK : 0 < K)
    (ν : Fin K → ℝ) (θ : Fin K → Fin n → ℝ)
    (hT : ∀ k, ∑ j, cnt k j * (1 + θ k j * ε k j) ≠ 0) :
    expectedPure w c (vec ν) (nuiVec θ) = .ok (vec (expected cnt ε eff ν θ)) := by
  obtain ⟨T, hT1, hT2⟩ := h.tmpls
  have h1 : bop (· * ·) (vec ν) ((w.chans c).effs.map (·.2)) = .ok (vec fun k => ν k * eff k) := by
    rw [h.effs]; exact bop_vec _ _ _ _ (fun i => rfl)
  have h2 : splitEq (nuiVec θ) (w.chans c).numTemplates = .ok (List.ofFn fun k => vec (θ k)) := by
    rw [h.num]; exact splitEq_nui hK θ
  have h3 := fractionRows_ofFn T (fun k => vec (θ k)) (fun k => vec (frac (cnt k) (ε k) (θ k)))
    (fun k => fractions_vec (hT2 k).1 (θ k) (hT k))
  obtain ⟨M, h4, h5⟩ := stackRows_ofFn hK (fun k => frac (cnt k) (ε k) (θ k))
  have h6 : w.chanFractions c (nuiVec θ) = .ok M := by
    unfold World.chanFractions
    rw [h2]; simp only; rw [hT1, h3]; exact h4
  unfold expectedPure
  rw [h1]; simp only; rw [h6]; simp only
  rw [vecMat_vec _ h5]
  congr 2

theorem gaussPure_eq {w : World} {c K n : ℕ} {cnt ε : Fin K → Fin n → ℝ} {eff : Fin K → ℝ}
    {R : Fin K → Matrix (Fin n) (Fin n) ℝ} (h : ChanIs w c cnt ε eff R) (θ : Fin K → Fin n → ℝ) :
    gaussPure w c (nuiVec θ) = .ok (.fin (penalty R θ)) := by
  obtain ⟨T, hT1, hT2⟩ := h.tmpls
  obtain ⟨N, B, Θ, hB, hΘ, hq⟩ := blockDiag_form (fun k => (T k).invCorr) (fun k => (R k)⁻¹)
    (fun k => (hT2 k).2.2) θ
  have hmap : (w.chanTmpls c).map (·.invCorr) = List.ofFn fun k => (T k).invCorr := by
    rw [hT1, List.map_ofFn]; rfl
  unfold gaussPure nuiVec
  rw [hmap, hΘ, vecMat_vec _ hB]
  simp only
  rw [dot_vec]
  simp only [Fl.fin_mul]
  congr 2
  unfold penalty
  congr 1
  rw [hq]
  apply Finset.sum_congr rfl
  intro k _
  simp only [dotProduct, Matrix.mulVec]
  simp only [Finset.sum_mul, Finset.mul_sum]
  rw [Finset.sum_comm]
  refine Finset.sum_congr rfl fun i _ => Finset.sum_congr rfl fun j _ => by ring

theorem penalty_nonneg {K n : ℕ} {R : Fin K → Matrix (Fin n) (Fin n) ℝ} (hR : ∀ k, (R k).PosDef)
    (θ : Fin K → Fin n → ℝ) : 0 ≤ penalty R θ ∧ (penalty R θ = 0 ↔ θ = 0) := by
  have hnn : ∀ k, 0 ≤ (θ k) ⬝ᵥ ((R k)⁻¹.mulVec (θ k)) := by
    intro k
    have := (hR k).inv.posSemidef.dotProduct_mulVec_nonneg (θ k)
    simpa using this
  refine ⟨mul_nonneg (by norm_num) (Finset.sum_nonneg fun k _ => hnn k), ?_⟩
  unfold penalty
  rw [mul_eq_zero, or_iff_right (by norm_num), Finset.sum_eq_zero_iff_of_nonneg fun k _ => hnn k]
  constructor
  · intro h
    funext k
    by_contra hne
    have := (hR k).inv.dotProduct_mulVec_pos (x := θ k) hne
    have h0 := h k (Finset.mem_univ k)
    simp only [star_trivial] at this
    linarith
  · rintro rfl k _
    simp

/-! ### the Poisson term -/

/-- value of one bin: `exp - data - xlogyx(data, exp)` -/
def binTerm (d e : Fl) : Fl := e - d - xlogyx d e

theorem poissonTerm_zip {n : ℕ} (d e : Fin n → ℝ) :
    poissonTerm (vec d) (vec e) =
      .ok (List.ofFn fun i => binTerm (.fin (d i)) (.fin (e i))).sum := by
  have hb : ∀ (op : Fl → Fl → Fl) (a b : Vec), a.length = b.length →
      bop op a b = .ok (List.zipWith op a b) := by
    intro op a b h; simp [bop, h]
  simp only [poissonTerm, bind, Except.bind, pure, Except.pure]
  rw [hb _ _ _ (by simp [vec_length])]
  simp only
  rw [hb _ _ _ (by simp [vec_length])]
  simp only
  rw [hb _ _ _ (by simp [vec_length])]
  simp only [npSum]
  congr 2
  apply List.ext_getElem
  · simp [vec_length]
  · intro i h1 h2
    simp [vec, binTerm]

theorem binTerm_fin {d e : ℝ} (hd : d = 0 ∨ (1e-100 : ℝ) ≤ d) (he : 0 < e) :
    binTerm (.fin d) (.fin e) = .fin (poissonBin d e) := by
  unfold binTerm poissonBin
  rcases hd with rfl | hd
  · rw [Props.C13_small (.fin 0) (.fin e) (Or.inr (Or.inr ⟨0, rfl, by norm_num⟩))]
    simp
  · have h0 : 0 < d := lt_of_lt_of_le (by norm_num) hd
    rw [Props.C13_value d e hd he, if_neg h0.ne']
    simp

theorem poissonBin_nonneg {d e : ℝ} (hd : 0 ≤ d) (he : 0 < e) :
    0 ≤ poissonBin d e ∧ (poissonBin d e = 0 ↔ e = d) := by
  unfold poissonBin
  split
  · rename_i h; subst h; exact ⟨he.le, by constructor <;> intro h <;> linarith⟩
  · rename_i h
    have h0 : 0 < d := lt_of_le_of_ne hd (Ne.symm h)
    have := Props.cowan_term d e h0 he
    have e1 : e - d - d * Real.log (e / d) = d * Real.log (d / e) + e - d := by
      rw [show e / d = (d / e)⁻¹ by rw [inv_div], Real.log_inv]; ring
    rw [e1]
    exact ⟨this.1, by rw [this.2]; exact eq_comm⟩

theorem binTerm_zero {d : ℝ} (hd : (1e-100 : ℝ) ≤ d) : binTerm (.fin d) (.fin 0) = .pinf := by
  unfold binTerm
  rw [Props.C13_zero d hd, Fl.fin_sub]
  rfl

theorem binTerm_neg {d e : ℝ} (hd : (1e-100 : ℝ) ≤ d) (he : e < 0) :
    binTerm (.fin d) (.fin e) = .nan := by
  unfold binTerm
  rw [Props.C13_negative d e hd he]; simp

theorem binTerm_empty {d e : ℝ} (hd : d < (1e-100 : ℝ)) :
    binTerm (.fin d) (.fin e) = .fin (e - d) := by
  unfold binTerm
  rw [Props.C13_small (.fin d) (.fin e) (Or.inr (Or.inr ⟨d, rfl, hd⟩))]
  simp

theorem sum_pinf (l : Vec) (h : ∀ x ∈ l, x = .pinf ∨ ∃ r : ℝ, x = .fin r) :
    (∃ r : ℝ, l.sum = .fin r) ∨ l.sum = .pinf := by
  induction l with
  | nil => exact Or.inl ⟨0, rfl⟩
  | cons a l ih =>
    rw [List.sum_cons]
    rcases h a (by simp) with rfl | ⟨r, rfl⟩ <;>
    rcases ih (fun x hx => h x (by simp [hx])) with ⟨q, hq⟩ | hq <;> rw [hq]
    · exact Or.inr rfl
    · exact Or.inr rfl
    · exact Or.inl ⟨_, rfl⟩
    · exact Or.inr rfl

theorem sum_pinf_of_mem (l : Vec) (h : ∀ x ∈ l, x = .pinf ∨ ∃ r : ℝ, x = .fin r) (hm : Fl.pinf ∈ l) :
    l.sum = .pinf := by
  induction l with
  | nil => simp at hm
  | cons a l ih =>
    rw [List.sum_cons]
    rcases List.mem_cons.mp hm with rfl | hm'
    · rcases sum_pinf l (fun x hx => h x (by simp [hx])) with ⟨q, hq⟩ | hq <;> rw [hq] <;> rfl
    · rw [ih (fun x hx => h x (by simp [hx])) hm']
      rcases h a (by simp) with rfl | ⟨r, rfl⟩ <;> rfl

end

end TF
