import Verif.Lemmas.TmplCovLemmas
import Verif.Lemmas.Frames
import Mathlib.Data.Fin.Tuple.Basic

set_option linter.unusedSimpArgs false

/-!
# Lists of equal blocks, stacked rows, block-diagonal quadratic forms
-/

namespace TF

open Classical Spec

noncomputable section

/-- the k-th block of a concatenation of blocks of length n -/
theorem flatten_block {α : Type} (n : ℕ) : ∀ (bs : List (List α)), (∀ b ∈ bs, b.length = n) →
    ∀ k, (hk : k < bs.length) → (bs.flatten.drop (k * n)).take n = bs[k] := by
  intro bs
  induction bs with
  | nil => intro _ k hk; simp at hk
  | cons b bs ih =>
    intro hb k hk
    have hbn : b.length = n := hb b (by simp)
    cases k with
    | zero => simp [← hbn]
    | succ k =>
      simp only [List.flatten_cons, List.getElem_cons_succ]
      rw [List.drop_append, show (k + 1) * n - b.length = k * n by rw [hbn]; ring_nf; omega,
        List.drop_of_length_le (by rw [hbn]; nlinarith), List.nil_append]
      exact ih (fun b' h => hb b' (by simp [h])) k (by simpa using hk)

theorem flatten_length {α : Type} (n : ℕ) (bs : List (List α)) (h : ∀ b ∈ bs, b.length = n) :
    bs.flatten.length = bs.length * n := by
  induction bs with
  | nil => simp
  | cons b bs ih =>
    rw [List.flatten_cons, List.length_append, h b (by simp), ih (fun b' h' => h b' (by simp [h'])),
      List.length_cons]
    ring

/-- `np.split` undoes the concatenation of equally long blocks -/
theorem splitEq_flatten {α : Type} (n : ℕ) (bs : List (List α)) (h : ∀ b ∈ bs, b.length = n)
    (hne : bs ≠ []) : splitEq bs.flatten bs.length = .ok bs := by
  have hl : 0 < bs.length := List.length_pos_of_ne_nil hne
  unfold splitEq
  rw [if_neg hl.ne', flatten_length n bs h, if_neg (by simp), Nat.mul_div_cancel_left n hl]
  congr 1
  apply List.ext_getElem
  · simp
  · intro k h1 h2
    simp only [List.getElem_map, List.getElem_range]
    exact flatten_block n bs h k h2

/-- concatenated nuisance parameters of `K` templates with `n` bins each -/
theorem nui_blocks {K n : ℕ} (θ : Fin K → Fin n → ℝ) :
    ∀ b ∈ List.ofFn (fun k => vec (θ k)), b.length = n := by
  intro b hb
  rw [List.mem_ofFn] at hb
  obtain ⟨k, rfl⟩ := hb
  exact vec_length _

theorem splitEq_nui {K n : ℕ} (hK : 0 < K) (θ : Fin K → Fin n → ℝ) :
    splitEq (List.ofFn fun k => vec (θ k)).flatten K = .ok (List.ofFn fun k => vec (θ k)) := by
  have := splitEq_flatten n _ (nui_blocks θ) (by
    intro h; have := congrArg List.length h; simp at this; omega)
  rwa [List.length_ofFn] at this

theorem fractionRows_ofFn {K : ℕ} (T : Fin K → Template) (P F : Fin K → Vec)
    (h : ∀ k, (T k).fractions (P k) = .ok (F k)) :
    fractionRows (List.ofFn T) (List.ofFn P) = .ok (List.ofFn F) := by
  induction K with
  | zero => simp [fractionRows]
  | succ K ih =>
    simp only [List.ofFn_succ, fractionRows, h 0]
    rw [ih (fun k => T k.succ) (fun k => P k.succ) (fun k => F k.succ) (fun k => h k.succ)]

theorem stackRows_ofFn {K n : ℕ} (hK : 0 < K) (F : Fin K → Fin n → ℝ) :
    ∃ M, stackRows (List.ofFn fun k => vec (F k)) = .ok M ∧ IsReal M (Matrix.of F) := by
  have hhead : ((List.ofFn fun k => vec (F k)).headD []).length = n := by
    cases K with
    | zero => omega
    | succ K => simp [List.ofFn_succ, vec_length]
  unfold stackRows
  simp only [hhead]
  rw [if_pos (by simp only [List.all_eq_true]; intro r hr; simpa using nui_blocks F r hr)]
  refine ⟨_, rfl, by simp, rfl, fun i j => ?_⟩
  simp [List.getD, vec]

/-- `v_1 v_2 … v_K` with the block-diagonal matrix: no cross terms -/
theorem blockDiag_form {K n : ℕ} (M : Fin K → Mat) (S : Fin K → Matrix (Fin n) (Fin n) ℝ)
    (hM : ∀ k, IsReal (M k) (S k)) (θ : Fin K → Fin n → ℝ) :
    ∃ (N : ℕ) (B : Matrix (Fin N) (Fin N) ℝ) (Θ : Fin N → ℝ),
      IsReal (blockDiag (List.ofFn M)) B ∧ (List.ofFn fun k => vec (θ k)).flatten = vec Θ ∧
      ∑ j, (∑ i, Θ i * B i j) * Θ j = ∑ k, ∑ j, (∑ i, θ k i * S k i j) * θ k j := by
  induction K with
  | zero =>
    refine ⟨0, 0, Fin.elim0, ⟨rfl, rfl, fun i => i.elim0⟩, by simp [vec], by simp⟩
  | succ K ih =>
    obtain ⟨N, B, Θ, hB, hΘ, hq⟩ := ih (fun k => M k.succ) (fun k => S k.succ) (fun k => hM k.succ)
      (fun k => θ k.succ)
    refine ⟨n + N, Matrix.of fun i j => Fin.addCases (fun i => Fin.addCases (fun j => S 0 i j) (fun _ => 0) j)
      (fun i => Fin.addCases (fun _ => 0) (fun j => B i j) j) i, Fin.append (θ 0) Θ, ?_, ?_, ?_⟩
    · have h0 := hM 0
      simp only [List.ofFn_succ, blockDiag]
      refine ⟨by simp [h0.1, hB.1], by simp [h0.2.1, hB.2.1], fun i j => ?_⟩
      refine Fin.addCases (fun i => ?_) (fun i => ?_) i <;> refine Fin.addCases (fun j => ?_) (fun j => ?_) j
      · simp [h0.1, h0.2.1, h0.2.2]
      · simp [h0.1, h0.2.1]; rfl
      · simp [h0.1, h0.2.1]; rfl
      · simp [h0.1, h0.2.1, hB.2.2]
    · simp only [List.ofFn_succ, List.flatten_cons]
      rw [hΘ]
      unfold vec
      have := List.ofFn_fin_append (fun i => Fl.fin (θ 0 i)) (fun i => Fl.fin (Θ i))
      rw [← this]
      congr 1
      funext i
      refine Fin.addCases (fun i => ?_) (fun i => ?_) i <;> simp
    · rw [Fin.sum_univ_succ, ← hq, Fin.sum_univ_add]
      simp [Fin.sum_univ_add]

end

end TF
