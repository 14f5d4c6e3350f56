import Verif.Model.Hesse
import Verif.Lemmas.Cache

/-!
# C114: the numerical Hesse matrix
-/

namespace TF.Spec

open TF

/-- What the function objects compute after the steps of a program: the last change of each object counts. -/
def behaviour (fns : ℕ → Vec → Vec → Except Err Fl) : List HOp → ℕ → Vec → Vec → Except Err Fl
  | [] => fns
  | .change f g :: ops => behaviour (Function.update fns f g) ops
  | .call _ _ _ :: ops => behaviour fns ops

end TF.Spec

namespace TF.Props

open Classical Spec

noncomputable section

theorem behaviour_append (fns : ℕ → Vec → Vec → Except Err Fl) (a b : List HOp) :
    behaviour fns (a ++ b) = behaviour (behaviour fns a) b := by
  induction a generalizing fns with
  | nil => rfl
  | cons o a ih => cases o <;> exact ih _

theorem hrun_fns (ndt : (Vec → Except Err Fl) → Vec → Except Err Mat) (s : HSys) (ops : List HOp) :
    (s.run ndt ops).fns = behaviour s.fns ops := by
  induction ops generalizing s with
  | nil => rfl
  | cons o ops ih =>
    show ((s.step ndt o).run ndt ops).fns = _
    rw [ih]
    cases o with
    | change f g => rfl
    | call f x args => cases x <;> rfl

/-- **C114, numpy arrays.** With a point of the documented type the method never returns a matrix. -/
theorem C114_ndarray (ndt : (Vec → Except Err Fl) → Vec → Except Err Mat) (s : HSys) (f : ℕ) (v args : Vec) :
    s.calculateHesse ndt f (.ndarray v) args = (.error .typeError, s) := rfl

/-- every stored matrix was computed by an earlier call with the same arguments -/
theorem hcache_origin (ndt : (Vec → Except Err Fl) → Vec → Except Err Mat) (fns : ℕ → Vec → Vec → Except Err Fl)
    (ops : List HOp) : ∀ e ∈ ((HSys.start fns).run ndt ops).cache.items, ∃ pre post,
      ops = pre ++ .call e.1.1 (.tuple e.1.2.1) e.1.2.2 :: post ∧
      ndt (fun y => behaviour fns pre e.1.1 y e.1.2.2) e.1.2.1 = .ok e.2 := by
  induction ops using List.reverseRecOn with
  | nil => intro e he; simp [HSys.run, HSys.start] at he
  | append_singleton ops o ih =>
    intro e he
    have hr : (HSys.start fns).run ndt (ops ++ [o]) = ((HSys.start fns).run ndt ops).step ndt o := by
      simp [HSys.run]
    rw [hr] at he
    have old : e ∈ ((HSys.start fns).run ndt ops).cache.items → ∃ pre post,
        ops ++ [o] = pre ++ .call e.1.1 (.tuple e.1.2.1) e.1.2.2 :: post ∧
        ndt (fun y => behaviour fns pre e.1.1 y e.1.2.2) e.1.2.1 = .ok e.2 := by
      intro h
      obtain ⟨pre, post, h1, h2⟩ := ih e h
      exact ⟨pre, post ++ [o], by rw [h1]; simp, h2⟩
    cases o with
    | change f g => exact old he
    | call f x args =>
      cases x with
      | ndarray v => exact old he
      | tuple v =>
        rcases lru_call_mem _ _ _ e he with h | ⟨hk, hf⟩
        · exact old h
        · refine ⟨ops, [], ?_, ?_⟩
          · rw [hk]
          · rw [hk, ← hf, hrun_fns]; rfl

/-- **C114, what is returned.** After any program, a call with a tuple either does exactly what `numdifftools` does now, or
returns the matrix an earlier call with the same arguments computed at its time. -/
theorem C114_origin (ndt : (Vec → Except Err Fl) → Vec → Except Err Mat) (fns : ℕ → Vec → Vec → Except Err Fl)
    (ops : List HOp) (f : ℕ) (v args : Vec) :
    (((HSys.start fns).run ndt ops).calculateHesse ndt f (.tuple v) args).1 =
        ndt (fun y => behaviour fns ops f y args) v ∨
      ∃ pre post, ops = pre ++ .call f (.tuple v) args :: post ∧
        (((HSys.start fns).run ndt ops).calculateHesse ndt f (.tuple v) args).1 =
          ndt (fun y => behaviour fns pre f y args) v := by
  have hb : behaviour fns ops = ((HSys.start fns).run ndt ops).fns := (hrun_fns ndt (HSys.start fns) ops).symm
  by_cases h : ∃ e ∈ ((HSys.start fns).run ndt ops).cache.items, e.1 = (f, v, args)
  · right
    cases hd : dictGet ((HSys.start fns).run ndt ops).cache.items (f, v, args) with
    | none =>
      obtain ⟨e, he, hk⟩ := h
      exact absurd hd (by
        intro hn
        have : ∀ (l : List ((ℕ × Vec × Vec) × Mat)), e ∈ l → dictGet l (f, v, args) ≠ none := by
          intro l
          induction l with
          | nil => intro h; cases h
          | cons a l ih =>
            intro h
            unfold dictGet
            by_cases ha : a.1 = (f, v, args)
            · simp [ha]
            · rw [if_neg ha]
              rcases List.mem_cons.mp h with rfl | h
              · exact absurd hk ha
              · exact ih h
        exact this _ he hn)
    | some m =>
      obtain ⟨pre, post, h1, h2⟩ := hcache_origin ndt fns ops _ (dictGet_mem hd)
      refine ⟨pre, post, h1, ?_⟩
      simp only at h2
      rw [h2]
      simp [HSys.calculateHesse, Lru.call, hd]
  · left
    rw [hb]
    exact lru_call_val _ _ _ (fun p hp hk => absurd ⟨p, hp, hk⟩ h)

/-- **C114 holds for tuples and functions that never change**, after any program of calls and changes of other functions. -/
theorem C114_current_partial (ndt : (Vec → Except Err Fl) → Vec → Except Err Mat) (fns : ℕ → Vec → Vec → Except Err Fl)
    (ops : List HOp) (f : ℕ) (hf : ∀ g, .change f g ∉ ops) (v args : Vec) :
    (((HSys.start fns).run ndt ops).calculateHesse ndt f (.tuple v) args).1 = ndt (fun y => fns f y args) v := by
  have key : ∀ l : List HOp, (∀ g, .change f g ∉ l) → ∀ fns : ℕ → Vec → Vec → Except Err Fl, behaviour fns l f = fns f := by
    intro l
    induction l with
    | nil => intro _ _; rfl
    | cons o l ih =>
      intro h fns
      have h' : ∀ g, .change f g ∉ l := fun g hg => h g (List.mem_cons_of_mem _ hg)
      cases o with
      | call a b c => exact ih h' fns
      | change f' g =>
        show behaviour (Function.update fns f' g) l f = fns f
        rw [ih h']
        have : f ≠ f' := by rintro rfl; exact h g List.mem_cons_self
        simp [this]
  rcases C114_origin ndt fns ops f v args with h | ⟨pre, post, hops, h⟩
  · rw [h, key ops hf]
  · rw [h, key pre fun g hg => hf g (by rw [hops]; exact List.mem_append_left _ hg)]

/-- **C114 is false in general.** (1) With a numpy array the method always raises `TypeError`. (2) If the function changes between
two calls with the same tuple, e.g. because new data were added, the second call returns the Hesse matrix of the old function,
whenever the two matrices differ. -/
theorem C114_refuted : (∀ ndt s f v args, (HSys.calculateHesse ndt s f (.ndarray v) args).1 = .error .typeError) ∧
    ∀ (ndt : (Vec → Except Err Fl) → Vec → Except Err Mat) (fns : ℕ → Vec → Vec → Except Err Fl) (f : ℕ)
      (g : Vec → Vec → Except Err Fl) (v args : Vec) (H H' : Mat), ndt (fun y => fns f y args) v = .ok H →
      ndt (fun y => g y args) v = .ok H' → H ≠ H' →
      (((HSys.start fns).run ndt [.call f (.tuple v) args, .change f g]).calculateHesse ndt f (.tuple v) args).1 = .ok H ∧
        behaviour fns [.call f (.tuple v) args, .change f g] f = g := by
  refine ⟨fun _ _ _ _ _ => rfl, fun ndt fns f g v args H H' h _ _ => ⟨?_, ?_⟩⟩
  · simp [HSys.run, HSys.step, HSys.start, HSys.calculateHesse, Lru.call, dictGet, h]
  · simp [behaviour]

/-- non-vacuity of `C114_refuted`: two functions with different matrices -/
example : ∃ (ndt : (Vec → Except Err Fl) → Vec → Except Err Mat) (fns : ℕ → Vec → Vec → Except Err Fl)
    (g : Vec → Vec → Except Err Fl) (H H' : Mat), ndt (fun y => fns 0 y []) [.fin 1] = .ok H ∧
      ndt (fun y => g y []) [.fin 1] = .ok H' ∧ H ≠ H' := by
  refine ⟨fun f x => match f x with | .ok a => .ok ⟨1, 1, fun _ _ => a⟩ | .error e => .error e, fun _ _ _ => .ok 0,
    fun _ _ => .ok 1, ⟨1, 1, fun _ _ => 0⟩, ⟨1, 1, fun _ _ => 1⟩, rfl, rfl, ?_⟩
  intro h
  have := congrFun (congrFun (congrArg Mat.e h) 0) 0
  simp [Fl.zero_def, Fl.one_def] at this

end

end TF.Props
