import Verif.Props.MctProps9
import Verif.Props.FitterProps7

set_option linter.unusedSimpArgs false

/-!
# Template errors and `process_yield_errors` (C86)
-/

namespace TF.Spec

open Classical

noncomputable section

/-- event content of bin `i` at yield `y`: `y · f_i(θ)` -/
def binValue {n : ℕ} (c ε : Fin n → ℝ) (y : ℝ) (θ : Fin n → ℝ) (i : Fin n) : ℝ :=
  y * (c i * (1 + θ i * ε i) / ∑ j, c j * (1 + θ j * ε j))

/-- the channels (in order) that have a template for process `p` -/
def chansWith (s : Sys) (p : String) : List ℕ :=
  s.m.chanIds.filter fun c => decide (∃ q ∈ (s.w.chans c).templates, q.1 = p)

end

end TF.Spec

namespace TF.Props

open Classical Spec

noncomputable section

/-- **C86, templates.** The errors of a template are the relative errors times the current values, in its shape. -/
theorem C86_template_errors {n : ℕ} (t : Template) (c ε : Fin n → ℝ) (h : HasShape t c ε) (y : ℝ)
    (θ : Fin n → ℝ) (hp : HasParams t y θ) (hT : ∑ j, c j * (1 + θ j * ε j) ≠ 0) :
    t.errors = .ok ⟨t.bins, vec fun i => ε i * binValue c ε y θ i⟩ := errors_vec h hp hT

theorem npSum_sq_vec {n : ℕ} (f : Fin n → ℝ) : npSum ((vec f).map Fl.sq) = .fin (∑ i, f i ^ 2) := by
  rw [map_vec f Fl.sq (fun i => f i ^ 2) (fun i => by rw [Fl.sq_fin]), npSum, vec_sum]

/-- **C86, processes.** In every state of a model: `process_yield_errors` has one entry per process, in process
order; the entry of a process is the root of the summed squared template errors of its templates over all bins
of all channels. -/
theorem C86_process_errors (s : Sys) (k : ℕ) (p : String) (hk : s.m.processes[k]? = some p)
    (n : ℕ → ℕ) (cnt ε θ : ∀ c, Fin (n c) → ℝ) (y : ℕ → ℝ)
    (h : ∀ c ∈ s.m.chanIds, ∀ q ∈ (s.w.chans c).templates, q.1 = p →
      HasShape (s.w.tmpls q.2) (cnt c) (ε c) ∧ HasParams (s.w.tmpls q.2) (y c) (θ c) ∧
        ∑ j, cnt c j * (1 + θ c j * ε c j) ≠ 0) :
    (s.m.processYieldErrors s.w)[k]? = some (.ok (.fin (Real.sqrt
      ((chansWith s p).map fun c => ∑ i, (ε c i * binValue (cnt c) (ε c) (y c) (θ c) i) ^ 2).sum))) ∧
    (s.m.processYieldErrors s.w).length = s.m.processes.length := by
  refine ⟨?_, by simp [Mct.processYieldErrors]⟩
  have key : ∀ l : List ℕ, (∀ c ∈ l, c ∈ s.m.chanIds) → s.w.processErrSq p l = .ok (.fin
      ((l.filter fun c => decide (∃ q ∈ (s.w.chans c).templates, q.1 = p)).map
        fun c => ∑ i, (ε c i * binValue (cnt c) (ε c) (y c) (θ c) i) ^ 2).sum) := by
    intro l
    induction l with
    | nil => intro _; rfl
    | cons c l ih =>
      intro hl
      have ih' := ih fun c hc => hl c (by simp [hc])
      unfold World.processErrSq
      cases hd : dictGet (s.w.chans c).templates p with
      | none =>
        have : ¬ ∃ q ∈ (s.w.chans c).templates, q.1 = p := by
          rintro ⟨q, hq, rfl⟩
          exact dictGet_none.mp hd (List.mem_map.mpr ⟨q, hq, rfl⟩)
        simp only [ih', List.filter_cons, this, decide_false]
        rfl
      | some tid =>
        have hm := dictGet_mem hd
        have : ∃ q ∈ (s.w.chans c).templates, q.1 = p := ⟨_, hm, rfl⟩
        obtain ⟨a1, a2, a3⟩ := h c (hl c (by simp)) _ hm rfl
        simp only [C86_template_errors _ _ _ a1 _ _ a2 a3, ih', npSum_sq_vec, List.filter_cons, this, decide_true,
          if_true, List.map_cons, List.sum_cons, Fl.fin_add]
  unfold Mct.processYieldErrors
  rw [List.getElem?_map, hk, Option.map_some, key _ fun _ h => h]
  simp only [Except.map]
  rw [Fl.sqrt_fin]
  · rfl
  · apply List.sum_nonneg
    intro x hx
    obtain ⟨c, -, rfl⟩ := List.mem_map.mp hx
    exact Finset.sum_nonneg fun i _ => sq_nonneg _

/-- non-vacuity of C86: the one-channel example `Ex.sysZ` (contents 1, 1 with errors 1, 1, yield 2) has
`process_yield_errors = [√2]` -/
example : (Ex.sysZ.m.processYieldErrors Ex.sysZ.w)[0]? = some (.ok (.fin (Real.sqrt 2))) := by
  have hshape : HasShape (Ex.bt "t" 0 ![1, 1] ![1, 1]) ![1, 1]
      (fun i => (![1, 1] : Fin 2 → ℝ) i / (![1, 1] : Fin 2 → ℝ) i) := by
    obtain ⟨T, hT, hh⟩ := (Ex.chanIs_single Ex.wZ 0 (by simp [Ex.wZ]) "p" 0 1 "t" 0 ![1, 1] ![1, 1]
      (by intro i; fin_cases i <;> simp) (by intro i; fin_cases i <;> simp) (by simp [Ex.wZ, Ex.chZ])
      (by simp [Ex.wZ, Ex.chZ]) (by simp [Ex.wZ, Ex.chZ]) (by simp [Ex.wZ])).tmpls
    have : T 0 = Ex.bt "t" 0 ![1, 1] ![1, 1] := by
      simp [World.chanTmpls, Ex.wZ, Ex.chZ] at hT
      exact hT.symm
    rw [← this]; exact (hh 0).1
  have hpar : HasParams (Ex.bt "t" 0 ![1, 1] ![1, 1]) 2 (fun _ : Fin 2 => (0 : ℝ)) := by
    unfold HasParams
    simp [Ex.bt, initParams, Ex.bh, Hist.setBinned, npSum, vec, List.ofFn_succ, Fl.zero_def, List.replicate]
    norm_num
  have h := (C86_process_errors Ex.sysZ 0 "p" rfl (fun _ => 2) (fun _ => ![1, 1])
    (fun _ i => (![1, 1] : Fin 2 → ℝ) i / (![1, 1] : Fin 2 → ℝ) i) (fun _ _ => 0) (fun _ => 2) (by
      intro c hc q hq _
      have : c = 0 := by simpa [Ex.sysZ, Ex.mZ, Mct.chanIds] using hc
      subst this
      have : q = ("p", 0) := by simpa [Ex.sysZ, Ex.wZ, Ex.chZ] using hq
      subst this
      refine ⟨?_, ?_, by simp [Fin.sum_univ_two]⟩
      · simpa [Ex.sysZ, Ex.wZ] using hshape
      · simpa [Ex.sysZ, Ex.wZ] using hpar)).1
  rw [h]
  have : chansWith Ex.sysZ "p" = [0] := by
    simp [chansWith, Ex.sysZ, Ex.mZ, Ex.wZ, Ex.chZ, Mct.chanIds]
  rw [this]
  simp [binValue, Fin.sum_univ_two]
  norm_num

end

end TF.Props
