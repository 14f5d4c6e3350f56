import Verif.Props.FitterProps3

set_option linter.unusedSimpArgs false

/-!
# The process pool of the profile scan (C68, scheduling part)
-/

namespace TF.Spec

open Classical

noncomputable section

/-- The pool after a schedule of events. -/
def poolRun {ρ : Type} (task : ℕ → ρ) (workers n : ℕ) (sched : List PoolEv) : Pool ρ :=
  sched.foldl (Pool.step task workers) (Pool.init ρ n)

/-- Every event of the schedule does something. -/
def Effective {ρ : Type} (task : ℕ → ρ) (workers : ℕ) : Pool ρ → List PoolEv → Prop
  | _, [] => True
  | p, e :: es => Pool.step task workers p e ≠ p ∧ Effective task workers (Pool.step task workers p e) es

end

end TF.Spec

namespace TF.Props

open Classical Spec

noncomputable section

theorem poolRun_snoc {ρ : Type} (task : ℕ → ρ) (wk n : ℕ) (s : List PoolEv) (e : PoolEv) :
    poolRun task wk n (s ++ [e]) = Pool.step task wk (poolRun task wk n s) e := by
  simp [poolRun, List.foldl_append]

theorem poolRun_append {ρ : Type} (task : ℕ → ρ) (wk n : ℕ) (s t : List PoolEv) :
    poolRun task wk n (s ++ t) = t.foldl (Pool.step task wk) (poolRun task wk n s) := by
  simp [poolRun, List.foldl_append]

/-- what a schedule can reach: results belong to their tasks, no task is lost -/
structure PoolInv {ρ : Type} (task : ℕ → ρ) (wk n : ℕ) (p : Pool ρ) : Prop where
  res : ∀ x ∈ p.done, x.2 = task x.1
  have_all : ∀ k < n, k ∈ p.queue ∨ (∃ w < wk, p.running w = some k) ∨ k ∈ p.done.map (·.1)
  supp : ∀ w k, p.running w = some k → w < wk

theorem poolInv_step {ρ : Type} {task : ℕ → ρ} {wk n : ℕ} {p : Pool ρ} (h : PoolInv task wk n p) (e : PoolEv) :
    PoolInv task wk n (Pool.step task wk p e) := by
  obtain ⟨h1, h2, h3⟩ := h
  cases e with
  | fetch w =>
    simp only [Pool.step]
    split
    · rename_i hw
      split
      · exact ⟨h1, h2, h3⟩
      · rename_i k ks hq
        refine ⟨h1, ?_, ?_⟩
        · intro j hj
          rcases h2 j hj with h | ⟨v, hv, h⟩ | h
          · rw [hq] at h
            rcases List.mem_cons.mp h with rfl | h
            · exact .inr (.inl ⟨w, hw.1, by simp⟩)
            · exact .inl h
          · refine .inr (.inl ⟨v, hv, ?_⟩)
            have : v ≠ w := by rintro rfl; rw [hw.2] at h; cases h
            simp [Function.update_of_ne this, h]
          · exact .inr (.inr h)
        · intro v j hv
          by_cases hvw : v = w
          · subst hvw; exact hw.1
          · simp only [Function.update_of_ne hvw] at hv; exact h3 v j hv
    · exact ⟨h1, h2, h3⟩
  | finish w =>
    simp only [Pool.step]
    split
    · exact ⟨h1, h2, h3⟩
    · rename_i k hk
      refine ⟨?_, ?_, ?_⟩
      · intro x hx
        rcases List.mem_cons.mp hx with rfl | hx
        · rfl
        · exact h1 x hx
      · intro j hj
        rcases h2 j hj with h | ⟨v, hv, h⟩ | h
        · exact .inl h
        · by_cases hvw : v = w
          · subst hvw
            rw [hk] at h
            injection h with h
            subst h
            exact .inr (.inr (by simp))
          · exact .inr (.inl ⟨v, hv, by simp [Function.update_of_ne hvw, h]⟩)
        · exact .inr (.inr (by simp only [List.map_cons, List.mem_cons]; exact .inr h))
      · intro v j hv
        by_cases hvw : v = w
        · subst hvw; simp at hv
        · simp only [Function.update_of_ne hvw] at hv; exact h3 v j hv

theorem poolInv_init {ρ : Type} (task : ℕ → ρ) (wk n : ℕ) : PoolInv task wk n (Pool.init ρ n) :=
  ⟨by simp [Pool.init], fun k hk => .inl (List.mem_range.mpr hk), by simp [Pool.init]⟩

theorem poolInv_run {ρ : Type} (task : ℕ → ρ) (wk n : ℕ) (s : List PoolEv) :
    PoolInv task wk n (poolRun task wk n s) := by
  induction s using List.reverseRecOn with
  | nil => exact poolInv_init task wk n
  | append_singleton s e ih => rw [poolRun_snoc]; exact poolInv_step ih e

theorem mapM_some {α β : Type} (f : α → Option β) : ∀ (l : List α) (r : List β), l.mapM f = some r →
    l.map f = r.map some := by
  intro l
  induction l with
  | nil => intro r h; simp at h; subst h; rfl
  | cons a l ih =>
    intro r h
    rw [List.mapM_cons] at h
    cases ha : f a with
    | none => rw [ha] at h; simp at h
    | some b =>
      rw [ha] at h
      cases hl : l.mapM f with
      | none => rw [hl] at h; simp at h
      | some bs =>
        rw [hl] at h
        simp at h
        subst h
        simp [ha, ih bs hl]

theorem mapM_ok {α β : Type} (f : α → Option β) (g : α → β) : ∀ (l : List α), (∀ a ∈ l, f a = some (g a)) →
    l.mapM f = some (l.map g) := by
  intro l
  induction l with
  | nil => intro _; simp
  | cons a l ih =>
    intro h
    rw [List.mapM_cons, h a (by simp), ih fun b hb => h b (by simp [hb])]
    simp

/-- all results received ⇒ they are the task results in task order -/
theorem collect_of_inv {ρ : Type} {task : ℕ → ρ} {wk n : ℕ} {p : Pool ρ} (h : PoolInv task wk n p)
    (l : List ρ) (hl : p.collect n = some l) : l = (List.range n).map task := by
  have := mapM_some _ _ _ hl
  have h2 : ∀ k ∈ List.range n, dictGet p.done k = some (task k) := by
    intro k hk
    have h3 : dictGet p.done k ∈ (List.range n).map fun k => dictGet p.done k := List.mem_map_of_mem hk
    rw [this] at h3
    obtain ⟨r, _, hr⟩ := List.mem_map.mp h3
    rw [← hr]; exact congrArg some (h.res _ (dictGet_mem hr.symm))
  have h4 := mapM_ok (fun k => dictGet p.done k) task (List.range n) h2
  unfold Pool.collect at hl
  rw [hl] at h4
  exact Option.some.inj h4

theorem collect_of_done {ρ : Type} {task : ℕ → ρ} {wk n : ℕ} {p : Pool ρ} (h : PoolInv task wk n p)
    (hd : ∀ k < n, k ∈ p.done.map (·.1)) : p.collect n = some ((List.range n).map task) := by
  refine mapM_ok _ _ _ fun k hk => ?_
  cases hg : dictGet p.done k with
  | none => exact absurd (hd k (List.mem_range.mp hk)) (dictGet_none.mp hg)
  | some r => exact congrArg some (h.res _ (dictGet_mem hg))

/-- **C68 (scheduling, safety).** For every number of workers and every schedule of the pool: when all
results are there, they are exactly the results of the tasks, in task order. -/
theorem C68_schedule {ρ : Type} (task : ℕ → ρ) (workers n : ℕ) (sched : List PoolEv) (l : List ρ)
    (h : (poolRun task workers n sched).collect n = some l) : l = (List.range n).map task :=
  collect_of_inv (poolInv_run task workers n sched) l h

/-- nothing more can happen ⇒ finished -/
theorem stuck_done {ρ : Type} {task : ℕ → ρ} {wk n : ℕ} (hw : 0 < wk) {p : Pool ρ} (h : PoolInv task wk n p)
    (hs : ∀ e, Pool.step task wk p e = p) : ∀ k < n, k ∈ p.done.map (·.1) := by
  have hr : ∀ v, p.running v = none := by
    intro v
    by_contra hv
    obtain ⟨k, hk⟩ := Option.ne_none_iff_exists'.mp hv
    have := congrArg Pool.done (hs (.finish v))
    simp only [Pool.step, hk] at this
    have := congrArg List.length this
    simp at this
  intro k hk
  rcases h.have_all k hk with hq | ⟨v, _, hv⟩ | hd
  · exfalso
    have := congrArg Pool.queue (hs (.fetch 0))
    simp only [Pool.step, hw, hr 0, and_self, if_true] at this
    cases hqq : p.queue with
    | nil => rw [hqq] at hq; simp at hq
    | cons a as =>
      rw [hqq] at this
      simp only at this
      have := congrArg List.length this
      simp at this
  · rw [hr v] at hv; cases hv
  · exact hd

/-- remaining work -/
def poolMeasure {ρ : Type} (wk : ℕ) (p : Pool ρ) : ℕ :=
  2 * p.queue.length + ((List.range wk).filter fun w => (p.running w).isSome).length

theorem filter_update {α : Type} (wk w : ℕ) (hw : w < wk) (f : ℕ → Option α) (a : Option α) :
    ((List.range wk).filter fun v => (Function.update f w a v).isSome).length +
      (if (f w).isSome then 1 else 0) =
    ((List.range wk).filter fun v => (f v).isSome).length + (if a.isSome then 1 else 0) := by
  have hs : ∀ g : ℕ → Option α, ((List.range wk).filter fun v => (g v).isSome).length =
      ∑ v ∈ Finset.range wk, if (g v).isSome then 1 else 0 := by
    intro g
    rw [Finset.sum_boole]
    simp only [Nat.cast_id]
    have : (Finset.range wk).filter (fun v => (g v).isSome = true) =
      ⟨Multiset.filter (fun v => (g v).isSome = true) (Multiset.range wk), (Multiset.nodup_range wk).filter _⟩ := by
        ext; simp
    rw [this]
    simp [Multiset.range, Finset.card]
  rw [hs, hs, Finset.sum_eq_sum_sdiff_singleton_add (Finset.mem_range.mpr hw) (fun v => if (f v).isSome then 1 else 0),
    Finset.sum_eq_sum_sdiff_singleton_add (Finset.mem_range.mpr hw)
      (fun v => if (Function.update f w a v).isSome then 1 else 0)]
  have : ∑ v ∈ Finset.range wk \ {w}, (if (Function.update f w a v).isSome then 1 else 0) =
      ∑ v ∈ Finset.range wk \ {w}, if (f v).isSome then 1 else 0 := by
    refine Finset.sum_congr rfl fun v hv => ?_
    have : v ≠ w := by simp at hv; exact hv.2
    rw [Function.update_of_ne this]
  rw [this]
  simp
  omega

theorem measure_step {ρ : Type} {task : ℕ → ρ} {wk n : ℕ} {p : Pool ρ} (h : PoolInv task wk n p) (e : PoolEv)
    (he : Pool.step task wk p e ≠ p) : poolMeasure wk (Pool.step task wk p e) < poolMeasure wk p := by
  cases e with
  | fetch w =>
    simp only [Pool.step] at he ⊢
    split
    · rename_i hw
      rw [if_pos hw] at he
      cases hq : p.queue with
      | nil => rw [hq] at he; simp at he
      | cons k ks =>
        simp only [poolMeasure, hq]
        have := filter_update wk w hw.1 p.running (some k)
        simp [hw.2] at this
        rw [this]
        simp
        omega
    · rename_i hw
      rw [if_neg hw] at he; exact absurd rfl he
  | finish w =>
    simp only [Pool.step] at he ⊢
    cases hr : p.running w with
    | none => rw [hr] at he; simp at he
    | some k =>
      simp only [poolMeasure]
      have := filter_update wk w (h.supp w k hr) p.running none
      simp [hr] at this
      omega

/-- **C68 (scheduling, termination).** With at least one worker: a schedule all of whose events do
something has at most `2 n` events, and a schedule after which no event can do anything has delivered all
results, in task order. So no schedule deadlocks, and every sufficiently long one finishes. -/
theorem C68_terminates {ρ : Type} (task : ℕ → ρ) (workers n : ℕ) (hw : 0 < workers) :
    (∀ sched, Effective task workers (Pool.init ρ n) sched → sched.length ≤ 2 * n) ∧
    (∀ sched, (∀ e, Pool.step task workers (poolRun task workers n sched) e = poolRun task workers n sched) →
      (poolRun task workers n sched).collect n = some ((List.range n).map task)) ∧
    (∀ sched, ∃ more, (poolRun task workers n (sched ++ more)).collect n = some ((List.range n).map task)) := by
  have hstuck : ∀ sched, (∀ e, Pool.step task workers (poolRun task workers n sched) e = poolRun task workers n sched) →
      (poolRun task workers n sched).collect n = some ((List.range n).map task) := by
    intro sched hs
    have hi := poolInv_run task workers n sched
    exact collect_of_done hi (stuck_done hw hi hs)
  refine ⟨?_, hstuck, ?_⟩
  · have key : ∀ (sched : List PoolEv) (p : Pool ρ), PoolInv task workers n p → Effective task workers p sched →
        sched.length ≤ poolMeasure workers p := by
      intro sched
      induction sched with
      | nil => intro p _ _; simp
      | cons e es ih =>
        intro p hp he
        have h1 := measure_step hp e he.1
        have h2 := ih _ (poolInv_step hp e) he.2
        simp only [List.length_cons]
        omega
    intro sched he
    have := key sched _ (poolInv_init task workers n) he
    simp [poolMeasure, Pool.init] at this
    exact this
  · have key : ∀ (M : ℕ) (sched : List PoolEv), poolMeasure workers (poolRun task workers n sched) ≤ M →
        ∃ more, (poolRun task workers n (sched ++ more)).collect n = some ((List.range n).map task) := by
      intro M
      induction M with
      | zero =>
        intro sched hM
        refine ⟨[], ?_⟩
        rw [List.append_nil]
        apply hstuck
        intro e
        by_contra hne
        have := measure_step (poolInv_run task workers n sched) e hne
        omega
      | succ M ih =>
        intro sched hM
        by_cases hs : ∀ e, Pool.step task workers (poolRun task workers n sched) e = poolRun task workers n sched
        · exact ⟨[], by rw [List.append_nil]; exact hstuck sched hs⟩
        · push Not at hs
          obtain ⟨e, he⟩ := hs
          have := measure_step (poolInv_run task workers n sched) e he
          obtain ⟨more, hm⟩ := ih (sched ++ [e]) (by rw [poolRun_snoc]; omega)
          exact ⟨e :: more, by simpa using hm⟩
    intro sched
    exact key _ sched le_rfl

/-- non-vacuity: two workers, three tasks, the second task finishing first -/
example : (poolRun (fun k => 10 * k) 2 3
    [.fetch 0, .fetch 1, .finish 1, .fetch 1, .finish 1, .finish 0]).collect 3 = some [0, 10, 20] := by
  simp [poolRun, Pool.step, Pool.init, Pool.collect, List.range_succ, dictGet, Function.update_apply]

end

end TF.Props
