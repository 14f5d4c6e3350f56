import Verif.Lemmas.ToyLemmas

set_option linter.unusedSimpArgs false

/-!
# Toy studies (C73–C76)
-/

namespace TF.Spec

open Classical

noncomputable section

/-- Of the outcomes `oc` of the numbered attempts: an experiment that starts with attempt `K` and may use `tries`
attempts succeeds at attempt `k`, all earlier ones having ended in a `RuntimeError` (or a subclass). -/
def SucceedsAt (oc : ℕ → Except Err (Vec × Vec)) (tries K k : ℕ) : Prop :=
  K ≤ k ∧ k < K + tries ∧ (∀ i, K ≤ i → i < k → ∃ e, oc i = .error e ∧ CaughtAsRuntime e) ∧ ∃ v, oc k = .ok v

/-- An experiment that starts with attempt `K` and may use `tries` attempts raises `e` and the next unused
attempt is `K'`: either attempt `K' - 1` raised `e`, which is no `RuntimeError`, after earlier `RuntimeError`s, or
all `tries` attempts ended in a `RuntimeError` and so does the experiment. -/
def FailsWith (oc : ℕ → Except Err (Vec × Vec)) (tries K : ℕ) (e : Err) (K' : ℕ) : Prop :=
  (∃ k, K ≤ k ∧ k < K + tries ∧ (∀ i, K ≤ i → i < k → ∃ e, oc i = .error e ∧ CaughtAsRuntime e) ∧
    oc k = .error e ∧ ¬ CaughtAsRuntime e ∧ K' = k + 1) ∨
  ((∀ i, K ≤ i → i < K + tries → ∃ e, oc i = .error e ∧ CaughtAsRuntime e) ∧ e = .runtimeError ∧ K' = K + tries)

/-- `ks` are the successful attempts of `ks.length` consecutive successful experiments, the first of which starts
with attempt `K`, each following one with the attempt after the success of its predecessor; `K'` is the next
unused attempt. -/
inductive Consecutive (oc : ℕ → Except Err (Vec × Vec)) (tries : ℕ) : ℕ → List ℕ → ℕ → Prop
  | nil (K : ℕ) : Consecutive oc tries K [] K
  | cons {K k K' : ℕ} {ks : List ℕ} : SucceedsAt oc tries K k → Consecutive oc tries (k + 1) ks K' →
      Consecutive oc tries K (k :: ks) K'

/-- the fitted values and uncertainties of the attempts `ks` are the rows `ps` and `us`, in this order -/
def Rows (oc : ℕ → Except Err (Vec × Vec)) (ks : List ℕ) (ps us : List Vec) : Prop :=
  ps.length = ks.length ∧ us.length = ks.length ∧
  ∀ i k : ℕ, ks[i]? = some k → ∃ p u, ps[i]? = some p ∧ us[i]? = some u ∧ oc k = .ok (p, u)

end

end TF.Spec

namespace TF.Props

open Classical Spec

noncomputable section

/-! ### consequences of the specification -/

theorem Consecutive.sorted {oc : ℕ → Except Err (Vec × Vec)} {tries K K' : ℕ} {ks : List ℕ}
    (h : Consecutive oc tries K ks K') : K + ks.length ≤ K' ∧ K' ≤ K + ks.length * tries ∧
      (∀ k ∈ ks, K ≤ k ∧ k < K') ∧ ks.Pairwise (· < ·) := by
  induction h with
  | nil K => simp
  | cons h1 _ ih =>
    obtain ⟨a1, a2, -, -⟩ := h1
    obtain ⟨i1, i2, i3, i4⟩ := ih
    refine ⟨by simp only [List.length_cons]; omega, by simp only [List.length_cons, Nat.add_mul]; omega, ?_, ?_⟩
    · intro j hj
      rcases List.mem_cons.mp hj with rfl | hj
      · omega
      · have := i3 j hj; omega
    · rw [List.pairwise_cons]
      exact ⟨fun j hj => by have := i3 j hj; omega, i4⟩

/-! ### the loops -/

theorem attempt_built {s : Sys} (env : ToyEnv) (t : Toy) (hb : Sys.Built ⟨t.w, s.m⟩) (g : Bool) :
    Sys.Built ⟨(t.attempt env s.m g).2.w, s.m⟩ := by
  have h1 := Sys.Built.step hb (o := .addToy (env.draw t.tries)) (by simp [Op.structural])
  simp only [Sys.step] at h1
  unfold Toy.attempt
  cases hd : s.m.toy t.w (env.draw t.tries) with
  | error e => exact hb
  | ok data =>
    rw [hd] at h1
    simp only at h1 ⊢
    generalize s.m.addDatasets t.w data = q at h1 ⊢
    obtain ⟨q1, w1⟩ := q
    cases q1 with
    | error e => exact h1
    | ok u =>
      simp only at h1 ⊢
      obtain ⟨xs, hxs⟩ := doFit_frame (env.optim t.tries) (Fitter.new t.minimizerId) w1 s.m g true none
      have h2 := built_evalAll xs h1
      rw [← hxs] at h2
      generalize (Fitter.new t.minimizerId).doFit (env.optim t.tries) w1 s.m false g true none = p at h2 ⊢
      obtain ⟨p1, w2⟩ := p
      cases p1 <;> exact h2

theorem experiment_spec {s : Sys} (hs : s.Built) (env : ToyEnv) (g : Bool) (n : ℕ) : ∀ (t : Toy),
    ToyInv s.w t.w → Sys.Built ⟨t.w, s.m⟩ → ∀ r, r = t.experiment env s.m g n →
    ToyInv s.w r.2.w ∧ Sys.Built ⟨r.2.w, s.m⟩ ∧ r.2.minimizerId = t.minimizerId ∧ r.2.fitted = t.fitted ∧
    ((∃ k v u, SucceedsAt (toyFit env s.m t.minimizerId g s.w) n t.tries k ∧
        toyFit env s.m t.minimizerId g s.w k = .ok (v, u) ∧ r.1 = .ok () ∧ r.2.params = t.params ++ [v] ∧
        r.2.uncs = t.uncs ++ [u] ∧ r.2.tries = k + 1 ∧
        ∃ data, s.m.toy s.w (env.draw k) = .ok data ∧ HasData r.2.w s.m data) ∨
     (∃ e, FailsWith (toyFit env s.m t.minimizerId g s.w) n t.tries e r.2.tries ∧ r.1 = .error e)) := by
  induction n with
  | zero =>
    intro t ht hb r hr
    simp only [Toy.experiment] at hr
    subst hr
    exact ⟨ht, hb, rfl, rfl, .inr ⟨_, .inr ⟨fun i h1 h2 => by omega, rfl, rfl⟩, rfl⟩⟩
  | succ n ih =>
    intro t ht hb r hr
    simp only [Toy.experiment] at hr
    obtain ⟨a1, a2, a3, a4, a5, a6⟩ := attempt_spec hs env t ht g _ rfl
    have hb1 := attempt_built (s := s) env t hb g
    generalize t.attempt env s.m g = q at hr a1 a2 a3 a4 a5 a6 hb1
    obtain ⟨q1, t1⟩ := q
    simp only at a1 a2 a3 a4 a5 a6 hb1
    cases hoc : toyFit env s.m t.minimizerId g s.w t.tries with
    | ok vu =>
      obtain ⟨v, u⟩ := vu
      obtain ⟨b1, b2, b3, b4⟩ := a6 v u hoc
      subst b1
      simp only at hr
      subst hr
      exact ⟨a1, hb1, a3, a4, .inl ⟨t.tries, v, u, ⟨le_refl _, by omega, fun i h1 h2 => by omega, _, hoc⟩, hoc, rfl,
        b2, b3, a2, b4⟩⟩
    | error e =>
      obtain ⟨b1, b2, b3⟩ := a5 e hoc
      subst b1
      simp only at hr
      by_cases he : e.isRuntime = true
      · rw [if_pos he] at hr
        obtain ⟨i1, i2, i3, i4, i5⟩ := ih t1 a1 hb1 r hr
        have hpre : ∀ i, t.tries ≤ i → i < t.tries + 1 → ∃ e, toyFit env s.m t.minimizerId g s.w i = .error e ∧ CaughtAsRuntime e := by
          intro i h1 h2
          have : i = t.tries := by omega
          rw [this]; exact ⟨e, hoc, (isRuntime_iff e).mp he⟩
        refine ⟨i1, i2, i3.trans a3, i4.trans a4, ?_⟩
        rw [a3, a2, b2, b3] at i5
        rcases i5 with ⟨k, v, u, ⟨k1, k2, k3, k4⟩, k5, k6⟩ | ⟨e', hf, h1⟩
        · refine .inl ⟨k, v, u, ⟨by omega, by omega, ?_, k4⟩, k5, k6⟩
          intro i h1 h2
          by_cases hi : i < t.tries + 1
          · exact hpre i h1 hi
          · exact k3 i (by omega) h2
        · refine .inr ⟨e', ?_, h1⟩
          rcases hf with ⟨k, k1, k2, k3, k4, k5⟩ | ⟨k1, k2, k3⟩
          · refine .inl ⟨k, by omega, by omega, ?_, k4, k5⟩
            intro i h1 h2
            by_cases hi : i < t.tries + 1
            · exact hpre i h1 hi
            · exact k3 i (by omega) h2
          · refine .inr ⟨?_, k2, by omega⟩
            intro i h1 h2
            by_cases hi : i < t.tries + 1
            · exact hpre i h1 hi
            · exact k1 i (by omega) (by omega)
      · rw [if_neg he] at hr
        subst hr
        exact ⟨a1, hb1, a3, a4, .inr ⟨e, .inl ⟨t.tries, le_refl _, by omega, fun i h1 h2 => by omega, hoc,
          fun hq => he ((isRuntime_iff e).mpr hq), a2⟩, rfl⟩⟩

theorem experiments_spec {s : Sys} (hs : s.Built) (env : ToyEnv) (g : Bool) (tries n : ℕ) : ∀ (t : Toy),
    ToyInv s.w t.w → Sys.Built ⟨t.w, s.m⟩ → ∀ r, r = t.experiments env s.m g tries n →
    ToyInv s.w r.2.w ∧ Sys.Built ⟨r.2.w, s.m⟩ ∧ r.2.minimizerId = t.minimizerId ∧ r.2.fitted = t.fitted ∧
    ∃ ks K', Consecutive (toyFit env s.m t.minimizerId g s.w) tries t.tries ks K' ∧
      ((r.1 = .ok () ∧ ks.length = n ∧ r.2.tries = K' ∧
        (∃ ps us, Rows (toyFit env s.m t.minimizerId g s.w) ks ps us ∧ r.2.params = t.params ++ ps ∧ r.2.uncs = t.uncs ++ us) ∧
        (ks ≠ [] → ∃ data, s.m.toy s.w (env.draw (K' - 1)) = .ok data ∧ HasData r.2.w s.m data)) ∨
       (ks.length < n ∧ ∃ e, r.1 = .error e ∧ FailsWith (toyFit env s.m t.minimizerId g s.w) tries K' e r.2.tries)) := by
  induction n with
  | zero =>
    intro t ht hb r hr
    simp only [Toy.experiments] at hr
    subst hr
    exact ⟨ht, hb, rfl, rfl, [], t.tries, .nil _, .inl ⟨rfl, rfl, rfl, ⟨[], [], ⟨rfl, rfl, by simp⟩, by simp⟩,
      fun h => absurd rfl h⟩⟩
  | succ n ih =>
    intro t ht hb r hr
    simp only [Toy.experiments] at hr
    obtain ⟨a1, a2, a3, a4, a5⟩ := experiment_spec hs env g tries t ht hb _ rfl
    generalize t.experiment env s.m g tries = q at hr a1 a2 a3 a4 a5
    obtain ⟨q1, t1⟩ := q
    simp only at a1 a2 a3 a4 a5
    rcases a5 with ⟨k, v, u, k1, k2, k3, k4, k5, k6, k7⟩ | ⟨e, hf, he⟩
    · subst k3
      simp only at hr
      obtain ⟨i1, i2, i3, i4, ks, K', i5, i6⟩ := ih t1 a1 a2 r hr
      rw [a3, k6] at i5
      refine ⟨i1, i2, i3.trans a3, i4.trans a4, k :: ks, K', .cons k1 i5, ?_⟩
      rw [a3, k4, k5] at i6
      rcases i6 with ⟨j1, j2, j3, ⟨ps, us, ⟨l1, l2, l3⟩, j5, j6⟩, j7⟩ | ⟨j1, j2⟩
      · refine .inl ⟨j1, by simp [j2], j3, ⟨v :: ps, u :: us, ⟨by simp [l1], by simp [l2], ?_⟩, by rw [j5]; simp,
          by rw [j6]; simp⟩, ?_⟩
        · intro i k' hk'
          cases i with
          | zero => simp at hk'; subst hk'; exact ⟨v, u, rfl, rfl, k2⟩
          | succ i =>
            simp only [List.getElem?_cons_succ] at hk' ⊢
            exact l3 i k' hk'
        · intro _
          by_cases hk : ks = []
          · subst hk
            cases i5
            simp only [List.length_nil] at j2
            subst j2
            simp only [Toy.experiments] at hr
            subst hr
            simpa using k7
          · exact j7 hk
      · exact .inr ⟨by simp; omega, j2⟩
    · subst he
      simp only at hr
      subst hr
      exact ⟨a1, a2, a3, a4, [], t.tries, .nil _, .inr ⟨by simp, e, rfl, hf⟩⟩

/-- **C74.** For every model built channel by channel before evaluation (`Built`), every earlier use of the study object `t`, every
sequence of random numbers and optimiser behaviours `env`, every `n_exp` and `max_tries`: number the attempts of
this call from `t.tries` on. Attempt `k` is `toyFit … k`: a fresh toy data set (random numbers `k`) of the model as it
is at the start of the call and a fit of a new fitter to it. Then `do_experiments` runs consecutive experiments,
each of which takes the first of its at most `max_tries` attempts that does not end in a `RuntimeError`. It
returns iff `n_exp` experiments succeed; otherwise it raises the exception of the first failing experiment: any
other exception at once (no further attempt), or `RuntimeError` when all `max_tries` attempts ended in a
`RuntimeError`. -/
theorem C74_retries (s : Sys) (hs : s.Built) (env : ToyEnv) (t : Toy) (ht : t.w = s.w) (nExp maxTries : ℕ) :
    ∃ ks K', Consecutive (toyFit env s.m t.minimizerId true s.w) maxTries t.tries ks K' ∧
      K' ≤ t.tries + ks.length * maxTries ∧
      (((t.doExperiments env s.m nExp maxTries).1 = .ok () ∧ ks.length = nExp ∧
          (t.doExperiments env s.m nExp maxTries).2.tries = K') ∨
       (ks.length < nExp ∧ ∃ e, (t.doExperiments env s.m nExp maxTries).1 = .error e ∧
          FailsWith (toyFit env s.m t.minimizerId true s.w) maxTries K' e
            (t.doExperiments env s.m nExp maxTries).2.tries)) := by
  have hinv : ToyInv s.w t.resetState.w := ⟨by show SameButData s.w t.w; rw [ht]; exact SameButData.refl _, by
    show Coherent t.w; rw [ht]; exact hs.coherent⟩
  have hb : Sys.Built ⟨t.resetState.w, s.m⟩ := by show Sys.Built ⟨t.w, s.m⟩; rw [ht]; exact hs
  obtain ⟨-, -, -, -, ks, K', h5, h6⟩ := experiments_spec hs env true maxTries nExp t.resetState hinv hb _ rfl
  unfold Toy.doExperiments
  refine ⟨ks, K', h5, (Consecutive.sorted h5).2.1, ?_⟩
  generalize t.resetState.experiments env s.m true maxTries nExp = q at h6 ⊢
  obtain ⟨q1, t1⟩ := q
  rcases h6 with ⟨j1, j2, j3, -⟩ | ⟨j1, e, j2, j3⟩
  · simp only at j1; subst j1; exact .inl ⟨rfl, j2, j3⟩
  · simp only at j2; subst j2; exact .inr ⟨j1, e, rfl, j3⟩

/-- **C73.** For every model built channel by channel before evaluation (`Built`), every earlier use of the study object `t`, every
`env`, `n_exp` and `max_tries`: if `do_experiments(n_exp, max_tries)` returns, then `result_parameters` and
`result_uncertainties` have exactly `n_exp` rows, and row `i` holds the fitted values and uncertainties of the
`i`-th of `n_exp` consecutive successful experiments of this very call (so in order, and nothing from earlier
calls). If it raises, both properties raise `RuntimeError`. -/
theorem C73_rows (s : Sys) (hs : s.Built) (env : ToyEnv) (t : Toy) (ht : t.w = s.w) (nExp maxTries : ℕ)
    (t' : Toy) (ht' : t' = (t.doExperiments env s.m nExp maxTries).2) :
    ((t.doExperiments env s.m nExp maxTries).1 = .ok () → ∃ ps us ks K',
      t'.resultParameters = .ok ps ∧ t'.resultUncertainties = .ok us ∧ ps.length = nExp ∧ us.length = nExp ∧
      Consecutive (toyFit env s.m t.minimizerId true s.w) maxTries t.tries ks K' ∧ t'.tries = K' ∧
      Rows (toyFit env s.m t.minimizerId true s.w) ks ps us) ∧
    (∀ e, (t.doExperiments env s.m nExp maxTries).1 = .error e →
      t'.resultParameters = .error .runtimeError ∧ t'.resultUncertainties = .error .runtimeError) := by
  have hinv : ToyInv s.w t.resetState.w := ⟨by show SameButData s.w t.w; rw [ht]; exact SameButData.refl _, by
    show Coherent t.w; rw [ht]; exact hs.coherent⟩
  have hb : Sys.Built ⟨t.resetState.w, s.m⟩ := by show Sys.Built ⟨t.w, s.m⟩; rw [ht]; exact hs
  obtain ⟨-, -, -, h4, ks, K', h5, h6⟩ := experiments_spec hs env true maxTries nExp t.resetState hinv hb _ rfl
  unfold Toy.doExperiments at ht' ⊢
  generalize t.resetState.experiments env s.m true maxTries nExp = q at h4 h6 ht' ⊢
  obtain ⟨q1, t1⟩ := q
  simp only at h4
  rcases h6 with ⟨j1, j2, j3, ⟨ps, us, j4, j5, j6⟩, -⟩ | ⟨j1, e, j2, j3⟩
  · simp only at j1 j3 j5 j6
    subst j1
    simp only at ht'
    subst ht'
    constructor
    · intro _
      refine ⟨ps, us, ks, K', ?_, ?_, by rw [j4.1, j2], by rw [j4.2.1, j2], h5, j3, j4⟩
      · simp [Toy.resultParameters, j5, Toy.resetState]
      · simp [Toy.resultUncertainties, j6, Toy.resetState]
    · intro e he; cases he
  · simp only at j2
    subst j2
    simp only at ht'
    subst ht'
    constructor
    · intro h; cases h
    · intro e' _
      have : t'.fitted = false := h4
      simp [Toy.resultParameters, Toy.resultUncertainties, this]

/-- **C75.** Under the same conditions, whatever the outcome of `do_experiments`: no template, template parameter,
channel setting, process, constraint or old histogram of the model changes; the model is again one that was built before its first
evaluation; and if `n_exp > 0` experiments succeed, the data attached to the channels afterwards are the toy data
set of the last attempt. -/
theorem C75_model (s : Sys) (hs : s.Built) (env : ToyEnv) (t : Toy) (ht : t.w = s.w) (nExp maxTries : ℕ)
    (t' : Toy) (ht' : t' = (t.doExperiments env s.m nExp maxTries).2) :
    SameButData s.w t'.w ∧ Sys.Built ⟨t'.w, s.m⟩ ∧
    ((t.doExperiments env s.m nExp maxTries).1 = .ok () → 0 < nExp →
      ∃ data, s.m.toy s.w (env.draw (t'.tries - 1)) = .ok data ∧ HasData t'.w s.m data) := by
  have hinv : ToyInv s.w t.resetState.w := ⟨by show SameButData s.w t.w; rw [ht]; exact SameButData.refl _, by
    show Coherent t.w; rw [ht]; exact hs.coherent⟩
  have hb : Sys.Built ⟨t.resetState.w, s.m⟩ := by show Sys.Built ⟨t.w, s.m⟩; rw [ht]; exact hs
  obtain ⟨h1, h2, -, -, ks, K', h5, h6⟩ := experiments_spec hs env true maxTries nExp t.resetState hinv hb _ rfl
  unfold Toy.doExperiments at ht' ⊢
  generalize t.resetState.experiments env s.m true maxTries nExp = q at h1 h2 h6 ht' ⊢
  obtain ⟨q1, t1⟩ := q
  simp only at h1 h2
  rcases h6 with ⟨j1, j2, j3, -, j4⟩ | ⟨j1, e, j2, j3⟩
  · simp only at j1 j3 j4
    subst j1
    simp only at ht'
    subst ht'
    refine ⟨h1.same, h2, fun _ hn => ?_⟩
    obtain ⟨data, a, b⟩ := j4 (by intro h; rw [h] at j2; simp at j2; omega)
    refine ⟨data, ?_, b⟩
    simp only
    rw [j3]; exact a
  · simp only at j2
    subst j2
    simp only at ht'
    subst ht'
    exact ⟨h1.same, h2, fun h => by cases h⟩

end

end TF.Props
