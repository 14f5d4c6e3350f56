import Verif.Model.Fitter
import Verif.Props.MinimizerProps
import Verif.Props.MctProps8

set_option linter.unusedSimpArgs false

/-!
# Set-up of a fit and its effect on the templates (C64–C67)
-/

namespace TF.Spec

open Classical

noncomputable section

/-- One configuration call on a `TemplateFitter`. -/
inductive FitOp where
  | fix (pid : ParamId)
  | bound (pid : ParamId) (b : Bounds)
  | fixNui

/-- Perform one configuration call. -/
def fitStep (f : Fitter) : FitOp → Fitter
  | .fix i => f.setFixed i
  | .bound i b => f.setBounds i b
  | .fixNui => f.fixNuiParams

/-- A fitter after a history of configuration calls. -/
def fitRun (id : String) (h : List FitOp) : Fitter := h.foldl fitStep (Fitter.new id)

/-- Parameter `k` was registered as fixed. -/
def FitFixed (names : List String) (h : List FitOp) (k : ℕ) : Prop :=
  ∃ pid, FitOp.fix pid ∈ h ∧ Denotes names pid k

/-- The last bounds registered for parameter `k` are `b`. -/
def FitBounds (names : List String) (h : List FitOp) (k : ℕ) (b : Bounds) : Prop :=
  ∃ pre op post, h = pre ++ op :: post ∧ (∃ pid, op = .bound pid b ∧ Denotes names pid k) ∧
    ∀ o ∈ post, ¬ ∃ pid b', o = .bound pid b' ∧ Denotes names pid k

/-- No bounds were registered for parameter `k`. -/
def FitUnbound (names : List String) (h : List FitOp) (k : ℕ) : Prop :=
  ∀ pid b, FitOp.bound pid b ∈ h → ¬ Denotes names pid k

/-- All bounds for parameter `k` were registered under the same identifier (not once by name and once
by index). -/
def OneId (names : List String) (h : List FitOp) (k : ℕ) : Prop :=
  ∀ p q b c, FitOp.bound p b ∈ h → FitOp.bound q c ∈ h → Denotes names p k → Denotes names q k → p = q

/-- Every identifier used denotes a parameter. -/
def KnownIds (names : List String) (h : List FitOp) : Prop :=
  (∀ pid, FitOp.fix pid ∈ h → ∃ k, Denotes names pid k) ∧
  ∀ pid b, FitOp.bound pid b ∈ h → ∃ k, Denotes names pid k

end

end TF.Spec

namespace TF.Props

open Classical Spec

noncomputable section

theorem fitRun_snoc (id : String) (h : List FitOp) (o : FitOp) :
    fitRun id (h ++ [o]) = fitStep (fitRun id h) o := by simp [fitRun, List.foldl_append]

theorem fitRun_id (id : String) (h : List FitOp) : (fitRun id h).minimizerId = id := by
  induction h using List.reverseRecOn with
  | nil => rfl
  | append_singleton h o ih => rw [fitRun_snoc]; cases o <;> exact ih

theorem fitRun_fixed (id : String) (h : List FitOp) (pid : ParamId) :
    pid ∈ (fitRun id h).fixedParams ↔ FitOp.fix pid ∈ h := by
  induction h using List.reverseRecOn with
  | nil => simp [fitRun, Fitter.new]
  | append_singleton h o ih =>
    rw [fitRun_snoc]
    cases o with
    | fix i => simp [fitStep, Fitter.setFixed, ih]
    | bound i b => simp [fitStep, Fitter.setBounds, ih]
    | fixNui => simp [fitStep, Fitter.fixNuiParams, ih]

theorem dictSet_nodup {κ ν : Type} [DecidableEq κ] (d : List (κ × ν)) (k : κ) (v : ν)
    (h : (d.map (·.1)).Nodup) : ((dictSet d k v).map (·.1)).Nodup := by
  by_cases hk : k ∈ d.map (·.1)
  · rw [dictSet_keys_old d k v hk]; exact h
  · rw [dictSet_new d k v hk, List.map_append, List.nodup_append]
    exact ⟨h, by simp, by
      intro a ha b hb
      simp only [List.map_cons, List.map_nil, List.mem_singleton] at hb
      rintro rfl
      exact hk (hb ▸ ha)⟩

/-- the dict of bounds: unique keys; an entry is the last bounds registered under its key -/
theorem fitRun_bounds (id : String) (h : List FitOp) :
    ((fitRun id h).boundParams.map (·.1)).Nodup ∧
    ∀ pid b, (pid, b) ∈ (fitRun id h).boundParams ↔
      ∃ pre post, h = pre ++ .bound pid b :: post ∧ ∀ b', FitOp.bound pid b' ∉ post := by
  induction h using List.reverseRecOn with
  | nil => exact ⟨by simp [fitRun, Fitter.new], fun pid b => by simp [fitRun, Fitter.new]⟩
  | append_singleton h o ih =>
    obtain ⟨hn, ih⟩ := ih
    rw [fitRun_snoc]
    have step : ∀ pid b, (∃ pre post, h ++ [o] = pre ++ FitOp.bound pid b :: post ∧
        ∀ b', FitOp.bound pid b' ∉ post) ↔ (o = .bound pid b ∨ ((∀ b', o ≠ .bound pid b') ∧
          ∃ pre post, h = pre ++ FitOp.bound pid b :: post ∧ ∀ b', FitOp.bound pid b' ∉ post)) := by
      intro pid b
      have := last_snoc h o (fun a => a = .bound pid b) (fun a => ∀ b', a ≠ .bound pid b')
      constructor
      · rintro ⟨pre, post, h1, h2⟩
        rcases this.mp ⟨pre, _, post, h1, rfl, fun y hy b' e => h2 b' (e ▸ hy)⟩ with h3 | ⟨h3, pre, a, post, h4, rfl, h5⟩
        · exact .inl h3
        · exact .inr ⟨h3, pre, post, h4, fun b' hb => h5 _ hb b' rfl⟩
      · rintro (h1 | ⟨h1, pre, post, h2, h3⟩)
        · obtain ⟨pre, a, post, h4, rfl, h5⟩ := this.mpr (.inl h1)
          exact ⟨pre, post, h4, fun b' hb => h5 _ hb b' rfl⟩
        · obtain ⟨pre, a, post, h4, rfl, h5⟩ := this.mpr (.inr ⟨h1, pre, _, post, h2, rfl, fun y hy b' e => h3 b' (e ▸ hy)⟩)
          exact ⟨pre, post, h4, fun b' hb => h5 _ hb b' rfl⟩
    cases o with
    | fix i => exact ⟨hn, fun pid b => by rw [step]; simp [fitStep, Fitter.setFixed, ih]⟩
    | fixNui => exact ⟨hn, fun pid b => by rw [step]; simp [fitStep, Fitter.fixNuiParams, ih]⟩
    | bound i c =>
      refine ⟨dictSet_nodup _ _ _ hn, fun pid b => ?_⟩
      rw [step]
      have hn' := dictSet_nodup (fitRun id h).boundParams i c hn
      show (pid, b) ∈ dictSet (fitRun id h).boundParams i c ↔ _
      by_cases hp : pid = i
      · subst hp
        constructor
        · intro hm
          have := dictGet_of_mem hn' hm
          rw [dictGet_set] at this
          exact .inl (by rw [Option.some.inj this])
        · rintro (h1 | ⟨h1, _⟩)
          · injection h1 with _ h1
            subst h1
            exact dictGet_mem (dictGet_set _ _ _)
          · exact absurd rfl (h1 c)
      · constructor
        · intro hm
          have := dictGet_of_mem hn' hm
          rw [dictGet_set_ne _ _ _ _ hp] at this
          exact .inr ⟨by intro b' e; injection e with e _; exact hp e.symm, (ih pid b).mp (dictGet_mem this)⟩
        · rintro (h1 | ⟨_, h1⟩)
          · injection h1 with h1 _; exact absurd h1.symm hp
          · have := dictGet_of_mem hn ((ih pid b).mpr h1)
            exact dictGet_mem (by rw [dictGet_set_ne _ _ _ _ hp]; exact this)

/-! ### the minimizer handed to the fit -/

theorem fixAll_run {kd : MinKind} {names : List String} (l : List ParamId) : ∀ h : List MinOp,
    (∀ pid ∈ l, ∃ k, Denotes names pid k) →
    fixAll (minRun kd names h) l = (.ok (), minRun kd names (h ++ l.map MinOp.fix)) := by
  induction l with
  | nil => intro h _; simp [fixAll]
  | cons p l ih =>
    intro h hl
    obtain ⟨k, hk⟩ := hl p (by simp)
    have h1 := C58_known kd names h p k hk
    have h2 : minStep (minRun kd names h) (.fix p) = (.ok (), minRun kd names (h ++ [.fix p])) := by
      rw [minRun_snoc, ← h1]
    have h3 : (minRun kd names h).setFixed p = (.ok (), minRun kd names (h ++ [.fix p])) := h2
    unfold fixAll
    rw [h3]
    simp only
    rw [ih _ fun q hq => hl q (by simp [hq])]
    simp

theorem fixAll_unknown {kd : MinKind} {names : List String} (l : List ParamId) : ∀ h : List MinOp,
    (∃ pid ∈ l, ∀ k, ¬ Denotes names pid k) → (fixAll (minRun kd names h) l).1 = .error .valueError := by
  induction l with
  | nil => rintro h ⟨_, h, _⟩; simp at h
  | cons p l ih =>
    rintro h ⟨q, hq, hd⟩
    by_cases hp : ∃ k, Denotes names p k
    · obtain ⟨k, hk⟩ := hp
      have h3 : (minRun kd names h).setFixed p = (.ok (), minRun kd names (h ++ [.fix p])) := by
        rw [minRun_snoc, ← C58_known kd names h p k hk]; rfl
      unfold fixAll
      rw [h3]
      simp only
      refine ih _ ⟨q, ?_, hd⟩
      rcases List.mem_cons.mp hq with rfl | hq
      · exact absurd hk (hd k)
      · exact hq
    · push Not at hp
      have h3 : (minRun kd names h).setFixed p = (.error .valueError, minRun kd names h) :=
        C58_unknown kd names h p hp
      unfold fixAll
      rw [h3]

theorem boundAll_run {kd : MinKind} {names : List String} (l : List (ParamId × Bounds)) : ∀ h : List MinOp,
    (∀ x ∈ l, ∃ k, Denotes names x.1 k) →
    boundAll (minRun kd names h) l = (.ok (), minRun kd names (h ++ l.map fun x => MinOp.bound x.1 x.2)) := by
  induction l with
  | nil => intro h _; simp [boundAll]
  | cons p l ih =>
    intro h hl
    obtain ⟨k, hk⟩ := hl p (by simp)
    have h3 : (minRun kd names h).setBounds p.1 p.2 = (.ok (), minRun kd names (h ++ [.bound p.1 p.2])) := by
      rw [minRun_snoc]
      have hw := minRun_wf kd names h
      simp [minStep, Minimizer.setBounds, hw.hn, (denotes_iff _ _ _).mp hk]
    unfold boundAll
    rw [h3]
    simp only
    rw [ih _ fun q hq => hl q (by simp [hq])]
    simp

theorem boundAll_unknown {kd : MinKind} {names : List String} (l : List (ParamId × Bounds)) : ∀ h : List MinOp,
    (∃ x ∈ l, ∀ k, ¬ Denotes names x.1 k) → (boundAll (minRun kd names h) l).1 = .error .valueError := by
  induction l with
  | nil => rintro h ⟨_, h, _⟩; simp at h
  | cons p l ih =>
    rintro h ⟨q, hq, hd⟩
    by_cases hp : ∃ k, Denotes names p.1 k
    · obtain ⟨k, hk⟩ := hp
      have h3 : (minRun kd names h).setBounds p.1 p.2 = (.ok (), minRun kd names (h ++ [.bound p.1 p.2])) := by
        rw [minRun_snoc]
        have hw := minRun_wf kd names h
        simp [minStep, Minimizer.setBounds, hw.hn, (denotes_iff _ _ _).mp hk]
      unfold boundAll
      rw [h3]
      simp only
      refine ih _ ⟨q, ?_, hd⟩
      rcases List.mem_cons.mp hq with rfl | hq
      · exact absurd hk (hd k)
      · exact hq
    · push Not at hp
      have h3 : (minRun kd names h).setBounds p.1 p.2 = (.error .valueError, minRun kd names h) :=
        C59_unknown kd names h p.1 p.2 hp
      unfold boundAll
      rw [h3]

/-- the calls `do_fit` makes on the minimizer -/
def setupOps (f : Fitter) (nproc nnui : ℕ) (fixNui : Bool) (lim : Option Bounds) : List MinOp :=
  (if fixNui then (nuiIds nproc nnui).map MinOp.fix else []) ++
  (match lim with | none => [] | some b => (nuiIds nproc nnui).map fun i => MinOp.bound i b) ++
  f.fixedParams.map MinOp.fix ++ f.boundParams.map fun x => MinOp.bound x.1 x.2

theorem nuiIds_denotes {names : List String} {nproc nnui : ℕ} (hn : nproc + nnui = names.length)
    (pid : ParamId) (h : pid ∈ nuiIds nproc nnui) : ∃ k, Denotes names pid k := by
  unfold nuiIds at h
  obtain ⟨k, hk, rfl⟩ := List.mem_map.mp h
  exact ⟨nproc + k, rfl, by have := List.mem_range.mp hk; omega⟩

theorem mem_nuiIds {names : List String} {nproc nnui : ℕ} (hn : nproc + nnui = names.length) (k : ℕ)
    (hk : k < names.length) :
    (∃ pid ∈ nuiIds nproc nnui, Denotes names pid k) ↔ nproc ≤ k := by
  constructor
  · rintro ⟨pid, hp, hd⟩
    unfold nuiIds at hp
    obtain ⟨j, _, rfl⟩ := List.mem_map.mp hp
    have : ((nproc + j : ℕ) : ℤ) = (k : ℤ) := hd.1
    omega
  · intro h
    refine ⟨.int ((nproc + (k - nproc) : ℕ) : ℤ), List.mem_map.mpr ⟨k - nproc, List.mem_range.mpr (by omega), rfl⟩, ?_, hk⟩
    have : nproc + (k - nproc) = k := by omega
    rw [this]

theorem setup_eq {kd : MinKind} {names : List String} {id : String} {h : List FitOp} {nproc nnui : ℕ}
    (hn : nproc + nnui = names.length) (hk : KnownIds names h) (fixNui : Bool) (lim : Option Bounds) :
    (fitRun id h).setup kd names nproc nnui fixNui lim =
      .ok (minRun kd names (setupOps (fitRun id h) nproc nnui fixNui lim)) := by
  have e0 : Minimizer.new kd names = minRun kd names [] := rfl
  have h1 : fixAll (minRun kd names []) (if fixNui then nuiIds nproc nnui else []) =
      (.ok (), minRun kd names ([] ++ (if fixNui then nuiIds nproc nnui else []).map MinOp.fix)) := by
    refine fixAll_run _ _ fun pid hp => ?_
    split at hp
    · exact nuiIds_denotes hn pid hp
    · simp at hp
  have h2 : ∀ hh, boundAll (minRun kd names hh) (nuiBounds nproc nnui lim) =
      (.ok (), minRun kd names (hh ++ (nuiBounds nproc nnui lim).map fun x => MinOp.bound x.1 x.2)) := by
    intro hh
    refine boundAll_run _ _ fun x hx => ?_
    cases lim with
    | none => simp [nuiBounds] at hx
    | some b =>
      obtain ⟨i, hi, rfl⟩ := List.mem_map.mp hx
      exact nuiIds_denotes hn i hi
  have h3 : ∀ hh, fixAll (minRun kd names hh) (fitRun id h).fixedParams =
      (.ok (), minRun kd names (hh ++ (fitRun id h).fixedParams.map MinOp.fix)) :=
    fun hh => fixAll_run _ _ fun pid hp => hk.1 pid ((fitRun_fixed id h pid).mp hp)
  have h4 : ∀ hh, boundAll (minRun kd names hh) (fitRun id h).boundParams =
      (.ok (), minRun kd names (hh ++ (fitRun id h).boundParams.map fun x => MinOp.bound x.1 x.2)) := by
    refine fun hh => boundAll_run _ _ fun x hx => ?_
    obtain ⟨pre, post, he, _⟩ := ((fitRun_bounds id h).2 x.1 x.2).mp hx
    exact hk.2 x.1 x.2 (by rw [he]; simp)
  unfold Fitter.setup
  rw [e0, h1]
  simp only
  rw [h2]
  simp only
  rw [h3]
  simp only
  rw [h4]
  simp only
  congr 2
  unfold setupOps
  cases fixNui <;> cases lim <;> simp [Function.comp_def, nuiBounds]

theorem setup_unknown {kd : MinKind} {names : List String} {id : String} {h : List FitOp} {nproc nnui : ℕ}
    (hn : nproc + nnui = names.length) (hk : ¬ KnownIds names h) (fixNui : Bool) (lim : Option Bounds) :
    (fitRun id h).setup kd names nproc nnui fixNui lim = .error .valueError := by
  have e0 : Minimizer.new kd names = minRun kd names [] := rfl
  have h1 : fixAll (minRun kd names []) (if fixNui then nuiIds nproc nnui else []) =
      (.ok (), minRun kd names ([] ++ (if fixNui then nuiIds nproc nnui else []).map MinOp.fix)) := by
    refine fixAll_run _ _ fun pid hp => ?_
    split at hp
    · exact nuiIds_denotes hn pid hp
    · simp at hp
  have h2 : ∀ hh, boundAll (minRun kd names hh) (nuiBounds nproc nnui lim) =
      (.ok (), minRun kd names (hh ++ (nuiBounds nproc nnui lim).map fun x => MinOp.bound x.1 x.2)) := by
    intro hh
    refine boundAll_run _ _ fun x hx => ?_
    cases lim with
    | none => simp [nuiBounds] at hx
    | some b =>
      obtain ⟨i, hi, rfl⟩ := List.mem_map.mp hx
      exact nuiIds_denotes hn i hi
  unfold Fitter.setup
  rw [e0, h1]
  simp only
  rw [h2]
  simp only
  by_cases hf : ∀ pid, FitOp.fix pid ∈ h → ∃ k, Denotes names pid k
  · have h3 : ∀ hh, fixAll (minRun kd names hh) (fitRun id h).fixedParams =
        (.ok (), minRun kd names (hh ++ (fitRun id h).fixedParams.map MinOp.fix)) :=
      fun hh => fixAll_run _ _ fun pid hp => hf pid ((fitRun_fixed id h pid).mp hp)
    rw [h3]
    simp only
    have hb : ∃ pid b, FitOp.bound pid b ∈ h ∧ ∀ k, ¬ Denotes names pid k := by
      by_contra hc
      push Not at hc
      exact hk ⟨hf, hc⟩
    obtain ⟨pid, b, hm, hd⟩ := hb
    -- the last bounds registered under this identifier
    have : ∃ b', (pid, b') ∈ (fitRun id h).boundParams := by
      clear hf h3 hk
      induction h using List.reverseRecOn with
      | nil => simp at hm
      | append_singleton h o ih =>
        rw [fitRun_snoc]
        by_cases ho : ∃ c, o = .bound pid c
        · obtain ⟨c, rfl⟩ := ho
          exact ⟨c, dictGet_mem (dictGet_set _ _ _)⟩
        · have hm' : FitOp.bound pid b ∈ h := by
            rcases List.mem_append.mp hm with hm | hm
            · exact hm
            · exact absurd ⟨b, (List.mem_singleton.mp hm).symm⟩ ho
          obtain ⟨b', hb'⟩ := ih hm'
          cases o with
          | fix i => exact ⟨b', hb'⟩
          | fixNui => exact ⟨b', hb'⟩
          | bound i c =>
            have hne : pid ≠ i := by rintro rfl; exact ho ⟨c, rfl⟩
            refine ⟨b', dictGet_mem ?_⟩
            show dictGet (dictSet _ _ _) _ = _
            rw [dictGet_set_ne _ _ _ _ hne]
            exact dictGet_of_mem (fitRun_bounds id h).1 hb'
    obtain ⟨b', hb'⟩ := this
    have hu := boundAll_unknown (kd := kd) (names := names) (fitRun id h).boundParams
      ([] ++ (if fixNui then nuiIds nproc nnui else []).map MinOp.fix ++ (nuiBounds nproc nnui lim).map (fun x => MinOp.bound x.1 x.2) ++
          (fitRun id h).fixedParams.map MinOp.fix) ⟨(pid, b'), hb', hd⟩
    generalize boundAll _ _ = r at hu ⊢
    obtain ⟨r1, r2⟩ := r
    simp only at hu
    subst hu
    rfl
  · push Not at hf
    obtain ⟨pid, hm, hd⟩ := hf
    have hu := fixAll_unknown (kd := kd) (names := names) (fitRun id h).fixedParams
      ([] ++ (if fixNui then nuiIds nproc nnui else []).map MinOp.fix ++ (nuiBounds nproc nnui lim).map (fun x => MinOp.bound x.1 x.2))
      ⟨pid, (fitRun_fixed id h pid).mpr hm, hd⟩
    generalize fixAll _ _ = r at hu ⊢
    obtain ⟨r1, r2⟩ := r
    simp only at hu
    subst hu
    rfl

theorem fixedIn_noRelease {names : List String} {h : List MinOp} (hr : MinOp.release ∉ h) (k : ℕ) :
    FixedIn names h k ↔ ∃ pid, MinOp.fix pid ∈ h ∧ Denotes names pid k := by
  constructor
  · rintro ⟨pre, op, post, rfl, ⟨pid, rfl, hd⟩, _⟩
    exact ⟨pid, by simp, hd⟩
  · rintro ⟨pid, hm, hd⟩
    obtain ⟨pre, post, rfl⟩ := List.append_of_mem hm
    exact ⟨pre, _, post, rfl, ⟨pid, rfl, hd⟩, fun o ho e => hr (by subst e; simp [ho])⟩

theorem neverBound_append {names : List String} (a b : List MinOp) (k : ℕ) :
    NeverBound names (a ++ b) k ↔ NeverBound names a k ∧ NeverBound names b k := by
  unfold NeverBound
  constructor
  · intro h; exact ⟨fun o ho => h o (by simp [ho]), fun o ho => h o (by simp [ho])⟩
  · rintro ⟨h1, h2⟩ o ho
    rcases List.mem_append.mp ho with ho | ho
    · exact h1 o ho
    · exact h2 o ho

theorem lastBounds_append_right {names : List String} (a b : List MinOp) (k : ℕ) (c : Bounds)
    (h : LastBounds names b k c) : LastBounds names (a ++ b) k c := by
  obtain ⟨pre, op, post, rfl, h1, h2⟩ := h
  exact ⟨a ++ pre, op, post, by simp, h1, h2⟩

theorem lastBounds_append_left {names : List String} (a b : List MinOp) (k : ℕ) (c : Bounds)
    (h : LastBounds names a k c) (hb : NeverBound names b k) : LastBounds names (a ++ b) k c := by
  obtain ⟨pre, op, post, rfl, h1, h2⟩ := h
  refine ⟨pre, op, post ++ b, by simp, h1, fun o ho => ?_⟩
  rcases List.mem_append.mp ho with ho | ho
  · exact h2 o ho
  · exact hb o ho

theorem release_notin_setupOps (f : Fitter) (np nn : ℕ) (fx : Bool) (lim : Option Bounds) :
    MinOp.release ∉ setupOps f np nn fx lim := by
  unfold setupOps
  cases fx <;> cases lim <;> simp

/-- which parameters `do_fit` fixes -/
theorem setup_fixed {names : List String} {id : String} {h : List FitOp} {nproc nnui : ℕ}
    (hn : nproc + nnui = names.length) (fixNui : Bool) (lim : Option Bounds) (k : ℕ) (hk : k < names.length) :
    FixedIn names (setupOps (fitRun id h) nproc nnui fixNui lim) k ↔
      FitFixed names h k ∨ (fixNui = true ∧ nproc ≤ k) := by
  rw [fixedIn_noRelease (release_notin_setupOps _ _ _ _ _)]
  have hm : ∀ pid, MinOp.fix pid ∈ setupOps (fitRun id h) nproc nnui fixNui lim ↔
      FitOp.fix pid ∈ h ∨ (fixNui = true ∧ pid ∈ nuiIds nproc nnui) := by
    intro pid
    unfold setupOps
    rw [← fitRun_fixed id h]
    cases fixNui <;> cases lim <;> simp [or_comm]
  constructor
  · rintro ⟨pid, hp, hd⟩
    rcases (hm pid).mp hp with h1 | ⟨h1, h2⟩
    · exact .inl ⟨pid, h1, hd⟩
    · exact .inr ⟨h1, (mem_nuiIds hn k hk).mp ⟨pid, h2, hd⟩⟩
  · rintro (⟨pid, h1, hd⟩ | ⟨h1, h2⟩)
    · exact ⟨pid, (hm pid).mpr (.inl h1), hd⟩
    · obtain ⟨pid, hp, hd⟩ := (mem_nuiIds hn k hk).mpr h2
      exact ⟨pid, (hm pid).mpr (.inr ⟨h1, hp⟩), hd⟩

theorem fitBounds_mem {names : List String} {id : String} {h : List FitOp} {k : ℕ} {b : Bounds}
    (ho : OneId names h k) (hb : FitBounds names h k b) :
    ∃ pid, (pid, b) ∈ (fitRun id h).boundParams ∧ Denotes names pid k := by
  obtain ⟨pre, op, post, he, ⟨pid, rfl, hd⟩, hp⟩ := hb
  refine ⟨pid, ((fitRun_bounds id h).2 pid b).mpr ⟨pre, post, he, fun b' hb' => ?_⟩, hd⟩
  exact hp _ hb' ⟨pid, b', rfl, hd⟩

theorem userBounds_last {names : List String} {id : String} {h : List FitOp} {k : ℕ} {b : Bounds}
    (ho : OneId names h k) (hb : FitBounds names h k b) :
    LastBounds names ((fitRun id h).boundParams.map fun x => MinOp.bound x.1 x.2) k b := by
  obtain ⟨pid, hm, hd⟩ := fitBounds_mem (id := id) ho hb
  obtain ⟨pre, post, he⟩ := List.append_of_mem hm
  refine ⟨pre.map fun x => .bound x.1 x.2, _, post.map fun x => .bound x.1 x.2, by rw [he]; simp,
    ⟨pid, rfl, hd⟩, ?_⟩
  rintro o ho' ⟨q, c, rfl, hq⟩
  obtain ⟨x, hx, hxe⟩ := List.mem_map.mp ho'
  injection hxe with h1 h2
  have hx2 : (q, c) ∈ (fitRun id h).boundParams := by
    rw [he, ← h1, ← h2]; simp [hx]
  obtain ⟨p1, p2, e1, _⟩ := ((fitRun_bounds id h).2 q c).mp hx2
  obtain ⟨p3, p4, e2, _⟩ := ((fitRun_bounds id h).2 pid b).mp hm
  have hpq : pid = q := ho pid q b c (by rw [e2]; simp) (by rw [e1]; simp) hd hq
  have hn := (fitRun_bounds id h).1
  rw [he, List.map_append, List.map_cons, List.nodup_append] at hn
  have := (List.nodup_cons.mp hn.2.1).1
  exact this (List.mem_map.mpr ⟨x, hx, by rw [h1, hpq]⟩)

theorem userBounds_never {names : List String} {id : String} {h : List FitOp} {k : ℕ}
    (hu : FitUnbound names h k) :
    NeverBound names ((fitRun id h).boundParams.map fun x => MinOp.bound x.1 x.2) k := by
  rintro o ho ⟨q, c, rfl, hq⟩
  obtain ⟨x, hx, hxe⟩ := List.mem_map.mp ho
  injection hxe with h1 h2
  obtain ⟨p1, p2, e1, _⟩ := ((fitRun_bounds id h).2 x.1 x.2).mp hx
  exact hu x.1 x.2 (by rw [e1]; simp) (h1 ▸ hq)

/-- which bounds `do_fit` sets -/
theorem setup_bounds {kd : MinKind} {names : List String} {id : String} {h : List FitOp} {nproc nnui : ℕ}
    (hn : nproc + nnui = names.length) (fixNui : Bool) (lim : Option Bounds) (k : ℕ) (hk : k < names.length) :
    (∀ b, OneId names h k → FitBounds names h k b →
      (minRun kd names (setupOps (fitRun id h) nproc nnui fixNui lim)).bounds[k]? = some b) ∧
    (FitUnbound names h k →
      (minRun kd names (setupOps (fitRun id h) nproc nnui fixNui lim)).bounds[k]? =
        some (if nproc ≤ k then lim.getD (none, none) else (none, none))) := by
  have hF : ∀ l : List ParamId, NeverBound names (l.map MinOp.fix) k := by
    rintro l o ho ⟨q, c, rfl, _⟩
    simp at ho
  constructor
  · intro b ho hb
    refine ((C59_bounds kd names _ k hk b (fun _ => .ok 0) []).1).mpr (.inl ?_)
    exact lastBounds_append_right _ _ _ _ (userBounds_last ho hb)
  · intro hu
    refine ((C59_bounds kd names _ k hk _ (fun _ => .ok 0) []).1).mpr ?_
    have hU := userBounds_never (id := id) hu
    have hF1 : NeverBound names (if fixNui then (nuiIds nproc nnui).map MinOp.fix else []) k := by
      cases fixNui
      · intro o ho; simp at ho
      · exact hF _
    cases lim with
    | none =>
      right
      refine ⟨?_, by simp⟩
      unfold setupOps
      rw [neverBound_append, neverBound_append, neverBound_append]
      exact ⟨⟨⟨hF1, by intro o ho; simp at ho⟩, hF _⟩, hU⟩
    | some b =>
      by_cases hkp : nproc ≤ k
      · left
        rw [if_pos hkp]
        unfold setupOps
        refine lastBounds_append_left _ _ _ _ (lastBounds_append_left _ _ _ _ (lastBounds_append_right _ _ _ _ ?_) (hF _)) hU
        simp only [Option.getD_some]
        obtain ⟨pid, hp, hd⟩ := (mem_nuiIds hn k hk).mpr hkp
        obtain ⟨pre, post, he⟩ := List.append_of_mem hp
        refine ⟨pre.map fun i => .bound i b, _, post.map fun i => .bound i b, by rw [he]; simp,
          ⟨pid, rfl, hd⟩, ?_⟩
        rintro o ho ⟨q, c, rfl, hq⟩
        obtain ⟨x, hx, hxe⟩ := List.mem_map.mp ho
        injection hxe with h1 h2
        subst h1
        have hnd : (nuiIds nproc nnui).Nodup := by
          unfold nuiIds
          refine List.nodup_range.map ?_
          intro a c hac
          have : ((nproc + a : ℕ) : ℤ) = ((nproc + c : ℕ) : ℤ) := by injection hac
          omega
        rw [he, List.nodup_append] at hnd
        have hxm : x ∈ nuiIds nproc nnui := by rw [he]; simp [hx]
        have hpx : pid = x := by
          unfold nuiIds at hp hxm
          obtain ⟨a, _, rfl⟩ := List.mem_map.mp hp
          obtain ⟨c', _, rfl⟩ := List.mem_map.mp hxm
          have e1 : ((nproc + a : ℕ) : ℤ) = k := hd.1
          have e2 : ((nproc + c' : ℕ) : ℤ) = k := hq.1
          rw [e1, e2]
        exact (List.nodup_cons.mp hnd.2.1).1 (hpx ▸ hx)
      · right
        rw [if_neg hkp]
        refine ⟨?_, rfl⟩
        unfold setupOps
        rw [neverBound_append, neverBound_append, neverBound_append]
        refine ⟨⟨⟨hF1, ?_⟩, hF _⟩, hU⟩
        rintro o ho ⟨q, c, rfl, hq⟩
        obtain ⟨x, hx, hxe⟩ := List.mem_map.mp ho
        injection hxe with h1 h2
        subst h1
        exact hkp ((mem_nuiIds hn k hk).mp ⟨x, hx, hq⟩)

end

end TF.Props
