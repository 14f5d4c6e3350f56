import Verif.Model.Minimizer
import Verif.Lemmas.TmplLemmas
import Verif.Lemmas.TmplCovLemmas
import Verif.Props.UtilityProps

set_option linter.unusedSimpArgs false

/-!
# Parameters and minimizers (C57–C63)
-/

namespace TF.Spec

open Classical

noncomputable section

/-- `pid` identifies parameter number `k`: by its index, or by its name (the first one of that
name). -/
def Denotes (names : List String) (pid : ParamId) (k : ℕ) : Prop :=
  match pid with
  | .str s => names[k]? = some s ∧ ∀ j < k, names[j]? ≠ some s
  | .int i => i = k ∧ k < names.length
  | .other => False

/-- One call on a minimizer or on its `Parameters` object, with every possible behaviour of the
external optimiser. -/
inductive MinOp where
  | fix (pid : ParamId)
  | release
  | bound (pid : ParamId) (b : Bounds)
  | minimize (o : Optim) (fcn : Vec → Except Err Fl) (x0 : Vec) (getHesse : Bool)
  | setValues (v : Vec)
  | setErrors (v : Vec)
  | setCov (m : Mat)
  | setCorr (m : Mat)

/-- Perform one call. -/
def minStep (z : Minimizer) : MinOp → Except Err Unit × Minimizer
  | .fix i => z.setFixed i
  | .release => (.ok (), z.release)
  | .bound i b => z.setBounds i b
  | .minimize o f x g =>
    match z.minimize o f x g with
    | (.ok _, z1) => (.ok (), z1)
    | (.error e, z1) => (.error e, z1)
  | .setValues v =>
    match z.params.setValues v with
    | .ok p => (.ok (), { z with params := p })
    | .error e => (.error e, z)
  | .setErrors v =>
    match z.params.setErrors v with
    | .ok p => (.ok (), { z with params := p })
    | .error e => (.error e, z)
  | .setCov m => (.ok (), { z with params := z.params.setCov m })
  | .setCorr m => (.ok (), { z with params := z.params.setCorr m })

/-- A whole history of calls on a new minimizer; raised exceptions are caught by the caller. -/
def minRun (k : MinKind) (names : List String) (h : List MinOp) : Minimizer :=
  h.foldl (fun z op => (minStep z op).2) (Minimizer.new k names)

/-- In history `h`, parameter `k` was fixed and no release came after that. -/
def FixedIn (names : List String) (h : List MinOp) (k : ℕ) : Prop :=
  ∃ pre op post, h = pre ++ op :: post ∧ (∃ pid, op = .fix pid ∧ Denotes names pid k) ∧
    ∀ o ∈ post, o ≠ .release

/-- In history `h`, the last bounds set for parameter `k` are `b`. -/
def LastBounds (names : List String) (h : List MinOp) (k : ℕ) (b : Bounds) : Prop :=
  ∃ pre op post, h = pre ++ op :: post ∧ (∃ pid, op = .bound pid b ∧ Denotes names pid k) ∧
    ∀ o ∈ post, ¬ ∃ pid b', o = .bound pid b' ∧ Denotes names pid k

/-- In history `h`, no bounds were set for parameter `k`. -/
def NeverBound (names : List String) (h : List MinOp) (k : ℕ) : Prop :=
  ∀ o ∈ h, ¬ ∃ pid b, o = .bound pid b ∧ Denotes names pid k

/-- All equality constraints handed to scipy are satisfied at `x`. -/
def Feasible (c : ScipyCall) (x : Vec) : Prop := ∀ g ∈ c.constraints, g x = 0

end

end TF.Spec

namespace TF.Props

open Classical Spec

noncomputable section

theorem denotes_iff (names : List String) (pid : ParamId) (k : ℕ) :
    Denotes names pid k ↔ idToIndex names pid = .ok k := by
  cases pid with
  | str s => rw [C12_name]; rfl
  | int i =>
    rw [C12_int]
    constructor
    · rintro ⟨h1, h2⟩; exact ⟨by omega, by omega, h1⟩
    · rintro ⟨h1, h2, h3⟩; exact ⟨h3, by omega⟩
  | other => simp [Denotes, idToIndex]

theorem denotes_lt {names : List String} {pid : ParamId} {k : ℕ} (h : Denotes names pid k) :
    k < names.length := by
  cases pid with
  | str s => exact (List.getElem?_eq_some_iff.mp h.1).1
  | int i => exact h.2
  | other => exact h.elim

theorem not_denotes {names : List String} {pid : ParamId} (h : ∀ k, ¬ Denotes names pid k) :
    idToIndex names pid = .error .valueError :=
  C12_errors names pid fun k hk => h k ((denotes_iff _ _ _).mpr hk)

theorem last_snoc {α : Type} (h : List α) (x : α) (P Q : α → Prop) :
    (∃ pre a post, h ++ [x] = pre ++ a :: post ∧ P a ∧ ∀ y ∈ post, Q y) ↔
      P x ∨ (Q x ∧ ∃ pre a post, h = pre ++ a :: post ∧ P a ∧ ∀ y ∈ post, Q y) := by
  constructor
  · rintro ⟨pre, a, post, he, ha, hq⟩
    rcases List.eq_nil_or_concat post with rfl | ⟨post', y, rfl⟩
    · obtain ⟨_, h2⟩ := List.append_inj' he rfl
      have : x = a := by simpa using h2
      exact .inl (this ▸ ha)
    · have he' : h ++ [x] = (pre ++ a :: post') ++ [y] := by simp [he]
      obtain ⟨h1, h2⟩ := List.append_inj' he' rfl
      have hxy : x = y := by simpa using h2
      exact .inr ⟨hxy ▸ hq y (by simp), pre, a, post', h1, ha, fun z hz => hq z (by simp [hz])⟩
  · rintro (hx | ⟨hx, pre, a, post, rfl, ha, hq⟩)
    · exact ⟨h, x, [], rfl, hx, by simp⟩
    · refine ⟨pre, a, post ++ [x], by simp, ha, ?_⟩
      intro y hy
      rcases List.mem_append.mp hy with h | h
      · exact hq y h
      · rw [List.mem_singleton.mp h]; exact hx

theorem minRun_snoc (k : MinKind) (names : List String) (h : List MinOp) (op : MinOp) :
    minRun k names (h ++ [op]) = (minStep (minRun k names h) op).2 := by
  simp [minRun, List.foldl_append]

/-- everything `minimizeScipy` can do -/
theorem scipy_cases (o : Optim) (z : Minimizer) (f : Vec → Except Err Fl) (x : Vec) (g : Bool) :
    (∃ e, o.scipy (z.scipyCall f x) = .error e ∧ z.minimizeScipy o f x g = (.error e, z)) ∨
    ∃ r, o.scipy (z.scipyCall f x) = .ok r ∧
      ((r.success = false ∧
          z.minimizeScipy o f x g = (.error .runtimeError, { z with success := some false })) ∨
       (r.success = true ∧ r.x.length ≠ z.params.names.length ∧
          z.minimizeScipy o f x g = (.error .valueError, { z with success := some true })) ∨
       (r.success = true ∧ r.x.length = z.params.names.length ∧
          ((g = false ∧ z.minimizeScipy o f x g =
              (.ok ⟨r.fval, { z.params with values := r.x }, true⟩,
                { z with success := some true, params := { z.params with values := r.x }
                         fcnMin := some r.fval })) ∨
           (g = true ∧ ∃ e, (o.hessian r.x = .error e ∨ ∃ H, o.hessian r.x = .ok H ∧ npInv H = .error e) ∧
              z.minimizeScipy o f x g = (.error e,
                { z with success := some true, params := { z.params with values := r.x }
                         fcnMin := some r.fval })) ∨
           (g = true ∧ ∃ H C, o.hessian r.x = .ok H ∧ npInv H = .ok C ∧
              C.diag.length ≠ z.params.names.length ∧
              z.minimizeScipy o f x g = (.error .valueError,
                { z with success := some true
                         params := { z.params with values := r.x, cov := C, corr := cov2corr C }
                         fcnMin := some r.fval })) ∨
           (g = true ∧ ∃ H C, o.hessian r.x = .ok H ∧ npInv H = .ok C ∧
              C.diag.length = z.params.names.length ∧
              z.minimizeScipy o f x g =
                (.ok ⟨r.fval, { z.params with values := r.x, cov := C, corr := cov2corr C
                                              errors := C.diag.map Fl.sqrt }, true⟩,
                  { z with success := some true
                           params := { z.params with values := r.x, cov := C, corr := cov2corr C
                                                     errors := C.diag.map Fl.sqrt }
                           fcnMin := some r.fval }))))) := by
  cases h0 : o.scipy (z.scipyCall f x) with
  | error e => left; exact ⟨e, rfl, by simp [Minimizer.minimizeScipy, h0]⟩
  | ok r =>
    right
    refine ⟨r, rfl, ?_⟩
    cases hs : r.success with
    | false => left; exact ⟨rfl, by simp [Minimizer.minimizeScipy, h0, hs]⟩
    | true =>
      right
      by_cases h1 : r.x.length = z.params.names.length
      · right
        refine ⟨rfl, h1, ?_⟩
        have hv : z.params.setValues r.x = .ok { z.params with values := r.x } := by
          simp [Params.setValues, Params.num, h1]
        cases g with
        | false => left; exact ⟨rfl, by simp [Minimizer.minimizeScipy, h0, hs, hv]⟩
        | true =>
          right
          cases h2 : o.hessian r.x with
          | error e =>
            left; exact ⟨rfl, e, .inl rfl, by simp [Minimizer.minimizeScipy, h0, hs, hv, h2]⟩
          | ok H =>
            cases h3 : npInv H with
            | error e =>
              left
              exact ⟨rfl, e, .inr ⟨H, rfl, h3⟩, by simp [Minimizer.minimizeScipy, h0, hs, hv, h2, h3]⟩
            | ok C =>
              right
              by_cases h4 : C.diag.length = z.params.names.length
              · right
                refine ⟨rfl, H, C, rfl, h3, h4, ?_⟩
                simp [Minimizer.minimizeScipy, h0, hs, hv, h2, h3, Params.setErrors, Params.num, h4]
              · left
                refine ⟨rfl, H, C, rfl, h3, h4, ?_⟩
                simp [Minimizer.minimizeScipy, h0, hs, hv, h2, h3, Params.setErrors, Params.num, h4]
      · left
        refine ⟨rfl, h1, ?_⟩
        have hv : z.params.setValues r.x = .error .valueError := by
          simp [Params.setValues, Params.num, h1]
        simp [Minimizer.minimizeScipy, h0, hs, hv]

/-- everything `minimizeMinuit` can do -/
theorem minuit_cases (o : Optim) (z : Minimizer) (f : Vec → Except Err Fl) (x : Vec) :
    (∃ e, o.minuit (z.minuitCall f x) = .error e ∧ z.minimizeMinuit o f x = (.error e, z)) ∨
    ∃ r, o.minuit (z.minuitCall f x) = .ok r ∧
      ((r.values.length ≠ z.params.names.length ∧
          z.minimizeMinuit o f x = (.error .valueError, { z with fcnMin := some r.fval })) ∨
       (r.values.length = z.params.names.length ∧ r.errors.length ≠ z.params.names.length ∧
          z.minimizeMinuit o f x = (.error .valueError,
            { z with fcnMin := some r.fval, params := { z.params with values := r.values } })) ∨
       (r.values.length = z.params.names.length ∧ r.errors.length = z.params.names.length ∧
          ((∃ e, r.matrix = .error e ∧ z.minimizeMinuit o f x = (.error e,
              { z with fcnMin := some r.fval
                       params := { z.params with values := r.values, errors := r.errors } })) ∨
           (∃ C R, r.matrix = .ok (C, R) ∧ z.minimizeMinuit o f x =
              (.ok ⟨r.fval, { z.params with values := r.values, errors := r.errors, cov := C
                                            corr := R },
                  r.fmin2.isValid && r.fmin2.hasValidParams && r.fmin2.hasCov⟩,
                { z with fcnMin := some r.fval
                         params := { z.params with values := r.values, errors := r.errors, cov := C
                                                   corr := R }
                         success := some
                          (r.fmin2.isValid && r.fmin2.hasValidParams && r.fmin2.hasCov) }))))) := by
  cases h0 : o.minuit (z.minuitCall f x) with
  | error e => left; exact ⟨e, rfl, by simp [Minimizer.minimizeMinuit, h0]⟩
  | ok r =>
    right
    refine ⟨r, rfl, ?_⟩
    by_cases h1 : r.values.length = z.params.names.length
    · right
      by_cases h2 : r.errors.length = z.params.names.length
      · right
        refine ⟨h1, h2, ?_⟩
        cases h3 : r.matrix with
        | error e =>
          left
          exact ⟨e, rfl, by
            simp [Minimizer.minimizeMinuit, h0, Params.setValues, Params.setErrors, Params.num, h1, h2, h3]⟩
        | ok CR =>
          right
          exact ⟨CR.1, CR.2, rfl, by
            simp [Minimizer.minimizeMinuit, h0, Params.setValues, Params.setErrors, Params.num, h1, h2, h3]⟩
      · left
        exact ⟨h1, h2, by
          simp [Minimizer.minimizeMinuit, h0, Params.setValues, Params.setErrors, Params.num, h1, h2]⟩
    · left
      exact ⟨h1, by simp [Minimizer.minimizeMinuit, h0, Params.setValues, Params.num, h1]⟩

/-- what every call preserves: kind, names, and the lengths of the value and error arrays -/
structure MinWF (z : Minimizer) (k : MinKind) (names : List String) : Prop where
  hk : z.kind = k
  hn : z.params.names = names
  hv : z.params.values.length = names.length
  he : z.params.errors.length = names.length

/-- a minimisation touches neither fixings nor bounds nor names, and keeps the array lengths -/
theorem minimize_frame (o : Optim) (z : Minimizer) (f : Vec → Except Err Fl) (x : Vec) (g : Bool)
    (hv : z.params.values.length = z.params.names.length)
    (he : z.params.errors.length = z.params.names.length) (z1 : Minimizer)
    (h1 : z1 = (z.minimize o f x g).2) :
    z1.kind = z.kind ∧ z1.fixedFlags = z.fixedFlags ∧
    z1.fixedIdx = z.fixedIdx ∧ z1.bounds = z.bounds ∧ z1.params.names = z.params.names ∧
    z1.params.values.length = z.params.names.length ∧
    z1.params.errors.length = z.params.names.length := by
  unfold Minimizer.minimize at h1
  cases hk : z.kind with
  | iminuit =>
    rw [hk] at h1
    simp only at h1
    rcases minuit_cases o z f x with ⟨e, _, h⟩ | ⟨r, _, ⟨_, h⟩ | ⟨a, _, h⟩ | ⟨a, b, ⟨e, _, h⟩ | ⟨C, R, _, h⟩⟩⟩ <;>
      rw [h] at h1 <;> subst h1 <;> simp_all
  | scipy =>
    rw [hk] at h1
    simp only at h1
    rcases scipy_cases o z f x g with ⟨e, _, h⟩ | ⟨r, _, ⟨_, h⟩ | ⟨_, _, h⟩ | ⟨_, a, ⟨_, h⟩ | ⟨_, e, _, h⟩ |
        ⟨_, H, C, _, _, b, h⟩ | ⟨_, H, C, _, _, b, h⟩⟩⟩ <;>
      rw [h] at h1 <;> subst h1 <;> simp_all

theorem minStep_wf {z : Minimizer} {k : MinKind} {names : List String} (hz : MinWF z k names)
    (op : MinOp) : MinWF (minStep z op).2 k names := by
  obtain ⟨hk, hn, hv, he⟩ := hz
  cases op with
  | fix pid =>
    simp only [minStep, Minimizer.setFixed]
    split
    · exact ⟨hk, hn, hv, he⟩
    · split <;> exact ⟨hk, hn, hv, he⟩
  | release =>
    simp only [minStep, Minimizer.release]
    split <;> exact ⟨hk, hn, hv, he⟩
  | bound pid b =>
    simp only [minStep, Minimizer.setBounds]
    split <;> exact ⟨hk, hn, hv, he⟩
  | minimize o f x g =>
    have h := minimize_frame o z f x g (by rw [hv, hn]) (by rw [he, hn]) _ rfl
    have h2 : (minStep z (.minimize o f x g)).2 = (z.minimize o f x g).2 := by
      simp only [minStep]; split <;> simp_all
    rw [h2]
    exact ⟨by rw [h.1, hk], by rw [h.2.2.2.2.1, hn], by rw [h.2.2.2.2.2.1, hn],
      by rw [h.2.2.2.2.2.2, hn]⟩
  | setValues v =>
    simp only [minStep, Params.setValues, Params.num]
    by_cases h : v.length = z.params.names.length
    · simp only [h, if_true]; exact ⟨hk, hn, by rw [← hn]; exact h, he⟩
    · simp only [h, if_false]; exact ⟨hk, hn, hv, he⟩
  | setErrors v =>
    simp only [minStep, Params.setErrors, Params.num]
    by_cases h : v.length = z.params.names.length
    · simp only [h, if_true]; exact ⟨hk, hn, hv, by rw [← hn]; exact h⟩
    · simp only [h, if_false]; exact ⟨hk, hn, hv, he⟩
  | setCov m => exact ⟨hk, hn, hv, he⟩
  | setCorr m => exact ⟨hk, hn, hv, he⟩

theorem minRun_wf (k : MinKind) (names : List String) (h : List MinOp) :
    MinWF (minRun k names h) k names := by
  induction h using List.reverseRecOn with
  | nil => exact ⟨rfl, rfl, by simp [minRun, Minimizer.new, Params.new],
      by simp [minRun, Minimizer.new, Params.new]⟩
  | append_singleton h op ih => rw [minRun_snoc]; exact minStep_wf ih op

/-! ## C57 -/

/-- **C57.** Whatever happened to a minimizer and its parameters, there is one value and one error
per name. -/
theorem C57_lengths (k : MinKind) (names : List String) (h : List MinOp) :
    (minRun k names h).params.names = names ∧
    (minRun k names h).params.values.length = names.length ∧
    (minRun k names h).params.errors.length = names.length :=
  let w := minRun_wf k names h
  ⟨w.hn, w.hv, w.he⟩

/-- **C57.** Assigning an array of the wrong length raises `ValueError` and changes nothing;
one of the right length is stored. -/
theorem C57_assign (k : MinKind) (names : List String) (h : List MinOp) (v : Vec) :
    (v.length ≠ names.length →
      minStep (minRun k names h) (.setValues v) = (.error .valueError, minRun k names h) ∧
      minStep (minRun k names h) (.setErrors v) = (.error .valueError, minRun k names h)) ∧
    (v.length = names.length →
      (minStep (minRun k names h) (.setValues v)).1 = .ok () ∧
      (minStep (minRun k names h) (.setValues v)).2.params.values = v ∧
      (minStep (minRun k names h) (.setValues v)).2.params.errors = (minRun k names h).params.errors ∧
      (minStep (minRun k names h) (.setErrors v)).1 = .ok () ∧
      (minStep (minRun k names h) (.setErrors v)).2.params.errors = v ∧
      (minStep (minRun k names h) (.setErrors v)).2.params.values =
        (minRun k names h).params.values) := by
  have w := (minRun_wf k names h).hn
  constructor
  · intro hv
    simp [minStep, Params.setValues, Params.setErrors, Params.num, w, hv]
  · intro hv
    simp [minStep, Params.setValues, Params.setErrors, Params.num, w, hv]

/-- **C57.** Assigning a covariance or correlation matrix stores it, whatever it is, and changes nothing else; assigning
values or errors changes neither matrix. -/
theorem C57_matrices (k : MinKind) (names : List String) (h : List MinOp) (m : Mat) (v : Vec) :
    (let z := minStep (minRun k names h) (.setCov m)
     z.1 = .ok () ∧ z.2.params.cov = m ∧ z.2.params.corr = (minRun k names h).params.corr ∧
     z.2.params.values = (minRun k names h).params.values ∧ z.2.params.errors = (minRun k names h).params.errors) ∧
    (let z := minStep (minRun k names h) (.setCorr m)
     z.1 = .ok () ∧ z.2.params.corr = m ∧ z.2.params.cov = (minRun k names h).params.cov ∧
     z.2.params.values = (minRun k names h).params.values ∧ z.2.params.errors = (minRun k names h).params.errors) ∧
    (let z := minStep (minRun k names h) (.setValues v)
     z.2.params.cov = (minRun k names h).params.cov ∧ z.2.params.corr = (minRun k names h).params.corr) ∧
    (let z := minStep (minRun k names h) (.setErrors v)
     z.2.params.cov = (minRun k names h).params.cov ∧ z.2.params.corr = (minRun k names h).params.corr) := by
  refine ⟨⟨rfl, rfl, rfl, rfl, rfl⟩, ⟨rfl, rfl, rfl, rfl, rfl⟩, ?_, ?_⟩ <;>
  · simp only [minStep, Params.setValues, Params.setErrors]
    split_ifs <;> exact ⟨rfl, rfl⟩

/-- **C57.** Lookup by name and by index agree and return the entry of the parameter meant; an
unknown identifier raises `ValueError`. -/
theorem C57_lookup (k : MinKind) (names : List String) (h : List MinOp) (pid : ParamId) :
    (∀ j, Denotes names pid j → ∃ v e,
      (minRun k names h).params.values[j]? = some v ∧ (minRun k names h).params.errors[j]? = some e ∧
      (minRun k names h).params.getValue pid = .ok v ∧
      (minRun k names h).params.getError pid = .ok e ∧
      (minRun k names h).params.getItem pid = .ok (v, e) ∧
      (minRun k names h).params.getItem (.int j) = .ok (v, e)) ∧
    ((∀ j, ¬ Denotes names pid j) →
      (minRun k names h).params.getValue pid = .error .valueError ∧
      (minRun k names h).params.getError pid = .error .valueError ∧
      (minRun k names h).params.getItem pid = .error .valueError) := by
  obtain ⟨hk, hn, hv, he⟩ := minRun_wf k names h
  constructor
  · intro j hj
    have hlt := denotes_lt hj
    have hi := (denotes_iff _ _ _).mp hj
    have hi2 : idToIndex names (.int j) = .ok j := (denotes_iff _ _ _).mp ⟨rfl, hlt⟩
    refine ⟨(minRun k names h).params.values[j], (minRun k names h).params.errors[j],
      List.getElem?_eq_getElem (by omega), List.getElem?_eq_getElem (by omega), ?_, ?_, ?_, ?_⟩ <;>
      simp [Params.getValue, Params.getError, Params.getItem, hn, hi, hi2,
        List.getElem?_eq_getElem (show j < (minRun k names h).params.values.length by omega),
        List.getElem?_eq_getElem (show j < (minRun k names h).params.errors.length by omega)]
  · intro hj
    have hi := not_denotes hj
    simp [Params.getValue, Params.getError, Params.getItem, hn, hi]

/-- non-vacuity of C57: after a rejected and an accepted assignment `"b"` is read as `5` -/
example : (minRun .iminuit ["a", "b"] [.setValues [.fin 1], .setValues [.fin 4, .fin 5]]).params.getValue
    (.str "b") = .ok (.fin 5) := by
  simp [minRun, minStep, Minimizer.new, Params.new, Params.setValues, Params.num, Params.getValue,
    idToIndex, List.idxOf_cons]

/-! ## C58 -/

theorem fixedIn_snoc (names : List String) (h : List MinOp) (op : MinOp) (k : ℕ) :
    FixedIn names (h ++ [op]) k ↔
      (∃ pid, op = .fix pid ∧ Denotes names pid k) ∨ (op ≠ .release ∧ FixedIn names h k) :=
  last_snoc h op _ _

theorem fixedIn_lt {names : List String} {h : List MinOp} {k : ℕ} (hf : FixedIn names h k) :
    k < names.length := by
  obtain ⟨_, _, _, _, ⟨pid, _, hd⟩, _⟩ := hf
  exact denotes_lt hd

theorem map_range_congr {α : Type} {n : ℕ} {f g : ℕ → α} (h : ∀ i < n, f i = g i) :
    (List.range n).map f = (List.range n).map g :=
  List.map_congr_left fun i hi => h i (List.mem_range.mp hi)

theorem set_map_range {α : Type} (n k : ℕ) (f : ℕ → α) (a : α) :
    ((List.range n).map f).set k a = (List.range n).map fun i => if i = k then a else f i := by
  apply List.ext_getElem (by simp)
  intro i h1 h2
  simp only [List.getElem_set, List.getElem_map, List.getElem_range]
  by_cases h : k = i
  · simp [h]
  · simp [h, Ne.symm h]

theorem map_const_range {α : Type} (l : List String) (a : α) :
    l.map (fun _ => a) = (List.range l.length).map fun _ => a := by
  simp

theorem minimize_step_frame {z : Minimizer} {k : MinKind} {names : List String} (hz : MinWF z k names)
    (o : Optim) (f : Vec → Except Err Fl) (x : Vec) (g : Bool) :
    (minStep z (.minimize o f x g)).2.fixedFlags = z.fixedFlags ∧
    (minStep z (.minimize o f x g)).2.fixedIdx = z.fixedIdx ∧
    (minStep z (.minimize o f x g)).2.bounds = z.bounds := by
  have h := minimize_frame o z f x g (by rw [hz.hv, hz.hn]) (by rw [hz.he, hz.hn]) _ rfl
  have h2 : (minStep z (.minimize o f x g)).2 = (z.minimize o f x g).2 := by
    simp only [minStep]; split <;> simp_all
  rw [h2]
  exact ⟨h.2.1, h.2.2.1, h.2.2.2.1⟩

theorem setValues_step_frame (z : Minimizer) (v : Vec) :
    (minStep z (.setValues v)).2.fixedFlags = z.fixedFlags ∧
    (minStep z (.setValues v)).2.fixedIdx = z.fixedIdx ∧
    (minStep z (.setValues v)).2.bounds = z.bounds := by
  simp only [minStep]; split <;> simp

theorem setErrors_step_frame (z : Minimizer) (v : Vec) :
    (minStep z (.setErrors v)).2.fixedFlags = z.fixedFlags ∧
    (minStep z (.setErrors v)).2.fixedIdx = z.fixedIdx ∧
    (minStep z (.setErrors v)).2.bounds = z.bounds := by
  simp only [minStep]; split <;> simp

theorem flags_eq (names : List String) (h : List MinOp) :
    (minRun .iminuit names h).fixedFlags =
      (List.range names.length).map fun k => decide (FixedIn names h k) := by
  induction h using List.reverseRecOn with
  | nil =>
    have : ∀ k, ¬ FixedIn names [] k := by
      rintro k ⟨pre, op, post, h, _⟩; simp at h
    simp only [this, decide_false]
    simp [minRun, Minimizer.new]
  | append_singleton h op ih =>
    rw [minRun_snoc]
    have hw := minRun_wf .iminuit names h
    have keep : (∀ k, FixedIn names (h ++ [op]) k ↔ FixedIn names h k) →
        (minStep (minRun .iminuit names h) op).2.fixedFlags = (minRun .iminuit names h).fixedFlags →
        (minStep (minRun .iminuit names h) op).2.fixedFlags =
          (List.range names.length).map fun k => decide (FixedIn names (h ++ [op]) k) := by
      intro h1 h2
      rw [h2, ih]
      exact map_range_congr fun k _ => by rw [decide_eq_decide]; exact (h1 k).symm
    cases op with
    | fix pid =>
      by_cases hd : ∃ k, Denotes names pid k
      · obtain ⟨k, hk⟩ := hd
        have hi := (denotes_iff _ _ _).mp hk
        have hs : (minStep (minRun .iminuit names h) (.fix pid)).2.fixedFlags =
            (minRun .iminuit names h).fixedFlags.set k true := by
          simp [minStep, Minimizer.setFixed, hw.hn, hw.hk, hi]
        rw [hs, ih, set_map_range]
        refine map_range_congr fun j _ => ?_
        have : FixedIn names (h ++ [.fix pid]) j ↔ (j = k ∨ FixedIn names h j) := by
          rw [fixedIn_snoc]
          constructor
          · rintro (⟨pid', hp, hd⟩ | ⟨_, hf⟩)
            · left
              injection hp with hp
              subst hp
              have := (denotes_iff _ _ _).mp hd
              rw [hi] at this
              exact (Except.ok.inj this).symm
            · exact .inr hf
          · rintro (rfl | hf)
            · exact .inl ⟨pid, rfl, hk⟩
            · exact .inr ⟨by simp, hf⟩
        by_cases hjk : j = k
        · subst hjk; simp [this]
        · simp [this, hjk]
      · push Not at hd
        have hi := not_denotes hd
        refine keep (fun k => ?_) ?_
        · rw [fixedIn_snoc]
          constructor
          · rintro (⟨pid', hp, hd'⟩ | ⟨_, hf⟩)
            · injection hp with hp; subst hp; exact absurd hd' (hd k)
            · exact hf
          · exact fun hf => .inr ⟨by simp, hf⟩
        · simp [minStep, Minimizer.setFixed, hw.hn, hi]
    | release =>
      have : ∀ k, ¬ FixedIn names (h ++ [.release]) k := by
        intro k; rw [fixedIn_snoc]; simp
      simp only [this, decide_false]
      simp [minStep, Minimizer.release, hw.hk, hw.hn]
    | bound pid b =>
      refine keep (fun k => by rw [fixedIn_snoc]; simp) ?_
      simp only [minStep, Minimizer.setBounds]; split <;> rfl
    | minimize o f x g =>
      exact keep (fun k => by rw [fixedIn_snoc]; simp) (minimize_step_frame hw o f x g).1
    | setValues v => exact keep (fun k => by rw [fixedIn_snoc]; simp) (setValues_step_frame _ v).1
    | setErrors v => exact keep (fun k => by rw [fixedIn_snoc]; simp) (setErrors_step_frame _ v).1
    | setCov m => exact keep (fun k => by rw [fixedIn_snoc]; simp) rfl
    | setCorr m => exact keep (fun k => by rw [fixedIn_snoc]; simp) rfl

/-- **C58 (iminuit).** After any history of calls the optimiser is told for each parameter whether
it has been fixed since the last release. -/
theorem C58_iminuit (names : List String) (h : List MinOp) (fcn : Vec → Except Err Fl) (x0 : Vec) :
    ((minRun .iminuit names h).minuitCall fcn x0).fix =
      (List.range names.length).map fun k => decide (FixedIn names h k) :=
  flags_eq names h

/-- **C58 (scipy).** After any history of calls the list of fixed parameters from which the
constraints are made contains exactly those fixed since the last release. -/
theorem C58_scipy (names : List String) (h : List MinOp) (k : ℕ) :
    k ∈ (minRun .scipy names h).fixedIdx ↔ FixedIn names h k := by
  induction h using List.reverseRecOn with
  | nil =>
    have : ¬ FixedIn names [] k := by rintro ⟨pre, op, post, h, _⟩; simp at h
    simp [this, minRun, Minimizer.new]
  | append_singleton h op ih =>
    rw [minRun_snoc, fixedIn_snoc]
    have hw := minRun_wf .scipy names h
    cases op with
    | fix pid =>
      by_cases hd : ∃ j, Denotes names pid j
      · obtain ⟨j, hj⟩ := hd
        have hi := (denotes_iff _ _ _).mp hj
        have hs : (minStep (minRun .scipy names h) (.fix pid)).2.fixedIdx =
            (minRun .scipy names h).fixedIdx ++ [j] := by
          simp [minStep, Minimizer.setFixed, hw.hn, hw.hk, hi]
        rw [hs, List.mem_append, ih, List.mem_singleton]
        constructor
        · rintro (hf | rfl)
          · exact .inr ⟨by simp, hf⟩
          · exact .inl ⟨pid, rfl, hj⟩
        · rintro (⟨pid', hp, hd⟩ | ⟨_, hf⟩)
          · injection hp with hp
            subst hp
            have := (denotes_iff _ _ _).mp hd
            rw [hi] at this
            exact .inr (Except.ok.inj this).symm
          · exact .inl hf
      · push Not at hd
        have hi := not_denotes hd
        have hs : (minStep (minRun .scipy names h) (.fix pid)).2.fixedIdx =
            (minRun .scipy names h).fixedIdx := by
          simp [minStep, Minimizer.setFixed, hw.hn, hi]
        rw [hs, ih]
        constructor
        · exact fun hf => .inr ⟨by simp, hf⟩
        · rintro (⟨pid', hp, hd'⟩ | ⟨_, hf⟩)
          · injection hp with hp; subst hp; exact absurd hd' (hd k)
          · exact hf
    | release => simp [minStep, Minimizer.release, hw.hk]
    | bound pid b =>
      have hs : (minStep (minRun .scipy names h) (.bound pid b)).2.fixedIdx =
          (minRun .scipy names h).fixedIdx := by
        simp only [minStep, Minimizer.setBounds]; split <;> rfl
      rw [hs, ih]; simp
    | minimize o f x g => rw [(minimize_step_frame hw o f x g).2.1, ih]; simp
    | setValues v => rw [(setValues_step_frame _ v).2.1, ih]; simp
    | setErrors v => rw [(setErrors_step_frame _ v).2.1, ih]; simp
    | setCov m => simp [minStep, ih]
    | setCorr m => simp [minStep, ih]

/-- **C58.** Fixing an unknown parameter raises `ValueError` and changes nothing. -/
theorem C58_unknown (k : MinKind) (names : List String) (h : List MinOp) (pid : ParamId)
    (hd : ∀ j, ¬ Denotes names pid j) :
    minStep (minRun k names h) (.fix pid) = (.error .valueError, minRun k names h) := by
  simp [minStep, Minimizer.setFixed, (minRun_wf k names h).hn, not_denotes hd]

/-- **C58.** Fixing a known parameter succeeds. -/
theorem C58_known (k : MinKind) (names : List String) (h : List MinOp) (pid : ParamId) (j : ℕ)
    (hd : Denotes names pid j) : (minStep (minRun k names h) (.fix pid)).1 = .ok () := by
  simp only [minStep, Minimizer.setFixed, (minRun_wf k names h).hn, (denotes_iff _ _ _).mp hd]
  split <;> rfl

/-- non-vacuity of C58: `a` fixed and released, `b` fixed afterwards by index -/
example : FixedIn ["a", "b"] [.fix (.str "a"), .release, .fix (.int 1)] 1 ∧
    ¬ FixedIn ["a", "b"] [.fix (.str "a"), .release, .fix (.int 1)] 0 ∧
    ((minRun .iminuit ["a", "b"] [.fix (.str "a"), .release, .fix (.int 1)]).minuitCall
      (fun _ => .ok 0) [0, 0]).fix = [false, true] := by
  have e : ([.fix (.str "a"), .release, .fix (.int 1)] : List MinOp) =
    [.fix (.str "a"), .release] ++ [.fix (.int 1)] := rfl
  have e2 : ([.fix (.str "a"), .release] : List MinOp) = [.fix (.str "a")] ++ [.release] := rfl
  refine ⟨?_, ?_, ?_⟩
  · rw [e, fixedIn_snoc]; exact .inl ⟨_, rfl, by simp [Denotes]⟩
  · rw [e, fixedIn_snoc, e2, fixedIn_snoc]; simp [Denotes]
  · simp [minRun, minStep, Minimizer.new, Params.new, Minimizer.setFixed, Minimizer.release,
      Minimizer.minuitCall, idToIndex]

/-! ## C59 -/

theorem lastBounds_snoc (names : List String) (h : List MinOp) (op : MinOp) (k : ℕ) (b : Bounds) :
    LastBounds names (h ++ [op]) k b ↔
      (∃ pid, op = .bound pid b ∧ Denotes names pid k) ∨
      ((¬ ∃ pid b', op = .bound pid b' ∧ Denotes names pid k) ∧ LastBounds names h k b) :=
  last_snoc h op _ _

theorem bounds_length (kd : MinKind) (names : List String) (h : List MinOp) :
    (minRun kd names h).bounds.length = names.length := by
  induction h using List.reverseRecOn with
  | nil => simp [minRun, Minimizer.new]
  | append_singleton h op ih =>
    rw [minRun_snoc]
    have hw := minRun_wf kd names h
    cases op with
    | fix pid => simp only [minStep, Minimizer.setFixed]; repeat' split
                 all_goals exact ih
    | release => simp only [minStep, Minimizer.release]; split <;> exact ih
    | bound pid b => simp only [minStep, Minimizer.setBounds]; split <;> simp [ih]
    | minimize o f x g => rw [(minimize_step_frame hw o f x g).2.2, ih]
    | setValues v => rw [(setValues_step_frame _ v).2.2, ih]
    | setErrors v => rw [(setErrors_step_frame _ v).2.2, ih]
    | setCov m => exact ih
    | setCorr m => exact ih

/-- **C59.** After any history of calls, the bounds handed to the optimiser (of either kind) for
parameter `k` are those set last for it, or none if none were ever set. -/
theorem C59_bounds (kd : MinKind) (names : List String) (h : List MinOp) (k : ℕ)
    (hk : k < names.length) (b : Bounds) (fcn : Vec → Except Err Fl) (x0 : Vec) :
    ((minRun kd names h).bounds[k]? = some b ↔
      LastBounds names h k b ∨ (NeverBound names h k ∧ b = (none, none))) ∧
    ((minRun kd names h).minuitCall fcn x0).limit = (minRun kd names h).bounds ∧
    ((minRun kd names h).scipyCall fcn x0).bounds = (minRun kd names h).bounds := by
  refine ⟨?_, rfl, rfl⟩
  induction h using List.reverseRecOn with
  | nil =>
    have h1 : ¬ LastBounds names [] k b := by rintro ⟨pre, op, post, h, _⟩; simp at h
    have h2 : NeverBound names [] k := by intro o ho; simp at ho
    simp only [h1, h2, false_or, true_and, minRun, Minimizer.new, List.foldl_nil]
    rw [List.getElem?_map, List.getElem?_eq_getElem hk]
    simp [eq_comm]
  | append_singleton h op ih =>
    rw [minRun_snoc, lastBounds_snoc]
    have hw := minRun_wf kd names h
    have hnb : NeverBound names (h ++ [op]) k ↔
        (¬ ∃ pid b', op = .bound pid b' ∧ Denotes names pid k) ∧ NeverBound names h k := by
      unfold NeverBound
      constructor
      · intro hh
        exact ⟨hh op (by simp), fun o ho => hh o (by simp [ho])⟩
      · rintro ⟨h1, h2⟩ o ho
        rcases List.mem_append.mp ho with ho | ho
        · exact h2 o ho
        · rw [List.mem_singleton.mp ho]; exact h1
    rw [hnb]
    have keep : (¬ ∃ pid b', op = .bound pid b' ∧ Denotes names pid k) →
        (minStep (minRun kd names h) op).2.bounds[k]? = (minRun kd names h).bounds[k]? →
        ((minStep (minRun kd names h) op).2.bounds[k]? = some b ↔
          ((∃ pid, op = .bound pid b ∧ Denotes names pid k) ∨
            ((¬ ∃ pid b', op = .bound pid b' ∧ Denotes names pid k) ∧ LastBounds names h k b)) ∨
          (((¬ ∃ pid b', op = .bound pid b' ∧ Denotes names pid k) ∧ NeverBound names h k) ∧
            b = (none, none))) := by
      intro h1 h2
      rw [h2, ih]
      have h3 : ¬ ∃ pid, op = .bound pid b ∧ Denotes names pid k := fun ⟨pid, hp⟩ => h1 ⟨pid, b, hp⟩
      simp only [h1, h3, not_false_eq_true, true_and, false_or]
    cases op with
    | bound pid b' =>
      by_cases hd : Denotes names pid k
      · have hs : (minStep (minRun kd names h) (.bound pid b')).2.bounds =
            (minRun kd names h).bounds.set k b' := by
          simp [minStep, Minimizer.setBounds, hw.hn, (denotes_iff _ _ _).mp hd]
        have hlen : k < (minRun kd names h).bounds.length := by
          rw [bounds_length]; exact hk
        rw [hs, List.getElem?_set_self hlen]
        have hE : ∃ pid' b'', MinOp.bound pid b' = .bound pid' b'' ∧ Denotes names pid' k :=
          ⟨pid, b', rfl, hd⟩
        simp only [hE, not_true_eq_false, false_and, or_false]
        constructor
        · intro h; exact ⟨pid, by simpa using h, hd⟩
        · rintro ⟨pid', hp, _⟩
          injection hp with _ hp; rw [hp]
      · refine keep ?_ ?_
        · rintro ⟨pid', b'', hp, hd'⟩
          injection hp with hp _; exact hd (hp ▸ hd')
        · simp only [minStep, Minimizer.setBounds, hw.hn]
          split
          · rfl
          · rename_i j hj
            have hjk : j ≠ k := by
              rintro rfl; exact hd ((denotes_iff _ _ _).mpr hj)
            simp [List.getElem?_set_ne hjk]
    | fix pid =>
      refine keep (by simp) ?_
      simp only [minStep, Minimizer.setFixed]; repeat' split
      all_goals rfl
    | release =>
      refine keep (by simp) ?_
      simp only [minStep, Minimizer.release]; split <;> rfl
    | minimize o f x g => exact keep (by simp) (by rw [(minimize_step_frame hw o f x g).2.2])
    | setValues v => exact keep (by simp) (by rw [(setValues_step_frame _ v).2.2])
    | setErrors v => exact keep (by simp) (by rw [(setErrors_step_frame _ v).2.2])
    | setCov m => exact keep (by simp) rfl
    | setCorr m => exact keep (by simp) rfl

/-- **C59.** Setting bounds for an unknown parameter raises `ValueError` and changes nothing. -/
theorem C59_unknown (kd : MinKind) (names : List String) (h : List MinOp) (pid : ParamId) (b : Bounds)
    (hd : ∀ j, ¬ Denotes names pid j) :
    minStep (minRun kd names h) (.bound pid b) = (.error .valueError, minRun kd names h) := by
  simp [minStep, Minimizer.setBounds, (minRun_wf kd names h).hn, not_denotes hd]

/-- non-vacuity of C59: two settings for `b`, once by name and once by index -/
example : LastBounds ["a", "b"] [.bound (.str "b") (some 0, none), .bound (.int 1) (none, some 1)] 1
      (none, some 1) ∧
    NeverBound ["a", "b"] [.bound (.str "b") (some 0, none), .bound (.int 1) (none, some 1)] 0 := by
  refine ⟨⟨[.bound (.str "b") (some 0, none)], _, [], rfl, ⟨_, rfl, by simp [Denotes]⟩, by simp⟩, ?_⟩
  simp [NeverBound, Denotes]

/-! ## C60 -/

theorem fl_sub_eq_zero {a b : Fl} : a - b = 0 ↔ ∃ r : ℝ, a = .fin r ∧ b = .fin r := by
  constructor
  · intro h
    cases a <;> cases b <;> simp only [Fl.zero_def] at h
    all_goals first
      | (rename_i r q
         rw [Fl.fin_sub, Fl.fin_inj] at h
         exact ⟨r, rfl, by rw [Fl.fin_inj]; linarith⟩)
      | (exact absurd h (by intro h; cases h))
  · rintro ⟨r, rfl, rfl⟩
    rw [Fl.fin_sub, sub_self]; rfl

/-- **C60 (refuted).** With two fixed parameters scipy is allowed to move the first one: the point
`(5, 2)` satisfies all constraints although both parameters are fixed at `(1, 2)`. -/
theorem C60_refuted : ∃ (names : List String) (h : List MinOp) (x0 x : Vec) (k : ℕ),
    x0.length = names.length ∧ x.length = names.length ∧ FixedIn names h k ∧
    (∀ fcn, Feasible ((minRun .scipy names h).scipyCall fcn x0) x) ∧ x[k]? ≠ x0[k]? := by
  refine ⟨["a", "b"], [.fix (.int 0), .fix (.int 1)], [.fin 1, .fin 2], [.fin 5, .fin 2], 0, rfl, rfl,
    ⟨[], _, [.fix (.int 1)], rfl, ⟨_, rfl, by simp [Denotes]⟩, by simp⟩, ?_, by simp⟩
  intro fcn g hg
  simp only [minRun, minStep, Minimizer.new, Params.new, Minimizer.setFixed, Minimizer.scipyCall,
    idToIndex, scipyConstraints, List.foldl_cons, List.foldl_nil, List.length_cons,
    List.length_nil] at hg
  simp at hg
  subst hg
  rw [fl_sub_eq_zero]
  exact ⟨2, rfl, rfl⟩

theorem feasible_iff (z : Minimizer) (fcn : Vec → Except Err Fl) (x0 x : Vec) :
    Feasible (z.scipyCall fcn x0) x ↔ z.fixedIdx = [] ∨
      ∃ r : ℝ, x.getD (z.fixedIdx.getLastD 0) 0 = .fin r ∧ x0.getD (z.fixedIdx.getLastD 0) 0 = .fin r := by
  unfold Feasible Minimizer.scipyCall scipyConstraints
  simp only [List.mem_map]
  constructor
  · intro h
    rcases hz : z.fixedIdx with _ | ⟨a, l⟩
    · exact .inl rfl
    · right
      rw [← hz]
      exact fl_sub_eq_zero.mp (h _ ⟨a, by simp [hz], rfl⟩)
  · rintro (h | h) g ⟨a, ha, rfl⟩
    · rw [h] at ha; simp at ha
    · exact fl_sub_eq_zero.mpr h

/-- **C60 (partial).** What the constraints do guarantee: at every feasible point the parameter fixed
*last* has its initial value. Missing: the other fixed parameters (see `C60_refuted`). -/
theorem C60_last_partial (names : List String) (h : List MinOp) (pid : ParamId) (k : ℕ)
    (hd : Denotes names pid k) (post : List MinOp)
    (hpost : ∀ o ∈ post, o ≠ .release ∧ ∀ p j, Denotes names p j → o ≠ .fix p)
    (fcn : Vec → Except Err Fl) (x0 x : Vec) (h0 : x0.length = names.length) (hx : x.length = names.length)
    (hf : Feasible ((minRun .scipy names (h ++ .fix pid :: post)).scipyCall fcn x0) x) :
    x[k]? = x0[k]? := by
  have key : ∃ l, (minRun .scipy names (h ++ .fix pid :: post)).fixedIdx = l ++ [k] := by
    clear hf
    induction post using List.reverseRecOn with
    | nil =>
      have hw := minRun_wf .scipy names h
      refine ⟨(minRun .scipy names h).fixedIdx, ?_⟩
      rw [minRun_snoc]
      simp [minStep, Minimizer.setFixed, hw.hn, hw.hk, (denotes_iff _ _ _).mp hd]
    | append_singleton post op ih =>
      obtain ⟨l, hl⟩ := ih fun o ho => hpost o (by simp [ho])
      refine ⟨l, ?_⟩
      have e : h ++ MinOp.fix pid :: (post ++ [op]) = (h ++ MinOp.fix pid :: post) ++ [op] := by simp
      rw [e, minRun_snoc]
      have hw := minRun_wf .scipy names (h ++ .fix pid :: post)
      obtain ⟨hr, hp⟩ := hpost op (by simp)
      cases op with
      | fix p =>
        have hi : idToIndex names p = .error .valueError :=
          not_denotes fun j hj => hp p j hj rfl
        simp [minStep, Minimizer.setFixed, hw.hn, hi, hl]
      | release => exact absurd rfl hr
      | bound p b =>
        have : (minStep (minRun .scipy names (h ++ .fix pid :: post)) (.bound p b)).2.fixedIdx =
            (minRun .scipy names (h ++ .fix pid :: post)).fixedIdx := by
          simp only [minStep, Minimizer.setBounds]; split <;> rfl
        rw [this, hl]
      | minimize o f x g => rw [(minimize_step_frame hw o f x g).2.1, hl]
      | setValues v => rw [(setValues_step_frame _ v).2.1, hl]
      | setErrors v => rw [(setErrors_step_frame _ v).2.1, hl]
      | setCov m => exact hl
      | setCorr m => exact hl
  obtain ⟨l, hl⟩ := key
  have hk := denotes_lt hd
  rcases (feasible_iff _ _ _ _).mp hf with h1 | ⟨r, h1, h2⟩
  · rw [hl] at h1; simp at h1
  · rw [hl] at h1 h2
    have e : (l ++ [k]).getLastD 0 = k := by simp [List.getLastD_eq_getLast?]
    rw [e] at h1 h2
    rw [List.getD_eq_getElem?_getD, List.getElem?_eq_getElem (by omega)] at h1 h2
    rw [List.getElem?_eq_getElem (by omega), List.getElem?_eq_getElem (by omega)]
    simp only [Option.getD_some] at h1 h2
    rw [h1, h2]

/-- **C60 (partial).** If only one parameter is fixed, every feasible point keeps it. -/
theorem C60_single_partial (names : List String) (h : List MinOp) (k : ℕ)
    (hk : FixedIn names h k) (hone : ∀ j, FixedIn names h j → j = k)
    (fcn : Vec → Except Err Fl) (x0 x : Vec) (h0 : x0.length = names.length) (hx : x.length = names.length)
    (hf : Feasible ((minRun .scipy names h).scipyCall fcn x0) x) : x[k]? = x0[k]? := by
  have hlt := fixedIn_lt hk
  have hmem := (C58_scipy names h k).mpr hk
  have hne : (minRun .scipy names h).fixedIdx ≠ [] := List.ne_nil_of_mem hmem
  have hlast : (minRun .scipy names h).fixedIdx.getLastD 0 = k := by
    refine hone _ ((C58_scipy names h _).mp ?_)
    rw [List.getLastD_eq_getLast?, List.getLast?_eq_getLast_of_ne_nil hne]
    simp [List.getLast_mem hne]
  rcases (feasible_iff _ _ _ _).mp hf with h1 | ⟨r, h1, h2⟩
  · exact absurd h1 hne
  · rw [hlast] at h1 h2
    rw [List.getD_eq_getElem?_getD, List.getElem?_eq_getElem (by omega)] at h1 h2
    rw [List.getElem?_eq_getElem (by omega), List.getElem?_eq_getElem (by omega)]
    simp only [Option.getD_some] at h1 h2
    rw [h1, h2]

/-- The constraints are satisfiable: the start point itself is feasible (non-vacuity of C60). -/
theorem C60_start_partial (names : List String) (h : List MinOp) (fcn : Vec → Except Err Fl)
    (x0 : Fin names.length → ℝ) :
    Feasible ((minRun .scipy names h).scipyCall fcn (vec x0)) (vec x0) := by
  rw [feasible_iff]
  by_cases hne : (minRun .scipy names h).fixedIdx = []
  · exact .inl hne
  · right
    have hm : (minRun .scipy names h).fixedIdx.getLastD 0 ∈ (minRun .scipy names h).fixedIdx := by
      rw [List.getLastD_eq_getLast?, List.getLast?_eq_getLast_of_ne_nil hne]
      simp [List.getLast_mem hne]
    have hlt := fixedIn_lt ((C58_scipy names h _).mp hm)
    exact ⟨_, vec_getD x0 ⟨_, hlt⟩ 0, vec_getD x0 ⟨_, hlt⟩ 0⟩

/-! ## C61 -/

/-- **C61.** If scipy reports failure, `minimize` raises `RuntimeError`; values, errors, covariance,
correlation and minimum are those from before the call. If scipy itself raises, the exception
comes out and nothing at all changes. -/
theorem C61_failure (names : List String) (h : List MinOp) (o : Optim) (fcn : Vec → Except Err Fl)
    (x0 : Vec) (g : Bool) :
    let z := minRun .scipy names h
    (∀ r, o.scipy (z.scipyCall fcn x0) = .ok r → r.success = false →
      (z.minimize o fcn x0 g).1 = .error .runtimeError ∧
      (z.minimize o fcn x0 g).2.params = z.params ∧
      (z.minimize o fcn x0 g).2.fcnMin = z.fcnMin ∧
      (z.minimize o fcn x0 g).2.success = some false) ∧
    (∀ e, o.scipy (z.scipyCall fcn x0) = .error e → z.minimize o fcn x0 g = (.error e, z)) := by
  intro z
  have hk : z.kind = .scipy := (minRun_wf .scipy names h).hk
  have hm : z.minimize o fcn x0 g = z.minimizeScipy o fcn x0 g := by
    unfold Minimizer.minimize; rw [hk]
  rw [hm]
  constructor
  · intro r hr hs
    rcases scipy_cases o z fcn x0 g with ⟨e, he, _⟩ | ⟨r', hr', ⟨_, hh⟩ | ⟨hs', _⟩ | ⟨hs', _⟩⟩
    · rw [hr] at he; cases he
    · rw [hh]; exact ⟨rfl, rfl, rfl, rfl⟩
    · rw [hr] at hr'; injection hr' with hr'; subst hr'; rw [hs] at hs'; cases hs'
    · rw [hr] at hr'; injection hr' with hr'; subst hr'; rw [hs] at hs'; cases hs'
  · intro e he
    rcases scipy_cases o z fcn x0 g with ⟨e', he', hh⟩ | ⟨r', hr', _⟩
    · rw [he] at he'; injection he' with he'; subst he'; exact hh
    · rw [he] at hr'; cases hr'

/-- **C61.** If scipy reports success, the parameter values and the minimum are scipy's, whatever
happens in the error estimation; a returned result carries the same numbers. -/
theorem C61_success (names : List String) (h : List MinOp) (o : Optim) (fcn : Vec → Except Err Fl)
    (x0 : Vec) (g : Bool) (r : ScipyOut)
    (hr : o.scipy ((minRun .scipy names h).scipyCall fcn x0) = .ok r) (hs : r.success = true)
    (hl : r.x.length = names.length) :
    ((minRun .scipy names h).minimize o fcn x0 g).2.params.values = r.x ∧
    ((minRun .scipy names h).minimize o fcn x0 g).2.fcnMin = some r.fval ∧
    ∀ res, ((minRun .scipy names h).minimize o fcn x0 g).1 = .ok res →
      res.fval = r.fval ∧ res.params.values = r.x ∧ res.success = true ∧
      res.params = ((minRun .scipy names h).minimize o fcn x0 g).2.params := by
  set z := minRun .scipy names h with hz
  have hk : z.kind = .scipy := (minRun_wf .scipy names h).hk
  have hn : z.params.names = names := (minRun_wf .scipy names h).hn
  have hm : z.minimize o fcn x0 g = z.minimizeScipy o fcn x0 g := by
    unfold Minimizer.minimize; rw [hk]
  rw [hm]
  rcases scipy_cases o z fcn x0 g with ⟨e, he, _⟩ | ⟨r', hr', hh⟩
  · rw [hr] at he; cases he
  · rw [hr] at hr'; injection hr' with hr'; subst hr'
    rcases hh with ⟨hf, _⟩ | ⟨_, hf, _⟩ | ⟨_, _, ⟨_, hh⟩ | ⟨_, e, _, hh⟩ | ⟨_, H, C, _, _, _, hh⟩ | ⟨_, H, C, _, _, _, hh⟩⟩
    · rw [hs] at hf; cases hf
    · exact absurd (hn ▸ hl) hf
    all_goals
      rw [hh]
      refine ⟨rfl, rfl, ?_⟩
      intro res hres
      first
        | (injection hres with hres; subst hres; exact ⟨rfl, rfl, rfl, rfl⟩)
        | cases hres

/-! ## C62 -/

/-- **C62.** After a successful scipy minimisation with `get_hesse` the errors are the square roots of
the covariance diagonal and the correlation matrix is `cov2corr` of the covariance matrix. -/
theorem C62_consistent (names : List String) (h : List MinOp) (o : Optim)
    (fcn : Vec → Except Err Fl) (x0 : Vec) (res : MinResult)
    (hr : ((minRun .scipy names h).minimize o fcn x0 true).1 = .ok res) :
    res.params.errors = res.params.cov.diag.map Fl.sqrt ∧
    res.params.corr = cov2corr res.params.cov := by
  set z := minRun .scipy names h with hz
  have hk : z.kind = .scipy := (minRun_wf .scipy names h).hk
  have hm : z.minimize o fcn x0 true = z.minimizeScipy o fcn x0 true := by
    unfold Minimizer.minimize; rw [hk]
  rw [hm] at hr
  rcases scipy_cases o z fcn x0 true with ⟨e, he, hh⟩ | ⟨r', hr', ⟨_, hh⟩ | ⟨_, _, hh⟩ | ⟨_, _, ⟨hg, _⟩ | ⟨_, e, _, hh⟩ |
      ⟨_, H, C, _, _, _, hh⟩ | ⟨_, H, C, _, _, _, hh⟩⟩⟩
  all_goals first
    | cases hg
    | (rw [hh] at hr
       first
        | (injection hr with hr; subst hr; exact ⟨rfl, rfl⟩)
        | cases hr)

/-- **C62.** When the Hessian at the minimum is a positive definite matrix `A`, the covariance is
`A⁻¹`, the errors are the roots of its diagonal, and the correlation matrix is the one of
`A⁻¹`. -/
theorem C62_hessian {n : ℕ} (names : List String) (hn : names.length = n) (h : List MinOp) (o : Optim)
    (fcn : Vec → Except Err Fl) (x0 : Vec) (r : ScipyOut)
    (hr : o.scipy ((minRun .scipy names h).scipyCall fcn x0) = .ok r) (hs : r.success = true)
    (hl : r.x.length = n) (H : Mat) (A : Matrix (Fin n) (Fin n) ℝ)
    (hH : o.hessian r.x = .ok H) (hA : IsReal H A) (hp : A.PosDef) :
    ∃ res, ((minRun .scipy names h).minimize o fcn x0 true).1 = .ok res ∧
      IsReal res.params.cov A⁻¹ ∧ res.params.errors = vec (fun i => Real.sqrt (A⁻¹ i i)) ∧
      IsReal res.params.corr (corrOf A⁻¹) := by
  subst hn
  set z := minRun .scipy names h with hz
  have hk : z.kind = .scipy := (minRun_wf .scipy names h).hk
  have hnm : z.params.names = names := (minRun_wf .scipy names h).hn
  have hm : z.minimize o fcn x0 true = z.minimizeScipy o fcn x0 true := by
    unfold Minimizer.minimize; rw [hk]
  rw [hm]
  have hdet : A.det ≠ 0 := ((Matrix.isUnit_iff_isUnit_det _).mp hp.isUnit).ne_zero
  obtain ⟨C', hC', hCr⟩ := npInv_isReal hA hdet
  have hpi : A⁻¹.PosDef := hp.inv
  have hdiag := isReal_diag hCr
  have hpos : ∀ i, 0 < A⁻¹ i i := fun i => hpi.diag_pos
  rcases scipy_cases o z fcn x0 true with ⟨e, he, _⟩ | ⟨r', hr', hh⟩
  · rw [hr] at he; cases he
  · rw [hr] at hr'; injection hr' with hr'; subst hr'
    rcases hh with ⟨hf, _⟩ | ⟨_, hf, _⟩ | ⟨_, _, ⟨hg, _⟩ | ⟨_, e, hh, _⟩ | ⟨_, H', C, hH', hC, hlen, hh⟩ | ⟨_, H', C, hH', hC, _, hh⟩⟩
    · rw [hs] at hf; cases hf
    · exact absurd (hnm ▸ hl) hf
    · cases hg
    · rcases hh with hh | ⟨H', hH', hh⟩
      · rw [hH] at hh; cases hh
      · rw [hH] at hH'; injection hH' with hH'; subst hH'; rw [hC'] at hh; cases hh
    · rw [hH] at hH'; injection hH' with hH'; subst hH'
      rw [hC'] at hC; injection hC with hC; subst hC
      rw [hdiag, vec_length, hnm] at hlen
      exact absurd rfl hlen
    · rw [hH] at hH'; injection hH' with hH'; subst hH'
      rw [hC'] at hC; injection hC with hC; subst hC
      rw [hh]
      refine ⟨_, rfl, hCr, ?_, ?_⟩
      · show C'.diag.map Fl.sqrt = _
        rw [hdiag]
        exact map_vec _ _ _ fun i => Fl.sqrt_fin (hpos i).le
      · exact cov2corr_isReal hCr (fun i => (hpos i).le)
          (fun i j hij => by rcases hij with hij | hij <;> exact absurd hij (hpos _).ne')

/-- **C62.** Without `get_hesse` errors, covariance and correlation are the previous ones. -/
theorem C62_no_hesse (names : List String) (h : List MinOp) (o : Optim)
    (fcn : Vec → Except Err Fl) (x0 : Vec) :
    let z := minRun .scipy names h
    (z.minimize o fcn x0 false).2.params.errors = z.params.errors ∧
    (z.minimize o fcn x0 false).2.params.cov = z.params.cov ∧
    (z.minimize o fcn x0 false).2.params.corr = z.params.corr := by
  intro z
  have hk : z.kind = .scipy := (minRun_wf .scipy names h).hk
  have hm : z.minimize o fcn x0 false = z.minimizeScipy o fcn x0 false := by
    unfold Minimizer.minimize; rw [hk]
  rw [hm]
  rcases scipy_cases o z fcn x0 false with ⟨e, he, hh⟩ | ⟨r', hr', ⟨_, hh⟩ | ⟨_, _, hh⟩ | ⟨_, _, ⟨_, hh⟩ | ⟨hg, _⟩ |
      ⟨hg, _⟩ | ⟨hg, _⟩⟩⟩
  all_goals first
    | cases hg
    | (rw [hh]; exact ⟨rfl, rfl, rfl⟩)

/-- **C62.** A new minimizer used only with `get_hesse=False` reports zero errors, covariance and correlation. -/
theorem C62_initial (names : List String) (calls : List (Optim × (Vec → Except Err Fl) × Vec)) :
    let p := (minRun .scipy names (calls.map fun c => .minimize c.1 c.2.1 c.2.2 false)).params
    p.errors = List.replicate names.length 0 ∧
      IsReal p.cov (0 : Matrix (Fin names.length) (Fin names.length) ℝ) ∧
      IsReal p.corr (0 : Matrix (Fin names.length) (Fin names.length) ℝ) := by
  induction calls using List.reverseRecOn with
  | nil => exact ⟨by simp [minRun, Minimizer.new, Params.new], ⟨rfl, rfl, fun _ _ => rfl⟩, ⟨rfl, rfl, fun _ _ => rfl⟩⟩
  | append_singleton l c ih =>
    rw [List.map_append, List.map_singleton, minRun_snoc]
    have h2 : ∀ (z : Minimizer) o f x g, (minStep z (.minimize o f x g)).2 = (z.minimize o f x g).2 := by
      intro z o f x g; simp only [minStep]; split <;> simp_all
    obtain ⟨e1, e2, e3⟩ := C62_no_hesse names (l.map fun c => .minimize c.1 c.2.1 c.2.2 false) c.1 c.2.1 c.2.2
    simp only [h2, e1, e2, e3]
    exact ih

/-- non-vacuity of C61/C62: a one-parameter fit with Hessian `4` gives the error `1/2` -/
example : ∃ o : Optim, ∃ res, ((minRun .scipy ["a"] []).minimize o (fun _ => .ok 0) [.fin 1] true).1 =
    .ok res ∧ res.params.values = [.fin 3] ∧ res.params.errors = [.fin (1 / 2)] := by
  let A : Matrix (Fin 1) (Fin 1) ℝ := Matrix.diagonal fun _ => 4
  let o : Optim :=
    { minuit := fun _ => .error .runtimeError, minuitEvals := fun _ => []
      scipy := fun _ => .ok ⟨true, [.fin 3], .fin 7⟩, scipyEvals := fun _ => []
      hessian := fun _ => .ok (Mat.ofMatrix A) }
  have hp : A.PosDef := Matrix.PosDef.diagonal (by simp)
  obtain ⟨res, h1, _, h3, _⟩ := C62_hessian (n := 1) ["a"] rfl [] o (fun _ => .ok 0) [.fin 1]
    ⟨true, [.fin 3], .fin 7⟩ rfl rfl rfl (Mat.ofMatrix A) A rfl (isReal_ofMatrix A) hp
  have h4 := (C61_success ["a"] [] o (fun _ => .ok 0) [.fin 1] true ⟨true, [.fin 3], .fin 7⟩ rfl rfl
    rfl).2.2 res h1
  refine ⟨o, res, h1, h4.2.1, ?_⟩
  rw [h3]
  have hi : A⁻¹ = Matrix.diagonal fun _ => (1 / 4 : ℝ) := by
    apply Matrix.inv_eq_left_inv
    rw [Matrix.diagonal_mul_diagonal]
    norm_num
  have hq : Real.sqrt (1 / 4) = 1 / 2 := by
    rw [show (1 / 4 : ℝ) = (1 / 2) ^ 2 by norm_num, Real.sqrt_sq (by norm_num)]
  simp only [vec, hi, Matrix.diagonal_apply_eq, hq, List.ofFn_succ, List.ofFn_zero]

/-! ## C63 -/

/-- **C63.** The success flag of an iminuit minimisation is true exactly when the second MIGRAD run
is valid, has valid parameters and a covariance; an unsuccessful fit is reported through the
flag, not by an exception. Values, errors and minimum are Minuit's. -/
theorem C63_success (names : List String) (h : List MinOp) (o : Optim) (fcn : Vec → Except Err Fl)
    (x0 : Vec) (g : Bool) (r : MinuitOut)
    (hr : o.minuit ((minRun .iminuit names h).minuitCall fcn x0) = .ok r)
    (hv : r.values.length = names.length) (he : r.errors.length = names.length)
    (C R : Mat) (hm : r.matrix = .ok (C, R)) :
    ∃ res, ((minRun .iminuit names h).minimize o fcn x0 g).1 = .ok res ∧
      (res.success = true ↔
        r.fmin2.isValid = true ∧ r.fmin2.hasValidParams = true ∧ r.fmin2.hasCov = true) ∧
      ((minRun .iminuit names h).minimize o fcn x0 g).2.success = some res.success ∧
      res.fval = r.fval ∧ res.params.values = r.values ∧ res.params.errors = r.errors ∧
      res.params.cov = C ∧ res.params.corr = R := by
  set z := minRun .iminuit names h with hz
  have hk : z.kind = .iminuit := (minRun_wf .iminuit names h).hk
  have hnm : z.params.names = names := (minRun_wf .iminuit names h).hn
  have hmi : z.minimize o fcn x0 g = z.minimizeMinuit o fcn x0 := by
    unfold Minimizer.minimize; rw [hk]
  rw [hmi]
  rcases minuit_cases o z fcn x0 with ⟨e, h0, _⟩ | ⟨r', hr', hh⟩
  · rw [hr] at h0; cases h0
  · rw [hr] at hr'; injection hr' with hr'; subst hr'
    rcases hh with ⟨hf, _⟩ | ⟨_, hf, _⟩ | ⟨_, _, ⟨e, hf, _⟩ | ⟨C', R', hm', hh⟩⟩
    · exact absurd (hnm ▸ hv) hf
    · exact absurd (hnm ▸ he) hf
    · rw [hm] at hf; cases hf
    · rw [hm] at hm'
      obtain ⟨h1, h2⟩ := Prod.mk.inj (Except.ok.inj hm')
      subst h1 h2
      rw [hh]
      refine ⟨_, rfl, ?_, rfl, rfl, rfl, rfl, rfl, rfl⟩
      simp [Bool.and_eq_true, and_assoc]

/-- **C63.** If no covariance matrix is available (`np_matrix` raises), the exception comes out, after
values, errors and minimum have been updated, and the success flag still is the old one. -/
theorem C63_no_matrix (names : List String) (h : List MinOp) (o : Optim) (fcn : Vec → Except Err Fl)
    (x0 : Vec) (g : Bool) (r : MinuitOut)
    (hr : o.minuit ((minRun .iminuit names h).minuitCall fcn x0) = .ok r)
    (hv : r.values.length = names.length) (he : r.errors.length = names.length)
    (e : Err) (hm : r.matrix = .error e) :
    ((minRun .iminuit names h).minimize o fcn x0 g).1 = .error e ∧
    ((minRun .iminuit names h).minimize o fcn x0 g).2.params.values = r.values ∧
    ((minRun .iminuit names h).minimize o fcn x0 g).2.success = (minRun .iminuit names h).success := by
  set z := minRun .iminuit names h with hz
  have hk : z.kind = .iminuit := (minRun_wf .iminuit names h).hk
  have hnm : z.params.names = names := (minRun_wf .iminuit names h).hn
  have hmi : z.minimize o fcn x0 g = z.minimizeMinuit o fcn x0 := by
    unfold Minimizer.minimize; rw [hk]
  rw [hmi]
  rcases minuit_cases o z fcn x0 with ⟨e, h0, _⟩ | ⟨r', hr', hh⟩
  · rw [hr] at h0; cases h0
  · rw [hr] at hr'; injection hr' with hr'; subst hr'
    rcases hh with ⟨hf, _⟩ | ⟨_, hf, _⟩ | ⟨_, _, ⟨e', hf, hh⟩ | ⟨C', R', hm', hh⟩⟩
    · exact absurd (hnm ▸ hv) hf
    · exact absurd (hnm ▸ he) hf
    · rw [hm] at hf; injection hf with hf; subst hf
      rw [hh]; exact ⟨rfl, rfl, rfl⟩
    · rw [hm] at hm'; cases hm'

/-- non-vacuity of C63: first run invalid, second valid without covariance: not a success -/
example : ∃ o : Optim, ∃ res, ((minRun .iminuit ["a"] []).minimize o (fun _ => .ok 0) [.fin 1] true).1 =
    .ok res ∧ res.success = false := by
  let o : Optim :=
    { minuit := fun _ => .ok ⟨⟨false, false, false⟩, ⟨true, true, false⟩, 0, [0], [0],
        .ok (Mat.zeros 1 1, Mat.zeros 1 1)⟩
      minuitEvals := fun _ => []
      scipy := fun _ => .error .runtimeError, scipyEvals := fun _ => []
      hessian := fun _ => .error .runtimeError }
  obtain ⟨res, h1, h2, _⟩ := C63_success ["a"] [] o (fun _ => .ok 0) [.fin 1] true _ rfl rfl rfl _ _ rfl
  refine ⟨o, res, h1, ?_⟩
  cases hb : res.success with
  | false => rfl
  | true => exact absurd (h2.mp hb).2.2 (by simp)

end

end TF.Props
