import Verif.Model.Alias
import Verif.Props.MctProps12

set_option linter.unusedSimpArgs false

/-!
# Shared arrays (C89)
-/

namespace TF.Spec

open Classical

noncomputable section

/-- array `i` is the count array of a histogram or the parameter array of a template -/
def Referenced (a : AState) (i : ℕ) : Prop :=
  (∃ h < a.s.w.nHists, a.cref h = i) ∨ (∃ t < a.s.w.nTmpls, a.pref t = i)

/-- the user gives an array (of floats) to at most one object, and does not write to it any more afterwards -/
def CleanStep (a : AState) : AOp → Prop
  | .api _ => True
  | .alloc _ _ => True
  | .poke i _ => ¬ Referenced a i
  | .binnedRef i _ _ => ¬ Referenced a i ∧ a.isInt i = false
  | .paramsRef _ i => ¬ Referenced a i ∧ a.isInt i = false

/-- every action of the program is clean when it happens -/
def CleanRun : AState → List AOp → Prop
  | _, [] => True
  | a, o :: os => CleanStep a o ∧ CleanRun (a.step o) os

/-- the same action with the array replaced by its content at that moment -/
def valueOps (a : AState) : AOp → List Op
  | .api op => if op.kind = .none then [] else [op]
  | .alloc _ _ => []
  | .poke _ _ => []
  | .binnedRef i e er => if i < a.nArr then [.binned1 (a.arr i) e er] else []
  | .paramsRef t i =>
    if i < a.nArr ∧ (a.arr i).shape = [(a.arr i).data.length] then [.setTmplParams t (a.arr i).data] else []

/-- the program without shared arrays -/
def valueProgram : AState → List AOp → List Op
  | _, [] => []
  | a, o :: os => valueOps a o ++ valueProgram (a.step o) os

end

end TF.Spec

namespace TF.Props

open Classical Spec

noncomputable section

/-- no two objects share an array, and all arrays of objects are allocated float arrays -/
structure Sep (a : AState) : Prop where
  clt : ∀ h < a.s.w.nHists, a.cref h < a.nArr ∧ a.isInt (a.cref h) = false
  plt : ∀ t < a.s.w.nTmpls, a.pref t < a.nArr ∧ a.isInt (a.pref t) = false
  cc : ∀ h < a.s.w.nHists, ∀ h' < a.s.w.nHists, a.cref h = a.cref h' → h = h'
  pp : ∀ t < a.s.w.nTmpls, ∀ t' < a.s.w.nTmpls, a.pref t = a.pref t' → t = t'
  cp : ∀ h < a.s.w.nHists, ∀ t < a.s.w.nTmpls, a.cref h ≠ a.pref t

theorem sys_ext {s s' : Sys} (h1 : ∀ i, s.w.hists i = s'.w.hists i) (h2 : s.w.nHists = s'.w.nHists)
    (h3 : ∀ i, s.w.tmpls i = s'.w.tmpls i) (h4 : s.w.nTmpls = s'.w.nTmpls) (h5 : s.w.chans = s'.w.chans)
    (h6 : s.w.nChans = s'.w.nChans) (h7 : s.w.idxCache = s'.w.idxCache) (h8 : s.w.effCache = s'.w.effCache)
    (h9 : s.w.invCache = s'.w.invCache) (h10 : s.m = s'.m) : s = s' := by
  obtain ⟨⟨a1, a2, a3, a4, a5, a6, a7, a8, a9⟩, m⟩ := s
  obtain ⟨⟨b1, b2, b3, b4, b5, b6, b7, b8, b9⟩, m'⟩ := s'
  simp only at *
  obtain rfl : a1 = b1 := funext h1
  obtain rfl : a3 = b3 := funext h3
  subst h2 h4 h5 h6 h7 h8 h9 h10
  rfl

theorem view_eq {a : AState} (hh : ∀ h < a.s.w.nHists, a.arr (a.cref h) = (a.s.w.hists h).counts)
    (hp : ∀ t < a.s.w.nTmpls, (a.arr (a.pref t)).data = (a.s.w.tmpls t).params) : a.view = a.s := by
  refine sys_ext ?_ rfl ?_ rfl rfl rfl rfl rfl rfl rfl
  · intro h
    simp only [AState.view]
    split
    · rename_i hlt; rw [hh h hlt]
    · rfl
  · intro t
    simp only [AState.view]
    split
    · rename_i hlt; rw [hp t hlt]
    · rfl

theorem view_hist (a : AState) {h : ℕ} (hl : h < a.s.w.nHists) : (a.view.w.hists h).counts = a.arr (a.cref h) := by
  simp [AState.view, hl]

theorem view_tmpl (a : AState) {t : ℕ} (hl : t < a.s.w.nTmpls) : (a.view.w.tmpls t).params = (a.arr (a.pref t)).data := by
  simp [AState.view, hl]

theorem view_nHists (a : AState) : a.view.w.nHists = a.s.w.nHists := rfl

theorem view_nTmpls (a : AState) : a.view.w.nTmpls = a.s.w.nTmpls := rfl

theorem view_arr {a a' : AState} (hs : a'.s = a.s) (hh : ∀ h < a.s.w.nHists, a'.arr (a'.cref h) = a.arr (a.cref h))
    (hp : ∀ t < a.s.w.nTmpls, a'.arr (a'.pref t) = a.arr (a.pref t)) : a'.view = a.view := by
  unfold AState.view
  rw [hs]
  have h1 : (fun h => if h < a.s.w.nHists then { a.s.w.hists h with counts := a'.arr (a'.cref h) } else a.s.w.hists h) =
      fun h => if h < a.s.w.nHists then { a.s.w.hists h with counts := a.arr (a.cref h) } else a.s.w.hists h := by
    funext h
    by_cases hl : h < a.s.w.nHists
    · rw [if_pos hl, if_pos hl, hh h hl]
    · rw [if_neg hl, if_neg hl]
  have h2 : (fun t => if t < a.s.w.nTmpls then { a.s.w.tmpls t with params := (a'.arr (a'.pref t)).data }
        else a.s.w.tmpls t) =
      fun t => if t < a.s.w.nTmpls then { a.s.w.tmpls t with params := (a.arr (a.pref t)).data }
        else a.s.w.tmpls t := by
    funext t
    by_cases hl : t < a.s.w.nTmpls
    · rw [if_pos hl, if_pos hl, hp t hl]
    · rw [if_neg hl, if_neg hl]
  rw [h1, h2]

/-- the invariant and the correspondence, for one step -/
def Good (a a' : AState) (ops : List Op) : Prop := Sep a' ∧ a'.view = a.view.run ops

theorem good_of {a a' : AState} {ops : List Op} (hs : a'.s = a.view.run ops) (h : Sep a')
    (hh : ∀ h < a'.s.w.nHists, a'.arr (a'.cref h) = (a'.s.w.hists h).counts)
    (hp : ∀ t < a'.s.w.nTmpls, (a'.arr (a'.pref t)).data = (a'.s.w.tmpls t).params) : Good a a' ops :=
  ⟨h, (view_eq hh hp).trans hs⟩

/-- a new histogram whose counts are array `i` (just allocated, or so far unreferenced) -/
theorem good_newHist {a : AState} (h : Sep a) (x : Hist) (ops : List Op)
    (hrun : a.view.run ops = { a.view with w := (a.view.w.newHist x).2 })
    (arr' : ℕ → NdArr) (n' : ℕ) (int' : ℕ → Bool) (i : ℕ) (hi : i < n') (hx : arr' i = x.counts) (hint : int' i = false)
    (hn : a.nArr ≤ n') (hsame : ∀ j < a.nArr, arr' j = a.arr j) (hsame' : ∀ j < a.nArr, int' j = a.isInt j)
    (hnr : ¬ Referenced a i) :
    Good a ⟨a.view.run ops, arr', n', int', Function.update a.cref a.s.w.nHists i, a.pref⟩ ops := by
  have hnr1 : ∀ j < a.s.w.nHists, a.cref j ≠ i := fun j hj e => hnr (Or.inl ⟨j, hj, e⟩)
  have hnr2 : ∀ j < a.s.w.nTmpls, a.pref j ≠ i := fun j hj e => hnr (Or.inr ⟨j, hj, e⟩)
  have e1 : (a.view.run ops).w.nHists = a.s.w.nHists + 1 := by rw [hrun]; rfl
  have e2 : (a.view.run ops).w.nTmpls = a.s.w.nTmpls := by rw [hrun]; rfl
  have e3 : ∀ j, (a.view.run ops).w.tmpls j = a.view.w.tmpls j := by intro j; rw [hrun]; rfl
  have e4 : ∀ j, (a.view.run ops).w.hists j = Function.update a.view.w.hists a.s.w.nHists x j := by
    intro j; rw [hrun]; rfl
  have key : ∀ j, j < a.s.w.nHists + 1 → j = a.s.w.nHists ∨ (j ≠ a.s.w.nHists ∧ j < a.s.w.nHists) := by
    intro j hj; omega
  refine good_of rfl ⟨?_, ?_, ?_, ?_, ?_⟩ ?_ ?_
  · intro j hj
    rw [e1] at hj
    rcases key j hj with rfl | ⟨hne, hlt⟩
    · simp [hi, hint]
    · simp only [Function.update_of_ne hne]
      have := h.clt j hlt
      exact ⟨lt_of_lt_of_le this.1 hn, by rw [hsame' _ this.1]; exact this.2⟩
  · intro j hj
    rw [e2] at hj
    have := h.plt j hj
    exact ⟨lt_of_lt_of_le this.1 hn, by show int' _ = _; rw [hsame' _ this.1]; exact this.2⟩
  · intro j hj j' hj' e
    rw [e1] at hj hj'
    rcases key j hj with rfl | ⟨hne, hlt⟩ <;> rcases key j' hj' with rfl | ⟨hne', hlt'⟩
    · rfl
    · simp only [Function.update_self, Function.update_of_ne hne'] at e
      exact absurd e.symm (hnr1 j' hlt')
    · simp only [Function.update_self, Function.update_of_ne hne] at e
      exact absurd e (hnr1 j hlt)
    · simp only [Function.update_of_ne hne, Function.update_of_ne hne'] at e
      exact h.cc j hlt j' hlt' e
  · intro j hj j' hj' e
    rw [e2] at hj hj'
    exact h.pp j hj j' hj' e
  · intro j hj t ht e
    rw [e1] at hj; rw [e2] at ht
    rcases key j hj with rfl | ⟨hne, hlt⟩
    · simp only [Function.update_self] at e
      exact hnr2 t ht e.symm
    · simp only [Function.update_of_ne hne] at e
      exact h.cp j hlt t ht e
  · intro j hj
    rw [e1] at hj
    show arr' (Function.update a.cref a.s.w.nHists i j) = ((a.view.run ops).w.hists j).counts
    rw [e4]
    rcases key j hj with rfl | ⟨hne, hlt⟩
    · simp [hx]
    · rw [Function.update_of_ne hne, Function.update_of_ne hne, view_hist a hlt]
      exact hsame _ (h.clt j hlt).1
  · intro t ht
    rw [e2] at ht
    show (arr' (a.pref t)).data = ((a.view.run ops).w.tmpls t).params
    rw [e3, view_tmpl a ht, hsame _ (h.plt t ht).1]

/-- a new template whose parameters are a new array -/
theorem good_newTmpl {a : AState} (h : Sep a) (x : Template) (ops : List Op)
    (hrun : a.view.run ops = { a.view with w := (a.view.w.newTmpl x).2 }) :
    Good a ⟨a.view.run ops, Function.update a.arr a.nArr (NdArr.of1d x.params), a.nArr + 1,
      Function.update a.isInt a.nArr false, a.cref, Function.update a.pref a.s.w.nTmpls a.nArr⟩ ops := by
  have e1 : (a.view.run ops).w.nTmpls = a.s.w.nTmpls + 1 := by rw [hrun]; rfl
  have e2 : (a.view.run ops).w.nHists = a.s.w.nHists := by rw [hrun]; rfl
  have e3 : ∀ j, (a.view.run ops).w.hists j = a.view.w.hists j := by intro j; rw [hrun]; rfl
  have e4 : ∀ j, (a.view.run ops).w.tmpls j = Function.update a.view.w.tmpls a.s.w.nTmpls x j := by
    intro j; rw [hrun]; rfl
  have key : ∀ j, j < a.s.w.nTmpls + 1 → j = a.s.w.nTmpls ∨ (j ≠ a.s.w.nTmpls ∧ j < a.s.w.nTmpls) := by
    intro j hj; omega
  have hc := fun j hj => (h.clt j hj).1
  have hp := fun j hj => (h.plt j hj).1
  refine good_of rfl ⟨?_, ?_, ?_, ?_, ?_⟩ ?_ ?_
  · intro j hj
    rw [e2] at hj
    have := h.clt j hj
    exact ⟨Nat.lt_succ_of_lt this.1, by simp only; rw [Function.update_of_ne (by omega)]; exact this.2⟩
  · intro j hj
    rw [e1] at hj
    rcases key j hj with rfl | ⟨hne, hlt⟩
    · simp
    · simp only [Function.update_of_ne hne]
      have := h.plt j hlt
      exact ⟨Nat.lt_succ_of_lt this.1, by rw [Function.update_of_ne (by omega)]; exact this.2⟩
  · intro j hj j' hj' e
    rw [e2] at hj hj'
    exact h.cc j hj j' hj' e
  · intro j hj j' hj' e
    rw [e1] at hj hj'
    rcases key j hj with rfl | ⟨hne, hlt⟩ <;> rcases key j' hj' with rfl | ⟨hne', hlt'⟩
    · rfl
    · simp only [Function.update_self, Function.update_of_ne hne'] at e
      have := hp j' hlt'; omega
    · simp only [Function.update_self, Function.update_of_ne hne] at e
      have := hp j hlt; omega
    · simp only [Function.update_of_ne hne, Function.update_of_ne hne'] at e
      exact h.pp j hlt j' hlt' e
  · intro j hj t ht e
    rw [e2] at hj; rw [e1] at ht
    rcases key t ht with rfl | ⟨hne, hlt⟩
    · simp only [Function.update_self] at e
      have := hc j hj; omega
    · simp only [Function.update_of_ne hne] at e
      exact h.cp j hj t hlt e
  · intro j hj
    rw [e2] at hj
    show Function.update a.arr a.nArr _ (a.cref j) = ((a.view.run ops).w.hists j).counts
    rw [e3, view_hist a hj, Function.update_of_ne (by have := hc j hj; omega)]
  · intro t ht
    rw [e1] at ht
    show (Function.update a.arr a.nArr _ (Function.update a.pref a.s.w.nTmpls a.nArr t)).data =
      ((a.view.run ops).w.tmpls t).params
    rw [e4]
    rcases key t ht with rfl | ⟨hne, hlt⟩
    · simp [NdArr.of1d]
    · rw [Function.update_of_ne hne, Function.update_of_ne hne, view_tmpl a hlt,
        Function.update_of_ne (by have := hp t hlt; omega)]

/-- the counts of histogram `k` are changed in place -/
theorem good_inHist {a : AState} (h : Sep a) (k : ℕ) (hk : k < a.s.w.nHists) (x : Hist) (ops : List Op)
    (hrun : a.view.run ops = { a.view with w := a.view.w.setHist k x }) :
    Good a ⟨a.view.run ops, Function.update a.arr (a.cref k) x.counts, a.nArr, a.isInt, a.cref, a.pref⟩ ops := by
  have e1 : (a.view.run ops).w.nTmpls = a.s.w.nTmpls := by rw [hrun]; rfl
  have e2 : (a.view.run ops).w.nHists = a.s.w.nHists := by rw [hrun]; rfl
  have e3 : ∀ j, (a.view.run ops).w.tmpls j = a.view.w.tmpls j := by intro j; rw [hrun]; rfl
  have e4 : ∀ j, (a.view.run ops).w.hists j = Function.update a.view.w.hists k x j := by
    intro j; rw [hrun]; rfl
  refine good_of rfl ⟨by rw [e2]; exact h.clt, by rw [e1]; exact h.plt, by rw [e2]; exact h.cc, by rw [e1]; exact h.pp,
    by rw [e1, e2]; exact h.cp⟩ ?_ ?_
  · intro j hj
    rw [e2] at hj
    show Function.update a.arr (a.cref k) _ (a.cref j) = ((a.view.run ops).w.hists j).counts
    rw [e4]
    by_cases hjk : j = k
    · subst hjk; simp
    · rw [Function.update_of_ne hjk, view_hist a hj, Function.update_of_ne fun e => hjk (h.cc j hj k hk e)]
  · intro t ht
    rw [e1] at ht
    show (Function.update a.arr (a.cref k) _ (a.pref t)).data = ((a.view.run ops).w.tmpls t).params
    rw [e3, view_tmpl a ht, Function.update_of_ne (h.cp k hk t ht).symm]

/-- the parameters of template `k` are changed in place -/
theorem good_inTmpl {a : AState} (h : Sep a) (k : ℕ) (hk : k < a.s.w.nTmpls) (x : Template) (ops : List Op)
    (hrun : a.view.run ops = { a.view with w := a.view.w.setTmpl k x }) :
    Good a ⟨a.view.run ops, Function.update a.arr (a.pref k) (NdArr.of1d x.params), a.nArr, a.isInt, a.cref, a.pref⟩ ops := by
  have e1 : (a.view.run ops).w.nTmpls = a.s.w.nTmpls := by rw [hrun]; rfl
  have e2 : (a.view.run ops).w.nHists = a.s.w.nHists := by rw [hrun]; rfl
  have e3 : ∀ j, (a.view.run ops).w.hists j = a.view.w.hists j := by intro j; rw [hrun]; rfl
  have e4 : ∀ j, (a.view.run ops).w.tmpls j = Function.update a.view.w.tmpls k x j := by
    intro j; rw [hrun]; rfl
  refine good_of rfl ⟨by rw [e2]; exact h.clt, by rw [e1]; exact h.plt, by rw [e2]; exact h.cc, by rw [e1]; exact h.pp,
    by rw [e1, e2]; exact h.cp⟩ ?_ ?_
  · intro j hj
    rw [e2] at hj
    show Function.update a.arr (a.pref k) _ (a.cref j) = ((a.view.run ops).w.hists j).counts
    rw [e3, view_hist a hj, Function.update_of_ne (h.cp j hj k hk)]
  · intro t ht
    rw [e1] at ht
    show (Function.update a.arr (a.pref k) _ (a.pref t)).data = ((a.view.run ops).w.tmpls t).params
    rw [e4]
    by_cases hjk : t = k
    · subst hjk; simp [NdArr.of1d]
    · rw [Function.update_of_ne hjk, view_tmpl a ht, Function.update_of_ne fun e => hjk (h.pp t ht k hk e)]

/-- template `k` gets array `i` as its parameters -/
theorem good_newParams {a : AState} (h : Sep a) (k : ℕ) (hk : k < a.s.w.nTmpls) (x : Template) (ops : List Op)
    (hrun : a.view.run ops = { a.view with w := a.view.w.setTmpl k x })
    (arr' : ℕ → NdArr) (n' : ℕ) (int' : ℕ → Bool) (i : ℕ) (hi : i < n') (hx : (arr' i).data = x.params)
    (hint : int' i = false) (hn : a.nArr ≤ n') (hsame : ∀ j < a.nArr, arr' j = a.arr j)
    (hsame' : ∀ j < a.nArr, int' j = a.isInt j) (hnr : ¬ Referenced a i) :
    Good a ⟨a.view.run ops, arr', n', int', a.cref, Function.update a.pref k i⟩ ops := by
  have hnr1 : ∀ j < a.s.w.nHists, a.cref j ≠ i := fun j hj e => hnr (Or.inl ⟨j, hj, e⟩)
  have hnr2 : ∀ j < a.s.w.nTmpls, a.pref j ≠ i := fun j hj e => hnr (Or.inr ⟨j, hj, e⟩)
  have e1 : (a.view.run ops).w.nTmpls = a.s.w.nTmpls := by rw [hrun]; rfl
  have e2 : (a.view.run ops).w.nHists = a.s.w.nHists := by rw [hrun]; rfl
  have e3 : ∀ j, (a.view.run ops).w.hists j = a.view.w.hists j := by intro j; rw [hrun]; rfl
  have e4 : ∀ j, (a.view.run ops).w.tmpls j = Function.update a.view.w.tmpls k x j := by
    intro j; rw [hrun]; rfl
  refine good_of rfl ⟨?_, ?_, ?_, ?_, ?_⟩ ?_ ?_
  · intro j hj
    rw [e2] at hj
    have := h.clt j hj
    exact ⟨lt_of_lt_of_le this.1 hn, by show int' _ = _; rw [hsame' _ this.1]; exact this.2⟩
  · intro j hj
    rw [e1] at hj
    by_cases hjk : j = k
    · subst hjk; simp [hi, hint]
    · have := h.plt j hj
      simp only [Function.update_of_ne hjk]
      exact ⟨lt_of_lt_of_le this.1 hn, by rw [hsame' _ this.1]; exact this.2⟩
  · rw [e2]; exact h.cc
  · intro j hj j' hj' e
    rw [e1] at hj hj'
    by_cases hjk : j = k <;> by_cases hjk' : j' = k
    · rw [hjk, hjk']
    · simp only [hjk, Function.update_self, Function.update_of_ne hjk'] at e
      exact absurd e.symm (hnr2 j' hj')
    · simp only [hjk', Function.update_self, Function.update_of_ne hjk] at e
      exact absurd e (hnr2 j hj)
    · simp only [Function.update_of_ne hjk, Function.update_of_ne hjk'] at e
      exact h.pp j hj j' hj' e
  · intro j hj t ht e
    rw [e2] at hj; rw [e1] at ht
    by_cases hjk : t = k
    · simp only [hjk, Function.update_self] at e
      exact hnr1 j hj e
    · simp only [Function.update_of_ne hjk] at e
      exact h.cp j hj t ht e
  · intro j hj
    rw [e2] at hj
    show arr' (a.cref j) = ((a.view.run ops).w.hists j).counts
    rw [e3, view_hist a hj]
    exact hsame _ (h.clt j hj).1
  · intro t ht
    rw [e1] at ht
    show (arr' (Function.update a.pref k i t)).data = ((a.view.run ops).w.tmpls t).params
    rw [e4]
    by_cases hjk : t = k
    · subst hjk; simp [hx]
    · rw [Function.update_of_ne hjk, Function.update_of_ne hjk, view_tmpl a ht, hsame _ (h.plt t ht).1]

theorem good_refl {a : AState} (h : Sep a) : Good a a [] := ⟨h, rfl⟩

/-- nothing happened -/
theorem good_same {a : AState} (h : Sep a) {ops : List Op} (e : a.view.run ops = a.view) : Good a a ops := ⟨h, e.symm⟩

theorem setTmpl_self (s : Sys) (t : ℕ) : { s with w := s.w.setTmpl t (s.w.tmpls t) } = s := by
  refine sys_ext (fun _ => rfl) rfl ?_ rfl rfl rfl rfl rfl rfl rfl
  intro i
  simp [World.setTmpl, Function.update_apply]

theorem fresh_unref {a : AState} (h : Sep a) : ¬ Referenced a a.nArr := by
  rintro (⟨j, hj, e⟩ | ⟨j, hj, e⟩)
  · have := (h.clt j hj).1; omega
  · have := (h.plt j hj).1; omega

/-- construction of a histogram by an API call -/
theorem good_alloc {a : AState} (h : Sep a) (op : Op) (hk : op.kind = .newHist) (r : Except Err Hist)
    (hr : a.view.step op = a.view.allocHist r) : Good a (a.api op) [op] := by
  have hrun : a.view.run [op] = a.view.step op := rfl
  unfold AState.api
  simp only [hk]
  cases r with
  | error e =>
    have e1 : a.view.step op = a.view := hr
    rw [if_pos (by rw [e1]; rfl)]
    exact good_same h (by rw [hrun, e1])
  | ok x =>
    have e1 : a.view.step op = { a.view with w := (a.view.w.newHist x).2 } := hr
    rw [if_neg (by rw [e1]; show a.s.w.nHists + 1 ≠ _; omega)]
    have hx : ((a.view.step op).w.hists a.s.w.nHists).counts = x.counts := by
      rw [e1]; show (Function.update a.view.w.hists a.view.w.nHists x a.s.w.nHists).counts = _
      rw [view_nHists]; simp
    rw [hx]
    refine good_newHist h x [op] (by rw [hrun, e1]) _ _ _ _ (Nat.lt_succ_self _) (by simp) (by simp) (Nat.le_succ _) ?_ ?_
      (fresh_unref h)
    · intro j hj; rw [Function.update_of_ne (by omega)]
    · intro j hj; rw [Function.update_of_ne (by omega)]

theorem good_allocT {a : AState} (h : Sep a) (op : Op) (hk : op.kind = .newTmpl)
    (hr : a.view.step op = a.view ∨ ∃ r, a.view.step op = a.view.allocTmpl r) : Good a (a.api op) [op] := by
  have hrun : a.view.run [op] = a.view.step op := rfl
  have hsame : a.view.step op = a.view → Good a (a.api op) [op] := by
    intro e1
    unfold AState.api
    simp only [hk]
    rw [if_pos (by rw [e1]; rfl)]
    exact good_same h (by rw [hrun, e1])
  rcases hr with e1 | ⟨r, hr⟩
  · exact hsame e1
  · cases r with
    | error e => exact hsame hr
    | ok x =>
      unfold AState.api
      simp only [hk]
      have e1 : a.view.step op = { a.view with w := (a.view.w.newTmpl x).2 } := hr
      rw [if_neg (by rw [e1]; show a.s.w.nTmpls + 1 ≠ _; omega)]
      have hx : ((a.view.step op).w.tmpls a.s.w.nTmpls).params = x.params := by
        rw [e1]; show (Function.update a.view.w.tmpls a.view.w.nTmpls x a.s.w.nTmpls).params = _
        rw [view_nTmpls]; simp
      rw [hx]
      exact good_newTmpl h x [op] (by rw [hrun, e1])

theorem good_setter {a : AState} (h : Sep a) (op : Op) (k : ℕ) (hk : op.kind = .inTmpl k)
    (r : Except Err Template) (hr : a.view.step op = if k < a.view.w.nTmpls then a.view.storeTmpl k r else a.view) :
    Good a (a.api op) [op] := by
  have hrun : a.view.run [op] = a.view.step op := rfl
  unfold AState.api
  simp only [hk]
  rw [view_nTmpls] at hr
  by_cases hlt : k < a.s.w.nTmpls
  · have hf := (h.plt k hlt).2
    rw [if_pos ⟨hlt, by simp [hf]⟩]
    rw [if_pos hlt] at hr
    have key : ∃ x, a.view.step op = { a.view with w := a.view.w.setTmpl k x } := by
      cases r with
      | error e => exact ⟨_, hr.trans (setTmpl_self _ _).symm⟩
      | ok x => exact ⟨x, hr⟩
    obtain ⟨x, e1⟩ := key
    have hx : ((a.view.step op).w.tmpls k).params = x.params := by
      rw [e1]; simp [World.setTmpl]
    rw [hx, hf]
    exact good_inTmpl h k hlt x [op] (by rw [hrun, e1])
  · rw [if_neg (by tauto)]
    rw [if_neg hlt] at hr
    exact good_same h (by rw [hrun, hr])

theorem good_keep {a : AState} (h : Sep a) (op : Op) (k : ℕ) (hk : op.kind = .keep) (x : Template)
    (hr : a.view.step op = if k < a.view.w.nTmpls then { a.view with w := a.view.w.setTmpl k x } else a.view)
    (hx : x.params = (a.view.w.tmpls k).params) : Good a (a.api op) [op] := by
  have hrun : a.view.run [op] = a.view.step op := rfl
  unfold AState.api
  simp only [hk]
  rw [view_nTmpls] at hr
  by_cases hlt : k < a.s.w.nTmpls
  · rw [if_pos hlt] at hr
    have e1 : (a.view.step op).w.nTmpls = a.s.w.nTmpls := by rw [hr]; rfl
    have e2 : (a.view.step op).w.nHists = a.s.w.nHists := by rw [hr]; rfl
    refine good_of rfl ⟨by simp only [e2]; exact h.clt, by simp only [e1]; exact h.plt, by simp only [e2]; exact h.cc,
      by simp only [e1]; exact h.pp, by simp only [e1, e2]; exact h.cp⟩ ?_ ?_
    · intro j hj
      simp only [e2] at hj
      simp only
      rw [hr]
      exact (view_hist a hj).symm
    · intro t ht
      simp only [e1] at ht
      simp only
      rw [hr, ← view_tmpl a ht]
      by_cases htk : t = k
      · subst htk; simp [World.setTmpl, hx]
      · simp [World.setTmpl, Function.update_of_ne htk]
  · rw [if_neg hlt] at hr
    rw [hr]
    exact ⟨⟨h.clt, h.plt, h.cc, h.pp, h.cp⟩, by
      rw [hrun, hr]
      exact view_eq (a := { a with s := a.view }) (fun j hj => (view_hist a hj).symm) (fun t ht => (view_tmpl a ht).symm)⟩

/-- **one step** -/
theorem step_good {a : AState} (h : Sep a) (o : AOp) (hc : CleanStep a o) : Good a (a.step o) (valueOps a o) := by
  cases o with
  | alloc v b =>
    refine ⟨⟨?_, ?_, h.cc, h.pp, h.cp⟩, ?_⟩
    · intro j hj
      have := h.clt j hj
      exact ⟨Nat.lt_succ_of_lt this.1, by simp only [AState.step]; rw [Function.update_of_ne (by omega)]; exact this.2⟩
    · intro j hj
      have := h.plt j hj
      exact ⟨Nat.lt_succ_of_lt this.1, by simp only [AState.step]; rw [Function.update_of_ne (by omega)]; exact this.2⟩
    · show _ = a.view
      refine view_arr (a := a) (a' := a.step (.alloc v b)) rfl ?_ ?_
      · intro j hj
        exact Function.update_of_ne (show a.cref j ≠ a.nArr by have := (h.clt j hj).1; omega) _ _
      · intro j hj
        exact Function.update_of_ne (show a.pref j ≠ a.nArr by have := (h.plt j hj).1; omega) _ _
  | poke i v =>
    have hc : ¬ Referenced a i := hc
    simp only [AState.step, valueOps]
    split
    · refine ⟨⟨h.clt, h.plt, h.cc, h.pp, h.cp⟩, ?_⟩
      show _ = a.view
      refine view_arr (a := a) (a' := { a with arr := Function.update a.arr i (storeIn (a.isInt i) v) }) rfl ?_ ?_
      · intro j hj
        exact Function.update_of_ne (fun e => hc (Or.inl ⟨j, hj, e⟩)) _ _
      · intro j hj
        exact Function.update_of_ne (fun e => hc (Or.inr ⟨j, hj, e⟩)) _ _
    · exact good_refl h
  | binnedRef i e er =>
    obtain ⟨hc, hint⟩ : ¬ Referenced a i ∧ a.isInt i = false := hc
    simp only [AState.step, valueOps]
    by_cases hi : i < a.nArr
    · rw [if_pos hi, if_pos hi]
      have hrun : a.view.run [.binned1 (a.arr i) e er] = a.view.step (.binned1 (a.arr i) e er) := rfl
      have hr : a.view.step (.binned1 (a.arr i) e er) = a.view.allocHist (Hist1d.fromBinned (a.arr i) e er) := rfl
      cases hf : Hist1d.fromBinned (a.arr i) e er with
      | error e' =>
        rw [hf] at hr
        have hr : a.view.step (.binned1 (a.arr i) e er) = a.view := hr
        rw [if_pos (by rw [hr]; rfl)]
        exact good_same h (by rw [hrun, hr])
      | ok x =>
        rw [hf] at hr
        have hr : a.view.step (.binned1 (a.arr i) e er) = { a.view with w := (a.view.w.newHist x).2 } := hr
        have hx : a.arr i = x.counts := by
          unfold Hist1d.fromBinned at hf
          split at hf
          · cases hf
          · obtain rfl := Except.ok.inj hf; rfl
        rw [if_neg (by rw [hr]; show a.s.w.nHists + 1 ≠ _; omega)]
        exact good_newHist h x _ (by rw [hrun, hr]) a.arr a.nArr a.isInt i hi hx hint le_rfl (fun _ _ => rfl)
          (fun _ _ => rfl) hc
    · rw [if_neg hi, if_neg hi]
      exact good_refl h
  | paramsRef t i =>
    obtain ⟨hc, hint⟩ : ¬ Referenced a i ∧ a.isInt i = false := hc
    simp only [AState.step, valueOps]
    by_cases hi : i < a.nArr ∧ (a.arr i).shape = [(a.arr i).data.length]
    · rw [if_pos hi]
      have hrun : a.view.run [.setTmplParams t (a.arr i).data] = a.view.step (.setTmplParams t (a.arr i).data) := rfl
      have hr : a.view.step (.setTmplParams t (a.arr i).data) = if t < a.view.w.nTmpls then
        a.view.storeTmpl t ((a.view.w.tmpls t).setParams (a.arr i).data) else a.view := rfl
      rw [view_nTmpls] at hr
      by_cases ht : t < a.s.w.nTmpls
      · rw [if_pos ht] at hr
        have hl := view_tmpl a ht
        by_cases hlen : (a.arr i).data.length = (a.arr (a.pref t)).data.length
        · rw [if_pos ⟨ht, hi.1, hi.2, hlen⟩]
          have hs : (a.view.w.tmpls t).setParams (a.arr i).data = .ok { a.view.w.tmpls t with params := (a.arr i).data } := by
            unfold Template.setParams
            rw [if_neg (by rw [hl]; simpa using hlen)]
          rw [hs] at hr
          exact good_newParams h t ht { a.view.w.tmpls t with params := (a.arr i).data } _ (by rw [hrun, hr]; rfl) a.arr a.nArr
            a.isInt i hi.1 rfl hint le_rfl (fun _ _ => rfl) (fun _ _ => rfl) hc
        · rw [if_neg (by tauto)]
          have hs : (a.view.w.tmpls t).setParams (a.arr i).data = .error .runtimeError := by
            unfold Template.setParams
            rw [if_pos (by rw [hl]; simpa using hlen)]
          rw [hs] at hr
          exact good_same h (by rw [hrun, hr]; rfl)
      · rw [if_neg ht] at hr
        rw [if_neg (by tauto)]
        exact good_same h (by rw [hrun, hr])
    · rw [if_neg hi, if_neg (by tauto)]
      exact good_refl h
  | api op =>
    show Good a (a.api op) (if op.kind = .none then [] else [op])
    by_cases hn : op.kind = .none
    · rw [if_pos hn]
      have : a.api op = a := by unfold AState.api; simp only [hn]
      rw [this]; exact good_refl h
    · rw [if_neg hn]
      cases op with
      | newHist1 b r d w => exact good_alloc h _ rfl _ rfl
      | newHist2 b r d w => exact good_alloc h _ rfl _ rfl
      | binned1 c e er => exact good_alloc h _ rfl _ rfl
      | binned2 c ex ey er => exact good_alloc h _ rfl _ rfl
      | newTmpl1 n k =>
        apply good_allocT h _ rfl
        simp only [Sys.step]
        split
        · exact Or.inr ⟨_, rfl⟩
        · exact Or.inl rfl
      | newTmpl2 n k =>
        apply good_allocT h _ rfl
        simp only [Sys.step]
        split
        · exact Or.inr ⟨_, rfl⟩
        · exact Or.inl rfl
      | fill k x y w =>
        unfold AState.api
        simp only [Op.kind]
        by_cases hk : k < a.s.w.nHists
        · rw [if_pos ⟨hk, (h.clt k hk).2⟩]
          have e1 : a.view.step (.fill k x y w) = { a.view with w := a.view.w.setHist k ((a.view.w.hists k).fill x y w).2 } := by
            simp only [Sys.step]; rw [if_pos (by rw [view_nHists]; exact hk)]
          have hx : ((a.view.step (.fill k x y w)).w.hists k).counts = (((a.view.w.hists k).fill x y w).2).counts := by
            rw [e1]; simp [World.setHist]
          rw [hx]
          exact good_inHist h k hk _ [.fill k x y w] e1
        · rw [if_neg (by tauto)]
          refine good_same h ?_
          have hrun : a.view.run [.fill k x y w] = a.view.step (.fill k x y w) := rfl
          rw [hrun]
          simp only [Sys.step]; rw [if_neg (by rw [view_nHists]; exact hk)]
      | addVariation t x y up down =>
        refine good_keep h _ t rfl ((a.view.w.tmpls t).addVariation (a.view.w.hists (a.view.w.tmpls t).hist) x y up down).2 rfl ?_
        rcases addVariation_cases (a.view.w.tmpls t) (a.view.w.hists (a.view.w.tmpls t).hist) x y up down with h1 | ⟨m, -, h1⟩
        · rw [h1.1]
        · rw [h1]; exact (addCov_frame _ _).2
      | addCovMat t m =>
        refine good_keep h _ t rfl ((a.view.w.tmpls t).addCovMat m).2 rfl ?_
        rcases addCovMat_cases (a.view.w.tmpls t) m with h1 | h1
        · rw [h1.1]
        · rw [h1.1]; exact (addCov_frame _ _).2
      | setTmplYield t v => exact good_setter h _ t rfl _ rfl
      | setTmplNui t v => exact good_setter h _ t rfl _ rfl
      | setTmplParams t v =>
        have hr : a.view.step (.setTmplParams t v) = if t < a.view.w.nTmpls then
          a.view.storeTmpl t ((a.view.w.tmpls t).setParams v) else a.view := rfl
        rw [view_nTmpls] at hr
        have hrun : a.view.run [.setTmplParams t v] = a.view.step (.setTmplParams t v) := rfl
        unfold AState.api
        simp only [Op.kind]
        by_cases ht : t < a.s.w.nTmpls
        · rw [if_pos ht] at hr
          have hl := view_tmpl a ht
          by_cases hlen : v.length = (a.arr (a.pref t)).data.length
          · rw [if_pos ⟨ht, hlen⟩]
            have hs : (a.view.w.tmpls t).setParams v = .ok { a.view.w.tmpls t with params := v } := by
              unfold Template.setParams
              rw [if_neg (by rw [hl]; simpa using hlen)]
            rw [hs] at hr
            refine good_newParams h t ht { a.view.w.tmpls t with params := v } [.setTmplParams t v] (by rw [hrun, hr]; rfl) _ _ _ _
              (Nat.lt_succ_self _) (by simp [NdArr.of1d]) (by simp) (Nat.le_succ _) ?_ ?_ (fresh_unref h)
            · intro j hj; rw [Function.update_of_ne (by omega)]
            · intro j hj; rw [Function.update_of_ne (by omega)]
          · rw [if_neg (by tauto)]
            have hs : (a.view.w.tmpls t).setParams v = .error .runtimeError := by
              unfold Template.setParams
              rw [if_pos (by rw [hl]; simpa using hlen)]
            rw [hs] at hr
            exact good_same h (by rw [hrun, hr]; rfl)
        · rw [if_neg (by tauto)]
          rw [if_neg ht] at hr
          exact good_same h (by rw [hrun, hr])
      | resetTmpl t =>
        have hrun : a.view.run [.resetTmpl t] = a.view.step (.resetTmpl t) := rfl
        unfold AState.api
        simp only [Op.kind]
        by_cases ht : t < a.s.w.nTmpls
        · rw [if_pos ht]
          have e1 : a.view.step (.resetTmpl t) = { a.view with w := a.view.w.setTmpl t ((a.view.w.tmpls t).reset
              (a.view.w.hists (a.view.w.tmpls t).hist)) } := by
            simp only [Sys.step]; rw [if_pos (by rw [view_nTmpls]; exact ht)]
          refine good_newParams h t ht _ [.resetTmpl t] (by rw [hrun, e1]) _ _ _ _
              (Nat.lt_succ_self _) (by rw [e1]; simp [NdArr.of1d, World.setTmpl]) (by simp) (Nat.le_succ _) ?_ ?_ (fresh_unref h)
          · intro j hj; rw [Function.update_of_ne (by omega)]
          · intro j hj; rw [Function.update_of_ne (by omega)]
        · rw [if_neg ht]
          refine good_same h ?_
          rw [hrun]
          simp only [Sys.step]; rw [if_neg (by rw [view_nTmpls]; exact ht)]
      | _ => exact absurd rfl hn

theorem run_good (ops : List AOp) : ∀ {a : AState}, Sep a → CleanRun a ops →
    Sep (a.run ops) ∧ (a.run ops).view = a.view.run (valueProgram a ops) := by
  induction ops with
  | nil => intro a h _; exact ⟨h, rfl⟩
  | cons o os ih =>
    intro a h hc
    obtain ⟨g1, g2⟩ := step_good h o hc.1
    obtain ⟨i1, i2⟩ := ih g1 hc.2
    refine ⟨i1, ?_⟩
    show ((a.step o).run os).view = a.view.run (valueOps a o ++ valueProgram (a.step o) os)
    rw [i2, g2, run_append]

theorem init_sep : Sep AState.init := by
  constructor <;> intro j hj <;> simp [AState.init, Sys.init, World.init] at hj

theorem init_view : AState.init.view = Sys.init := by
  apply view_eq <;> intro j hj <;> simp [AState.init, Sys.init, World.init] at hj

/-- **C89, partial.** As long as every (float) array handed to `from_binned_data` or to the `params` setter is handed
over once and not written to afterwards, all histograms and templates always look as if every array had been copied: their
state after any program is that of the model without shared arrays after the same calls with the arrays' contents. -/
theorem C89_handed_over_partial (ops : List AOp) (hc : CleanRun AState.init ops) :
    (AState.init.run ops).view = Sys.init.run (valueProgram AState.init ops) := by
  rw [(run_good ops init_sep hc).2, init_view]

/-! ### What happens otherwise -/

theorem api_cref (a : AState) (op : Op) (hop : op.kind ≠ .newHist) : (a.api op).cref = a.cref := by
  unfold AState.api
  cases hk : op.kind <;> simp only [] <;> first | exact absurd hk hop | (split <;> rfl)

/-- an object keeps its count array for ever -/
theorem step_cref (a : AState) (o : AOp) (h : ℕ) (hh : h < a.s.w.nHists) : (a.step o).cref h = a.cref h := by
  cases o with
  | alloc v b => rfl
  | poke i v => simp only [AState.step]; split <;> rfl
  | binnedRef i e er =>
    simp only [AState.step]
    split
    · split
      · rfl
      · exact Function.update_of_ne (by omega) _ _
    · rfl
  | paramsRef t i => simp only [AState.step]; split <;> rfl
  | api op =>
    show (a.api op).cref h = _
    by_cases hk : op.kind = .newHist
    · unfold AState.api
      simp only [hk]
      split
      · rfl
      · exact Function.update_of_ne (by omega) _ _
    · rw [api_cref a op hk]

theorem allocHist_n (s : Sys) (r : Except Err Hist) : s.w.nHists ≤ (s.allocHist r).w.nHists := by
  cases r with
  | error e => exact le_rfl
  | ok x => exact Nat.le_succ _

theorem allocTmpl_n (s : Sys) (r : Except Err Template) : (s.allocTmpl r).w.nHists = s.w.nHists := by
  cases r <;> rfl

theorem storeTmpl_n (s : Sys) (k : ℕ) (r : Except Err Template) : (s.storeTmpl k r).w.nHists = s.w.nHists := by
  cases r <;> rfl

/-- no histogram disappears -/
theorem sysStep_nHists (s : Sys) (op : Op) (hop : op.kind ≠ .none) : s.w.nHists ≤ (s.step op).w.nHists := by
  cases op with
  | newHist1 b r d w => exact allocHist_n _ _
  | newHist2 b r d w => exact allocHist_n _ _
  | binned1 c e er => exact allocHist_n _ _
  | binned2 c ex ey er => exact allocHist_n _ _
  | fill k x y w => simp only [Sys.step]; split <;> exact le_rfl
  | newTmpl1 n k => simp only [Sys.step]; split <;> first | exact (allocTmpl_n _ _).ge | exact le_rfl
  | newTmpl2 n k => simp only [Sys.step]; split <;> first | exact (allocTmpl_n _ _).ge | exact le_rfl
  | addVariation t x y up down => simp only [Sys.step]; split <;> exact le_rfl
  | addCovMat t m => simp only [Sys.step]; split <;> exact le_rfl
  | setTmplYield t v => simp only [Sys.step]; split <;> first | exact (storeTmpl_n _ _ _).ge | exact le_rfl
  | setTmplNui t v => simp only [Sys.step]; split <;> first | exact (storeTmpl_n _ _ _).ge | exact le_rfl
  | setTmplParams t v => simp only [Sys.step]; split <;> first | exact (storeTmpl_n _ _ _).ge | exact le_rfl
  | resetTmpl t => simp only [Sys.step]; split <;> exact le_rfl
  | _ => exact absurd rfl hop

theorem step_nHists (a : AState) (o : AOp) : a.s.w.nHists ≤ (a.step o).s.w.nHists := by
  cases o with
  | alloc v b => exact le_rfl
  | poke i v => simp only [AState.step]; split <;> exact le_rfl
  | binnedRef i e er =>
    simp only [AState.step]
    split
    · split
      · exact le_rfl
      · exact sysStep_nHists a.view _ (by simp [Op.kind])
    · exact le_rfl
  | paramsRef t i =>
    simp only [AState.step]
    split
    · exact sysStep_nHists a.view (.setTmplParams t (a.arr i).data) (by simp [Op.kind])
    · exact le_rfl
  | api op =>
    show a.s.w.nHists ≤ (a.api op).s.w.nHists
    by_cases hn : op.kind = .none
    · have : a.api op = a := by unfold AState.api; simp only [hn]
      rw [this]
    · have key := sysStep_nHists a.view op hn
      rw [view_nHists] at key
      unfold AState.api
      cases hk : op.kind <;> simp only [] <;> first | exact absurd hk hn | exact key | (split <;> first | exact le_rfl | exact key)

/-- **C89, what goes wrong.** Two histograms made from the same array show the same counts for ever, whatever is done
afterwards - in particular whatever is filled into one of them. -/
theorem C89_shared_forever (ops : List AOp) : ∀ (a : AState) (h j : ℕ), h < a.s.w.nHists → j < a.s.w.nHists →
    a.cref h = a.cref j → ((a.run ops).view.w.hists h).counts = ((a.run ops).view.w.hists j).counts := by
  induction ops with
  | nil =>
    intro a h j hh hj e
    show (a.view.w.hists h).counts = (a.view.w.hists j).counts
    rw [view_hist a hh, view_hist a hj, e]
  | cons o os ih =>
    intro a h j hh hj e
    refine ih (a.step o) h j (lt_of_lt_of_le hh (step_nHists a o)) (lt_of_lt_of_le hj (step_nHists a o)) ?_
    rw [step_cref a o h hh, step_cref a o j hj, e]

/-- **C89.** No call changes an array that belongs to no histogram and no template: what the user keeps for himself is
never written to, in any state. -/
theorem C89_user_arrays (a : AState) (op : Op) (i : ℕ) (hi : i < a.nArr) (hr : ¬ Referenced a i) :
    (a.api op).arr i = a.arr i := by
  have h1 : ∀ h < a.s.w.nHists, i ≠ a.cref h := fun h hh e => hr (Or.inl ⟨h, hh, e.symm⟩)
  have h2 : ∀ t < a.s.w.nTmpls, i ≠ a.pref t := fun h hh e => hr (Or.inr ⟨h, hh, e.symm⟩)
  unfold AState.api
  cases hk : op.kind <;> simp only []
  · split
    · rfl
    · exact Function.update_of_ne (by omega) _ _
  · split
    · rename_i hc; exact Function.update_of_ne (h1 _ hc.1) _ _
    · rfl
  · split
    · rfl
    · exact Function.update_of_ne (by omega) _ _
  · split
    · rename_i hc; exact Function.update_of_ne (h2 _ hc.1) _ _
    · rfl
  · split
    · exact Function.update_of_ne (by omega) _ _
    · rfl
  · split
    · exact Function.update_of_ne (by omega) _ _
    · rfl

/-- **C89.** Filling a histogram changes the counts of exactly those histograms whose counts are the same array: all
others keep theirs, and so do all templates that do not use that array as parameters. -/
theorem C89_fill_frame (a : AState) (h : ℕ) (x y : Vec) (w : Weights) :
    (∀ j < a.s.w.nHists, a.cref j ≠ a.cref h →
      ((a.api (.fill h x y w)).view.w.hists j).counts = (a.view.w.hists j).counts) ∧
    (∀ t < a.s.w.nTmpls, a.pref t ≠ a.cref h →
      ((a.api (.fill h x y w)).view.w.tmpls t).params = (a.view.w.tmpls t).params) ∧
    (h < a.s.w.nHists → a.isInt (a.cref h) = false → ∀ j < a.s.w.nHists, a.cref j = a.cref h →
      ((a.api (.fill h x y w)).view.w.hists j).counts = (((a.view.w.hists h).fill x y w).2).counts) ∧
    (h < a.s.w.nHists → a.isInt (a.cref h) = true → (a.api (.fill h x y w)).view = a.view) := by
  by_cases hh : h < a.s.w.nHists
  · by_cases hint : a.isInt (a.cref h) = false
    · have hr : a.view.step (.fill h x y w) =
          { a.view with w := a.view.w.setHist h ((a.view.w.hists h).fill x y w).2 } := by
        simp only [Sys.step]; rw [if_pos (by rw [view_nHists]; exact hh)]
      have e : a.api (.fill h x y w) = { a with
          s := a.view.step (.fill h x y w)
          arr := Function.update a.arr (a.cref h) (((a.view.w.hists h).fill x y w).2).counts } := by
        unfold AState.api
        simp only [Op.kind]
        rw [if_pos ⟨hh, hint⟩, hr]
        simp [World.setHist]
      have e1 : (a.api (.fill h x y w)).s.w.nHists = a.s.w.nHists := by rw [e, hr]; rfl
      have e2 : (a.api (.fill h x y w)).s.w.nTmpls = a.s.w.nTmpls := by rw [e, hr]; rfl
      refine ⟨?_, ?_, ?_, ?_⟩
      · intro j hj hne
        rw [view_hist _ (by rw [e1]; exact hj), view_hist _ hj, e]
        exact Function.update_of_ne hne _ _
      · intro t ht hne
        rw [view_tmpl _ (by rw [e2]; exact ht), view_tmpl _ ht, e]
        exact congrArg NdArr.data (Function.update_of_ne hne _ _)
      · intro _ _ j hj he
        rw [view_hist _ (by rw [e1]; exact hj), e]
        simp only
        rw [he, Function.update_self]
      · intro _ hi; rw [hint] at hi; exact absurd hi (by simp)
    · have e : a.api (.fill h x y w) = a := by
        unfold AState.api; simp only [Op.kind]; rw [if_neg (by tauto)]
      rw [e]
      exact ⟨fun _ _ _ => rfl, fun _ _ _ => rfl, fun _ hi => absurd hi hint, fun _ _ => rfl⟩
  · have e : a.api (.fill h x y w) = a := by
      unfold AState.api; simp only [Op.kind]; rw [if_neg (by tauto)]
    rw [e]
    exact ⟨fun _ _ _ => rfl, fun _ _ _ => rfl, fun hi => absurd hi hh, fun _ _ => rfl⟩

/-- **C89.** Setting the yield of a template sets it in all templates with the same parameter array and in no other;
if that array holds integers, the value loses its fractional part. -/
theorem C89_yield_frame (a : AState) (t : ℕ) (r : ℝ) (ht : t < a.s.w.nTmpls) :
    (∀ j < a.s.w.nTmpls, a.pref j ≠ a.pref t →
      ((a.api (.setTmplYield t (.float (.fin r)))).view.w.tmpls j).params = (a.view.w.tmpls j).params) ∧
    (∀ j < a.s.w.nHists, a.cref j ≠ a.pref t →
      ((a.api (.setTmplYield t (.float (.fin r)))).view.w.hists j).counts = (a.view.w.hists j).counts) ∧
    (∀ j < a.s.w.nTmpls, a.pref j = a.pref t →
      ((a.api (.setTmplYield t (.float (.fin r)))).view.w.tmpls j).params.headD 0 =
        if a.isInt (a.pref t) then Fl.trunc (.fin r) else .fin r) := by
  have hr : a.view.step (.setTmplYield t (.float (.fin r))) = { a.view with
      w := a.view.w.setTmpl t { a.view.w.tmpls t with params := .fin r :: (a.view.w.tmpls t).params.tail } } := by
    simp only [Sys.step]; rw [if_pos (by rw [view_nTmpls]; exact ht)]; rfl
  have e : a.api (.setTmplYield t (.float (.fin r))) = { a with
      s := a.view.step (.setTmplYield t (.float (.fin r)))
      arr := Function.update a.arr (a.pref t) (storeIn (a.isInt (a.pref t))
        (NdArr.of1d (.fin r :: (a.view.w.tmpls t).params.tail))) } := by
    unfold AState.api
    simp only [Op.kind]
    rw [if_pos ⟨ht, fun hb => by
      have hb2 := hb.2
      have hf : (Fl.fin r).isFin := trivial
      simp only [Op.badForInt, hf, decide_true, Bool.not_true] at hb2
      cases hb2⟩, hr]
    simp [World.setTmpl]
  have e1 : (a.api (.setTmplYield t (.float (.fin r)))).s.w.nHists = a.s.w.nHists := by rw [e, hr]; rfl
  have e2 : (a.api (.setTmplYield t (.float (.fin r)))).s.w.nTmpls = a.s.w.nTmpls := by rw [e, hr]; rfl
  refine ⟨?_, ?_, ?_⟩
  · intro j hj hne
    rw [view_tmpl _ (by rw [e2]; exact hj), view_tmpl _ hj, e]
    exact congrArg NdArr.data (Function.update_of_ne hne _ _)
  · intro j hj hne
    rw [view_hist _ (by rw [e1]; exact hj), view_hist _ hj, e]
    exact Function.update_of_ne hne _ _
  · intro j hj he
    rw [view_tmpl _ (by rw [e2]; exact hj), e]
    simp only
    rw [he, Function.update_self]
    cases a.isInt (a.pref t) <;> simp [storeIn, NdArr.of1d, NdArr.map]

/-! ### Examples -/

/-- the user makes an array and uses it for two histograms -/
def Ex.twoHists : List AOp := [.alloc ⟨[1], [.fin 5]⟩ false, .binnedRef 0 ⟨true, [0, 1]⟩ none, .binnedRef 0 ⟨true, [0, 1]⟩ none]

/-- the histogram both of them look like -/
def Ex.h5 : Hist := (Hist.blank .h1 [⟨true, [0, 1]⟩] [1] (.d1 .tuple 0 1)).setBinned ⟨[1], [.fin 5]⟩ none

theorem Ex.h5_good : Good1 Ex.h5 [0, 1] := by
  refine ⟨rfl, rfl, by simp, by simp, rfl, rfl, rfl, rfl⟩

theorem Ex.two_step1 (a : AState) (i : ℕ) (hi : i < a.nArr) (hv : a.arr i = ⟨[1], [.fin 5]⟩) :
    a.step (.binnedRef i ⟨true, [0, 1]⟩ none) =
      { a with s := { a.view with w := (a.view.w.newHist Ex.h5).2 }, cref := Function.update a.cref a.s.w.nHists i } := by
  simp only [AState.step]
  rw [if_pos hi]
  have hr : a.view.step (.binned1 (a.arr i) ⟨true, [0, 1]⟩ none) = { a.view with w := (a.view.w.newHist Ex.h5).2 } := by
    rw [hv]; rfl
  rw [hr, if_neg (by show a.s.w.nHists + 1 ≠ _; omega)]

/-- the arrays after the first line -/
def Ex.a0 : AState := AState.init.step (.alloc ⟨[1], [.fin 5]⟩ false)

theorem Ex.a0_arr : Ex.a0.arr 0 = ⟨[1], [.fin 5]⟩ := by simp [Ex.a0, AState.step, AState.init, storeIn]

theorem Ex.a0_n : 0 < Ex.a0.nArr := by simp [Ex.a0, AState.step, AState.init]

/-- after the second -/
def Ex.a1 : AState :=
  { Ex.a0 with s := { Ex.a0.view with w := (Ex.a0.view.w.newHist Ex.h5).2 }
               cref := Function.update Ex.a0.cref Ex.a0.s.w.nHists 0 }

/-- after the third -/
def Ex.a2 : AState :=
  { Ex.a1 with s := { Ex.a1.view with w := (Ex.a1.view.w.newHist Ex.h5).2 }
               cref := Function.update Ex.a1.cref Ex.a1.s.w.nHists 0 }

theorem Ex.a0_step : Ex.a0.step (.binnedRef 0 ⟨true, [0, 1]⟩ none) = Ex.a1 := Ex.two_step1 Ex.a0 0 Ex.a0_n Ex.a0_arr

theorem Ex.a1_step : Ex.a1.step (.binnedRef 0 ⟨true, [0, 1]⟩ none) = Ex.a2 := Ex.two_step1 Ex.a1 0 Ex.a0_n Ex.a0_arr

theorem Ex.two_run : AState.init.run Ex.twoHists = Ex.a2 := by
  show (Ex.a0.step (.binnedRef 0 ⟨true, [0, 1]⟩ none)).step (.binnedRef 0 ⟨true, [0, 1]⟩ none) = _
  rw [Ex.a0_step, Ex.a1_step]

/-- both histograms refer to array 0 -/
theorem Ex.two_state : Ex.a2.s.w.nHists = 2 ∧ Ex.a2.cref 0 = 0 ∧ Ex.a2.cref 1 = 0 ∧ Ex.a2.isInt 0 = false ∧
    Ex.a2.view.w.hists 0 = Ex.h5 := by
  refine ⟨rfl, rfl, rfl, rfl, ?_⟩
  simp [Ex.a2, Ex.a1, Ex.a0, AState.view, AState.step, AState.init, Sys.init, World.init, World.newHist, storeIn, Ex.h5,
    Hist.setBinned]

theorem Ex.two_values (o : Op) (ho : o.kind ≠ .none) : valueProgram AState.init (Ex.twoHists ++ [.api o]) =
    [.binned1 ⟨[1], [.fin 5]⟩ ⟨true, [0, 1]⟩ none, .binned1 ⟨[1], [.fin 5]⟩ ⟨true, [0, 1]⟩ none, o] := by
  show valueOps Ex.a0 (.binnedRef 0 ⟨true, [0, 1]⟩ none) ++ (valueOps (Ex.a0.step (.binnedRef 0 ⟨true, [0, 1]⟩ none))
    (.binnedRef 0 ⟨true, [0, 1]⟩ none) ++ (valueOps _ (.api o) ++ [])) = _
  rw [Ex.a0_step]
  have h0 : valueOps Ex.a0 (.binnedRef 0 ⟨true, [0, 1]⟩ none) = [.binned1 ⟨[1], [.fin 5]⟩ ⟨true, [0, 1]⟩ none] := by
    simp only [valueOps]; rw [if_pos Ex.a0_n, Ex.a0_arr]
  have h1 : valueOps Ex.a1 (.binnedRef 0 ⟨true, [0, 1]⟩ none) = [.binned1 ⟨[1], [.fin 5]⟩ ⟨true, [0, 1]⟩ none] := h0
  rw [h0, h1]
  simp [valueOps, ho]

/-- **C89 is refuted in general.** After `a = np.array([5.]); h0 = Hist1d.from_binned_data(a, edges);
h1 = Hist1d.from_binned_data(a, edges); h0.fill([0.5], None)` the histogram `h1`, into which nothing was filled, has 6
entries, and so has the array `a` of the user. With copied arrays `h1` would have 5. -/
theorem C89_refuted :
    let prog := Ex.twoHists ++ [.api (.fill 0 [.fin (1 / 2)] [] .none)]
    ((AState.init.run prog).view.w.hists 1).counts.data = [.fin 6] ∧ ((AState.init.run prog).arr 0).data = [.fin 6] ∧
    ((Sys.init.run (valueProgram AState.init prog)).w.hists 1).counts.data = [.fin 5] := by
  intro prog
  obtain ⟨s1, s3, s4, s5, s7⟩ := Ex.two_state
  have e0 : AState.init.run prog = Ex.a2.api (.fill 0 [.fin (1 / 2)] [] .none) := by
    rw [← Ex.two_run]; rfl
  obtain ⟨-, -, f3, -⟩ := C89_fill_frame Ex.a2 0 [.fin (1 / 2)] [] .none
  obtain ⟨h', g1, g2, -, -, -, g3⟩ := C01_fill_counts Ex.h5 [0, 1] Ex.h5_good [.fin (1 / 2)] [1] .none (Or.inl ⟨rfl, by simp⟩) rfl
  have hw : weightIn [0, 1] 0 [.fin (1 / 2)] [1] = .fin 1 := by
    unfold weightIn
    rw [List.zip_cons_cons, List.zip_nil_right, List.filter_cons_of_pos (by
      simp only [decide_eq_true_eq]
      left
      simp [InHalfOpen]; norm_num)]
    simp
    rfl
  have hc : h'.counts.data = [.fin 6] := by
    have hl := g2.counts_len
    have := g3 0 (by simp)
    obtain ⟨q, hq⟩ := List.length_eq_one_iff.mp (show h'.counts.data.length = 1 by simpa using hl)
    rw [hq, hw] at this
    rw [hq]
    simp [Ex.h5, Hist.setBinned, Fl.fin_add] at this
    rw [this]; norm_num
  have hf : ((Ex.h5.fill [.fin (1 / 2)] [] .none).2).counts.data = [.fin 6] := by
    have : Ex.h5.fill [.fin (1 / 2)] [] .none = Hist1d.fill Ex.h5 [.fin (1 / 2)] .none := rfl
    rw [this, g1]; exact hc
  have f3' := f3 (by rw [s1]; norm_num) (by rw [s3]; exact s5)
  rw [s7] at f3'
  have n1 : (Ex.a2.api (.fill 0 [.fin (1 / 2)] [] .none)).s.w.nHists = 2 :=
    le_antisymm (by
      unfold AState.api
      simp only [Op.kind]
      split
      · simp only [Sys.step]; split <;> exact s1.le
      · exact s1.le) (s1 ▸ step_nHists Ex.a2 (.api (.fill 0 [.fin (1 / 2)] [] .none)))
  have k0 : (Ex.a2.api (.fill 0 [.fin (1 / 2)] [] .none)).cref 0 = 0 := by rw [api_cref _ _ (by simp [Op.kind])]; exact s3
  refine ⟨?_, ?_, ?_⟩
  · rw [e0, f3' 1 (by rw [s1]; norm_num) (by rw [s4, s3])]; exact hf
  · have := f3' 0 (by rw [s1]; norm_num) rfl
    rw [view_hist _ (by rw [n1]; norm_num), k0] at this
    rw [e0, this]; exact hf
  · rw [Ex.two_values _ (by simp [Op.kind])]
    rfl

theorem unref_init (a : AState) (h : a.s = Sys.init) (i : ℕ) : ¬ Referenced a i := by
  unfold Referenced
  rw [h]
  simp [Sys.init, World.init]

/-- the hypotheses of `C89_handed_over_partial` are met by the same program with two arrays, and a user array that is
changed before it is handed over -/
def Ex.twoArrays : List AOp := [.alloc ⟨[1], [.fin 5]⟩ false, .binnedRef 0 ⟨true, [0, 1]⟩ none,
  .alloc ⟨[1], [.fin 4]⟩ false, .poke 1 ⟨[1], [.fin 5]⟩, .binnedRef 1 ⟨true, [0, 1]⟩ none,
  .api (.fill 0 [.fin (1 / 2)] [] .none)]

theorem Ex.a1_unref : ¬ Referenced (Ex.a1.step (.alloc ⟨[1], [.fin 4]⟩ false)) 1 := by
  rintro (⟨h, hh, e⟩ | ⟨t, ht, e⟩)
  · have : h < 1 := hh
    obtain rfl : h = 0 := by omega
    exact absurd (show (0 : ℕ) = 1 from e) (by decide)
  · exact absurd (show t < 0 from ht) (by omega)

example : CleanRun AState.init Ex.twoArrays := by
  have hp : (Ex.a1.step (.alloc ⟨[1], [.fin 4]⟩ false)).step (.poke 1 ⟨[1], [.fin 5]⟩) =
      { Ex.a1.step (.alloc ⟨[1], [.fin 4]⟩ false) with
        arr := Function.update (Ex.a1.step (.alloc ⟨[1], [.fin 4]⟩ false)).arr 1 ⟨[1], [.fin 5]⟩ } := by
    have hc : 1 < (Ex.a1.step (.alloc ⟨[1], [.fin 4]⟩ false)).nArr ∧
        (⟨[1], [.fin 5]⟩ : NdArr).shape = ((Ex.a1.step (.alloc ⟨[1], [.fin 4]⟩ false)).arr 1).shape := ⟨by
      show 1 < 2; norm_num, rfl⟩
    have hb : (Ex.a1.step (.alloc ⟨[1], [.fin 4]⟩ false)).isInt 1 = false := rfl
    generalize Ex.a1.step (.alloc ⟨[1], [.fin 4]⟩ false) = b at hc hb ⊢
    simp only [AState.step]
    rw [if_pos hc, hb]
    rfl
  refine ⟨trivial, ⟨unref_init _ rfl 0, rfl⟩, trivial, ?_⟩
  show CleanRun ((Ex.a0.step (.binnedRef 0 ⟨true, [0, 1]⟩ none)).step (.alloc ⟨[1], [.fin 4]⟩ false)) _
  rw [Ex.a0_step]
  refine ⟨Ex.a1_unref, ?_⟩
  rw [hp]
  exact ⟨⟨Ex.a1_unref, rfl⟩, trivial, trivial⟩

end

end TF.Props
