import Verif.Props.LegacySysProps3

set_option linter.unusedSimpArgs false

/-!
# Legacy likelihood objects over histories of calls (C93–C95)
-/

namespace TF.Spec

open Classical
open scoped Matrix

noncomputable section

/-- the call puts a template into stack `S` -/
def AddsTo (S : ℕ) : LCmd → Prop
  | .addTemplate S' _ _ => S' = S
  | .createTemplate S' _ _ => S' = S
  | _ => False

/-- the call adds a covariance matrix to one of the template objects -/
def AddsCov (ids : List ℕ) : LCmd → Prop
  | .addCov t _ => t ∈ ids
  | _ => False

end

end TF.Spec

namespace TF.Props

open Classical Spec
open scoped Matrix

noncomputable section

/-! ### what calls leave alone -/

/-- no call but `fill` changes a histogram that exists -/
theorem step_hists (s : LSys) (c : LCmd) (h : ℕ) (H : LH1) (hH : s.hists[h]? = some H) (hc : ∀ d w, c ≠ .fill h d w) :
    (s.step c).2.hists[h]? = some H := by
  have hlt : h < s.hists.length := (List.getElem?_eq_some_iff.mp hH).1
  have hadd : ∀ r, (s.addHist r).2.hists[h]? = some H := by
    intro r
    unfold LSys.addHist
    cases r with
    | error e => exact hH
    | ok q => simp only; rw [List.getElem?_append_left hlt, hH]
  have hon : ∀ (f : LTemplate → Except Err Unit × LTemplate) t', (s.onTmpl t' f).2.hists = s.hists := by
    intro f t'
    unfold LSys.onTmpl
    split <;> rfl
  cases c with
  | newHist | fromBinned => exact hadd _
  | fill h' data w =>
    have hne : h' ≠ h := fun e => hc data w (by rw [e])
    simp only [LSys.step]
    split
    · exact hH
    · simp only; rw [List.getElem?_set_ne hne, hH]
  | newTemplate => simp only [LSys.step]; split <;> exact hH
  | addCov | setYield | setYieldErr | setNui | setNuiErr | resetTemplate => simp only [LSys.step, hon]; exact hH
  | templateAsimov | templateToy | stackAsimov | stackToy =>
    simp only [LSys.step]
    split
    · exact hH
    · exact hadd _
  | newStack => simp only [LSys.step]; split <;> exact hH
  | addTemplate =>
    simp only [LSys.step]; split
    · split <;> exact hH
    · exact hH
  | createTemplate =>
    simp only [LSys.step]; split
    · exact hH
    · split <;> exact hH
  | update | resetStack | createNll => simp only [LSys.step]; split <;> exact hH

/-- histograms are never removed -/
theorem step_hists_some (s : LSys) (c : LCmd) (h : ℕ) (hH : h < s.hists.length) : h < (s.step c).2.hists.length :=
  lt_of_lt_of_le hH (step_hists_length s c)

/-- only `add_template` and `create_template` change a stack -/
theorem step_stack (s : LSys) (c : LCmd) (S : ℕ) (K : LStack) (hK : s.stks[S]? = some K) (hc : ¬ AddsTo S c) :
    (s.step c).2.stks[S]? = some K := by
  have hlt : S < s.stks.length := (List.getElem?_eq_some_iff.mp hK).1
  rcases step_stks s c with e | ⟨name, var, nb, lo, hi, -, -, e⟩ | ⟨S0, K0, tid, t, T, -, -, -, h4, e⟩
  · rw [e, hK]
  · rw [e, List.getElem?_append_left hlt, hK]
  · have hne : S0 ≠ S := by
      rintro rfl
      rcases h4 with ⟨t0, rfl⟩ | ⟨rows, rfl⟩ <;> exact hc rfl
    rw [e, List.getElem?_set_ne hne, hK]

/-- likelihood objects never change -/
theorem step_nll (s : LSys) (c : LCmd) (q : ℕ) (N : LNllObj) (hN : s.nlls[q]? = some N) : (s.step c).2.nlls[q]? = some N := by
  have hlt : q < s.nlls.length := (List.getElem?_eq_some_iff.mp hN).1
  rcases step_nlls s c with e | ⟨S, h, K, -, -, -, e⟩
  · rw [e, hN]
  · rw [e, List.getElem?_append_left hlt, hN]

/-- the nominal numbers of a template: contents, covariance and correlation matrices, relative errors -/
theorem step_nominal (s : LSys) (c : LCmd) (t : ℕ) (T : LTemplate) (hT : s.tmpls[t]? = some T) (hc : ∀ m, c ≠ .addCov t m) :
    ∃ T', (s.step c).2.tmpls[t]? = some T' ∧ ParamOf T T' := by
  by_cases hadd : ∃ t' m, c = .addCov t' m
  · obtain ⟨t', m, rfl⟩ := hadd
    have hne : t' ≠ t := fun e => hc m (by rw [e])
    exact ⟨T, by rw [step_addCov_other s t t' m hne, hT], ParamOf.refl T⟩
  · exact step_param s c (fun t' m e => hadd ⟨t', m, e⟩) t T hT

theorem run_stack (later : List LCmd) : ∀ (s : LSys) (S : ℕ) (K : LStack), s.stks[S]? = some K → (∀ c ∈ later, ¬ AddsTo S c) →
    (s.run later).stks[S]? = some K := by
  induction later with
  | nil => intro s S K h _; exact h
  | cons c cs ih =>
    intro s S K h hc
    exact ih _ S K (step_stack s c S K h (hc c (by simp))) (fun d hd => hc d (by simp [hd]))

theorem run_nll (later : List LCmd) : ∀ (s : LSys) (q : ℕ) (N : LNllObj), s.nlls[q]? = some N → (s.run later).nlls[q]? = some N := by
  induction later with
  | nil => intro s q N h; exact h
  | cons c cs ih => intro s q N h; exact ih _ q N (step_nll s c q N h)

theorem run_hists (later : List LCmd) : ∀ (s : LSys) (h : ℕ), h < s.hists.length → h < (s.run later).hists.length := by
  induction later with
  | nil => intro s h hh; exact hh
  | cons c cs ih => intro s h hh; exact ih _ h (step_hists_some s c h hh)

theorem run_nominal (later : List LCmd) : ∀ (s : LSys) (t : ℕ) (T : LTemplate), s.tmpls[t]? = some T →
    (∀ c ∈ later, ∀ m, c ≠ .addCov t m) → ∃ T', (s.run later).tmpls[t]? = some T' ∧ ParamOf T T' := by
  induction later with
  | nil => intro s t T h _; exact ⟨T, h, ParamOf.refl T⟩
  | cons c cs ih =>
    intro s t T h hc
    obtain ⟨T1, h1, p1⟩ := step_nominal s c t T h (hc c (by simp))
    obtain ⟨T2, h2, p2⟩ := ih _ t T1 h1 (fun d hd => hc d (by simp [hd]))
    exact ⟨T2, h2, p1.trans p2⟩

theorem run_tmpl (later : List LCmd) : ∀ (s : LSys) (t : ℕ) (T : LTemplate), s.tmpls[t]? = some T →
    ∃ T', (s.run later).tmpls[t]? = some T' := by
  induction later with
  | nil => intro s t T h; exact ⟨T, h⟩
  | cons c cs ih =>
    intro s t T h
    obtain ⟨T1, h1, -⟩ := step_tmpls s c t T h
    exact ih _ t T1 h1

/-- what making a likelihood does -/
theorem createNll_step (s : LSys) (S h : ℕ) (K : LStack) (hK : s.stks[S]? = some K) (hh : h < s.hists.length) :
    s.step (.createNll S h) = (.ok (), { s with nlls := s.nlls ++ [⟨h, S, blockDiag ((s.look K).list.map (·.invCorr))⟩] }) := by
  simp only [LSys.step, hK]
  rw [List.getElem?_eq_getElem hh]

/-! ### C93 -/

/-- **C93 (current).** A likelihood is made from a stack and a histogram in any reachable state; any history follows in which no template is
put into the stack and no covariance matrix is added to its templates, but data may be filled into the histogram, parameters updated, other
objects made and changed. Then calling the likelihood gives exactly what a likelihood made only now would give: it sees the present contents
of the histogram and the templates. -/
theorem C93_current_partial (cmds : List LCmd) (S h : ℕ) (K : LStack) (hK : (LSys.empty.run cmds).stks[S]? = some K)
    (hh : h < (LSys.empty.run cmds).hists.length) (later : List LCmd)
    (hl : ∀ c ∈ later, ¬ AddsTo S c ∧ ¬ AddsCov (K.templates.map (·.2)) c) :
    ∃ s1 s2, (LSys.empty.run cmds).step (.createNll S h) = (.ok (), s1) ∧ s2 = s1.run later ∧
      ∀ x, s2.nll (LSys.empty.run cmds).nlls.length x =
        ((s2.step (.createNll S h)).2).nll s2.nlls.length x := by
  have hw := lwf_run cmds lwf_empty
  set s := LSys.empty.run cmds with hs
  refine ⟨_, _, createNll_step s S h K hK hh, rfl, fun x => ?_⟩
  set s1 : LSys := { s with nlls := s.nlls ++ [⟨h, S, blockDiag ((s.look K).list.map (·.invCorr))⟩] } with hs1
  set s2 := s1.run later with hs2
  have k2 : s2.stks[S]? = some K := run_stack later s1 S K hK (fun c hc => (hl c hc).1)
  have n2 : s2.nlls[s.nlls.length]? = some ⟨h, S, blockDiag ((s.look K).list.map (·.invCorr))⟩ :=
    run_nll later s1 _ _ (by simp [hs1])
  have h2 : h < s2.hists.length := run_hists later s1 h hh
  have hblock : (s.look K).list.map (·.invCorr) = (s2.look K).list.map (·.invCorr) := by
    rw [look_list, look_list, List.map_map, List.map_map]
    apply List.map_congr_left
    intro p hp
    obtain ⟨T, t1, -⟩ := (hw.tmpl S K hK).2.2 p hp
    obtain ⟨T', t2, hpar⟩ := run_nominal later s1 p.2 T t1 (fun c hc m e => by
      apply (hl c hc).2
      rw [e]
      exact List.mem_map.mpr ⟨p, hp, rfl⟩)
    simp only [Function.comp]
    rw [tmpl_of t1, tmpl_of t2]
    obtain ⟨_, _, _, _, rfl⟩ := hpar
    rfl
  rw [createNll_step s2 S h K k2 h2]
  unfold LSys.nll
  simp only [n2, k2, List.getElem?_eq_getElem h2, List.getElem?_append_right (le_refl _), Nat.sub_self, List.getElem?_cons_zero]
  rw [hblock]
  rfl

/-- **C93 (value).** A likelihood is made from a stack and a histogram; any history without templates put into the stack follows. At the
time of making, the stack's templates have covariance matrices `C₁`; now they have contents `cnt` and covariance matrices `C₂`, and the
histogram has positive contents `d`. At yields `ν` and nuisance parameters `θ` with positive expectations the likelihood is the sum of
Poisson terms of the *present* data and templates plus the penalty with the correlation matrices of the time when it was *made*. -/
theorem C93_value (cmds : List LCmd) (S h : ℕ) (st1 : Stacked) (hst1 : (LSys.empty.run cmds).stack S = some st1)
    (hh : h < (LSys.empty.run cmds).hists.length) (later : List LCmd) (hl : ∀ c ∈ later, ¬ AddsTo S c)
    {m n : ℕ} (hm : 0 < m) (T1 T2 : Fin m → LTemplate) (cnt1 cnt : Fin m → Fin n → ℝ) (C1 C2 : Fin m → Matrix (Fin n) (Fin n) ℝ)
    (h1 : StackHas st1 T1 cnt1 C1) :
    ∃ s1 s2, (LSys.empty.run cmds).step (.createNll S h) = (.ok (), s1) ∧ s2 = s1.run later ∧
      ∀ (st2 : Stacked) (H : LH1) (d : Fin n → ℝ), s2.stack S = some st2 → s2.hists[h]? = some H → H.counts.data = vec d →
        StackHas st2 T2 cnt C2 → (∀ i, 0 < d i) →
        ∀ (ε : Fin m → Fin n → ℝ), (∀ k i, ε k i = legacyRel (C2 k i i) (cnt k i)) →
        ∀ (ν : Fin m → ℝ) (θ : Fin m → Fin n → ℝ), (∀ k, ∑ j, cnt k j * (1 + θ k j * ε k j) ≠ 0) →
        ∀ E : Fin n → ℝ, (∀ i, E i = ∑ k, ν k * (cnt k i * (1 + θ k i * ε k i) / ∑ j, cnt k j * (1 + θ k j * ε k j))) →
        (∀ i, 0 < E i) →
        s2.nll (LSys.empty.run cmds).nlls.length (vec ν ++ nuiVec θ) =
          .ok (.fin (∑ i, (E i - d i - d i * Real.log (E i / d i)) +
            1 / 2 * ∑ k, (θ k) ⬝ᵥ ((corrOf (C1 k))⁻¹.mulVec (θ k)))) := by
  obtain ⟨K, hK, rfl⟩ := stack_some hst1
  set s := LSys.empty.run cmds with hs
  refine ⟨_, _, createNll_step s S h K hK hh, rfl, ?_⟩
  set s1 : LSys := { s with nlls := s.nlls ++ [⟨h, S, blockDiag ((s.look K).list.map (·.invCorr))⟩] } with hs1
  set s2 := s1.run later with hs2
  intro st2 H d hst2 hH hd h2 hpos ε hε ν θ hT E hE hEpos
  have k2 : s2.stks[S]? = some K := run_stack later s1 S K hK hl
  have n2 : s2.nlls[s.nlls.length]? = some ⟨h, S, blockDiag ((s.look K).list.map (·.invCorr))⟩ :=
    run_nll later s1 _ _ (by simp [hs1])
  obtain ⟨K', hK', rfl⟩ := stack_some hst2
  rw [k2] at hK'
  obtain rfl := Option.some.inj hK'
  have hrel : ∀ k, (T2 k).relErr = vec (ε k) := fun k => by
    rw [h2.rel k]; congr 1; funext i; exact (hε k i).symm
  have hexp : expected cnt ε (fun _ => 1) ν θ = E := by
    funext i
    rw [hE]
    unfold expected
    exact Finset.sum_congr rfl fun k _ => by rw [mul_one]
  unfold LSys.nll
  simp only [n2, k2, hH, hd]
  rw [legacy_call_block (s2.look K) cnt ε (fun k => corrOf (C2 k)) (fun k => corrOf (C1 k))
    ⟨T2, h2.list, fun k => ⟨h2.counts k, hrel k, h2.inv k⟩⟩ hm ⟨vec d, _⟩ (fun k => (T1 k).invCorr)
    (by simp only; rw [h1.list, List.map_ofFn]; rfl) h1.inv d rfl ν θ hT, hexp, lbin_sum d E hpos hEpos, Fl.fin_add]
  rfl

theorem has_of_linv {st : Stacked} {K n : ℕ} {T : Fin K → LTemplate} {cnt : Fin K → Fin n → ℝ}
    {C : Fin K → Matrix (Fin n) (Fin n) ℝ} (hl : st.list = List.ofFn T) (h : ∀ k, LInv (T k) (cnt k) (C k)) : StackHas st T cnt C :=
  ⟨hl, fun k => (h k).2.1, fun k => (h k).2.2.1, fun k => (h k).2.2.2.1, fun k => (h k).2.2.2.2.2.1, fun k => (h k).2.2.2.2.2.2⟩

namespace Ex

/-- one event in each of two bins -/
def rows11 : List (Fl × ℝ) := [(.fin (1 / 4), 1), (.fin (3 / 4), 1)]

theorem inBin1 : InBin (grid 0 1 2) 1 (.fin (3 / 4)) := by
  rw [grid2]
  exact Or.inl ⟨1 / 2, 1, rfl, rfl, by norm_num, by norm_num⟩

theorem notBin0 : ¬ InBin (grid 0 1 2) 0 (.fin (3 / 4)) := by
  rw [grid2]
  rintro (⟨a, b, ha, hb, h1, h2⟩ | ⟨h, -⟩)
  · simp at ha hb
    subst ha; subst hb
    norm_num at h2
  · simp at h

theorem rows11_sum (f : ℝ → ℝ) (i : Fin 2) : rowSum (grid 0 1 2) rows11 f i = f 1 := by
  unfold rowSum rows11
  fin_cases i
  · simp only [List.filter_cons, inBin0, notBin0, decide_true, decide_false, if_true, List.filter_nil]
    simp
  · simp only [List.filter_cons, inBin1, notBin1, decide_true, decide_false, if_true, List.filter_nil]
    simp

/-- the template with contents (1, 1) -/
def tmpl11 : LTemplate := LTemplate.new "p" "x" 2 0 1 (vec fun _ : Fin 2 => 1) (vec fun _ : Fin 2 => 1)

theorem make11 : LTemplate.make "p" "x" ((2 : ℕ) : ℤ) 0 1 (frame rows11) = .ok tmpl11 := by
  rw [make_eq "p" "x" (n := 2) (by norm_num) (lo := 0) (hi := 1) (by norm_num) rows11]
  simp only [rows11_sum]
  norm_num [tmpl11]

/-- the data: one event in each bin -/
def hist11 : LH1 := ⟨⟨true, [0, 1 / 2, 1]⟩, ⟨[2], vec ![1, 1]⟩, ⟨[2], vec ![1, 1]⟩⟩

def stack11 : LStack := ⟨"s", "x", 2, 0, 1, [("p", 0)]⟩

def cmds11 : List LCmd :=
  [.newStack "s" "x" 2 0 1, .createTemplate 0 "p" (frame rows11), .fromBinned ⟨true, [0, 1 / 2, 1]⟩ (vec ![1, 1]) (some (vec ![1, 1]))]

theorem cmds11_run : LSys.empty.run cmds11 = ⟨[hist11], [tmpl11], [stack11], []⟩ := by
  have h2 : LSys.empty.step (.newStack "s" "x" 2 0 1) = (.ok (), ⟨[], [], [⟨"s", "x", 2, 0, 1, []⟩], []⟩) := by
    simp only [LSys.step, LStack.new]
    rw [if_neg (by norm_num), if_neg (by norm_num)]
    rfl
  have h3 : LSys.step ⟨[], [], [⟨"s", "x", 2, 0, 1, []⟩], []⟩ (.createTemplate 0 "p" (frame rows11)) =
      (.ok (), ⟨[], [tmpl11], [stack11], []⟩) := by
    simp only [LSys.step, List.getElem?_cons_zero]
    rw [make11]
    simp [dictSet, stack11]
  have h4 : LSys.step ⟨[], [tmpl11], [stack11], []⟩ (.fromBinned ⟨true, [0, 1 / 2, 1]⟩ (vec ![1, 1]) (some (vec ![1, 1]))) =
      (.ok (), ⟨[hist11], [tmpl11], [stack11], []⟩) := by
    have e : LH1.fromBinned ⟨true, [0, 1 / 2, 1]⟩ (vec ![1, 1]) (some (vec ![1, 1])) = .ok hist11 := by
      unfold LH1.fromBinned LH1.init
      simp [hist11, vec]
    simp only [LSys.step]
    rw [e]
    rfl
  unfold LSys.run cmds11
  simp only [List.foldl_cons, List.foldl_nil, h2, h3, h4]

/-- a fully correlated systematic uncertainty -/
def onesM : Mat := Mat.ofMatrix !![1, 1; 1, 1]

theorem tmpl11_inv : LInv tmpl11 (fun _ : Fin 2 => 1) (1 : Matrix (Fin 2) (Fin 2) ℝ) := by
  have := (new_tIs "p" "x" 0 1 (fun _ : Fin 2 => 1) (fun _ : Fin 2 => 1) (fun _ => by norm_num)).inv
  have e : (Matrix.diagonal fun i : Fin 2 => statVar ((fun _ : Fin 2 => (1 : ℝ)) i)) = 1 := by
    rw [← Matrix.diagonal_one]
    congr 1
    funext i
    norm_num [statVar]
  rw [e] at this
  exact this

theorem tmpl11_cov : LInv (tmpl11.addCov onesM).2 (fun _ : Fin 2 => 1) !![2, 1; 1, 2] := by
  have h := (addCov_linv tmpl11_inv onesM !![1, 1; 1, 1] (isReal_ofMatrix _) ones_psd).2
  have e : (1 + !![1, 1; 1, 1] : Matrix (Fin 2) (Fin 2) ℝ) = !![2, 1; 1, 2] := by
    rw [Matrix.one_fin_two]
    ext i j
    fin_cases i <;> fin_cases j <;> norm_num
  rw [e] at h
  exact h

theorem corr11 : (corrOf (!![2, 1; 1, 2] : Matrix (Fin 2) (Fin 2) ℝ))⁻¹ = !![4 / 3, -2 / 3; -2 / 3, 4 / 3] := by
  have hs : Real.sqrt 2 * Real.sqrt 2 = 2 := Real.mul_self_sqrt (by norm_num)
  have e : corrOf (!![2, 1; 1, 2] : Matrix (Fin 2) (Fin 2) ℝ) = !![1, 1 / 2; 1 / 2, 1] := by
    ext i j
    fin_cases i <;> fin_cases j <;> simp [corrOf, hs]
  rw [e]
  apply Matrix.inv_eq_right_inv
  rw [Matrix.mul_fin_two, Matrix.one_fin_two]
  norm_num

end Ex

/-- **C93 is false in general.** A history of accepted calls: a likelihood is made, then a (positive-semidefinite) covariance matrix is added
to a template of its stack. At the same point the likelihood gives another value than one made now from the same stack and histogram. -/
theorem C93_stale_refuted : ∃ (cmds later : List LCmd) (S h : ℕ) (x : Vec) (a b : ℝ),
    (∀ c ∈ cmds, GoodCmd c) ∧ (∀ c ∈ later, GoodCmd c) ∧ (∀ c ∈ later, ¬ AddsTo S c) ∧
    ∃ s1 s2, (LSys.empty.run cmds).step (.createNll S h) = (.ok (), s1) ∧ s2 = s1.run later ∧
      s2.nll (LSys.empty.run cmds).nlls.length x = .ok (.fin a) ∧
      ((s2.step (.createNll S h)).2).nll s2.nlls.length x = .ok (.fin b) ∧ a ≠ b := by
  have hst1 : (LSys.empty.run Ex.cmds11).stack 0 = some ⟨"x", 2, 0, 1, [("p", Ex.tmpl11)]⟩ := by
    rw [Ex.cmds11_run]; rfl
  have hh1 : 0 < (LSys.empty.run Ex.cmds11).hists.length := by rw [Ex.cmds11_run]; simp
  set N1 : LNllObj := ⟨0, 0, blockDiag [Ex.tmpl11.invCorr]⟩ with hN1
  have hs2 : ∀ s1, (LSys.empty.run Ex.cmds11).step (.createNll 0 0) = (.ok (), s1) →
      s1.run [.addCov 0 Ex.onesM] = ⟨[Ex.hist11], [(Ex.tmpl11.addCov Ex.onesM).2], [Ex.stack11], [N1]⟩ := by
    intro s1 h
    rw [Ex.cmds11_run] at h
    have := createNll_step ⟨[Ex.hist11], [Ex.tmpl11], [Ex.stack11], []⟩ 0 0 Ex.stack11 rfl (by simp)
    rw [this] at h
    obtain rfl := (Prod.mk.inj h).2
    rfl
  have hrun : LSys.empty.run (Ex.cmds11 ++ [.createNll 0 0, .addCov 0 Ex.onesM]) =
      ⟨[Ex.hist11], [(Ex.tmpl11.addCov Ex.onesM).2], [Ex.stack11], [N1]⟩ := by
    have e : LSys.empty.run (Ex.cmds11 ++ [.createNll 0 0, .addCov 0 Ex.onesM]) =
        ((LSys.empty.run Ex.cmds11).step (.createNll 0 0)).2.run [.addCov 0 Ex.onesM] := by
      unfold LSys.run
      rw [List.foldl_append]
      rfl
    rw [e]
    apply hs2
    rw [Ex.cmds11_run, createNll_step ⟨[Ex.hist11], [Ex.tmpl11], [Ex.stack11], []⟩ 0 0 Ex.stack11 rfl (by simp)]
  have hst2 : LSys.stack ⟨[Ex.hist11], [(Ex.tmpl11.addCov Ex.onesM).2], [Ex.stack11], [N1]⟩ 0 =
      some ⟨"x", 2, 0, 1, [("p", (Ex.tmpl11.addCov Ex.onesM).2)]⟩ := rfl
  have has1 : StackHas ⟨"x", 2, 0, 1, [("p", Ex.tmpl11)]⟩ (fun _ : Fin 1 => Ex.tmpl11) (fun _ _ => 1)
      (fun _ => (1 : Matrix (Fin 2) (Fin 2) ℝ)) := has_of_linv (by simp [Stacked.list]) (fun _ => Ex.tmpl11_inv)
  have has2 : StackHas ⟨"x", 2, 0, 1, [("p", (Ex.tmpl11.addCov Ex.onesM).2)]⟩ (fun _ : Fin 1 => (Ex.tmpl11.addCov Ex.onesM).2)
      (fun _ _ => 1) (fun _ => !![2, 1; 1, 2]) := has_of_linv (by simp [Stacked.list]) (fun _ => Ex.tmpl11_cov)
  set ε : Fin 1 → Fin 2 → ℝ := fun _ _ => Real.sqrt 2 with hε
  set θ : Fin 1 → Fin 2 → ℝ := fun _ => ![1 / 2, -1 / 2] with hθ
  set E : Fin 2 → ℝ := ![1 + Real.sqrt 2 / 2, 1 - Real.sqrt 2 / 2] with hEdef
  have hε' : ∀ (k : Fin 1) (i : Fin 2), ε k i = legacyRel ((!![2, 1; 1, 2] : Matrix (Fin 2) (Fin 2) ℝ) i i) 1 := by
    intro k i
    fin_cases i <;> simp [hε, legacyRel]
  have hsum : ∀ k : Fin 1, ∑ j, (1 : ℝ) * (1 + θ k j * ε k j) = 2 := by
    intro k
    rw [Fin.sum_univ_two]
    simp only [hθ, hε, Matrix.cons_val_zero, Matrix.cons_val_one]
    ring
  have hE : ∀ i, E i = ∑ k : Fin 1, (2 : ℝ) * (1 * (1 + θ k i * ε k i) / ∑ j, (1 : ℝ) * (1 + θ k j * ε k j)) := by
    intro i
    simp only [hsum, Finset.univ_unique, Finset.sum_singleton]
    fin_cases i
    · simp only [hEdef, hθ, hε, Fin.zero_eta, Matrix.cons_val_zero]; ring
    · simp only [hEdef, hθ, hε, Fin.mk_one, Matrix.cons_val_one]; simp; ring
  have hr : Real.sqrt 2 < 2 := by
    rw [show (2 : ℝ) = Real.sqrt 4 by rw [show (4 : ℝ) = 2 ^ 2 by norm_num]; exact (Real.sqrt_sq (by norm_num)).symm]
    exact Real.sqrt_lt_sqrt (by norm_num) (by rw [show Real.sqrt 4 = 2 by
      rw [show (4 : ℝ) = 2 ^ 2 by norm_num]; exact Real.sqrt_sq (by norm_num)]; norm_num)
  have hEpos : ∀ i, 0 < E i := by
    intro i
    have := Real.sqrt_nonneg 2
    fin_cases i
    · simp only [hEdef, Fin.zero_eta, Matrix.cons_val_zero]; linarith
    · show 0 < 1 - Real.sqrt 2 / 2; linarith
  set P : ℝ := ∑ i, (E i - ![1, 1] i - ![1, 1] i * Real.log (E i / ![1, 1] i)) with hP
  obtain ⟨s1, s2, e1, e2, e3⟩ := C93_value Ex.cmds11 0 0 _ hst1 hh1 [.addCov 0 Ex.onesM] (by
    intro c hc
    simp only [List.mem_singleton] at hc
    subst hc
    exact id) one_pos _ (fun _ => (Ex.tmpl11.addCov Ex.onesM).2) _ (fun _ _ => 1) _ (fun _ => !![2, 1; 1, 2]) has1
  have hs2' := hs2 s1 e1
  rw [← e2] at hs2'
  have q1 := e3 _ Ex.hist11 ![1, 1] (by rw [hs2']; exact hst2) (by rw [hs2']; rfl) rfl has2 (by intro i; fin_cases i <;> simp) ε hε'
    (fun _ => 2) θ (fun k => by rw [hsum k]; norm_num) E hE hEpos
  obtain ⟨s3, s4, f1, f2, f3⟩ := C93_value (Ex.cmds11 ++ [.createNll 0 0, .addCov 0 Ex.onesM]) 0 0 _ (by rw [hrun]; exact hst2)
    (by rw [hrun]; simp) [] (by simp) one_pos _ (fun _ => (Ex.tmpl11.addCov Ex.onesM).2) _ (fun _ _ => 1) _ (fun _ => !![2, 1; 1, 2]) has2
  rw [hrun] at f1 f3
  have f2' : s4 = s3 := f2
  subst f2'
  have g := createNll_step ⟨[Ex.hist11], [(Ex.tmpl11.addCov Ex.onesM).2], [Ex.stack11], [N1]⟩ 0 0 Ex.stack11 rfl (by simp)
  rw [g] at f1
  have g2 := (Prod.mk.inj f1).2
  have q2 := f3 _ Ex.hist11 ![1, 1] (by rw [← g2]; rfl) (by rw [← g2]; rfl) rfl has2 (by intro i; fin_cases i <;> simp) ε hε'
    (fun _ => 2) θ (fun k => by rw [hsum k]; norm_num) E hE hEpos
  have p1 : (1 / 2 : ℝ) * ∑ k : Fin 1, (θ k) ⬝ᵥ ((corrOf (1 : Matrix (Fin 2) (Fin 2) ℝ))⁻¹.mulVec (θ k)) = 1 / 4 := by
    have : corrOf (1 : Matrix (Fin 2) (Fin 2) ℝ) = 1 := by
      rw [← Matrix.diagonal_one]; exact (corrOf_diagonal _ (fun _ => by norm_num)).trans (Matrix.diagonal_one).symm
    rw [this, inv_one]
    simp only [Finset.univ_unique, Finset.sum_singleton, Matrix.one_mulVec, hθ, dotProduct, Fin.sum_univ_two]
    norm_num
  have p2 : (1 / 2 : ℝ) * ∑ k : Fin 1, (θ k) ⬝ᵥ ((corrOf (!![2, 1; 1, 2] : Matrix (Fin 2) (Fin 2) ℝ))⁻¹.mulVec (θ k)) = 1 / 2 := by
    rw [Ex.corr11]
    simp only [Finset.univ_unique, Finset.sum_singleton, hθ, dotProduct, Matrix.mulVec, Fin.sum_univ_two]
    norm_num
  refine ⟨Ex.cmds11, [.addCov 0 Ex.onesM], 0, 0, vec (fun _ : Fin 1 => 2) ++ nuiVec θ, P + 1 / 4, P + 1 / 2, ?_, ?_, ?_, s1, s2, e1, e2,
    ?_, ?_, ?_⟩
  · intro c hc
    simp only [Ex.cmds11, List.mem_cons, List.not_mem_nil, or_false] at hc
    rcases hc with rfl | rfl | rfl
    · trivial
    · exact ⟨_, rfl⟩
    · trivial
  · intro c hc
    simp only [List.mem_singleton] at hc
    subst hc
    exact ⟨2, !![1, 1; 1, 1], isReal_ofMatrix _, Ex.ones_psd⟩
  · intro c hc
    simp only [List.mem_singleton] at hc
    subst hc
    exact id
  · rw [q1, p1]
  · rw [hs2', g]
    rw [g2]
    rw [p2] at q2
    exact q2
  · norm_num

end

end TF.Props
