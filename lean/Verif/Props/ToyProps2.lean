import Verif.Props.ToyProps

set_option linter.unusedSimpArgs false

/-!
# Toy data sets and pulls (C83, C76)
-/

namespace TF.Props

open Classical Spec
open scoped Matrix

noncomputable section

/-- **C83.** In every reachable model, for a channel whose template `k` has nominal contents `cnt k`, relative
errors `ε k`, yield `y k` and nuisance parameters `θ k`: with `a i` the expected number of events of bin `i`,
`generate_toy_dataset` asks the generator for Poisson numbers with exactly the means `a`; if no mean is
negative the data set holds the drawn numbers, with errors the square roots of the numbers, in the bins of the channel;
with a negative mean it raises `ValueError`. -/
theorem C83_toy {K n : ℕ} (s : Sys) (hs : s.Reachable) (ch : String) (c : ℕ)
    (hc : (ch, c) ∈ s.m.channels) (hb : ∀ n ∈ (s.w.chans c).bins, 1 ≤ n) (hK : 0 < K)
    (T : Fin K → Template) (hT : s.w.chanTmpls c = List.ofFn T) (cnt ε : Fin K → Fin n → ℝ)
    (y : Fin K → ℝ) (θ : Fin K → Fin n → ℝ)
    (hsh : ∀ k, HasShape (T k) (cnt k) (ε k)) (hp : ∀ k, HasParams (T k) (y k) (θ k))
    (hS : ∀ k, ∑ j, cnt k j * (1 + θ k j * ε k j) ≠ 0) (draw : Vec → ℕ → ℕ) :
    ∃ a : Fin n → ℝ,
      (∀ i, a i = ∑ k, y k * (cnt k i * (1 + θ k i * ε k i) / ∑ j, cnt k j * (1 + θ k j * ε k j))) ∧
      ((∀ i, 0 ≤ a i) → ∃ h : Hist, s.w.toy c draw = .ok h ∧
        h.counts.data = vec (fun i : Fin n => ((draw (vec a) i : ℕ) : ℝ)) ∧
        h.binErrors.data = vec (fun i : Fin n => Real.sqrt (draw (vec a) i)) ∧
        h.shape = (s.w.chans c).bins ∧ (h.range = (s.w.chans c).range ↔ AllTuple (s.w.chans c).range)) ∧
      ((∃ i, a i < 0) → s.w.toy c draw = .error .valueError) := by
  have hwf := reachable_wf hs
  have hlt := hwf.chLt _ hc
  have hcw := hwf.chan c hlt
  have hlen : (s.w.chans c).templates.length = K := by
    have := congrArg List.length hT
    simpa [World.chanTmpls] using this
  obtain ⟨⟨p, tid⟩, rest, ht'⟩ : ∃ q rest, (s.w.chans c).templates = q :: rest := by
    apply List.exists_cons_of_ne_nil
    intro h; rw [h] at hlen; simp at hlen; omega
  have hbins : ∀ k, (T k).bins = (s.w.chans c).bins := by
    intro k
    have hm : T k ∈ s.w.chanTmpls c := by rw [hT]; exact List.mem_ofFn.mpr ⟨k, rfl⟩
    unfold World.chanTmpls at hm
    obtain ⟨q, hq, e⟩ := List.mem_map.mp hm
    rw [← e]; exact (hcw.tmpl q hq).2.1
  have hsum := sumValues_ofFn hK T cnt ε y θ _ hbins hsh hp hS
  set a : Fin n → ℝ := fun i => ∑ k, y k * frac (cnt k) (ε k) (θ k) i with ha
  have hdata : (List.range (vec a).length).map (fun i => Fl.fin ((draw (vec a) i : ℕ) : ℝ)) =
      vec (fun i : Fin n => ((draw (vec a) i : ℕ) : ℝ)) := by
    rw [vec_length]
    generalize vec a = va
    unfold vec
    rw [List.ofFn_eq_map, ← List.map_coe_finRange_eq_range, List.map_map]
    rfl
  refine ⟨a, fun i => rfl, ?_, ?_⟩
  · intro hnn
    obtain ⟨h, e1, e2, e3, e4, -, e6⟩ := datasetFrom_spec hwf hlt ht' hb
      ⟨(s.w.chans c).bins, vec (fun i : Fin n => ((draw (vec a) i : ℕ) : ℝ))⟩
    refine ⟨h, ?_, by rw [e2], ?_, e4, e6⟩
    · unfold World.toy
      rw [hT, hsum]
      have : poissonOk (vec a) := by
        intro m hm
        obtain ⟨i, rfl⟩ := List.mem_ofFn.mp hm
        exact ⟨_, rfl, hnn i⟩
      simp only
      rw [if_pos this, hdata]
      exact e1
    · unfold Hist.binErrors
      rw [e3]
      show (((vec _ : List Fl).map Fl.sqrt).map Fl.sq).map Fl.sqrt = _
      rw [map_vec _ Fl.sqrt _ (fun i => Fl.sqrt_fin (Nat.cast_nonneg _)), map_vec _ Fl.sq _ (fun i => Fl.sq_fin _),
        map_vec _ Fl.sqrt _ (fun i => Fl.sqrt_fin (sq_nonneg _))]
      congr 1
      funext i
      rw [Real.sqrt_sq (Real.sqrt_nonneg _)]
  · rintro ⟨i, hi⟩
    unfold World.toy
    rw [hT, hsum]
    have : ¬ poissonOk (vec a) := by
      intro h
      obtain ⟨r, hr, h0⟩ := h (.fin (a i)) (List.mem_ofFn.mpr ⟨i, rfl⟩)
      injection hr with hr
      linarith
    simp only
    rw [if_neg this]

/-- the arrays of a successful toy fit have one entry per parameter of the likelihood -/
theorem toyFit_length {s : Sys} {env : ToyEnv} {id : String} {g : Bool} {k : ℕ} {v u : Vec}
    (h : toyFit env s.m id g s.w k = .ok (v, u)) :
    v.length = (s.m.paramNames s.w).length ∧ u.length = (s.m.paramNames s.w).length := by
  unfold toyFit at h
  cases hd : s.m.toy s.w (env.draw k) with
  | error e => rw [hd] at h; cases h
  | ok data =>
    rw [hd] at h
    simp only at h
    have hn := (names_same (addDatasets_same data s.w s.m) s.m).1
    generalize s.m.addDatasets s.w data = q at h hn
    obtain ⟨q1, w1⟩ := q
    cases q1 with
    | error e => cases h
    | ok x =>
      simp only at h hn
      unfold Fitter.doFit at h
      cases hk : minKindOf (Fitter.new id).minimizerId with
      | error e => rw [hk] at h; cases h
      | ok kd =>
        rw [hk] at h
        simp only at h
        cases hz : (Fitter.new id).setup kd (s.m.paramNames w1) s.m.numProcesses (s.m.numNui w1) true none with
        | error e => rw [hz] at h; cases h
        | ok z =>
          rw [hz] at h
          simp only at h
          have hzp : z.params = Params.new (s.m.paramNames w1) := by
            unfold Fitter.setup at hz
            have n1 := fixAll_names (if true then nuiIds s.m.numProcesses (s.m.numNui w1) else [])
              (Minimizer.new kd (s.m.paramNames w1))
            generalize fixAll (Minimizer.new kd (s.m.paramNames w1)) (if true then nuiIds s.m.numProcesses (s.m.numNui w1) else []) = q at hz n1
            obtain ⟨q1, z1⟩ := q
            cases q1 with
            | error e => cases hz
            | ok _ =>
              simp only [nuiBounds, boundAll, Fitter.new, fixAll, Except.ok.injEq] at hz
              rw [← hz, n1.1]; rfl
          generalize hq : runMinimizer (env.optim k) w1 s.m z g = q at h
          obtain ⟨q1, w2⟩ := q
          cases q1 with
          | error e => cases h
          | ok rz =>
            obtain ⟨r, z2⟩ := rz
            have hr := runMinimizer_ok hq (by rw [hzp]; simp [Params.new]) (by rw [hzp]; simp [Params.new])
            have hl := runMinimizer_err_len hq (by rw [hzp]; simp [Params.new]) (by rw [hzp]; simp [Params.new])
            simp at h
            obtain ⟨rfl, rfl⟩ := h
            rw [hr.1, hr.2.2, hl, hzp, ← hn]
            exact ⟨rfl, rfl⟩

theorem column_ok {rows : List Vec} {k : ℕ} (h0 : rows ≠ []) (h : ∀ r ∈ rows, k < r.length) :
    column rows k = .ok (rows.map fun r => r.getD k 0) := by
  unfold column
  rw [if_neg h0, if_pos h]

/-- **C76.** For every model built channel by channel before evaluation (`Built`), every study object and outcome sequence for which
`do_experiments(n_exp, max_tries)` returned, and every later state `w''` of the model objects: with `ps` and `us` the
result arrays and `e` the current model yield of process `p` (process number `k`), the pulls of `p` are
`(ps[i][k] - e) / us[i][k]` for the `n_exp` rows `i`, in order. Unknown processes raise `ValueError`; without any
row (`n_exp = 0`) `IndexError` is raised. -/
theorem C76_pulls (s : Sys) (hs : s.Built) (env : ToyEnv) (t : Toy) (ht : t.w = s.w) (nExp maxTries : ℕ)
    (hok : (t.doExperiments env s.m nExp maxTries).1 = .ok ()) (w'' : World) (p : String)
    (t' : Toy) (ht' : t' = { (t.doExperiments env s.m nExp maxTries).2 with w := w'' }) :
    (p ∈ s.m.processes → 0 < nExp → ∃ ps us e L, t'.resultParameters = .ok ps ∧ t'.resultUncertainties = .ok us ∧
      s.m.getYield w'' p = .ok e ∧ t'.pulls s.m p = .ok L ∧ L.length = nExp ∧
      ∀ i < nExp, ∃ (v u : Vec) (x σ : Fl), ps[i]? = some v ∧ us[i]? = some u ∧
        v[s.m.processes.idxOf p]? = some x ∧ u[s.m.processes.idxOf p]? = some σ ∧ L[i]? = some ((x - e) / σ)) ∧
    (p ∉ s.m.processes → t'.pulls s.m p = .error .valueError) ∧
    (p ∈ s.m.processes → nExp = 0 → t'.pulls s.m p = .error .indexError) := by
  have hreach := hs.reachable
  obtain ⟨ps, us, ks, K', h1, h2, h3, h4, -, -, h5⟩ := (C73_rows s hs env t ht nExp maxTries _ rfl).1 hok
  have hf : t'.fitted = true := by
    by_contra hf
    rw [ht'] at hf
    simp only at hf
    simp [Toy.resultParameters, hf] at h1
  have hps : t'.params = ps := by
    rw [ht'] at hf ⊢; simp only at hf ⊢
    simpa [Toy.resultParameters, hf] using h1
  have hus : t'.uncs = us := by
    rw [ht'] at hf ⊢; simp only at hf ⊢
    simpa [Toy.resultUncertainties, hf] using h2
  have hw : t'.w = w'' := by rw [ht']
  unfold Toy.pulls Toy.toyResults
  rw [hf, hps, hus, hw]
  simp only [Bool.true_eq_false, if_false]
  refine ⟨?_, ?_, ?_⟩
  · intro hp hn
    have hk : s.m.processes.idxOf p < s.m.processes.length := List.idxOf_lt_length_iff.mpr hp
    have hlen := (C51_aligned s hreach).1
    have hrow : ∀ i < nExp, ∃ v u, ps[i]? = some v ∧ us[i]? = some u ∧ s.m.processes.idxOf p < v.length ∧
        s.m.processes.idxOf p < u.length := by
      intro i hi
      have hik : i < ks.length := by rw [← h5.1, h3]; exact hi
      obtain ⟨v, u, e1, e2, e3⟩ := h5.2.2 i ks[i] (List.getElem?_eq_getElem hik)
      obtain ⟨l1, l2⟩ := toyFit_length e3
      refine ⟨v, u, e1, e2, ?_, ?_⟩
      · rw [l1, hlen]; unfold Mct.numProcesses; omega
      · rw [l2, hlen]; unfold Mct.numProcesses; omega
    have hall : ∀ (rows : List Vec), rows.length = nExp → (∀ i < nExp, ∃ v, rows[i]? = some v ∧ s.m.processes.idxOf p < v.length) →
        ∀ r ∈ rows, s.m.processes.idxOf p < r.length := by
      intro rows hl hr r hm
      obtain ⟨i, hi, rfl⟩ := List.getElem_of_mem hm
      obtain ⟨v, e1, e2⟩ := hr i (by omega)
      rw [List.getElem?_eq_getElem hi] at e1
      cases e1; exact e2
    have c1 := column_ok (rows := ps) (by intro h; rw [h] at h3; simp at h3; omega)
      (hall ps h3 fun i hi => by obtain ⟨v, u, e1, e2, e3, e4⟩ := hrow i hi; exact ⟨v, e1, e3⟩)
    have c2 := column_ok (rows := us) (by intro h; rw [h] at h4; simp at h4; omega)
      (hall us h4 fun i hi => by obtain ⟨v, u, e1, e2, e3, e4⟩ := hrow i hi; exact ⟨u, e2, e4⟩)
    have hy : ∃ e, s.m.getYield w'' p = .ok e := by
      unfold Mct.getYield; rw [if_neg (not_not.mpr hp)]; exact ⟨_, rfl⟩
    obtain ⟨e, he⟩ := hy
    refine ⟨ps, us, e, List.zipWith (fun x u => (x - e) / u) (ps.map fun r => r.getD (s.m.processes.idxOf p) 0)
      (us.map fun r => r.getD (s.m.processes.idxOf p) 0), by simp [Toy.resultParameters, hf, hps], by simp [Toy.resultUncertainties, hf, hus], he, ?_, ?_, ?_⟩
    · rw [if_neg (not_not.mpr hp), c1, c2]
      simp only [he]
    · simp [h3, h4]
    · intro i hi
      obtain ⟨v, u, e1, e2, e3, e4⟩ := hrow i hi
      refine ⟨v, u, v[s.m.processes.idxOf p], u[s.m.processes.idxOf p], e1, e2, List.getElem?_eq_getElem e3,
        List.getElem?_eq_getElem e4, ?_⟩
      rw [List.getElem?_zipWith, List.getElem?_map, List.getElem?_map, e1, e2]
      simp [List.getD_eq_getElem?_getD, List.getElem?_eq_getElem e3, List.getElem?_eq_getElem e4]
  · intro hp
    rw [if_pos hp]
  · intro hp hn
    have : ps = [] := List.length_eq_zero_iff.mp (by omega)
    rw [if_neg (not_not.mpr hp), this]
    simp [column]

/-- **C76**, before results exist: on a new study object and after a `do_experiments` call that raised, in every
later state of the model objects, `get_toy_results` and `get_toy_result_pulls` raise `RuntimeError`. -/
theorem C76_not_fitted (s : Sys) (hs : s.Built) (env : ToyEnv) (nExp maxTries : ℕ) (w'' : World) (p : String) (t' : Toy)
    (ht' : (∃ id K, t' = Toy.new w'' id K) ∨ ∃ (t : Toy) (e : Err), t.w = s.w ∧ (t.doExperiments env s.m nExp maxTries).1 = .error e ∧
      t' = { (t.doExperiments env s.m nExp maxTries).2 with w := w'' }) :
    t'.toyResults s.m p = .error .runtimeError ∧ t'.pulls s.m p = .error .runtimeError := by
  have hf : t'.fitted = false := by
    rcases ht' with ⟨id, K, rfl⟩ | ⟨t, e, ht, he, rfl⟩
    · rfl
    · have := ((C73_rows s hs env t ht nExp maxTries _ rfl).2 e he).1
      unfold Toy.resultParameters at this
      split at this
      · cases this
      · rename_i hh; simpa using hh
  unfold Toy.pulls Toy.toyResults
  rw [hf]
  simp

/-! ### an example: the first attempt fails with a `RuntimeError`, all later ones succeed -/

namespace Ex

/-- all Poisson numbers are 1; the minimiser raises `RuntimeError` in attempt 0 and returns a fixed result later -/
def envZ : ToyEnv where
  draw := fun _ _ _ _ => 1
  optim := fun k =>
    { minuit := fun _ => if k = 0 then .error .runtimeError else
        .ok ⟨⟨true, true, true⟩, ⟨true, true, true⟩, .fin 0, [.fin 2, .fin 0, .fin 0], [.fin 1, .fin 0, .fin 0],
          .ok (Mat.zeros 3 3, Mat.zeros 3 3)⟩
      minuitEvals := fun _ => []
      scipy := fun _ => .error .runtimeError
      scipyEvals := fun _ => []
      hessian := fun _ => .error .runtimeError }

theorem toyZ (draw : ℕ → Vec → ℕ → ℕ) : ∃ h, sysZ.m.toy sysZ.w draw = .ok [("a", h)] ∧ h.shape = [2] ∧ h.range = .d1 .tuple 0 2 ∧
    h.counts.data = vec (fun i : Fin 2 => ((draw 0 (vec (fun _ : Fin 2 => (1 : ℝ))) i : ℕ) : ℝ)) := by
  obtain ⟨a, ha, h1, -⟩ := C83_toy (K := 1) (n := 2) sysZ sysZ_built.reachable "a" 0 (by simp [sysZ, mZ])
    (by simp [sysZ, wZ, chZ]) Nat.one_pos (fun _ => bt "t" 0 ![1, 1] ![1, 1]) (by
      simp [sysZ, World.chanTmpls, wZ, chZ]) (fun _ => ![1, 1])
    (fun _ i => (![1, 1] : Fin 2 → ℝ) i / (![1, 1] : Fin 2 → ℝ) i) (fun _ => 2) (fun _ _ => 0)
    (fun k => by
      obtain ⟨T, hT, hh⟩ := (chanIs_single wZ 0 (by simp [wZ]) "p" 0 1 "t" 0 ![1, 1] ![1, 1] (by intro i; fin_cases i <;> simp)
        (by intro i; fin_cases i <;> simp) (by simp [wZ, chZ]) (by simp [wZ, chZ]) (by simp [wZ, chZ]) (by simp [wZ])).tmpls
      have : T 0 = bt "t" 0 ![1, 1] ![1, 1] := by
        simp [World.chanTmpls, wZ, chZ] at hT
        exact hT.symm
      rw [← this]; exact (hh 0).1)
    (fun k => by
      unfold HasParams
      simp [bt, initParams, bh, Hist.setBinned, npSum, vec, List.ofFn_succ, Fl.zero_def, List.replicate]
      norm_num)
    (fun k => by simp [Fin.sum_univ_two]) (draw 0)
  have ha1 : a = fun _ => 1 := by
    funext i
    rw [ha]
    fin_cases i <;> simp [Fin.sum_univ_two] <;> norm_num
  obtain ⟨h, e1, e2, e3, e4, e5⟩ := h1 (by intro i; rw [ha1]; norm_num)
  refine ⟨h, ?_, e4, e5.mpr rfl, by rw [e2, ha1]⟩
  have : sysZ.m.channels = [("a", 0)] := rfl
  unfold Mct.toy Mct.generate
  rw [this]
  simp only [List.foldr_cons, List.foldr_nil, e1]

theorem toyFitZ (g : Bool) (k : ℕ) : toyFit envZ sysZ.m "iminuit" g sysZ.w k =
    if k = 0 then .error .runtimeError else .ok ([.fin 2, .fin 0, .fin 0], [.fin 1, .fin 0, .fin 0]) := by
  obtain ⟨h, h1, h2, h3, -⟩ := toyZ (envZ.draw k)
  have hB : (sysZ.step (.addToy (envZ.draw k))).Built := Sys.Built.step sysZ_built (by simp [Op.structural])
  simp only [Sys.step, h1] at hB
  unfold toyFit
  rw [h1]
  simp only
  have hsame := addDatasets_same [("a", h)] sysZ.w sysZ.m
  have hok : (sysZ.m.addDatasets sysZ.w [("a", h)]).1 = .ok () := by
    simp [Mct.addDatasets, sysZ, mZ, dictGet, World.addData, World.newHist, wZ, chZ, Channel.addData, Channel.checkHist, h2, h3]
  rw [hok]
  obtain ⟨n1, n2, n3⟩ := names_same hsame sysZ.m
  generalize sysZ.m.addDatasets sysZ.w [("a", h)] = q at hB n1 n2 n3 ⊢
  obtain ⟨q1, w1⟩ := q
  simp only at hB n1 n2 n3 ⊢
  rw [namesZ] at n1
  rw [x0Z] at n3
  obtain ⟨c, -, -, -, -, -, c6⟩ := C64_iminuit ⟨w1, sysZ.m⟩ hB.reachable "iminuit" lower_iminuit [] ⟨by simp, by simp⟩ _ n3 g true none
  have hnew : fitRun "iminuit" [] = Fitter.new "iminuit" := rfl
  rw [hnew] at c6
  simp only at c6
  by_cases hk : k = 0
  · rw [if_pos hk, (c6 (envZ.optim k)).1 .runtimeError (by simp [envZ, hk])]
  · rw [if_neg hk, (c6 (envZ.optim k)).2 ⟨⟨true, true, true⟩, ⟨true, true, true⟩, .fin 0, [.fin 2, .fin 0, .fin 0], [.fin 1, .fin 0, .fin 0],
          .ok (Mat.zeros 3 3, Mat.zeros 3 3)⟩ _ _ (by simp [envZ, hk]) (by rw [n1]; rfl) (by rw [n1]; rfl) rfl]

/-- three experiments with up to two attempts each -/
theorem expZ (n tries : ℕ) (ht : 2 ≤ tries) : ((Toy.new sysZ.w "iminuit" 0).doExperiments envZ sysZ.m n tries).1 = .ok () := by
  obtain ⟨ks, K', h1, h2, h3 | ⟨h3, e, h4, h5⟩⟩ := C74_retries sysZ sysZ_built envZ (Toy.new sysZ.w "iminuit" 0) rfl n tries
  · exact h3.1
  · exfalso
    have hid : (Toy.new sysZ.w "iminuit" 0).minimizerId = "iminuit" := rfl
    rw [hid] at h5
    rcases h5 with ⟨k, -, -, -, h6, h7, -⟩ | ⟨h6, -⟩
    · rw [toyFitZ] at h6
      split at h6
      · injection h6 with h6; subst h6; exact h7 (.inl rfl)
      · cases h6
    · obtain ⟨e, h7, -⟩ := h6 (K' + 1) (by omega) (by omega)
      rw [toyFitZ, if_neg (by omega)] at h7
      cases h7

end Ex

/-- non-vacuity of C73–C76: three experiments after one failing attempt on a built model, the first row from attempt
1, pulls of process `p` all `(2 - 2)/1 = 0` -/
example : ∃ t' : Toy, t' = ((Toy.new Ex.sysZ.w "iminuit" 0).doExperiments Ex.envZ Ex.sysZ.m 3 2).2 ∧
    ((Toy.new Ex.sysZ.w "iminuit" 0).doExperiments Ex.envZ Ex.sysZ.m 3 2).1 = .ok () ∧
    (∃ L, t'.pulls Ex.sysZ.m "p" = .ok L ∧ L.length = 3 ∧ ∀ i < 3, ∃ e, L[i]? = some ((.fin 2 - e) / .fin 1)) ∧
    toyFit Ex.envZ Ex.sysZ.m "iminuit" true Ex.sysZ.w 0 = .error .runtimeError := by
  refine ⟨_, rfl, Ex.expZ 3 2 le_rfl, ?_, by rw [Ex.toyFitZ]; rfl⟩
  have hok := Ex.expZ 3 2 le_rfl
  obtain ⟨ps, us, e, L, p1, p2, p3, p4, p5, p6⟩ := (C76_pulls Ex.sysZ Ex.sysZ_built Ex.envZ (Toy.new Ex.sysZ.w "iminuit" 0) rfl
    3 2 hok _ "p" _ rfl).1 (by simp [Ex.sysZ, Ex.mZ]) (by norm_num)
  obtain ⟨ps', us', ks, K', r1, r2, -, -, -, -, r5⟩ := (C73_rows Ex.sysZ Ex.sysZ_built Ex.envZ (Toy.new Ex.sysZ.w "iminuit" 0) rfl
    3 2 _ rfl).1 hok
  refine ⟨L, p4, p5, fun i hi => ⟨e, ?_⟩⟩
  have hi0 : Ex.sysZ.m.processes.idxOf "p" = 0 := by simp [Ex.sysZ, Ex.mZ]
  obtain ⟨v, u, x, σ, a1, a2, a3, a4, a5⟩ := p6 i hi
  rw [r1] at p1; rw [r2] at p2
  have e1 := Except.ok.inj p1
  have e2 := Except.ok.inj p2
  subst e1 e2
  have hl : i < ks.length := by
    rw [← r5.1]
    by_contra hc
    rw [List.getElem?_eq_none (by omega)] at a1; cases a1
  obtain ⟨v', u', b1, b2, b3⟩ := r5.2.2 i ks[i] (List.getElem?_eq_getElem hl)
  rw [a1] at b1; rw [a2] at b2
  cases b1; cases b2
  have hid : (Toy.new Ex.sysZ.w "iminuit" 0).minimizerId = "iminuit" := rfl
  rw [hid, Ex.toyFitZ] at b3
  split at b3
  · cases b3
  · injection b3 with b3
    injection b3 with b3 b4
    subst b3 b4
    rw [hi0] at a3 a4
    simp at a3 a4
    rw [a5, ← a3, ← a4]

end

end TF.Props
