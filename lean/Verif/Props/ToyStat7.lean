import Verif.Props.ToyStat6

set_option linter.unusedSimpArgs false

namespace TF.Props

open Classical Spec MeasureTheory ProbabilityTheory
open scoped Matrix NNReal

noncomputable section

/-- **C138, one fit.** In a model without constraints, let `p` be a process whose templates have non-negative efficiencies, not all zero. If a fit of toy data with an optimiser that returns true minima returns with a
finite value, and the fitted yield of `p` can move in both directions, then at least one event was drawn in a channel with a template of `p`. -/
theorem C138_no_events (s : Sys) (h : s.Built) (hne : s.m.channels ≠ []) (S : ℕ → ChanSpec) (hS : ModelIs s S)
    (htup : ∀ c ∈ s.m.chanIds, AllTuple (s.w.chans c).range)
    (y : ∀ k, Fin (S k).K → ℝ) (θ₀ : ∀ k, Fin (S k).K → Fin (S k).n → ℝ) (hp : ParamsAre s S y θ₀) (hT₀ : NonZeroSums s S θ₀)
    (hnn : ∀ k < s.m.chanIds.length, ∀ i, 0 ≤ presentIn S y θ₀ k i) (hnc : s.m.constrained = []) (hused : AllUsed s S)
    (draw : ℕ → Vec → ℕ → ℕ) (s' : Sys) (hs' : s' = s.step (.addToy draw))
    (p : String) (hpm : p ∈ s.m.processes) (heff : ∀ k < s.m.chanIds.length, ∀ j : Fin (S k).K, procName s k j = p → 0 ≤ (S k).eff j)
    (hpe : ∃ k < s.m.chanIds.length, ∃ j : Fin (S k).K, procName s k j = p ∧ 0 < (S k).eff j)
    (id : String) (hid : id.toLower = "iminuit") (ops : List FitOp)
    (hk : KnownIds (s.m.paramNames s.w) ops) (hone : ∀ k < (s.m.paramNames s.w).length, OneId (s.m.paramNames s.w) ops k)
    (o : Optim) (ho : TrueMin o) (up g fixNui : Bool) (lim : Option Bounds) (r : MinResult)
    (hr : ((fitRun id ops).doFit o s'.w s'.m up g fixNui lim).1 = .ok r) (v : ℝ) (hv : r.fval = .fin v)
    (hfree : ∀ x : ℝ, r.params.values[s.m.processes.idxOf p]? = some (.fin x) → MayMove s ops fixNui lim (s.m.processes.idxOf p) x) :
    ∃ k < s.m.chanIds.length, (∃ j : Fin (S k).K, procName s k j = p) ∧
      ∃ i : Fin (S k).n, draw (s.m.chanIds.getD k 0) (vec (presentIn S y θ₀ k)) i ≠ 0 := by
  by_contra hno
  push Not at hno
  obtain ⟨q1, q2, q3, q4, q5, q6, q7⟩ := toy_model s h S hS htup y θ₀ hp hT₀ hnn draw
  have hsame := toy_same s draw
  rw [← hs'] at q1 q2 q3 q4 q5 q6 q7 hsame
  have hnm : s'.m.paramNames s'.w = s.m.paramNames s.w := by rw [q2]; exact (names_same hsame s.m).1
  have hc : ConstraintsAre s' (fun _ => 0) (fun _ => 1) := by
    intro p hp; rw [q2, hnc] at hp; cases hp
  have hu : AllUsed s' S := by
    unfold AllUsed; simp only [q2, q6]; exact hused
  obtain ⟨ν, θ, e1, e2, e3, e4⟩ := C123_iminuit s' q1 (by rw [q2]; exact hne) S q3 _ q4 (fun k _ i => toyData_floor k i) _ _ hc hu id hid ops
    (by rw [hnm]; exact hk) (by rw [hnm]; exact hone) o ho up g fixNui lim r hr v hv
  obtain ⟨m1, m2⟩ := hfree (ν p) (by rw [e1, q5]; exact paramVec_yield ν θ p hpm)
  have h1 := e4.1 p (by rw [q2]; exact hpm)
  rw [hnm, q2] at h1
  have hz : score s' S (toyData s S (presentIn S y θ₀) draw) (fun _ => 0) (fun _ => 1) ν θ p ≤ 0 := h1.2 m2
  have hs : score s' S (toyData s S (presentIn S y θ₀) draw) (fun _ => 0) (fun _ => 1) ν θ p =
      ∑ k ∈ Finset.range s.m.chanIds.length, ∑ j : Fin (S k).K, if procName s k j = p then (S k).eff j else 0 := by
    unfold score
    rw [q2, hnc]
    simp only [List.map_nil, List.sum_nil, add_zero, q6]
    refine Finset.sum_congr rfl fun k hk => Finset.sum_congr rfl fun j _ => ?_
    have hk := Finset.mem_range.mp hk
    split
    · rename_i hj
      have hd : ∀ i, toyData s S (presentIn S y θ₀) draw k i = 0 := by
        intro i
        unfold toyData
        rw [hno k hk ⟨j, hj⟩ i]; simp
      simp only [hd, zero_div, sub_zero, mul_one]
      have : ∑ i, fracIn S θ k j i = 1 := by
        unfold fracIn
        rw [← Finset.sum_div, div_self]
        unfold NonZeroSums at e2
        rw [q2] at e2
        exact e2 k hk j
      rw [this, mul_one]
    · rfl
  rw [hs] at hz
  obtain ⟨k, hk, j, hj, hj0⟩ := hpe
  have hnn' : ∀ k ∈ Finset.range s.m.chanIds.length, ∀ j : Fin (S k).K, 0 ≤ if procName s k j = p then (S k).eff j else 0 := by
    intro k hk j
    split
    · exact heff k (Finset.mem_range.mp hk) j ‹_›
    · exact le_rfl
  have : 0 < ∑ k ∈ Finset.range s.m.chanIds.length, ∑ j : Fin (S k).K, if procName s k j = p then (S k).eff j else 0 := by
    refine Finset.sum_pos' (fun k hk => Finset.sum_nonneg fun j _ => hnn' k hk j) ⟨k, Finset.mem_range.mpr hk, ?_⟩
    refine Finset.sum_pos' (fun j _ => hnn' k (Finset.mem_range.mpr hk) j) ⟨j, Finset.mem_univ _, ?_⟩
    rw [if_pos hj]; exact hj0
  linarith

/-- **C138, one attempt of a toy study.** -/
theorem C138_attempt (s : Sys) (h : s.Built) (hne : s.m.channels ≠ []) (S : ℕ → ChanSpec) (hS : ModelIs s S)
    (htup : ∀ c ∈ s.m.chanIds, AllTuple (s.w.chans c).range)
    (y : ∀ k, Fin (S k).K → ℝ) (θ₀ : ∀ k, Fin (S k).K → Fin (S k).n → ℝ) (hp : ParamsAre s S y θ₀) (hT₀ : NonZeroSums s S θ₀)
    (hnn : ∀ k < s.m.chanIds.length, ∀ i, 0 ≤ presentIn S y θ₀ k i) (hnc : s.m.constrained = []) (hused : AllUsed s S)
    (env : ToyEnv) (id : String) (hid : id.toLower = "iminuit") (g : Bool) (att : ℕ) (ho : FiniteMin (env.optim att)) (v u : Vec)
    (hf : toyFit env s.m id g s.w att = .ok (v, u))
    (p : String) (hpm : p ∈ s.m.processes) (heff : ∀ k < s.m.chanIds.length, ∀ j : Fin (S k).K, procName s k j = p → 0 ≤ (S k).eff j)
    (hpe : ∃ k < s.m.chanIds.length, ∃ j : Fin (S k).K, procName s k j = p ∧ 0 < (S k).eff j) :
    ∃ k < s.m.chanIds.length, (∃ j : Fin (S k).K, procName s k j = p) ∧
      ∃ i : Fin (S k).n, env.draw att (s.m.chanIds.getD k 0) (vec (presentIn S y θ₀ k)) i ≠ 0 := by
  obtain ⟨r, hr, rfl, -⟩ := toyFit_inv hf
  obtain ⟨q1, -⟩ := toy_model s h S hS htup y θ₀ hp hT₀ hnn (env.draw att)
  obtain ⟨v, hv⟩ := fit_finite q1.reachable hid ho hr
  exact C138_no_events s h hne S hS htup y θ₀ hp hT₀ hnn hnc hused (env.draw att) _ rfl p hpm heff hpe id hid [] ⟨by simp, by simp⟩
    (by intro k _ p q b c hb; simp at hb) (env.optim att) ho.1 false g true none r hr v hv
    (fun x _ => mayMove_nil s true (List.idxOf_lt_length_iff.mpr hpm) x)

theorem consecutive_ok {oc : ℕ → Except Err (Vec × Vec)} {tries K K' : ℕ} {ks : List ℕ} (h : Consecutive oc tries K ks K') :
    ∀ k ∈ ks, ∃ v, oc k = .ok v := by
  induction h with
  | nil K => simp
  | cons h1 _ ih =>
    intro k hk
    rcases List.mem_cons.mp hk with rfl | hk
    · obtain ⟨_, _, _, v, hv⟩ := h1
      exact ⟨v, hv⟩
    · exact ih k hk

/-- **C138, toy studies.** In a toy study with optimisers that return true minima of finite value (or raise), every row of `result_parameters` belongs to an attempt in which, for every process with non-negative efficiencies that
are not all zero, at least one event was drawn in a channel with a template of this process: data sets without such events never appear. -/
theorem C138_rows_partial (s : Sys) (h : s.Built) (hne : s.m.channels ≠ []) (S : ℕ → ChanSpec) (hS : ModelIs s S)
    (htup : ∀ c ∈ s.m.chanIds, AllTuple (s.w.chans c).range)
    (y : ∀ k, Fin (S k).K → ℝ) (θ₀ : ∀ k, Fin (S k).K → Fin (S k).n → ℝ) (hp : ParamsAre s S y θ₀) (hT₀ : NonZeroSums s S θ₀)
    (hnn : ∀ k < s.m.chanIds.length, ∀ i, 0 ≤ presentIn S y θ₀ k i) (hnc : s.m.constrained = []) (hused : AllUsed s S)
    (env : ToyEnv) (ho : ∀ k, FiniteMin (env.optim k)) (t : Toy) (ht : t.w = s.w) (hid : t.minimizerId.toLower = "iminuit") (nExp maxTries : ℕ)
    (t' : Toy) (ht' : t.doExperiments env s.m nExp maxTries = (.ok (), t')) :
    ∃ (ps : List Vec) (ks : List ℕ) (K' : ℕ), t'.resultParameters = .ok ps ∧ ps.length = nExp ∧
      Consecutive (toyFit env s.m t.minimizerId true s.w) maxTries t.tries ks K' ∧ ks.length = nExp ∧
      ∀ att ∈ ks, ∀ p ∈ s.m.processes, (∀ k < s.m.chanIds.length, ∀ j : Fin (S k).K, procName s k j = p → 0 ≤ (S k).eff j) →
        (∃ k < s.m.chanIds.length, ∃ j : Fin (S k).K, procName s k j = p ∧ 0 < (S k).eff j) →
        ∃ k < s.m.chanIds.length, (∃ j : Fin (S k).K, procName s k j = p) ∧
          ∃ i : Fin (S k).n, env.draw att (s.m.chanIds.getD k 0) (vec (presentIn S y θ₀ k)) i ≠ 0 := by
  obtain ⟨ps, us, ks, K', a1, -, a3, -, a5, -, a7⟩ := (C73_rows s h env t ht nExp maxTries t' (by rw [ht'])).1 (by rw [ht'])
  refine ⟨ps, ks, K', a1, a3, a5, by rw [← a7.1, a3], fun att hatt p hpm heff hpe => ?_⟩
  obtain ⟨i, hi⟩ := List.getElem?_of_mem hatt
  obtain ⟨v, u, -, -, b3⟩ := a7.2.2 i att hi
  exact C138_attempt s h hne S hS htup y θ₀ hp hT₀ hnn hnc hused env t.minimizerId hid true att (ho att) v u b3 p hpm heff hpe

namespace Ex

/-- a template with contents (1/4, 1/4): half an event is expected -/
def opsHalf : List Op :=
  [.binned1 ⟨[2], vec ![1/4, 1/4]⟩ ⟨true, [0, 1, 2]⟩ (some ⟨[2], vec ![1/4, 1/4]⟩), .newTmpl1 "t" 0,
   .defineChannel "a" (.int 2) (.d1 .tuple 0 2), .defineProcess "p", .addTemplate "a" "p" 0 (.fin 1)]

def chHalf : Channel :=
  ⟨"a", [2], .d1 .tuple 0 2, ["p"], [("p", 0)], [("p", .fin 1)], none, some 1, some .t1, some .h1⟩

def wHalf : World :=
  { World.init with
    hists := Function.update (fun _ => dummyHist) 0 (bh ![1/4, 1/4] ![1/4, 1/4])
    nHists := 1
    tmpls := Function.update (fun _ => dummyTmpl) 0 (bt "t" 0 ![1/4, 1/4] ![1/4, 1/4])
    nTmpls := 1
    chans := Function.update (fun _ => dummyChan) 0 chHalf
    nChans := 1 }

def sysHalf : Sys := ⟨wHalf, mZ⟩

theorem runHalf : Sys.init.run opsHalf = sysHalf := by
  simp only [opsHalf, Sys.run, List.foldl_cons, List.foldl_nil, Sys.step, bh_eq, Sys.allocHist, World.newHist,
    Sys.init, World.init, Sys.allocTmpl, World.newTmpl]
  simp [bt_eq, Sys.allocTmpl, World.newTmpl, Function.update_apply]
  simp [Mct.defineChannel, Mct.defineProcess,
    Mct.addTemplate, World.addTemplate, Mct.empty, World.newChan, dictSet, dictGet, Mct.addData, World.addData,
    World.setChan, Channel.new, Channel.addTemplate, Channel.checkTemplate, Channel.procs, bt, bh,
    Hist.setBinned, Hist.blank, ChanBins.toTuple, Channel.addData, Channel.checkHist, sysHalf, wHalf, mZ, chHalf,
    World.init, Function.update_apply]

theorem sysHalf_built : sysHalf.Built := by
  refine ⟨_, setupFirst_of_noEval ?_, runHalf⟩
  intro o ho
  simp only [opsHalf, List.mem_cons, List.not_mem_nil, or_false] at ho
  rcases ho with rfl | rfl | rfl | rfl | rfl <;> exact id

def SHalf : ℕ → ChanSpec := fun _ =>
  ⟨1, 2, fun _ => ![1/4, 1/4], fun _ i => (![1/4, 1/4] : Fin 2 → ℝ) i / (![1/4, 1/4] : Fin 2 → ℝ) i, fun _ => 1, fun _ => 1⟩

theorem modelHalf : ModelIs sysHalf SHalf := by
  intro k hk
  have : k = 0 := by simpa [sysHalf, mZ, Mct.chanIds] using hk
  subst this
  refine ⟨Nat.one_pos, Nat.two_pos, fun _ => Matrix.PosDef.one, ?_⟩
  exact chanIs_single wHalf 0 (by simp [wHalf]) "p" 0 1 "t" 0 ![1/4, 1/4] ![1/4, 1/4] (by intro i; fin_cases i <;> simp)
      (by intro i; fin_cases i <;> simp) (by simp [wHalf, chHalf]) (by simp [wHalf, chHalf]) (by simp [wHalf, chHalf]) (by simp [wHalf])

theorem x0Half : sysHalf.m.x0 sysHalf.w = .ok [.fin (1/2), .fin 0, .fin 0] := by
  simp [sysHalf, Mct.x0, Mct.nuiParams, Mct.allTmpls, World.chanTmpls, Template.nuiParams, mZ, Mct.processYields, Mct.chanIds,
    World.processYield, wHalf, chHalf, dictGet, Template.yieldParam, bt, initParams, bh, Hist.setBinned,
    npSum, vec, List.ofFn_succ, Fl.zero_def, List.replicate]
  norm_num

theorem chanHalf (k : ℕ) (hk : k < sysHalf.m.chanIds.length) : k = 0 := by simpa [sysHalf, mZ, Mct.chanIds] using hk

theorem paramsHalf : ParamsAre sysHalf SHalf (fun _ _ => 1/2) (fun _ _ _ => 0) := by
  intro k hk j t ht
  obtain rfl := chanHalf k hk
  have hj : (j : ℕ) = 0 := by have : (j : ℕ) < 1 := j.2; omega
  rw [hj] at ht
  have e : t = bt "t" 0 ![1/4, 1/4] ![1/4, 1/4] := by
    have := Option.some.inj ht
    rw [← this]; simp [sysHalf, mZ, Mct.chanIds, wHalf, chHalf, World.chanTmpls]
  rw [e]
  have := bt_params "t" 0 ![1/4, 1/4] ![1/4, 1/4]
  norm_num at this ⊢
  exact this

theorem cntHalf : ∀ i : Fin 2, (![1/4, 1/4] : Fin 2 → ℝ) i = 1/4 := by intro i; fin_cases i <;> rfl

theorem expHalf1 (x : ℝ) : ∀ k (i : Fin (SHalf k).n), expectedIn sysHalf SHalf (fun _ => x) (fun _ _ _ => 0) k i = x / 2 := by
  intro k i
  show ∑ j : Fin 1, x * 1 * ((![1/4, 1/4] : Fin 2 → ℝ) i * _ / ∑ i' : Fin 2, (![1/4, 1/4] : Fin 2 → ℝ) i' * _) = _
  have : (![1/4, 1/4] : Fin 2 → ℝ) i = 1/4 := cntHalf i
  simp only [Fin.sum_univ_one]
  rw [Fin.sum_univ_two, cntHalf, cntHalf, this]
  norm_num
  ring

theorem sumsHalf : NonZeroSums sysHalf SHalf (fun _ _ _ => 0) := by
  intro k hk j
  show ∑ i : Fin 2, (![1/4, 1/4] : Fin 2 → ℝ) i * (1 + 0 * ((![1/4, 1/4] : Fin 2 → ℝ) i / (![1/4, 1/4] : Fin 2 → ℝ) i)) ≠ 0
  simp only [cntHalf, Fin.sum_univ_two]
  norm_num

theorem presentHalf : ∀ k (i : Fin (SHalf k).n), presentIn SHalf (fun _ _ => 1/2) (fun _ _ _ => 0) k i = 1/4 := by
  intro k i
  show ∑ j : Fin 1, (1/2:ℝ) * ((![1/4, 1/4] : Fin 2 → ℝ) i * _ / ∑ i' : Fin 2, (![1/4, 1/4] : Fin 2 → ℝ) i' * _) = _
  have : (![1/4, 1/4] : Fin 2 → ℝ) i = 1/4 := cntHalf i
  simp only [Fin.sum_univ_one]
  rw [Fin.sum_univ_two, cntHalf, cntHalf, this]
  norm_num

theorem usedHalf : AllUsed sysHalf SHalf := by
  intro p hp
  have : p = "p" := by simpa [sysHalf, mZ] using hp
  subst this
  exact .inl ⟨0, by simp [sysHalf, mZ, Mct.chanIds], (0 : Fin 1), by simp [procName, sysHalf, mZ, Mct.chanIds, wHalf, chHalf]⟩

theorem toyHalf (draw : ℕ → Vec → ℕ → ℕ) : ∃ h, sysHalf.m.toy sysHalf.w draw = .ok [("a", h)] ∧ h.shape = [2] ∧ h.range = .d1 .tuple 0 2 := by
  obtain ⟨a, ha, h1, -⟩ := C83_toy (K := 1) (n := 2) sysHalf sysHalf_built.reachable "a" 0 (by simp [sysHalf, mZ])
    (by simp [sysHalf, wHalf, chHalf]) Nat.one_pos (fun _ => bt "t" 0 ![1/4, 1/4] ![1/4, 1/4]) (by
      simp [sysHalf, World.chanTmpls, wHalf, chHalf]) (fun _ => ![1/4, 1/4])
    (fun _ i => (![1/4, 1/4] : Fin 2 → ℝ) i / (![1/4, 1/4] : Fin 2 → ℝ) i) (fun _ => 1/4 + 1/4) (fun _ _ => 0)
    (fun k => by
      obtain ⟨T, hT, hh⟩ := (chanIs_single wHalf 0 (by simp [wHalf]) "p" 0 1 "t" 0 ![1/4, 1/4] ![1/4, 1/4] (by intro i; fin_cases i <;> simp)
        (by intro i; fin_cases i <;> simp) (by simp [wHalf, chHalf]) (by simp [wHalf, chHalf]) (by simp [wHalf, chHalf]) (by simp [wHalf])).tmpls
      have : T 0 = bt "t" 0 ![1/4, 1/4] ![1/4, 1/4] := by
        simp only [World.chanTmpls, wHalf, chHalf] at hT
        simp at hT
        rw [← hT]; simp
      rw [← this]; exact (hh 0).1)
    (fun k => bt_params "t" 0 ![1/4, 1/4] ![1/4, 1/4])
    (fun k => by simp only [cntHalf, Fin.sum_univ_two]; norm_num) (draw 0)
  have ha1 : a = fun _ => 1/4 := by
    funext i
    rw [ha]
    simp only [cntHalf, Fin.sum_univ_one, Fin.sum_univ_two]
    norm_num
  obtain ⟨h, e1, e2, e3, e4, e5⟩ := h1 (by intro i; rw [ha1]; norm_num)
  refine ⟨h, ?_, e4, e5.mpr rfl⟩
  have : sysHalf.m.channels = [("a", 0)] := rfl
  unfold Mct.toy Mct.generate
  rw [this]
  simp only [List.foldr_cons, List.foldr_nil, e1]

/-- attempt `k` draws `k` events in each bin -/
def envHalf : ToyEnv where
  draw := fun k _ _ _ => k
  optim := fun _ => optFin

theorem toyFitHalf (k : ℕ) (hk : 1 ≤ k) : ∃ v, toyFit envHalf sysHalf.m "iminuit" true sysHalf.w k = .ok v := by
  obtain ⟨h, h1, h2, h3⟩ := toyHalf (envHalf.draw k)
  have hok : (sysHalf.m.addDatasets sysHalf.w [("a", h)]).1 = .ok () := by
    simp [Mct.addDatasets, sysHalf, mZ, dictGet, World.addData, World.newHist, wHalf, chHalf, Channel.addData, Channel.checkHist, h2, h3]
  have hx0 : sysHalf.m.x0 sysHalf.w = .ok (paramVec sysHalf SHalf (fun _ => 1/2) fun _ _ _ => 0) := by
    rw [x0Half]
    simp [paramVec, sysHalf, mZ, Mct.chanIds, nuiVec, SHalf, List.range_succ, List.ofFn_succ, vec]
  obtain ⟨q1, q2, q3, q4, q5, q6, q7⟩ := toy_model sysHalf sysHalf_built SHalf modelHalf
    (by simp [sysHalf, mZ, Mct.chanIds, wHalf, chHalf, AllTuple]) _ _ paramsHalf sumsHalf (fun k _ i => by rw [presentHalf]; norm_num) (envHalf.draw k)
  obtain ⟨n1, n2, n3⟩ := names_same (toy_same sysHalf (envHalf.draw k)) sysHalf.m
  have hs : sysHalf.step (.addToy (envHalf.draw k)) = ⟨(sysHalf.m.addDatasets sysHalf.w [("a", h)]).2, sysHalf.m⟩ := by
    simp only [Sys.step, h1]
  rw [hs] at q1 q2 q3 q4 q5 q6 q7 n1 n2 n3
  obtain ⟨r, hr⟩ := one_fit_free _ q1 (by simp [sysHalf, mZ]) SHalf q3 _ q4 (by
      intro k' _ i
      unfold toyData envHalf
      simp only
      have : (1:ℝ) ≤ (k : ℝ) := by exact_mod_cast hk
      refine le_trans ?_ this
      norm_num) (by simp [sysHalf, mZ]) "p" (by simp [sysHalf, mZ])
    (by unfold AllUsed; simp only [q6]; exact usedHalf) (fun _ _ _ => 0) sumsHalf (by simp only [q7, expHalf1]; intros; norm_num) (fun _ => 1/2)
    (by rw [q5]; simp only; rw [n3]; exact hx0) true
  refine ⟨(r.params.values, r.params.errors), ?_⟩
  unfold toyFit
  rw [h1]
  simp only [hok]
  have hr : (Fitter.doFit (envHalf.optim k) (Fitter.new "iminuit") (sysHalf.m.addDatasets sysHalf.w [("a", h)]).2 sysHalf.m false true true none).1 = .ok r := hr
  rw [hr]

theorem toyFitHalf_err (k : ℕ) : (∃ v, toyFit envHalf sysHalf.m "iminuit" true sysHalf.w k = .ok v) ∨
    toyFit envHalf sysHalf.m "iminuit" true sysHalf.w k = .error .runtimeError := by
  obtain ⟨h, h1, h2, h3⟩ := toyHalf (envHalf.draw k)
  have hok : (sysHalf.m.addDatasets sysHalf.w [("a", h)]).1 = .ok () := by
    simp [Mct.addDatasets, sysHalf, mZ, dictGet, World.addData, World.newHist, wHalf, chHalf, Channel.addData, Channel.checkHist, h2, h3]
  have hB : (sysHalf.step (.addToy (envHalf.draw k))).Built := Sys.Built.step sysHalf_built (by simp [Op.structural])
  simp only [Sys.step, h1] at hB
  obtain ⟨n1, n2, n3⟩ := names_same (addDatasets_same [("a", h)] sysHalf.w sysHalf.m) sysHalf.m
  rw [x0Half] at n3
  have hl := C51_aligned _ hB.reachable
  obtain ⟨c, -, -, c3, -, -, c6⟩ := C64_iminuit ⟨(sysHalf.m.addDatasets sysHalf.w [("a", h)]).2, sysHalf.m⟩ hB.reachable "iminuit" lower_iminuit [] ⟨by simp, by simp⟩ _ n3 true true none
  have hnew : fitRun "iminuit" [] = Fitter.new "iminuit" := rfl
  rw [hnew] at c6
  simp only at c6
  have ho : envHalf.optim k = optFin := rfl
  unfold toyFit
  rw [h1]
  simp only [hok, ho]
  by_cases hc : ∃ r, IsMin c r ∧ ∃ v : ℝ, r.fval = .fin v
  · left
    obtain ⟨C, R, hm⟩ := hc.choose_spec.1.2.2.2.2.2
    rw [(c6 optFin).2 hc.choose C R (by simp only [optFin]; rw [dif_pos hc]) (by rw [← c3]; exact hc.choose_spec.1.1.1)
      (by rw [← c3]; exact hc.choose_spec.1.2.2.2.2.1) hm]
    exact ⟨_, rfl⟩
  · right
    rw [(c6 optFin).1 .runtimeError (by simp only [optFin]; rw [dif_neg hc])]

theorem expHalf (n : ℕ) : ((Toy.new sysHalf.w "iminuit" 0).doExperiments envHalf sysHalf.m n 2).1 = .ok () := by
  obtain ⟨ks, K', h1, h2, h3 | ⟨h3, e, h4, h5⟩⟩ := C74_retries sysHalf sysHalf_built envHalf (Toy.new sysHalf.w "iminuit" 0) rfl n 2
  · exact h3.1
  · exfalso
    have hid : (Toy.new sysHalf.w "iminuit" 0).minimizerId = "iminuit" := rfl
    rw [hid] at h5
    rcases h5 with ⟨k, -, -, -, h6, h7, -⟩ | ⟨h6, -⟩
    · by_cases hk : 1 ≤ k
      · obtain ⟨v, hv⟩ := toyFitHalf k hk
        rw [hv] at h6; cases h6
      · obtain rfl : k = 0 := by omega
        rcases toyFitHalf_err 0 with ⟨v, hv⟩ | hv
        · rw [hv] at h6; cases h6
        · rw [hv] at h6
          exact h7 (Except.error.inj h6 ▸ .inl rfl)
    · obtain ⟨e, h7, -⟩ := h6 (K' + 1) (by omega) (by omega)
      obtain ⟨v, hv⟩ := toyFitHalf (K' + 1) (by omega)
      rw [hv] at h7; cases h7

end Ex

/-- **C138 is false.** A model with one process and no constraints that expects half an event. In every toy study with optimisers that return true minima of finite value (or raise), however long, every row of the result
has a yield of at least one: the rows can never average to the true yield. Such studies exist: data sets without events are repeated and the study returns. -/
theorem C138_refuted : ∃ s : Sys, s.Built ∧ s.m.processes = ["p"] ∧ s.m.constrained = [] ∧ s.m.getYield s.w "p" = .ok (.fin (1/2)) ∧
    (∀ env : ToyEnv, (∀ k, FiniteMin (env.optim k)) → ∀ (nExp maxTries : ℕ) (t' : Toy),
      (Toy.new s.w "iminuit" 0).doExperiments env s.m nExp maxTries = (.ok (), t') →
      ∃ ps, t'.resultParameters = .ok ps ∧ ps.length = nExp ∧ ∀ row ∈ ps, ∃ x : ℝ, row[0]? = some (.fin x) ∧ 1 ≤ x) ∧
    ∃ env : ToyEnv, (∀ k, FiniteMin (env.optim k)) ∧ ∀ nExp, ((Toy.new s.w "iminuit" 0).doExperiments env s.m nExp 2).1 = .ok () := by
  have hν : ∀ p ∈ Ex.sysHalf.m.processes, Ex.sysHalf.m.getYield Ex.sysHalf.w p = .ok (.fin ((fun _ => 1/2 : String → ℝ) p)) := by
    intro p hp
    have : p = "p" := by simpa [Ex.sysHalf, Ex.mZ] using hp
    subst this
    obtain ⟨x, h1, h2, h3, -⟩ := (C51_aligned Ex.sysHalf Ex.sysHalf_built.reachable).2.2.2 ⟨0, by simp [Ex.sysHalf, Ex.mZ, Mct.chanIds], by simp [Ex.sysHalf, Ex.wHalf, Ex.chHalf]⟩
    have h1' := h1
    have hz : Ex.sysHalf.m.x0 Ex.sysHalf.w = .ok [.fin (1/2), .fin 0, .fin 0] := Ex.x0Half
    rw [hz] at h1'
    obtain rfl := Except.ok.inj h1'
    obtain ⟨y, e1, e2⟩ := h3 0 (by simp [Ex.sysHalf, Ex.mZ])
    rw [← Option.some.inj e1] at e2
    exact e2
  have htup : ∀ c ∈ Ex.sysHalf.m.chanIds, AllTuple (Ex.sysHalf.w.chans c).range := by simp [Ex.sysHalf, Ex.mZ, Mct.chanIds, Ex.wHalf, Ex.chHalf, AllTuple]
  have hne : Ex.sysHalf.m.channels ≠ [] := by simp [Ex.sysHalf, Ex.mZ]
  have hnn : ∀ k < Ex.sysHalf.m.chanIds.length, ∀ i, 0 ≤ presentIn Ex.SHalf (fun _ _ => 1/2) (fun _ _ _ => 0) k i := fun k _ i => by rw [Ex.presentHalf]; norm_num
  have hl : Ex.sysHalf.m.chanIds.length = 1 := by simp [Ex.sysHalf, Ex.mZ, Mct.chanIds]
  have hn : ∀ j : Fin 1, procName Ex.sysHalf 0 j = "p" := by intro j; simp [procName, Ex.sysHalf, Ex.mZ, Mct.chanIds, Ex.wHalf, Ex.chHalf]
  refine ⟨Ex.sysHalf, Ex.sysHalf_built, rfl, rfl, hν "p" (by simp [Ex.sysHalf, Ex.mZ]), ?_, Ex.envHalf, fun _ => Ex.optFin_ok, Ex.expHalf⟩
  intro env ho nExp maxTries t' ht'
  obtain ⟨ps, ks, K', a1, a2, a3, a4, a5⟩ := C137_study Ex.sysHalf Ex.sysHalf_built hne Ex.SHalf Ex.modelHalf htup _ _ Ex.paramsHalf Ex.sumsHalf hnn
    (by simp [Ex.sysHalf, Ex.mZ]) Ex.usedHalf (fun _ => 1/2) hν env ho (Toy.new Ex.sysHalf.w "iminuit" 0) rfl lower_iminuit nExp maxTries t' ht'
  refine ⟨ps, a1, a2, fun row hrow => ?_⟩
  obtain ⟨i, hi⟩ := List.getElem?_of_mem hrow
  have hil : i < ks.length := by rw [a4, ← a2]; exact (List.getElem?_eq_some_iff.mp hi).1
  obtain ⟨ν, rfl, e⟩ := a5 i ks[i] row (List.getElem?_eq_getElem hil) hi
  obtain ⟨⟨v, u⟩, hvu⟩ := consecutive_ok a3 ks[i] (List.getElem_mem hil)
  obtain ⟨k, hk, -, j, hj⟩ := C138_attempt Ex.sysHalf Ex.sysHalf_built hne Ex.SHalf Ex.modelHalf htup _ _ Ex.paramsHalf Ex.sumsHalf hnn
    (by simp [Ex.sysHalf, Ex.mZ]) Ex.usedHalf env "iminuit" lower_iminuit true ks[i] (ho _) v u hvu "p" (by simp [Ex.sysHalf, Ex.mZ])
    (fun _ _ _ _ => zero_le_one) ⟨0, by omega, (0 : Fin 1), hn 0, one_pos (α := ℝ)⟩
  obtain rfl := Ex.chanHalf k hk
  refine ⟨ν "p", by simp [paramVec, Ex.sysHalf, Ex.mZ], ?_⟩
  rw [eventsExpected_eq _ _ _ _ Ex.sumsHalf] at e
  unfold eventsDrawn at e
  rw [hl, Finset.sum_range_one, Finset.sum_range_one] at e
  have e' : ν "p" = ((∑ i' : Fin (Ex.SHalf 0).n, env.draw ks[i] (Ex.sysHalf.m.chanIds.getD 0 0) (vec (presentIn Ex.SHalf (fun _ _ => 1/2) (fun _ _ _ => 0) 0)) i' : ℕ) : ℝ) := by
    rw [← e]
    show ν "p" = ∑ j : Fin 1, ν (procName Ex.sysHalf 0 j) * 1
    rw [Fin.sum_univ_one, hn, mul_one]
  rw [e']
  have : 1 ≤ ∑ i' : Fin (Ex.SHalf 0).n, env.draw ks[i] (Ex.sysHalf.m.chanIds.getD 0 0) (vec (presentIn Ex.SHalf (fun _ _ => 1/2) (fun _ _ _ => 0) 0)) i' :=
    le_trans (Nat.one_le_iff_ne_zero.mpr hj) (Finset.single_le_sum (f := fun i' : Fin (Ex.SHalf 0).n => env.draw ks[i] (Ex.sysHalf.m.chanIds.getD 0 0) (vec (presentIn Ex.SHalf (fun _ _ => 1/2) (fun _ _ _ => 0) 0)) i') (fun _ _ => Nat.zero_le _) (Finset.mem_univ j))
  exact_mod_cast this

end

end TF.Props
