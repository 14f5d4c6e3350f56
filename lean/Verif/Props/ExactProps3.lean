import Verif.Props.FitterProps3
import Verif.Props.HistProps2

set_option linter.unusedSimpArgs false

/-!
# What exactly happens where refuted claims fail (C05, C65)
-/

namespace TF.Spec

open Classical

noncomputable section

/-- Of all identifiers (names, indices) under which bounds of parameter `k` were registered, `pid` is the one that
was used for the *first* time last, and `b` are the last bounds registered under `pid`. -/
def NewestIdBounds (names : List String) (h : List FitOp) (k : ℕ) (b : Bounds) : Prop :=
  ∃ pid, Denotes names pid k ∧
    (∃ pre post b0, h = pre ++ .bound pid b0 :: post ∧ (∀ c, FitOp.bound pid c ∉ pre) ∧
      ∀ q c, FitOp.bound q c ∈ post → Denotes names q k → q = pid ∨ ∃ c', FitOp.bound q c' ∈ pre) ∧
    ∃ pre post, h = pre ++ .bound pid b :: post ∧ ∀ c, FitOp.bound pid c ∉ post

end

end TF.Spec

namespace TF.Props

open Classical Spec

noncomputable section

/-! ## C65 -/

/-- keys of the dict of bounds: exactly the identifiers registered -/
theorem fitRun_keys (id : String) (h : List FitOp) (pid : ParamId) :
    pid ∈ (fitRun id h).boundParams.map (·.1) ↔ ∃ b, FitOp.bound pid b ∈ h := by
  induction h using List.reverseRecOn with
  | nil => simp [fitRun, Fitter.new]
  | append_singleton h o ih =>
    rw [fitRun_snoc]
    cases o with
    | fix i => simp [fitStep, Fitter.setFixed, ih] at ih ⊢
    | fixNui => simp [fitStep, Fitter.fixNuiParams, ih] at ih ⊢
    | bound i c =>
      show pid ∈ (dictSet (fitRun id h).boundParams i c).map (·.1) ↔ _
      by_cases hi : i ∈ (fitRun id h).boundParams.map (·.1)
      · rw [dictSet_keys_old _ _ _ hi, ih]
        constructor
        · rintro ⟨b, hb⟩; exact ⟨b, by simp [hb]⟩
        · rintro ⟨b, hb⟩
          rcases List.mem_append.mp hb with hb | hb
          · exact ⟨b, hb⟩
          · have := List.mem_singleton.mp hb
            injection this with h1 h2
            subst h1
            exact ih.mp hi
      · rw [dictSet_new _ _ _ hi, List.map_append, List.mem_append, ih]
        constructor
        · rintro (⟨b, hb⟩ | hb)
          · exact ⟨b, by simp [hb]⟩
          · have := List.mem_singleton.mp hb
            exact ⟨c, by simp [this]⟩
        · rintro ⟨b, hb⟩
          rcases List.mem_append.mp hb with hb | hb
          · exact .inl ⟨b, hb⟩
          · have := List.mem_singleton.mp hb
            injection this with h1 h2
            right; simp [h1]

/-- the dict keeps the order of first registration -/
theorem fitRun_order {names : List String} (id : String) (k : ℕ) (pid : ParamId) (pre : List FitOp) (b0 : Bounds)
    (hpre : ∀ c, FitOp.bound pid c ∉ pre) (post : List FitOp)
    (hpost : ∀ q c, FitOp.bound q c ∈ post → Denotes names q k → q = pid ∨ ∃ c', FitOp.bound q c' ∈ pre) :
    ∃ K R, (fitRun id (pre ++ .bound pid b0 :: post)).boundParams.map (·.1) = K ++ pid :: R ∧
      ∀ q ∈ R, ¬ Denotes names q k := by
  induction post using List.reverseRecOn with
  | nil =>
    refine ⟨(fitRun id pre).boundParams.map (·.1), [], ?_, by simp⟩
    rw [fitRun_snoc]
    show (dictSet (fitRun id pre).boundParams pid b0).map (·.1) = _
    rw [dictSet_new _ _ _ (by rw [fitRun_keys]; rintro ⟨b, hb⟩; exact hpre b hb)]
    simp
  | append_singleton post o ih =>
    obtain ⟨K, R, h1, h2⟩ := ih fun q c hq => hpost q c (by simp [hq])
    have e : pre ++ FitOp.bound pid b0 :: (post ++ [o]) = (pre ++ FitOp.bound pid b0 :: post) ++ [o] := by simp
    rw [e, fitRun_snoc]
    cases o with
    | fix i => exact ⟨K, R, h1, h2⟩
    | fixNui => exact ⟨K, R, h1, h2⟩
    | bound q c =>
      show ∃ K R, (dictSet (fitRun id (pre ++ .bound pid b0 :: post)).boundParams q c).map (·.1) = _ ∧ _
      by_cases hq : q ∈ (fitRun id (pre ++ .bound pid b0 :: post)).boundParams.map (·.1)
      · rw [dictSet_keys_old _ _ _ hq]; exact ⟨K, R, h1, h2⟩
      · rw [dictSet_new _ _ _ hq, List.map_append, h1]
        refine ⟨K, R ++ [q], by simp, fun q' hq' => ?_⟩
        rcases List.mem_append.mp hq' with hq' | hq'
        · exact h2 q' hq'
        · rw [List.mem_singleton.mp hq']
          intro hd
          apply hq
          rw [fitRun_keys]
          rcases hpost q c (by simp) hd with rfl | ⟨c', hc'⟩
          · exact ⟨b0, by simp⟩
          · exact ⟨c', by simp [hc']⟩

theorem newest_last {names : List String} {id : String} {h : List FitOp} {k : ℕ} {b : Bounds}
    (hb : NewestIdBounds names h k b) :
    LastBounds names ((fitRun id h).boundParams.map fun x => MinOp.bound x.1 x.2) k b := by
  obtain ⟨pid, hd, ⟨pre, post, b0, he, h1, h2⟩, hl⟩ := hb
  obtain ⟨K, R, hk, hR⟩ := fitRun_order (names := names) id k pid pre b0 h1 post h2
  rw [← he] at hk
  have hm := ((fitRun_bounds id h).2 pid b).mpr hl
  have hn := (fitRun_bounds id h).1
  obtain ⟨p1, p2, hp⟩ := List.append_of_mem hm
  refine ⟨p1.map fun x => .bound x.1 x.2, _, p2.map fun x => .bound x.1 x.2, by rw [hp]; simp,
    ⟨pid, rfl, hd⟩, ?_⟩
  have hR2 : p2.map (·.1) = R := by
    rw [hk] at hn
    rw [hp, List.map_append, List.map_cons] at hk
    have h4 : pid ∉ p1.map (·.1) := fun hK => by
      have hn' := (fitRun_bounds id h).1
      rw [hp, List.map_append, List.map_cons, List.nodup_append] at hn'
      exact hn'.2.2 _ hK _ (by simp) rfl
    have h3 : pid ∉ p2.map (·.1) := fun hK => by
      have hn' := (fitRun_bounds id h).1
      rw [hp, List.map_append, List.map_cons, List.nodup_append] at hn'
      exact (List.nodup_cons.mp hn'.2.1).1 hK
    have := List.append_cons_inj_of_notMem h4 h3 |>.mp hk
    exact this.2.2
  rintro o ho ⟨q, c, rfl, hq⟩
  obtain ⟨x, hx, hxe⟩ := List.mem_map.mp ho
  injection hxe with h3 h4
  exact hR q (by rw [← hR2]; exact List.mem_map.mpr ⟨x, hx, h3⟩) hq

/-- whenever bounds of `k` were registered there is exactly one newest identifier (existence) -/
theorem newest_exists {names : List String} (h : List FitOp) (k : ℕ) (hu : ¬ FitUnbound names h k) :
    ∃ b, NewestIdBounds names h k b := by
  induction h using List.reverseRecOn with
  | nil => exact absurd (fun pid b hm => by simp at hm) hu
  | append_singleton h o ih =>
    by_cases hx : ∃ q c, o = .bound q c ∧ Denotes names q k
    · obtain ⟨q, c, rfl, hd⟩ := hx
      by_cases hq : ∃ c', FitOp.bound q c' ∈ h
      · obtain ⟨c', hc'⟩ := hq
        obtain ⟨b, pid, hp, ⟨pre, post, b0, he, h1, h2⟩, p1, p2, e1, h3⟩ := ih fun hh => hh q c' hc' hd
        have h4 : ∀ q' d, FitOp.bound q' d ∈ post ++ [.bound q c] → Denotes names q' k →
            q' = pid ∨ ∃ c', FitOp.bound q' c' ∈ pre := by
          intro q' d hm hd'
          rcases List.mem_append.mp hm with hm | hm
          · exact h2 q' d hm hd'
          · have := List.mem_singleton.mp hm
            injection this with e2 e3
            subst e2
            rw [he] at hc'
            rcases List.mem_append.mp hc' with hc' | hc'
            · exact .inr ⟨_, hc'⟩
            · rcases List.mem_cons.mp hc' with hc' | hc'
              · injection hc' with e4 _; exact .inl e4
              · exact h2 q' _ hc' hd
        by_cases hpq : q = pid
        · subst hpq
          exact ⟨c, q, hp, ⟨pre, post ++ [.bound q c], b0, by rw [he]; simp, h1, h4⟩, h, [], rfl, by simp⟩
        · refine ⟨b, pid, hp, ⟨pre, post ++ [.bound q c], b0, by rw [he]; simp, h1, h4⟩, p1, p2 ++ [.bound q c],
            by rw [e1]; simp, fun d hm => ?_⟩
          rcases List.mem_append.mp hm with hm | hm
          · exact h3 d hm
          · have := List.mem_singleton.mp hm
            injection this with e2 _
            exact hpq e2.symm
      · push Not at hq
        exact ⟨c, q, hd, ⟨h, [], c, rfl, hq, by simp⟩, h, [], rfl, by simp⟩
    · obtain ⟨b, pid, hp, ⟨pre, post, b0, he, h1, h2⟩, p1, p2, e1, h3⟩ := ih fun hh => hu fun q c hm hd => by
        rcases List.mem_append.mp hm with hm | hm
        · exact hh q c hm hd
        · exact hx ⟨q, c, (List.mem_singleton.mp hm).symm, hd⟩
      refine ⟨b, pid, hp, ⟨pre, post ++ [o], b0, by rw [he]; simp, h1, ?_⟩, p1, p2 ++ [o], by rw [e1]; simp, ?_⟩
      · intro q c hm hd
        rcases List.mem_append.mp hm with hm | hm
        · exact h2 q c hm hd
        · exact absurd ⟨q, c, (List.mem_singleton.mp hm).symm, hd⟩ hx
      · intro c hm
        rcases List.mem_append.mp hm with hm | hm
        · exact h3 c hm
        · exact hx ⟨pid, c, (List.mem_singleton.mp hm).symm, hp⟩

/-- **C65, the bounds actually used (partial).** For every reachable model, every history of configuration calls with
known identifiers and every parameter for which bounds were registered: the optimiser gets the last bounds registered
under the identifier whose *first* use is the most recent one. (Such bounds exist in every such history.) Hence a call
under an older identifier is ignored, although it came last, as soon as a newer one denotes the same parameter. -/
theorem C65_exact_partial (s : Sys) (hs : s.Reachable) (h : List FitOp)
    (hk : KnownIds (s.m.paramNames s.w) h) (x0 : Vec) (hx : s.m.x0 s.w = .ok x0) (up g fixNui : Bool)
    (lim : Option Bounds) :
    (∀ k, ¬ FitUnbound (s.m.paramNames s.w) h k → ∃ b, NewestIdBounds (s.m.paramNames s.w) h k b) ∧
    (∀ id, id.toLower = "iminuit" → ∃ call : MinuitCall,
      HandsMinuit (fun o => ((fitRun id h).doFit o s.w s.m up g fixNui lim).1) call ∧
      ∀ k b, NewestIdBounds (s.m.paramNames s.w) h k b → call.limit[k]? = some b) ∧
    (∀ id, id.toLower = "scipy" → ∃ call : ScipyCall,
      HandsScipy (fun o => ((fitRun id h).doFit o s.w s.m up g fixNui lim).1) call ∧
      ∀ k b, NewestIdBounds (s.m.paramNames s.w) h k b → call.bounds[k]? = some b) := by
  have key : ∀ kd id k b, NewestIdBounds (s.m.paramNames s.w) h k b →
      (minRun kd (s.m.paramNames s.w)
        (setupOps (fitRun id h) s.m.numProcesses (s.m.numNui s.w) fixNui lim)).bounds[k]? = some b := by
    intro kd id k b hb
    have hlt : k < (s.m.paramNames s.w).length := by obtain ⟨pid, hd, _⟩ := hb; exact denotes_lt hd
    refine ((C59_bounds kd _ _ k hlt b (fun _ => .ok 0) []).1).mpr (.inl ?_)
    exact lastBounds_append_right _ _ _ _ (newest_last hb)
  refine ⟨fun k hu => newest_exists h k hu, fun id hid => ?_, fun id hid => ?_⟩
  · exact ⟨_, doFit_hands_minuit hs (minKind_iminuit hid) hk hx up g fixNui lim, fun k b hb => key _ id k b hb⟩
  · exact ⟨_, doFit_hands_scipy hs (minKind_scipy hid) hk hx up g fixNui lim, fun k b hb => key _ id k b hb⟩

/-- non-vacuity of `C65_exact_partial`: bounds by name, by index, by name again; the index is the newest
identifier, so its bounds (0, 2) are used although the last call says (0, 3) -/
example : NewestIdBounds (Ex.sysQ.m.paramNames Ex.sysQ.w) Ex.mixed 0 (some (.fin 0), some (.fin 2)) := by
  have hn : Ex.sysQ.m.paramNames Ex.sysQ.w = _ := Ex.namesQ
  rw [hn]
  refine ⟨.int 0, by simp [Denotes], ⟨Ex.mixed.take 1, Ex.mixed.drop 2, _, rfl, by simp [Ex.mixed], ?_⟩,
    Ex.mixed.take 1, Ex.mixed.drop 2, rfl, by simp [Ex.mixed]⟩
  intro q c hm _
  simp only [Ex.mixed, List.drop_succ_cons, List.drop_zero, List.mem_singleton, FitOp.bound.injEq] at hm
  right
  exact ⟨(some (.fin 0), some (.fin 1)), by simp [Ex.mixed, hm.1]⟩

/-! ## C05 -/

/-- **C05, the whole effect (partial).** A fill with a tuple as weights on a 1-d histogram raises `TypeError`, after the
bin contents were increased as by an accepted fill; squared errors and `is_empty` are untouched. -/
theorem C05_tuple_partial (h : Hist) (edges : List ℝ) (hg : Good1 h edges) (data w : Vec)
    (hl : data.length = w.length) :
    (Hist1d.fill h data (.tuple w)).1 = .error .typeError ∧
    (Hist1d.fill h data (.tuple w)).2.counts.data = List.zipWith (· + ·) h.counts.data
      ((List.range (edges.length - 1)).map fun i => weightIn edges i data w) ∧
    (Hist1d.fill h data (.tuple w)).2.errSq = h.errSq ∧
    (Hist1d.fill h data (.tuple w)).2.isEmpty = h.isEmpty := by
  have hb := binnedSum_eq hg.incr hg.two data w hl
  simp only [Hist1d.fill, good1_edges hg, Weights.values, hb, Hist.accumulate]
  rw [iadd_ok hg.counts_shape (by simp [hg.counts_len])]
  exact ⟨rfl, rfl, rfl, rfl⟩

/-- **C05, the whole effect (partial)**, 2-d histograms. -/
theorem C05_tuple2_partial (h : Hist) (ex ey : List ℝ) (hg : Good2 h ex ey) (x y w : Vec)
    (hxy : x.length = y.length) (hxw : x.length = w.length) (hne : x ≠ []) :
    (Hist2d.fill h x y (.tuple w)).1 = .error .typeError ∧
    (Hist2d.fill h x y (.tuple w)).2.counts.data = List.zipWith (· + ·) h.counts.data
      ((List.range ((ex.length - 1) * (ey.length - 1))).map
        fun k => weightIn2 ex ey (k / (ey.length - 1)) (k % (ey.length - 1)) x y w) ∧
    (Hist2d.fill h x y (.tuple w)).2.errSq = h.errSq ∧
    (Hist2d.fill h x y (.tuple w)).2.isEmpty = h.isEmpty := by
  obtain ⟨he1, he2⟩ := good2_edges hg
  have hb := binnedSum2_eq hg.xincr hg.xtwo hg.yincr hg.ytwo x y w hxy hxw hne
  simp only [Hist2d.fill, he1, he2, Weights.values, hb, Hist.accumulate]
  rw [iadd_ok hg.counts_shape (by simp [hg.counts_len])]
  exact ⟨rfl, rfl, rfl, rfl⟩

/-- non-vacuity: well-formed histograms with one and two axes, one event with weight -/
example : Good1 exHist [0, 1] ∧ (∃ ex ey, Good2 exHist2 ex ey) ∧ ([.fin 1] : Vec) ≠ [] :=
  ⟨exHist_good, ⟨_, _, exHist2_good⟩, by simp⟩

end

end TF.Props
