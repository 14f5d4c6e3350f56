import Verif.Props.FitterProps14

set_option linter.unusedSimpArgs false

/-!
# A fit returns the constrained maximum of the likelihood (C120)
-/

namespace TF.Spec

open TF Classical

noncomputable section

/-- The points a user allows in `do_fit(fix_nui_params=fixNui, nui_param_limits=lim)` after the configuration calls `h`, if the
parameters of the model are `x0`: fixed parameters have their value of `x0`, the others lie within their bounds. -/
def FitAllows (names : List String) (nproc : ℕ) (h : List FitOp) (fixNui : Bool) (lim : Option Bounds) (x0 y : Vec) : Prop :=
  y.length = names.length ∧ ∀ k < names.length,
    (WantedFixed names h nproc fixNui k → y[k]? = x0[k]?) ∧
    (¬ WantedFixed names h nproc fixNui k → ∀ b v, WantedBounds names h nproc lim k b → y[k]? = some v → InBounds b v)

/-- `y`, `v` is a best point: allowed, with likelihood value `v` (a number), and no allowed point has a smaller value. -/
def BestPoint (s : Sys) (allowed : Vec → Prop) (y : Vec) (v : Fl) : Prop :=
  allowed y ∧ (s.m.nll s.w y).1 = .ok v ∧ v ≠ .nan ∧ ∀ y' v', allowed y' → (s.m.nll s.w y').1 = .ok v' → ¬ v'.lt v

end

end TF.Spec

namespace TF.Props

open Classical Spec
open scoped Matrix

noncomputable section

/-- the last registered bounds are unique -/
theorem wantedBounds_unique {names : List String} {nproc : ℕ} {h : List FitOp} {lim : Option Bounds} {k : ℕ} {b b' : Bounds}
    (h1 : WantedBounds names h nproc lim k b) (h2 : WantedBounds names h nproc lim k b') : b = b' := by
  rcases h1 with h1 | ⟨u1, rfl⟩ <;> rcases h2 with h2 | ⟨u2, rfl⟩
  · obtain ⟨pre, op, post, he, ⟨pid, rfl, hd⟩, hn⟩ := h1
    obtain ⟨pre', op', post', he', ⟨pid', rfl, hd'⟩, hn'⟩ := h2
    rw [he] at he'
    rcases List.append_eq_append_iff.mp he' with ⟨l, e1, e2⟩ | ⟨l, e1, e2⟩
    · cases l with
      | nil =>
        simp only [List.nil_append, List.cons.injEq, FitOp.bound.injEq] at e2
        exact e2.1.2
      | cons a l =>
        simp only [List.cons_append, List.cons.injEq] at e2
        exact absurd ⟨pid', b', rfl, hd'⟩ (hn _ (by rw [e2.2]; simp))
    · cases l with
      | nil =>
        simp only [List.nil_append, List.cons.injEq, FitOp.bound.injEq] at e2
        exact e2.1.2.symm
      | cons a l =>
        simp only [List.cons_append, List.cons.injEq] at e2
        exact absurd ⟨pid, b, rfl, hd⟩ (hn' _ (by rw [e2.2]; simp))
  · obtain ⟨pre, op, post, he, ⟨pid, rfl, hd⟩, hn⟩ := h1
    exact absurd hd (u2 pid b (by rw [he]; simp))
  · obtain ⟨pre, op, post, he, ⟨pid, rfl, hd⟩, hn⟩ := h2
    exact absurd hd (u1 pid b' (by rw [he]; simp))
  · rfl

/-- the bounds handed over are the wanted ones -/
theorem setup_wanted {kd : MinKind} {names : List String} {id : String} {h : List FitOp} {nproc nnui : ℕ}
    (hn : nproc + nnui = names.length) (fixNui : Bool) (lim : Option Bounds) (k : ℕ) (hk : k < names.length)
    (ho : OneId names h k) (b : Bounds) :
    (minRun kd names (setupOps (fitRun id h) nproc nnui fixNui lim)).bounds[k]? = some b ↔
      WantedBounds names h nproc lim k b := by
  have hb := setup_bounds (kd := kd) (id := id) (h := h) hn fixNui lim k hk
  have hex : ∃ b, WantedBounds names h nproc lim k b ∧
      (minRun kd names (setupOps (fitRun id h) nproc nnui fixNui lim)).bounds[k]? = some b := by
    rcases fitBounds_or names h k with ⟨b, hfb⟩ | hu
    · exact ⟨b, .inl hfb, hb.1 b ho hfb⟩
    · exact ⟨_, .inr ⟨hu, rfl⟩, hb.2 hu⟩
  obtain ⟨b', w1, w2⟩ := hex
  rw [w2]
  constructor
  · intro e
    rw [← Option.some.inj e]; exact w1
  · intro w
    rw [wantedBounds_unique w w1]

/-- **C120 (iminuit).** For every reachable model and every history of configuration calls with known identifiers (bounds of one
parameter always registered under the same identifier), every fit option and an optimiser that returns true constrained minima:
whatever `do_fit` returns is a best point of the problem the user configured - fixed parameters at the model's present values, the
others within their bounds, the reported minimum is the likelihood there, and no allowed point has a smaller one. -/
theorem C120_iminuit (s : Sys) (hs : s.Reachable) (id : String) (hid : id.toLower = "iminuit") (h : List FitOp)
    (hk : KnownIds (s.m.paramNames s.w) h) (hone : ∀ k < (s.m.paramNames s.w).length, OneId (s.m.paramNames s.w) h k)
    (o : Optim) (ho : TrueMin o) (up g fixNui : Bool) (lim : Option Bounds) (r : MinResult)
    (hr : ((fitRun id h).doFit o s.w s.m up g fixNui lim).1 = .ok r) :
    ∃ x0, s.m.x0 s.w = .ok x0 ∧
      BestPoint s (FitAllows (s.m.paramNames s.w) s.m.numProcesses h fixNui lim x0) r.params.values r.fval := by
  have hn := (C51_aligned s hs).1.symm
  have hz := setup_eq (kd := .iminuit) (id := id) hn hk fixNui lim
  have hzw := minRun_wf .iminuit (s.m.paramNames s.w)
    (setupOps (fitRun id h) s.m.numProcesses (s.m.numNui s.w) fixNui lim)
  have hm1 : minKindOf (fitRun id h).minimizerId = .ok .iminuit := by rw [fitRun_id]; exact minKind_iminuit hid
  obtain ⟨x0, q, hx0, hq, hf, hval⟩ := doFit_minuit_inv' hm1 hz hzw.hk hr
  refine ⟨x0, hx0, ?_⟩
  set z := minRun .iminuit (s.m.paramNames s.w)
    (setupOps (fitRun id h) s.m.numProcesses (s.m.numNui s.w) fixNui lim) with hzz
  have hfix : ∀ k < (s.m.paramNames s.w).length, (z.minuitCall (objective s.w s.m) x0).fix[k]? = some true ↔
      WantedFixed (s.m.paramNames s.w) h s.m.numProcesses fixNui k := by
    intro k hk'
    rw [hzz, C58_iminuit, List.getElem?_map, List.getElem?_range hk', Option.map_some, Option.some.injEq, decide_eq_true_eq]
    exact setup_fixed hn fixNui lim k hk'
  have heq : ∀ y, MFeasible (z.minuitCall (objective s.w s.m) x0) y ↔
      FitAllows (s.m.paramNames s.w) s.m.numProcesses h fixNui lim x0 y := by
    intro y
    have hnames : (z.minuitCall (objective s.w s.m) x0).names = s.m.paramNames s.w := hzw.hn
    unfold MFeasible FitAllows
    rw [hnames]
    refine and_congr_right fun _ => forall_congr' fun k => forall_congr' fun hk' => ?_
    rw [ne_eq, hfix k hk']
    refine and_congr_right fun _ => forall_congr' fun _ => forall_congr' fun b => forall_congr' fun v => ?_
    have : (z.minuitCall (objective s.w s.m) x0).limit[k]? = some b ↔ _ := setup_wanted hn fixNui lim k hk' (hone k hk') b
    rw [this]
  obtain ⟨t1, t2, t3, t4⟩ := ho _ _ hq
  rw [hf, hval]
  exact ⟨(heq _).mp t1, t2, t3, fun y v hy hv => t4 y v ((heq y).mpr hy) hv⟩

theorem x0_length (s : Sys) (hs : s.Reachable) {x0 : Vec} (hx : s.m.x0 s.w = .ok x0) :
    x0.length = (s.m.paramNames s.w).length := by
  have hal := C51_aligned s hs
  by_cases hex : ∃ c ∈ s.m.chanIds, (s.w.chans c).templates ≠ []
  · obtain ⟨x, h1, h2, -⟩ := hal.2.2.2 hex
    rw [hx] at h1
    rw [Except.ok.inj h1, h2, hal.1]
  · push Not at hex
    exfalso
    have : s.m.allTmpls s.w = [] := by
      unfold Mct.allTmpls
      rw [List.flatten_eq_nil_iff]
      intro l hl
      obtain ⟨c, hc, rfl⟩ := List.mem_map.mp hl
      simp [World.chanTmpls, hex c hc]
    unfold Mct.x0 Mct.nuiParams at hx
    rw [if_pos this] at hx
    cases hx

/-- **C120 (scipy).** The same for a scipy that reports success only with true constrained minima, for fits with at most one
fixed parameter (scipy holds only the last one, `C60_refuted`). -/
theorem C120_scipy (s : Sys) (hs : s.Reachable) (id : String) (hid : id.toLower = "scipy") (h : List FitOp)
    (hk : KnownIds (s.m.paramNames s.w) h) (hone : ∀ k < (s.m.paramNames s.w).length, OneId (s.m.paramNames s.w) h k)
    (o : Optim) (ho : TrueMinScipy o) (up g fixNui : Bool) (lim : Option Bounds)
    (h1 : ∀ j k, j < (s.m.paramNames s.w).length → k < (s.m.paramNames s.w).length →
      WantedFixed (s.m.paramNames s.w) h s.m.numProcesses fixNui j →
      WantedFixed (s.m.paramNames s.w) h s.m.numProcesses fixNui k → j = k)
    (r : MinResult) (hr : ((fitRun id h).doFit o s.w s.m up g fixNui lim).1 = .ok r) :
    ∃ x0, s.m.x0 s.w = .ok x0 ∧
      BestPoint s (FitAllows (s.m.paramNames s.w) s.m.numProcesses h fixNui lim x0) r.params.values r.fval := by
  have hn := (C51_aligned s hs).1.symm
  have hz := setup_eq (kd := .scipy) (id := id) hn hk fixNui lim
  have hzw := minRun_wf .scipy (s.m.paramNames s.w)
    (setupOps (fitRun id h) s.m.numProcesses (s.m.numNui s.w) fixNui lim)
  have hm1 : minKindOf (fitRun id h).minimizerId = .ok .scipy := by rw [fitRun_id]; exact minKind_scipy hid
  obtain ⟨x0, q, hx0, hq, hsucc, hf, hval⟩ := doFit_scipy_inv hm1 hz hzw.hk hr
  refine ⟨x0, hx0, ?_⟩
  have hxl := x0_length s hs hx0
  set z := minRun .scipy (s.m.paramNames s.w)
    (setupOps (fitRun id h) s.m.numProcesses (s.m.numNui s.w) fixNui lim) with hzz
  obtain ⟨t1, t2, t3, t4⟩ := ho _ _ hq hsucc
  have hmem : ∀ k < (s.m.paramNames s.w).length, k ∈ z.fixedIdx ↔ WantedFixed (s.m.paramNames s.w) h s.m.numProcesses fixNui k := by
    intro k hk'
    rw [hzz, C58_scipy]
    exact setup_fixed hn fixNui lim k hk'
  have hlt : ∀ k ∈ z.fixedIdx, k < (s.m.paramNames s.w).length := by
    intro k hkm
    rw [hzz, C58_scipy] at hkm
    exact fixedIn_lt hkm
  have hlast : ∀ k, k < (s.m.paramNames s.w).length → WantedFixed (s.m.paramNames s.w) h s.m.numProcesses fixNui k →
      z.fixedIdx ≠ [] ∧ z.fixedIdx.getLastD 0 = k := by
    intro k hk' hw
    have hkm := (hmem k hk').mpr hw
    have hne : z.fixedIdx ≠ [] := List.ne_nil_of_mem hkm
    refine ⟨hne, ?_⟩
    have hl : z.fixedIdx.getLastD 0 ∈ z.fixedIdx := by
      rw [List.getLastD_eq_getLast?, List.getLast?_eq_getLast_of_ne_nil hne]
      exact List.getLast_mem hne
    exact h1 _ _ (hlt _ hl) hk' ((hmem _ (hlt _ hl)).mp hl) hw
  have hfeas : ∀ y, y.length = x0.length → (Feasible (z.scipyCall (objective s.w s.m) x0) y ↔
      ∀ k < (s.m.paramNames s.w).length, WantedFixed (s.m.paramNames s.w) h s.m.numProcesses fixNui k →
        ∃ a : ℝ, y[k]? = some (.fin a) ∧ x0[k]? = some (.fin a)) := by
    intro y hy
    rw [feasible_iff]
    constructor
    · intro hh k hk' hw
      obtain ⟨g1, g2⟩ := hlast k hk' hw
      rcases hh with hh | ⟨a, ha, hb⟩
      · exact absurd hh g1
      · rw [g2] at ha hb
        refine ⟨a, ?_, ?_⟩
        · have hky : k < y.length := by rw [hy, hxl]; exact hk'
          rw [List.getD_eq_getElem?_getD, List.getElem?_eq_getElem hky] at ha
          rw [List.getElem?_eq_getElem hky, ← ha]; rfl
        · have hky : k < x0.length := by rw [hxl]; exact hk'
          rw [List.getD_eq_getElem?_getD, List.getElem?_eq_getElem hky] at hb
          rw [List.getElem?_eq_getElem hky, ← hb]; rfl
    · intro hh
      by_cases hne : z.fixedIdx = []
      · exact .inl hne
      · right
        have hl : z.fixedIdx.getLastD 0 ∈ z.fixedIdx := by
          rw [List.getLastD_eq_getLast?, List.getLast?_eq_getLast_of_ne_nil hne]
          exact List.getLast_mem hne
        obtain ⟨a, ha, hb⟩ := hh _ (hlt _ hl) ((hmem _ (hlt _ hl)).mp hl)
        exact ⟨a, by rw [List.getD_eq_getElem?_getD, ha]; rfl, by rw [List.getD_eq_getElem?_getD, hb]; rfl⟩
  have hql : q.x.length = x0.length := t1.1
  have hqf := (hfeas q.x hql).mp t1.2.2
  have hbw : ∀ k < (s.m.paramNames s.w).length, ∀ b, (z.scipyCall (objective s.w s.m) x0).bounds[k]? = some b ↔
      WantedBounds (s.m.paramNames s.w) h s.m.numProcesses lim k b := fun k hk' b =>
    setup_wanted hn fixNui lim k hk' (hone k hk') b
  rw [hf, hval]
  refine ⟨⟨by rw [hql, hxl], fun k hk' => ⟨fun hw => ?_, fun _ b v hb hv => ?_⟩⟩, t2, t3, fun y v hy hv => t4 y v ?_ hv⟩
  · obtain ⟨a, ha, hb⟩ := hqf k hk' hw
    rw [ha, hb]
  · exact t1.2.1 k b v ((hbw k hk' b).mpr hb) hv
  · have hyl : y.length = x0.length := by rw [hy.1, hxl]
    refine ⟨hyl, fun k b v hb hv => ?_, (hfeas y hyl).mpr fun k hk' hw => ?_⟩
    · have hk' : k < (s.m.paramNames s.w).length := by rw [← hy.1]; exact (List.getElem?_eq_some_iff.mp hv).1
      by_cases hw : WantedFixed (s.m.paramNames s.w) h s.m.numProcesses fixNui k
      · obtain ⟨a, ha, hb'⟩ := hqf k hk' hw
        have := (hy.2 k hk').1 hw
        rw [hv, hb', ← ha] at this
        exact t1.2.1 k b v hb this.symm
      · exact (hy.2 k hk').2 hw b v ((hbw k hk' b).mp hb) hv
    · obtain ⟨a, ha, hb'⟩ := hqf k hk' hw
      exact ⟨a, by rw [(hy.2 k hk').1 hw, hb'], hb'⟩

/-- **C120, consequences.** For two fits of the same model in the same state that return best points: (1) if everything the second
fit allows is allowed by the first, the minimum of the second is not below that of the first; (2) if the allowed points are the
same the minima are equal; (3) a fit that allows the present parameters does not end above the likelihood there. -/
theorem C120_compare (s : Sys) (A B : Vec → Prop) (y1 y2 : Vec) (v1 v2 : Fl) (h1 : BestPoint s A y1 v1) (h2 : BestPoint s B y2 v2) :
    ((∀ y, B y → A y) → ¬ v2.lt v1) ∧ ((∀ y, B y ↔ A y) → v1 = v2) ∧
      ∀ x0 v0, A x0 → (s.m.nll s.w x0).1 = .ok v0 → ¬ v0.lt v1 := by
  refine ⟨fun hsub => h1.2.2.2 y2 v2 (hsub _ h2.1) h2.2.1, fun heq => ?_, fun x0 v0 ha hv => h1.2.2.2 x0 v0 ha hv⟩
  exact Fl.eq_of_not_lt h1.2.2.1 h2.2.2.1 (h2.2.2.2 y1 v1 ((heq _).mpr h1.1) h1.2.1) (h1.2.2.2 y2 v2 ((heq _).mp h2.1) h2.2.1)

/-- **C120, fixing more parameters.** With an optimiser that returns true constrained minima, fixing further parameters (whose
present values lie within the bounds they had) never lowers the minimum of the fit. -/
theorem C120_fixing (s : Sys) (hs : s.Reachable) (id : String) (hid : id.toLower = "iminuit") (h : List FitOp) (extra : List ParamId)
    (hk : KnownIds (s.m.paramNames s.w) (h ++ extra.map .fix))
    (hone : ∀ k < (s.m.paramNames s.w).length, OneId (s.m.paramNames s.w) h k)
    (o : Optim) (ho : TrueMin o) (up g up' g' fixNui : Bool) (lim : Option Bounds)
    (hin : ∀ pid ∈ extra, ∀ k b v x0, Denotes (s.m.paramNames s.w) pid k →
      WantedBounds (s.m.paramNames s.w) h s.m.numProcesses lim k b → s.m.x0 s.w = .ok x0 → x0[k]? = some v → InBounds b v)
    (r1 r2 : MinResult) (hr1 : ((fitRun id h).doFit o s.w s.m up g fixNui lim).1 = .ok r1)
    (hr2 : ((fitRun id (h ++ extra.map .fix)).doFit o s.w s.m up' g' fixNui lim).1 = .ok r2) : ¬ r2.fval.lt r1.fval := by
  have hbm : ∀ pid b, FitOp.bound pid b ∈ h ++ extra.map .fix ↔ FitOp.bound pid b ∈ h := by
    intro pid b
    simp
  have hk1 : KnownIds (s.m.paramNames s.w) h :=
    ⟨fun pid hp => hk.1 pid (List.mem_append_left _ hp), fun pid b hp => hk.2 pid b (List.mem_append_left _ hp)⟩
  have hone2 : ∀ k < (s.m.paramNames s.w).length, OneId (s.m.paramNames s.w) (h ++ extra.map .fix) k := by
    intro k hk' p q b c hb hc
    exact hone k hk' p q b c ((hbm _ _).mp hb) ((hbm _ _).mp hc)
  obtain ⟨x0, hx0, B1⟩ := C120_iminuit s hs id hid h hk1 hone o ho up g fixNui lim r1 hr1
  obtain ⟨x0', hx0', B2⟩ := C120_iminuit s hs id hid _ hk hone2 o ho up' g' fixNui lim r2 hr2
  rw [hx0] at hx0'
  obtain rfl := Except.ok.inj hx0'
  refine (C120_compare s _ _ _ _ _ _ B1 B2).1 fun y hy => ⟨hy.1, fun k hk' => ⟨fun hw => (hy.2 k hk').1 ?_, fun hw b v hb hv => ?_⟩⟩
  · rcases hw with ⟨pid, hp, hd⟩ | hw
    · exact .inl ⟨pid, List.mem_append_left _ hp, hd⟩
    · exact .inr hw
  · by_cases hw2 : WantedFixed (s.m.paramNames s.w) (h ++ extra.map .fix) s.m.numProcesses fixNui k
    · have he := (hy.2 k hk').1 hw2
      rw [hv] at he
      rcases hw2 with ⟨pid, hp, hd⟩ | hw2
      · rcases List.mem_append.mp hp with hp | hp
        · exact absurd (.inl ⟨pid, hp, hd⟩) hw
        · obtain ⟨pid', hp', e⟩ := List.mem_map.mp hp
          obtain rfl := FitOp.fix.inj e
          exact hin _ hp' k b v x0 hd hb hx0 he.symm
      · exact absurd (.inr hw2) hw
    · refine (hy.2 k hk').2 hw2 b v ?_ hv
      rcases hb with ⟨pre, op, post, he, hop, hn⟩ | ⟨hu, he⟩
      · refine .inl ⟨pre, op, post ++ extra.map .fix, by rw [he]; simp, hop, ?_⟩
        intro o ho
        rcases List.mem_append.mp ho with ho | ho
        · exact hn o ho
        · obtain ⟨pid', -, rfl⟩ := List.mem_map.mp ho
          rintro ⟨_, _, e, _⟩
          cases e
      · exact .inr ⟨fun pid b hp => hu pid b ((hbm _ _).mp hp), he⟩

/-- **C120, the choice of the minimizer.** If both minimizers return true constrained minima, the same configuration (at most one
fixed parameter) has the same minimum with iminuit and with scipy. -/
theorem C120_minimizers (s : Sys) (hs : s.Reachable) (id id' : String) (hid : id.toLower = "iminuit") (hid' : id'.toLower = "scipy")
    (h : List FitOp) (hk : KnownIds (s.m.paramNames s.w) h)
    (hone : ∀ k < (s.m.paramNames s.w).length, OneId (s.m.paramNames s.w) h k)
    (o : Optim) (ho : TrueMin o) (ho' : TrueMinScipy o) (up g up' g' fixNui : Bool) (lim : Option Bounds)
    (h1 : ∀ j k, j < (s.m.paramNames s.w).length → k < (s.m.paramNames s.w).length →
      WantedFixed (s.m.paramNames s.w) h s.m.numProcesses fixNui j →
      WantedFixed (s.m.paramNames s.w) h s.m.numProcesses fixNui k → j = k)
    (r r' : MinResult) (hr : ((fitRun id h).doFit o s.w s.m up g fixNui lim).1 = .ok r)
    (hr' : ((fitRun id' h).doFit o s.w s.m up' g' fixNui lim).1 = .ok r') : r.fval = r'.fval := by
  obtain ⟨x0, hx0, B1⟩ := C120_iminuit s hs id hid h hk hone o ho up g fixNui lim r hr
  obtain ⟨x0', hx0', B2⟩ := C120_scipy s hs id' hid' h hk hone o ho' up' g' fixNui lim h1 r' hr'
  rw [hx0] at hx0'
  obtain rfl := Except.ok.inj hx0'
  exact (C120_compare s _ _ _ _ _ _ B1 B2).2.1 fun y => Iff.rfl

/-! ### a case -/

theorem doFit_minuit_congr {o o' : Optim} (h1 : o.minuit = o'.minuit) (h2 : o.minuitEvals = o'.minuitEvals) {f : Fitter} {w : World}
    {m : Mct} {up g fixNui : Bool} {lim : Option Bounds} {z : Minimizer} (hid : minKindOf f.minimizerId = .ok .iminuit)
    (hz : f.setup .iminuit (m.paramNames w) m.numProcesses (m.numNui w) fixNui lim = .ok z) (hk : z.kind = .iminuit) :
    f.doFit o w m up g fixNui lim = f.doFit o' w m up g fixNui lim := by
  unfold Fitter.doFit
  rw [hid]
  simp only
  rw [hz]
  simp only
  have : runMinimizer o w m z g = runMinimizer o' w m z g := by
    unfold runMinimizer
    simp only [Minimizer.minimize, hk, Minimizer.evals, Minimizer.minimizeMinuit, h1, h2]
  rw [this]

theorem doFit_scipy_congr {o o' : Optim} (h1 : o.scipy = o'.scipy) (h2 : o.scipyEvals = o'.scipyEvals) (h3 : o.hessian = o'.hessian)
    {f : Fitter} {w : World}
    {m : Mct} {up g fixNui : Bool} {lim : Option Bounds} {z : Minimizer} (hid : minKindOf f.minimizerId = .ok .scipy)
    (hz : f.setup .scipy (m.paramNames w) m.numProcesses (m.numNui w) fixNui lim = .ok z) (hk : z.kind = .scipy) :
    f.doFit o w m up g fixNui lim = f.doFit o' w m up g fixNui lim := by
  unfold Fitter.doFit
  rw [hid]
  simp only
  rw [hz]
  simp only
  have : runMinimizer o w m z g = runMinimizer o' w m z g := by
    unfold runMinimizer
    simp only [Minimizer.minimize, hk, Minimizer.evals, Minimizer.minimizeScipy, h1, h2, h3]
  rw [this]

/-- both minimizers find true minima -/
def Ex.optBoth : Optim := { Ex.optMinS with minuit := Ex.optMin.minuit, minuitEvals := Ex.optMin.minuitEvals }

/-- non-vacuity of C120: 6 background events and no signal. The free fits with iminuit and with scipy return, and so does the one
with the signal fixed; all have the same minimum 0, and it is a best point -/
example (s : Sys) (hs : s = Ex.sysSB.step (.addAsimov false)) : TrueMin Ex.optBoth ∧ TrueMinScipy Ex.optBoth ∧
    ∃ r r' r'' , ((fitRun "iminuit" []).doFit Ex.optBoth s.w s.m false true false none).1 = .ok r ∧
      ((fitRun "scipy" []).doFit Ex.optBoth s.w s.m false true false none).1 = .ok r' ∧
      ((fitRun "iminuit" ([] ++ [ParamId.str "p_yield"].map .fix)).doFit Ex.optBoth s.w s.m false true false none).1 = .ok r'' ∧
      KnownIds (s.m.paramNames s.w) ([] ++ [ParamId.str "p_yield"].map .fix) ∧
      r.fval = .fin 0 ∧ r'.fval = r.fval ∧ r''.fval = r.fval := by
  have hT : TrueMin Ex.optBoth := Ex.optMin_true
  have hTS : TrueMinScipy Ex.optBoth := Ex.optMinS_true
  refine ⟨hT, hTS, ?_⟩
  have hne : Ex.sysSB.m.channels ≠ [] := by simp [Ex.sysSB, Ex.mSB]
  have htup : ∀ c ∈ Ex.sysSB.m.chanIds, AllTuple (Ex.sysSB.w.chans c).range := by
    simp [Ex.sysSB, Ex.mSB, Mct.chanIds, Ex.wSB, Ex.chSB, AllTuple]
  obtain ⟨q1, q2, q3, q4, q5, q6, q7, q8, q9, q10, q11, d, q12, q13, q14⟩ := asimov_exact Ex.sysSB Ex.sysSB_built hne
    Ex.SSB Ex.modelSB htup Ex.ySB Ex.paramsSB Ex.sumsSB Ex.νSB Ex.yieldSB Ex.shareSB
    (fun _ => 0) (fun _ => 1) (by intro p hp; simp [Ex.sysSB, Ex.mSB] at hp) (by intro p hp; simp [Ex.sysSB, Ex.mSB] at hp)
    Ex.posSB Ex.identSB s hs
  have hp : "p" ∈ s.m.processes := by rw [q2]; simp [Ex.sysSB, Ex.mSB]
  have hal := C51_aligned s q1.reachable
  have hw := reachable_wf q1.reachable
  obtain ⟨m1, m2⟩ := C106_minimum s q1 (by rw [q2]; exact hne) Ex.SSB q7 d q12 q13 _ _ q9 Ex.νSB q8 q14 q10 q11
  have hx : s.m.x0 s.w = .ok (paramVec s Ex.SSB Ex.νSB fun _ _ _ => 0) := by rw [q4, q5, q6]
  have hl := paramVec_length hw q7 Ex.νSB (fun _ _ _ => 0)
  have hkn0 : KnownIds (s.m.paramNames s.w) [] := ⟨by simp, by simp⟩
  have hkn : KnownIds (s.m.paramNames s.w) [.fix (.str "p_yield")] := by
    refine ⟨?_, by simp⟩
    intro pid hpid
    simp only [List.mem_singleton, FitOp.fix.injEq] at hpid
    subst hpid
    exact ⟨_, yield_denotes q1.reachable hp⟩
  obtain ⟨r, hr, hrv, -⟩ := fit_optMin_free s q1.reachable _ hx hl _ hl 0 m1 m2
  have hc1 : ∀ h, KnownIds (s.m.paramNames s.w) h → (fitRun "iminuit" h).doFit Ex.optBoth s.w s.m false true false none =
      (fitRun "iminuit" h).doFit Ex.optMin s.w s.m false true false none := fun h hk =>
    doFit_minuit_congr (o := Ex.optBoth) (o' := Ex.optMin) rfl rfl (by rw [fitRun_id]; exact minKind_iminuit lower_iminuit)
      (setup_eq hal.1.symm hk false none) (minRun_wf _ _ _).hk
  have hc2 : (fitRun "scipy" []).doFit Ex.optBoth s.w s.m false true false none =
      (fitRun "scipy" []).doFit Ex.optMinS s.w s.m false true false none :=
    doFit_scipy_congr (o := Ex.optBoth) (o' := Ex.optMinS) rfl rfl rfl (by rw [fitRun_id]; exact minKind_scipy lower_scipy)
      (setup_eq hal.1.symm hkn0 false none) (minRun_wf _ _ _).hk
  have hS : ∃ r', ((fitRun "scipy" []).doFit Ex.optMinS s.w s.m false true false none).1 = .ok r' := by
    obtain ⟨r', h1, -⟩ := doFit_optMinS q1.reachable hkn0 hx (by rw [hl, hal.1]) false (by
      refine ⟨⟨true, paramVec s Ex.SSB Ex.νSB fun _ _ _ => 0, .fin 0⟩, rfl, ?_, m1, by simp, ?_⟩
      · rw [free_scipy]
        refine ⟨rfl, ?_, ?_⟩
        · intro k b v hb _
          obtain ⟨_, -, hb⟩ := List.mem_map.mp (List.mem_of_getElem? hb)
          rw [← hb]
          exact ⟨fun _ h => (by cases h), fun _ h => (by cases h)⟩
        · intro g hg
          simp at hg
      · intro y v hy hv
        exact (m2 y v (by rw [hy.1]; exact hl) hv).1)
    exact ⟨r', h1⟩
  obtain ⟨r', hr'⟩ := hS
  obtain ⟨r'', hr'', hrv'', -⟩ := fit_optMin s q1.reachable [.fix (.str "p_yield")] hkn _ hx false (.fin 0)
    (paramVec s Ex.SSB Ex.νSB fun _ _ _ => 0) (by
      intro c c1 c2 c3 c4 c5
      have hfeas : MFeasible c (paramVec s Ex.SSB Ex.νSB fun _ _ _ => 0) := by
        refine ⟨by rw [c3, hal.1, hl], fun k hk => ⟨fun _ => by rw [c2], fun _ b v hb hv => ?_⟩⟩
        obtain ⟨b', w1, w2⟩ := c5 k (by rw [← c3]; exact hk) (by intro p q b c hb; simp at hb)
        rw [w2] at hb
        cases hb
        have hbb : b = (none, none) := by
          rcases w1 with ⟨pre, op, post, he, ⟨pid, rfl, _⟩, _⟩ | ⟨_, w1⟩
          · have : FitOp.bound pid b ∈ [FitOp.fix (.str "p_yield")] := by rw [he]; simp
            simp at this
          · rw [w1]; split <;> rfl
        rw [hbb]
        exact ⟨fun _ h => (by cases h), fun _ h => (by cases h)⟩
      constructor
      · refine ⟨⟨⟨true, true, true⟩, ⟨true, true, true⟩, .fin 0, _, c.x0, .ok (Mat.zeros 1 1, Mat.zeros 1 1)⟩, hfeas, by rw [c1]; exact m1,
          by simp, ?_, by show List.length c.x0 = _; rw [c2, c3, hal.1, hl], _, _, rfl⟩
        intro x v hx hv
        rw [c1] at hv
        exact (m2 x v (by rw [hx.1, c3, hal.1]) hv).1
      · intro r hr
        have h1 := hr.2.1
        rw [c1] at h1
        obtain ⟨g1, g2⟩ := m2 r.values r.fval (by rw [hr.1.1, c3, hal.1]) h1
        have g3 := hr.2.2.2.1 _ _ hfeas (by rw [c1]; exact m1)
        have hz : r.fval = .fin 0 := Fl.eq_of_not_lt hr.2.2.1 (by simp) g1 g3
        exact ⟨hz, g2 hz⟩)
  have hone : ∀ k < (s.m.paramNames s.w).length, OneId (s.m.paramNames s.w) [] k := by
    intro k _ p q b c hb; simp at hb
  refine ⟨r, r', r'', by rw [hc1 _ hkn0]; exact hr, by rw [hc2]; exact hr', ?_, hkn, hrv, ?_, by rw [hrv, hrv'']⟩
  · rw [hc1 _ (by simpa using hkn)]; exact hr''
  · refine (C120_minimizers s q1.reachable "iminuit" "scipy" lower_iminuit lower_scipy [] hkn0 hone Ex.optBoth hT hTS false true false
      true false none ?_ r r' (by rw [hc1 _ hkn0]; exact hr) (by rw [hc2]; exact hr')).symm
    rintro j k _ _ (⟨pid, hp, _⟩ | ⟨hp, _⟩)
    · simp at hp
    · cases hp

end

end TF.Props
