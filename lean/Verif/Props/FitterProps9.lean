import Verif.Props.MctProps18
import Verif.Props.FitterProps7

set_option linter.unusedSimpArgs false

/-!
# A fit to data that the model describes exactly returns the truth (C106)
-/

namespace TF.Spec

open Classical

noncomputable section

/-- no change of the yields leaves all expectations (at zero nuisance parameters) and all constrained yields unchanged -/
def Identifiable (s : Sys) (S : ℕ → ChanSpec) : Prop :=
  ∀ δ : String → ℝ, (∀ k < s.m.chanIds.length, ∀ i, expectedIn s S δ (fun _ _ _ => 0) k i = 0) →
    (∀ p ∈ s.m.constrained, δ p = 0) → ∀ p ∈ s.m.processes, δ p = 0

end

end TF.Spec

namespace TF.Props

open Classical Spec
open scoped Matrix

noncomputable section

/-! ### the likelihood is never `-inf` if every bin has data -/

theorem Fl.add_eq_ninf {x y : Fl} (h : x + y = .ninf) : x = .ninf ∨ y = .ninf := by
  cases x <;> cases y <;> first | exact Or.inl rfl | exact Or.inr rfl | cases h

theorem Fl.list_sum_eq_ninf : ∀ {l : Vec}, l.sum = .ninf → .ninf ∈ l
  | [], h => by cases h
  | y :: l, h => by
    rw [List.sum_cons] at h
    rcases Fl.add_eq_ninf h with rfl | h
    · simp
    · exact List.mem_cons_of_mem _ (Fl.list_sum_eq_ninf h)

theorem Fl.list_sum_nan {l : Vec} (h : .nan ∈ l) : l.sum = .nan := by
  induction l with
  | nil => simp at h
  | cons y l ih =>
    rw [List.sum_cons]
    rcases List.mem_cons.mp h with rfl | h
    · simp
    · rw [ih h]; simp

/-- a bin with data and a non-finite expectation is NaN -/
theorem binTerm_nonfin {d : ℝ} (hd : (1e-100 : ℝ) ≤ d) {e : Fl} (he : ∀ r : ℝ, e ≠ .fin r) : binTerm (.fin d) e = .nan := by
  have h0 : 0 < d := lt_of_lt_of_le (by norm_num) hd
  have hl : ¬ (Fl.fin d).lt (Fl.fin (1e-100 : ℝ)) := by simpa using hd
  have hn : ¬ (Fl.fin d).isNan := id
  cases e with
  | fin r => exact absurd rfl (he r)
  | nan =>
    unfold binTerm; simp
  | pinf =>
    have : xlogyx (.fin d) .pinf = .pinf := by
      unfold xlogyx
      rw [if_neg hn, if_neg hl, if_pos (show (Fl.fin d).lt .pinf from trivial)]
      have e1 : (Fl.pinf - Fl.fin d : Fl) = .pinf := rfl
      have e2 : (Fl.pinf / Fl.fin d : Fl) = .pinf := by
        show Fl.div _ _ = _
        simp [Fl.div, not_lt.mpr h0.le]
      have e3 : (Fl.fin d * Fl.pinf : Fl) = .pinf := by
        show Fl.mulPinf d = _
        simp [Fl.mulPinf, h0.ne', h0]
      rw [e1, e2]; exact e3
    unfold binTerm; rw [this]; rfl
  | ninf =>
    have : xlogyx (.fin d) .ninf = .nan ∨ ∃ r : ℝ, True ∧ xlogyx (.fin d) .ninf = .pinf := by
      left
      unfold xlogyx
      rw [if_neg hn, if_neg hl, if_neg (show ¬ (Fl.fin d).lt .ninf from id)]
      have e1 : (Fl.fin d - Fl.ninf : Fl) = .pinf := rfl
      have e2 : (Fl.pinf / Fl.ninf : Fl) = .nan := rfl
      rw [e1, e2]
      show -Fl.fin d * Fl.nan = _
      simp
    rcases this with h | ⟨_, _, h⟩
    · unfold binTerm; rw [h]; simp
    · unfold binTerm; rw [h]; exfalso
      unfold xlogyx at h
      rw [if_neg hn, if_neg hl, if_neg (show ¬ (Fl.fin d).lt .ninf from id)] at h
      have e1 : (Fl.fin d - Fl.ninf : Fl) = .pinf := rfl
      have e2 : (Fl.pinf / Fl.ninf : Fl) = .nan := rfl
      rw [e1, e2] at h
      have : -Fl.fin d * Fl.log1p Fl.nan = .nan := by show -Fl.fin d * Fl.nan = _; simp
      rw [this] at h; cases h

theorem contribPure_not_ninf {w : World} {c K n : ℕ} {cnt ε : Fin K → Fin n → ℝ} {eff : Fin K → ℝ}
    {R : Fin K → Matrix (Fin n) (Fin n) ℝ} (h : ChanIs w c cnt ε eff R) (hK : 0 < K) (hn : 0 < n)
    {hid : ℕ} (hd : (w.chans c).hdata = some hid) {d : Fin n → ℝ} (hdd : (w.hists hid).counts.data = vec d)
    (hpos : ∀ i, (1e-100 : ℝ) ≤ d i) {y nui : Vec} (hy : y.length = K) (hnl : nui.length = K * n) :
    contribPure w c y nui ≠ .ok .ninf := by
  intro hv
  unfold contribPure at hv
  simp only [hd] at hv
  split at hv
  · cases hv
  · rename_i e he
    split at hv
    · cases hv
    · rename_i p hp
      split at hv
      · cases hv
      · rename_i g hg
        have hsum := Except.ok.inj hv
        have hl : (w.hists hid).counts.data.length = e.length := by
          rw [hdd, vec_length, expectedPure_length h hK hy hnl he]
        have hp' := poissonTerm_list hl hp
        by_cases hfin : ∀ x ∈ e, ∃ r : ℝ, x = .fin r
        · obtain ⟨ν, θ, h1, h2, h3⟩ := expectedPure_fin h hK hn hy hnl he hfin
          rw [h2, gaussPure_eq h θ] at hg
          have hg := Except.ok.inj hg
          rcases Fl.add_eq_ninf hsum with h0 | h0
          · rw [hp'] at h0
            have hm := Fl.list_sum_eq_ninf h0
            obtain ⟨i, hi, e1⟩ := List.mem_iff_getElem.mp hm
            rw [List.getElem_zipWith] at e1
            have hi1 : i < (w.hists hid).counts.data.length := by
              simp only [List.length_zipWith] at hi; omega
            have hi2 : i < n := by rw [hdd, vec_length] at hi1; exact hi1
            have e2 : (w.hists hid).counts.data[i] = .fin (d ⟨i, hi2⟩) := by simp [hdd, vec]
            obtain ⟨r, hr⟩ := hfin e[i] (List.getElem_mem _)
            rw [e2, hr] at e1
            rcases lt_trichotomy r 0 with h4 | h4 | h4
            · rw [binTerm_neg (hpos _) h4] at e1; cases e1
            · rw [h4, binTerm_zero (hpos _)] at e1; cases e1
            · rw [binTerm_fin (Or.inr (hpos _)) h4] at e1; cases e1
          · rw [← hg] at h0; cases h0
        · push Not at hfin
          obtain ⟨x, hx, hne⟩ := hfin
          obtain ⟨i, hi, rfl⟩ := List.mem_iff_getElem.mp hx
          have hi1 : i < (w.hists hid).counts.data.length := by rw [hl]; exact hi
          have hi2 : i < n := by rw [hdd, vec_length] at hi1; exact hi1
          have e2 : (w.hists hid).counts.data[i] = .fin (d ⟨i, hi2⟩) := by simp [hdd, vec]
          have hm : .nan ∈ List.zipWith binTerm (w.hists hid).counts.data e := by
            rw [← binTerm_nonfin (hpos ⟨i, hi2⟩) hne, ← e2]
            exact List.mem_iff_getElem.mpr ⟨i, by simp [hl, hi], by rw [List.getElem_zipWith]⟩
          rw [hp', Fl.list_sum_nan hm] at hsum
          simp at hsum

theorem channelsPure_ninf (w : World) (cs : List ℕ) : ∀ (ys ns : List Vec), ys.length = cs.length →
    ns.length = cs.length → channelsPure w cs ys ns = .ok .ninf →
    ∃ (k : ℕ) (h1 : k < cs.length) (h2 : k < ys.length) (h3 : k < ns.length), contribPure w cs[k] ys[k] ns[k] = .ok .ninf := by
  induction cs with
  | nil => intro ys ns _ _ h; simp only [channelsPure] at h; cases h
  | cons c cs ih =>
    intro ys ns hy hn h
    cases ys with
    | nil => simp at hy
    | cons y ys =>
      cases ns with
      | nil => simp at hn
      | cons n ns =>
        simp only [channelsPure] at h
        split at h
        · cases h
        · rename_i v hv
          split at h
          · cases h
          · rename_i q hq
            rcases Fl.add_eq_ninf (Except.ok.inj h) with h0 | h0
            · exact ⟨0, by simp, by simp, by simp, by rw [← h0]; exact hv⟩
            · obtain ⟨k, h1, h2, h3, h4⟩ := ih ys ns (by simpa using hy) (by simpa using hn) (by rw [hq, h0])
              exact ⟨k + 1, by simpa using h1, by simpa using h2, by simpa using h3, by simpa using h4⟩

theorem constraintTerm_not_ninf {x : Fl} {v e : ℝ} (he : e ≠ 0) : constraintTerm x (.fin v) (.fin e) ≠ .ninf := by
  have h2 : ¬ (e ^ 2 < 0) := not_lt.mpr (sq_nonneg e)
  cases x with
  | fin r => rw [constraintTerm_fin _ _ _ he]; exact fun h => by cases h
  | nan => unfold constraintTerm Fl.sq; simp
  | pinf =>
    have : constraintTerm .pinf (.fin v) (.fin e) = .pinf := by
      unfold constraintTerm
      rw [Fl.sq_fin]
      have e1 : Fl.sq (Fl.pinf - Fl.fin v) = .pinf := rfl
      have e2 : (Fl.fin (1 / 2) * Fl.pinf : Fl) = .pinf := by show Fl.mulPinf (1 / 2) = _; simp [Fl.mulPinf]
      rw [e1, e2]
      show Fl.div _ _ = _
      simp only [Fl.div, if_neg h2]
    rw [this]; exact fun h => by cases h
  | ninf =>
    have : constraintTerm .ninf (.fin v) (.fin e) = .pinf := by
      unfold constraintTerm
      rw [Fl.sq_fin]
      have e1 : Fl.sq (Fl.ninf - Fl.fin v) = .pinf := rfl
      have e2 : (Fl.fin (1 / 2) * Fl.pinf : Fl) = .pinf := by show Fl.mulPinf (1 / 2) = _; simp [Fl.mulPinf]
      rw [e1, e2]
      show Fl.div _ _ = _
      simp only [Fl.div, if_neg h2]
    rw [this]; exact fun h => by cases h

theorem constraintSum_not_ninf (m : Mct) (x : Vec) (V E : String → ℝ) : ∀ (l : List String),
    (∀ p ∈ l, dictGet m.cvals p = some (.fin (V p)) ∧ dictGet m.cerrs p = some (.fin (E p)) ∧ E p ≠ 0) →
    m.constraintSum x l ≠ .ok .ninf := by
  intro l
  induction l with
  | nil => intro _ h; simp only [Mct.constraintSum] at h; cases h
  | cons q l ih =>
    intro hl h
    obtain ⟨h1, h2, h3⟩ := hl q (by simp)
    simp only [Mct.constraintSum, h1, h2] at h
    split at h
    · cases h
    · split at h
      · rename_i xp v e hx hv he
        split at h
        · cases h
        · rename_i r hr
          rcases Fl.add_eq_ninf (Except.ok.inj h) with h0 | h0
          · rw [← Option.some.inj hv, ← Option.some.inj he] at h0
            exact constraintTerm_not_ninf h3 h0
          · exact ih (fun p hp => hl p (by simp [hp])) (by rw [hr, h0])
      · cases h
      · cases h

theorem objective_not_ninf {s : Sys} (h : s.Built) (hne : s.m.channels ≠ []) {S : ℕ → ChanSpec} (hS : ModelIs s S)
    {d : ∀ k, Fin (S k).n → ℝ} (hd : DataIs s S d) (hpos : ∀ k < s.m.chanIds.length, ∀ i, (1e-100 : ℝ) ≤ d k i)
    {V E : String → ℝ} (hc : ConstraintsAre s V E) (x : Vec) (hx : x.length = s.m.numProcesses + s.m.numNui s.w) :
    objective s.w s.m x ≠ .ok .ninf := by
  intro ha
  have hw := reachable_wf h.reachable
  unfold objective at ha
  rw [(nll_coh h.coherent s.m hw.lt x).1] at ha
  obtain ⟨ys, ns, e1, e2, e3, e4, e5⟩ := C47_partition s h hne x hx
  have hlen : s.m.chanIds.length = s.m.channels.length := by simp [Mct.chanIds]
  rw [(perChannel_coh h.coherent s.m hw.lt x).1] at e1
  unfold nllPure at ha
  simp only [e1] at ha
  split at ha
  · cases ha
  · rename_i t ht
    split at ha
    · cases ha
    · rename_i u hu
      rcases Fl.add_eq_ninf (Except.ok.inj ha) with h0 | h0
      · rw [h0] at ht
        obtain ⟨k, hk, h2, h3, h4⟩ := channelsPure_ninf s.w s.m.chanIds ys ns (by rw [e2, hlen]) (by rw [e3, hlen]) ht
        obtain ⟨a1, a2, a3, a4⟩ := hS k hk
        obtain ⟨hid, d1, d2⟩ := hd k hk
        obtain ⟨f1, f2, f3⟩ := chanIs_numBins hw (List.getElem_mem hk) a1 a4
        obtain ⟨g1, g2, g3⟩ := e4 k hk
        rw [List.getElem?_eq_getElem h2] at g1
        have g1 := Option.some.inj g1
        have g3 := g3 _ (List.getElem?_eq_getElem h3)
        refine contribPure_not_ninf a4 a1 a2 d1 d2 (hpos k hk) ?_ (by rw [g3, f2]) h4
        rw [g1, List.length_map]
        have : (s.w.chans s.m.chanIds[k]).procs.length = (s.w.chans s.m.chanIds[k]).templates.length := by
          simp [Channel.procs]
        rw [this, f3]
      · rw [h0] at hu
        exact constraintSum_not_ninf s.m x V E _ (fun p hp => (hc p hp).2) hu

/-! ### what a fit returns -/

/-- what a successful `do_fit` with Minuit came from -/
theorem doFit_minuit_inv' {f : Fitter} {o : Optim} {w : World} {m : Mct} {up g fixNui : Bool} {lim : Option Bounds}
    {z : Minimizer} (hid : minKindOf f.minimizerId = .ok .iminuit)
    (hz : f.setup .iminuit (m.paramNames w) m.numProcesses (m.numNui w) fixNui lim = .ok z)
    (hk : z.kind = .iminuit) {r : MinResult} (hr : (f.doFit o w m up g fixNui lim).1 = .ok r) :
    ∃ x0 rr, m.x0 w = .ok x0 ∧ o.minuit (z.minuitCall (objective w m) x0) = .ok rr ∧ r.fval = rr.fval ∧
      r.params.values = rr.values := by
  unfold Fitter.doFit at hr
  rw [hid] at hr
  simp only at hr
  rw [hz] at hr
  simp only at hr
  unfold runMinimizer at hr
  cases hx : m.x0 w with
  | error e => rw [hx] at hr; simp at hr
  | ok x0 =>
    rw [hx] at hr
    refine ⟨x0, ?_⟩
    simp only [Minimizer.minimize, hk] at hr
    rcases minuit_cases o z (objective w m) x0 with ⟨e, he, hh⟩ | ⟨rr, hrr, hh⟩
    · rw [hh] at hr; simp at hr
    · refine ⟨rr, rfl, hrr, ?_⟩
      rcases hh with ⟨_, hh⟩ | ⟨_, _, hh⟩ | ⟨_, _, ⟨e, _, hh⟩ | ⟨C, R, _, hh⟩⟩
      · rw [hh] at hr; simp at hr
      · rw [hh] at hr; simp at hr
      · rw [hh] at hr; simp at hr
      · rw [hh] at hr
        cases up with
        | false =>
          simp only [if_false, Bool.false_eq_true, Except.ok.injEq] at hr
          subst hr
          exact ⟨rfl, rfl⟩
        | true =>
          simp only [if_true] at hr
          split at hr
          · cases hr
          · have hr := Except.ok.inj hr
            subst hr
            exact ⟨rfl, rfl⟩

/-- the bounds of a parameter in a fit are registered ones, the limits for nuisance parameters, or none -/
theorem setup_bounds_mem' {kd : MinKind} {names : List String} {id : String} {hist : List FitOp} {nproc nnui : ℕ}
    {fixNui : Bool} {lim : Option Bounds} {k : ℕ} (hk : k < names.length) {b : Bounds}
    (hb : (minRun kd names (setupOps (fitRun id hist) nproc nnui fixNui lim)).bounds[k]? = some b) :
    b = (none, none) ∨ (∃ pid, FitOp.bound pid b ∈ hist ∧ Denotes names pid k) ∨ (lim = some b ∧ nproc ≤ k) := by
  rcases ((C59_bounds kd names _ k hk b (fun _ => .ok 0) []).1).mp hb with ⟨pre, op, post, he, ⟨pid, rfl, hd⟩, _⟩ | ⟨_, h⟩
  · right
    have hm : MinOp.bound pid b ∈ setupOps (fitRun id hist) nproc nnui fixNui lim := by rw [he]; simp
    unfold setupOps at hm
    have hm' : (pid, b) ∈ (fitRun id hist).boundParams ∨ (lim = some b ∧ pid ∈ nuiIds nproc nnui) := by
      cases fixNui <;> cases lim <;> simp at hm ⊢ <;> tauto
    rcases hm' with hm' | ⟨h1, h2⟩
    · left
      refine ⟨pid, ?_, hd⟩
      obtain ⟨p1, p2, e1, _⟩ := ((fitRun_bounds id hist).2 pid b).mp hm'
      rw [e1]; simp
    · right
      refine ⟨h1, ?_⟩
      unfold nuiIds at h2
      obtain ⟨j, -, rfl⟩ := List.mem_map.mp h2
      have : ((nproc + j : ℕ) : ℤ) = k := hd.1
      omega
  · exact .inl h

/-- **C106, the truth is the only minimum.** Let the model describe its data exactly at the yields `ν` and zero nuisance
parameters: the expectation of each bin is its data (none empty), constraints (if any) are centred on `ν`. Let no other yields
give the same expectations and constrained yields. Then the likelihood is 0 at this point, nowhere smaller, and at no other
parameter vector of the right length is it 0. -/
theorem C106_minimum (s : Sys) (h : s.Built) (hne : s.m.channels ≠ []) (S : ℕ → ChanSpec) (hS : ModelIs s S)
    (d : ∀ k, Fin (S k).n → ℝ) (hd : DataIs s S d) (hpos : ∀ k < s.m.chanIds.length, ∀ i, (1e-100 : ℝ) ≤ d k i)
    (V E : String → ℝ) (hc : ConstraintsAre s V E) (ν : String → ℝ) (hT0 : NonZeroSums s S fun _ _ _ => 0)
    (hdata : ∀ k < s.m.chanIds.length, ∀ i, expectedIn s S ν (fun _ _ _ => 0) k i = d k i)
    (hV : ∀ p ∈ s.m.constrained, V p = ν p) (hid : Identifiable s S) :
    objective s.w s.m (paramVec s S ν fun _ _ _ => 0) = .ok (.fin 0) ∧
      ∀ x v, x.length = s.m.numProcesses + s.m.numNui s.w → objective s.w s.m x = .ok v →
        ¬ v.lt (.fin 0) ∧ (v = .fin 0 → x = paramVec s S ν fun _ _ _ => 0) := by
  have hw := reachable_wf h.reachable
  have hpos' : ∀ k < s.m.chanIds.length, ∀ i, d k i = 0 ∨ (1e-100 : ℝ) ≤ d k i := fun k hk i => Or.inr (hpos k hk i)
  have hd0 : ∀ k < s.m.chanIds.length, ∀ i, 0 < d k i := fun k hk i => lt_of_lt_of_le (by norm_num) (hpos k hk i)
  -- likelihood there
  have hcov : DataCovered s S d (fun _ _ _ => 0) ν := fun k hk i _ => by rw [hdata k hk i]; exact hd0 k hk i
  have hzero : nllAt s S d V E (fun _ _ _ => 0) ν = 0 := by
    unfold nllAt
    have e1 : ∀ k ∈ Finset.range s.m.chanIds.length,
        (∑ i, poissonBin (d k i) (expectedIn s S ν (fun _ _ _ => 0) k i)) + penalty (S k).R (fun _ _ => 0) = 0 := by
      intro k hk
      have hk := Finset.mem_range.mp hk
      have h1 := (penalty_nonneg (hS k hk).2.2.1 (fun _ _ => 0)).2.mpr rfl
      rw [h1, add_zero]
      refine Finset.sum_eq_zero fun i _ => ?_
      rw [hdata k hk i]
      exact (poissonBin_nonneg (hd0 k hk i).le (hd0 k hk i)).2.mpr rfl
    rw [Finset.sum_eq_zero e1, zero_add]
    apply List.sum_eq_zero
    intro b hb
    obtain ⟨p, hp, rfl⟩ := List.mem_map.mp hb
    rw [hV p hp]; simp
  have hstart := objective_nllAt' h hne hS hd hpos' hc hT0 hcov
  rw [hzero] at hstart
  -- every process is used
  have hused : AllUsed s S := by
    intro p hp
    by_contra hcon
    push Not at hcon
    have := hid (fun q => if q = p then 1 else 0) (by
      intro k hk i
      rw [expectedIn_eq]
      refine Finset.sum_eq_zero fun j _ => ?_
      rw [if_neg (hcon.1 k hk j)]; ring) (by
      intro q hq
      have hne' : q ≠ p := by rintro rfl; exact hcon.2 hq
      exact if_neg hne') p hp
    simp at this
  refine ⟨hstart, fun x v hxl hv => ?_⟩
  have hnn := objective_not_ninf h hne hS hd hpos hc x hxl
  cases v with
  | nan => exact ⟨by simp [Fl.lt], fun h => by cases h⟩
  | ninf => exact absurd hv hnn
  | pinf => exact ⟨by simp [Fl.lt], fun h => by cases h⟩
  | fin b =>
    obtain ⟨ν', θ', e1, hT', hE'⟩ := (C104_domain s h hne S hS d hd hpos' V E hc hused x hxl).mp ⟨b, hv⟩
    have hE2 : ∀ k < s.m.chanIds.length, ∀ i, 0 < expectedIn s S ν' θ' k i := fun k hk i =>
      hE' k hk i (hd0 k hk i).ne'
    have hv2 := objective_nllAt' h hne hS hd hpos' hc hT' hE'
    rw [← e1, hv] at hv2
    have hb1 := Fl.fin.inj (Except.ok.inj hv2)
    have n1 : ∀ k ∈ Finset.range s.m.chanIds.length,
        0 ≤ (∑ i, poissonBin (d k i) (expectedIn s S ν' θ' k i)) + penalty (S k).R (θ' k) := by
      intro k hk
      have hk := Finset.mem_range.mp hk
      exact add_nonneg (Finset.sum_nonneg fun i _ => (poissonBin_nonneg (hd0 k hk i).le (hE2 k hk i)).1)
        (penalty_nonneg (hS k hk).2.2.1 (θ' k)).1
    have n2 : ∀ b ∈ s.m.constrained.map fun p => (ν' p - V p) ^ 2 / (2 * E p ^ 2), 0 ≤ b := by
      intro b hb
      obtain ⟨p, hp, rfl⟩ := List.mem_map.mp hb
      positivity
    have n3 := Finset.sum_nonneg n1
    have n4 := List.sum_nonneg n2
    unfold nllAt at hb1
    have hge : 0 ≤ b := by linarith
    refine ⟨by simpa [Fl.lt] using hge, fun hbz => ?_⟩
    have hb0 : b ≤ 0 := (Fl.fin.inj hbz).le
    have z1 : ∑ k ∈ Finset.range s.m.chanIds.length,
        ((∑ i, poissonBin (d k i) (expectedIn s S ν' θ' k i)) + penalty (S k).R (θ' k)) = 0 := by linarith
    have z2 : (s.m.constrained.map fun p => (ν' p - V p) ^ 2 / (2 * E p ^ 2)).sum = 0 := by linarith
    rw [Finset.sum_eq_zero_iff_of_nonneg n1] at z1
    have c1 : ∀ k < s.m.chanIds.length, (∀ i, expectedIn s S ν' θ' k i = d k i) ∧ θ' k = 0 := by
      intro k hk
      have h1 := z1 k (Finset.mem_range.mpr hk)
      have p1 : ∀ i ∈ Finset.univ, 0 ≤ poissonBin (d k i) (expectedIn s S ν' θ' k i) :=
        fun i _ => (poissonBin_nonneg (hd0 k hk i).le (hE2 k hk i)).1
      have p2 := penalty_nonneg (hS k hk).2.2.1 (θ' k)
      have p3 := Finset.sum_nonneg p1
      have p4 : ∑ i, poissonBin (d k i) (expectedIn s S ν' θ' k i) = 0 := by linarith [p2.1]
      rw [Finset.sum_eq_zero_iff_of_nonneg p1] at p4
      exact ⟨fun i => (poissonBin_nonneg (hd0 k hk i).le (hE2 k hk i)).2.mp (p4 i (Finset.mem_univ i)),
        p2.2.mp (by linarith [p2.1])⟩
    have c2 : ∀ p ∈ s.m.constrained, ν' p = ν p := by
      have hz : ∀ l : List ℝ, (∀ b ∈ l, 0 ≤ b) → l.sum = 0 → ∀ b ∈ l, b = 0 := by
        intro l hl
        induction l with
        | nil => simp
        | cons b l ih =>
          intro hs
          have h1 := hl b (by simp)
          have h2 := List.sum_nonneg (fun c hc => hl c (List.mem_cons_of_mem _ hc))
          rw [List.sum_cons] at hs
          rw [List.forall_mem_cons]
          exact ⟨by linarith, ih (fun c hc => hl c (by simp [hc])) (by linarith)⟩
      intro p hp
      have h1 := hz _ n2 z2 _ (List.mem_map.mpr ⟨p, hp, rfl⟩)
      have he := (hc p hp).2.2.2
      rw [div_eq_zero_iff, or_iff_left (by positivity), pow_eq_zero_iff two_ne_zero, sub_eq_zero, hV p hp] at h1
      exact h1
    have c3 : ∀ p ∈ s.m.processes, ν' p = ν p := by
      intro p hp
      have := hid (fun p => ν' p - ν p) (by
        intro k hk i
        have e : (fun p => ν' p - ν p) = fun p => 1 * ν' p + -1 * ν p := by funext p; ring
        rw [e, expectedIn_comb, hdata k hk i]
        have h2 := (c1 k hk).1 i
        have h3 : expectedIn s S ν' θ' k i = expectedIn s S ν' (fun _ _ _ => 0) k i := by
          unfold expectedIn; rw [(c1 k hk).2]; rfl
        rw [← h3, h2]; ring) (fun p hp => by rw [c2 p hp, sub_self]) p hp
      linarith
    rw [e1]
    unfold paramVec
    congr 1
    · exact List.map_congr_left fun p hp => by rw [c3 p hp]
    · congr 1
      refine List.map_congr_left fun k hk => ?_
      rw [(c1 k (List.mem_range.mp hk)).2]; rfl

/-- **C106, the fit finds the truth.** Let the model describe its data exactly at its present parameters: zero nuisance
parameters, the expectation of each bin is its data (none empty), constraints (if any) centred on the present yields. Let no
other yields give the same expectations and constrained yields. Then, with an optimiser that returns true constrained minima,
for every fitter configuration (fixed parameters, bounds, limits on nuisance parameters, fixed nuisance parameters) whose
bounds contain the present parameters, a fit that returns has minimum 0 and returns exactly the present parameters. -/
theorem C106_exact (s : Sys) (h : s.Built) (hne : s.m.channels ≠ []) (S : ℕ → ChanSpec) (hS : ModelIs s S)
    (d : ∀ k, Fin (S k).n → ℝ) (hd : DataIs s S d) (hpos : ∀ k < s.m.chanIds.length, ∀ i, (1e-100 : ℝ) ≤ d k i)
    (V E : String → ℝ) (hc : ConstraintsAre s V E)
    (ν : String → ℝ) (hx0 : s.m.x0 s.w = .ok (paramVec s S ν fun _ _ _ => 0))
    (hT0 : NonZeroSums s S fun _ _ _ => 0)
    (hdata : ∀ k < s.m.chanIds.length, ∀ i, expectedIn s S ν (fun _ _ _ => 0) k i = d k i)
    (hV : ∀ p ∈ s.m.constrained, V p = ν p) (hid : Identifiable s S)
    (o : Optim) (ho : TrueMin o) (id : String) (hmin : id.toLower = "iminuit") (hist : List FitOp)
    (hk : KnownIds (s.m.paramNames s.w) hist) (up g fixNui : Bool) (lim : Option Bounds)
    (hb : ∀ pid b, FitOp.bound pid b ∈ hist → ∀ k v, Denotes (s.m.paramNames s.w) pid k →
      (paramVec s S ν fun _ _ _ => 0)[k]? = some v → InBounds b v)
    (hlim : ∀ b, lim = some b → InBounds b 0)
    (r : MinResult) (hr : ((fitRun id hist).doFit o s.w s.m up g fixNui lim).1 = .ok r) :
    r.fval = .fin 0 ∧ s.m.x0 s.w = .ok r.params.values := by
  have hw := reachable_wf h.reachable
  have hal := C51_aligned s h.reachable
  have hz := setup_eq (kd := .iminuit) (id := id) hal.1.symm hk fixNui lim
  have hzw := minRun_wf .iminuit (s.m.paramNames s.w)
    (setupOps (fitRun id hist) s.m.numProcesses (s.m.numNui s.w) fixNui lim)
  have hm1 : minKindOf (fitRun id hist).minimizerId = .ok .iminuit := by rw [fitRun_id]; exact minKind_iminuit hmin
  obtain ⟨x1, q, hx1, hq, hf, hval⟩ := doFit_minuit_inv' hm1 hz hzw.hk hr
  rw [hx0] at hx1
  obtain rfl := Except.ok.inj hx1
  obtain ⟨t1, t2, t3, t4⟩ := ho _ _ hq
  set z := minRun .iminuit (s.m.paramNames s.w)
    (setupOps (fitRun id hist) s.m.numProcesses (s.m.numNui s.w) fixNui lim) with hzz
  have hnames : (z.minuitCall (objective s.w s.m) (paramVec s S ν fun _ _ _ => 0)).names = s.m.paramNames s.w := hzw.hn
  have hplen := paramVec_length hw hS ν (fun _ _ _ => 0)
  have hql : q.values.length = s.m.numProcesses + s.m.numNui s.w := by
    rw [t1.1, hnames, hal.1]
  -- the present parameters are admissible
  have hfeas : MFeasible (z.minuitCall (objective s.w s.m) (paramVec s S ν fun _ _ _ => 0))
      (paramVec s S ν fun _ _ _ => 0) := by
    refine ⟨by rw [hnames, hal.1, hplen], fun k hkn => ⟨fun _ => rfl, fun _ b v hbb hv => ?_⟩⟩
    rw [hnames] at hkn
    rcases setup_bounds_mem' hkn hbb with rfl | ⟨pid, hp1, hp2⟩ | ⟨hl, hle⟩
    · exact ⟨fun _ h => (by cases h), fun _ h => (by cases h)⟩
    · exact hb pid b hp1 k v hp2 hv
    · have : v = 0 := by
        unfold paramVec at hv
        rw [List.getElem?_append_right (by simpa [Mct.numProcesses] using hle)] at hv
        have hm := List.mem_of_getElem? hv
        obtain ⟨l, hl1, hl2⟩ := List.mem_flatten.mp hm
        obtain ⟨k', -, rfl⟩ := List.mem_map.mp hl1
        unfold nuiVec at hl2
        obtain ⟨l, hl3, hl4⟩ := List.mem_flatten.mp hl2
        obtain ⟨j, rfl⟩ := List.mem_ofFn.mp hl3
        unfold vec at hl4
        obtain ⟨i, rfl⟩ := List.mem_ofFn.mp hl4
        rfl
      rw [this]; exact hlim b hl
  obtain ⟨m1, m2⟩ := C106_minimum s h hne S hS d hd hpos V E hc ν hT0 hdata hV hid
  have hcmp := t4 _ _ hfeas m1
  obtain ⟨m3, m4⟩ := m2 q.values q.fval hql t2
  have hz : q.fval = .fin 0 := by
    cases hfv : q.fval with
    | nan => exact absurd hfv t3
    | ninf => rw [hfv] at m3; exact absurd trivial m3
    | pinf => rw [hfv] at hcmp; exact absurd trivial hcmp
    | fin b =>
      rw [hfv] at hcmp m3
      have h1 : b ≤ 0 := not_lt.mp hcmp
      have h2 : 0 ≤ b := not_lt.mp m3
      rw [le_antisymm h1 h2]
  exact ⟨by rw [hf, hz], by rw [hval, m4 hz, hx0]⟩

/-- a model with its own Asimov data describes them exactly -/
theorem asimov_exact (s : Sys) (h : s.Built) (hne : s.m.channels ≠ []) (S : ℕ → ChanSpec) (hS : ModelIs s S)
    (htup : ∀ c ∈ s.m.chanIds, AllTuple (s.w.chans c).range)
    (y : ∀ k, Fin (S k).K → ℝ) (hp : ParamsAre s S y (fun _ _ _ => 0))
    (hT : ∀ k < s.m.chanIds.length, ∀ j, ∑ i, (S k).cnt j i ≠ 0)
    (ν : String → ℝ) (hν : ∀ p ∈ s.m.processes, s.m.getYield s.w p = .ok (.fin (ν p)))
    (hshare : ∀ k < s.m.chanIds.length, ∀ j, y k j = ν (procName s k j) * (S k).eff j)
    (V E : String → ℝ) (hc : ConstraintsAre s V E) (hV : ∀ p ∈ s.m.constrained, V p = ν p)
    (hpos : ∀ k < s.m.chanIds.length, ∀ i, (1e-100 : ℝ) ≤ ∑ j, y k j * ((S k).cnt j i / ∑ i', (S k).cnt j i'))
    (hid : Identifiable s S) (s' : Sys) (hs' : s' = s.step (.addAsimov false)) :
    s'.Built ∧ s'.m = s.m ∧ s'.m.paramNames s'.w = s.m.paramNames s.w ∧ s'.m.x0 s'.w = s.m.x0 s.w ∧
      s.m.x0 s.w = .ok (paramVec s S ν fun _ _ _ => 0) ∧
      (∀ ν' θ', paramVec s' S ν' θ' = paramVec s S ν' θ') ∧ ModelIs s' S ∧ NonZeroSums s' S (fun _ _ _ => 0) ∧
      ConstraintsAre s' V E ∧ (∀ p ∈ s'.m.constrained, V p = ν p) ∧ Identifiable s' S ∧
      ∃ d, DataIs s' S d ∧ (∀ k < s'.m.chanIds.length, ∀ i, (1e-100 : ℝ) ≤ d k i) ∧
        ∀ k < s'.m.chanIds.length, ∀ i, expectedIn s' S ν (fun _ _ _ => 0) k i = d k i := by
  subst hs'
  have hx00 := x0_eq s h.reachable hne S hS y _ hp ν hν
  set a : ∀ k, Fin (S k).n → ℝ := fun k i => ∑ j, y k j * ((S k).cnt j i / ∑ i', (S k).cnt j i') with ha'
  have ha : ∀ k i, a k i = ∑ j, y k j * ((S k).cnt j i / ∑ i', (S k).cnt j i') := fun k i => rfl
  have hw := reachable_wf h.reachable
  have hT0 : NonZeroSums s S (fun _ _ _ => 0) := by
    intro k hk j
    simpa using hT k hk j
  obtain ⟨e1, e2, e3, e4, e5⟩ := asimov_step s h.reachable S hS htup y _ hp hT0
  have hB := Sys.Built.step h (o := .addAsimov false) (by simp [Op.structural])
  generalize s.step (.addAsimov false) = s' at *
  have hS' := modelIs_asimov hS e2 e1 e3 e4
  have hd' : DataIs s' S a := by
    intro k hk
    have hk' : k < s.m.chanIds.length := by rw [e2] at hk; exact hk
    obtain ⟨hid, f1, f2⟩ := e5 k hk'
    have ec : s'.m.chanIds[k] = s.m.chanIds[k] := by simp only [e2]
    refine ⟨hid, by rw [ec]; exact f1, ?_⟩
    rw [f2]
    congr 1
    funext i
    rw [ha]
    simp
  have hc' : ConstraintsAre s' V E := by unfold ConstraintsAre; rw [e2]; exact hc
  have hpv : ∀ ν' θ', paramVec s' S ν' θ' = paramVec s S ν' θ' := by
    intro ν' θ'; unfold paramVec; rw [e2]
  have hpn : ∀ k j, procName s' k j = procName s k j := by
    intro k j
    unfold procName
    rw [e2]
    obtain ⟨d, hd⟩ := e4 (s.m.chanIds.getD k 0)
    rw [hd]
  have hex : ∀ ν' θ' k i, expectedIn s' S ν' θ' k i = expectedIn s S ν' θ' k i := by
    intro ν' θ' k i; unfold expectedIn; simp only [hpn]
  have hN : s'.m.chanIds.length = s.m.chanIds.length := by rw [e2]
  have hnames : s'.m.paramNames s'.w = s.m.paramNames s.w := by
    rw [paramNames_form s' (reachable_wf hB.reachable), paramNames_form s hw, e2, e1]
    congr 2
    refine List.map_congr_left fun c _ => ?_
    obtain ⟨d, hd⟩ := e4 c
    rw [hd]
  -- the start point
  have hp' : ParamsAre s' S y (fun _ _ _ => 0) := by
    intro k hk j t ht
    have hk' : k < s.m.chanIds.length := by rw [← hN]; exact hk
    have ec : s'.m.chanIds[k] = s.m.chanIds[k] := by simp only [e2]
    refine hp k hk' j t ?_
    rw [ec] at ht
    unfold World.chanTmpls at ht ⊢
    obtain ⟨d, hd⟩ := e4 s.m.chanIds[k]
    rw [hd, e1] at ht
    exact ht
  have hν' : ∀ p ∈ s'.m.processes, s'.m.getYield s'.w p = .ok (.fin (ν p)) := by
    intro p hpm
    rw [e2] at hpm ⊢
    rw [← hν p hpm]
    unfold Mct.getYield
    have : s.m.processYields s'.w = s.m.processYields s.w := by
      unfold Mct.processYields
      apply List.map_congr_left
      intro q _
      generalize s.m.chanIds = cs
      induction cs with
      | nil => rfl
      | cons c cs ih =>
        simp only [World.processYield, ih, e1]
        obtain ⟨d, hd⟩ := e4 c
        rw [hd]
    rw [this]
  have hx0 := x0_eq s' hB.reachable (by rw [e2]; exact hne) S hS' y _ hp' ν hν'
  rw [hpv] at hx0
  have hE0 : ∀ k < s.m.chanIds.length, ∀ i, expectedIn s S ν (fun _ _ _ => 0) k i = a k i := by
    intro k hk i
    rw [ha]
    unfold expectedIn expected
    refine Finset.sum_congr rfl fun j _ => ?_
    rw [hshare k hk j]
    simp
  have hid' : Identifiable s' S := by
    intro δ h1 h2
    rw [e2] at h2 ⊢
    refine hid δ (fun k hk i => ?_) h2
    rw [← hex]; exact h1 k (by rw [hN]; exact hk) i
  exact ⟨hB, e2, hnames, by rw [hx0, hx00], hx00, hpv, hS', by unfold NonZeroSums; rw [hN]; exact hT0, hc', by rw [e2]; exact hV,
    hid', a, hd', by rw [hN]; exact hpos, by intro k hk i; rw [hex]; exact hE0 k (by rw [← hN]; exact hk) i⟩

/-- **C106, closure of the fit.** Take any model built channel by channel before evaluation whose nuisance parameters are zero,
whose efficiencies are the channel shares of the process yields, whose constraints, if any, are centred on the yields, with every
bin expecting events, and whose yields are identifiable. Generate its Asimov data set and use it as data. With an optimiser that
returns true constrained minima and bounds that contain the present parameters, every fit that returns has minimum 0 and returns
exactly the parameters the data were generated with, whatever is fixed. -/
theorem C106_asimov (s : Sys) (h : s.Built) (hne : s.m.channels ≠ []) (S : ℕ → ChanSpec) (hS : ModelIs s S)
    (htup : ∀ c ∈ s.m.chanIds, AllTuple (s.w.chans c).range)
    (y : ∀ k, Fin (S k).K → ℝ) (hp : ParamsAre s S y (fun _ _ _ => 0))
    (hT : ∀ k < s.m.chanIds.length, ∀ j, ∑ i, (S k).cnt j i ≠ 0)
    (ν : String → ℝ) (hν : ∀ p ∈ s.m.processes, s.m.getYield s.w p = .ok (.fin (ν p)))
    (hshare : ∀ k < s.m.chanIds.length, ∀ j, y k j = ν (procName s k j) * (S k).eff j)
    (V E : String → ℝ) (hc : ConstraintsAre s V E) (hV : ∀ p ∈ s.m.constrained, V p = ν p)
    (hpos : ∀ k < s.m.chanIds.length, ∀ i, (1e-100 : ℝ) ≤ ∑ j, y k j * ((S k).cnt j i / ∑ i', (S k).cnt j i'))
    (hid : Identifiable s S) (s' : Sys) (hs' : s' = s.step (.addAsimov false))
    (o : Optim) (ho : TrueMin o) (id : String) (hmin : id.toLower = "iminuit") (hist : List FitOp)
    (hk : KnownIds (s.m.paramNames s.w) hist) (up g fixNui : Bool) (lim : Option Bounds)
    (hb : ∀ pid b, FitOp.bound pid b ∈ hist → ∀ k v x0, Denotes (s.m.paramNames s.w) pid k → s.m.x0 s.w = .ok x0 →
      x0[k]? = some v → InBounds b v)
    (hlim : ∀ b, lim = some b → InBounds b 0)
    (r : MinResult) (hr : ((fitRun id hist).doFit o s'.w s'.m up g fixNui lim).1 = .ok r) :
    r.fval = .fin 0 ∧ s.m.x0 s.w = .ok r.params.values := by
  obtain ⟨q1, q2, q3, q4, q5, q6, q7, q8, q9, q10, q11, d, q12, q13, q14⟩ := asimov_exact s h hne S hS htup y hp hT ν hν
    hshare V E hc hV hpos hid s' hs'
  obtain ⟨r1, r2⟩ := C106_exact s' q1 (by rw [q2]; exact hne) S q7 d q12 q13 V E q9 ν (by rw [q4, q5, q6]) q8 q14 q10 q11
    o ho id hmin hist (by rw [q3]; exact hk) up g fixNui lim (by
      intro pid b hbm k v hdn hv
      rw [q3] at hdn
      rw [q6] at hv
      exact hb pid b hbm k v _ hdn q5 hv) hlim r hr
  exact ⟨r1, by rw [← q4, r2]⟩

/-! ### a case -/

namespace Ex

/-- the two-channel example with its own Asimov data -/
def sysQA : Sys := sysQ.step (.addAsimov false)

theorem chanQ (k : ℕ) (hk : k < sysQ.m.chanIds.length) : k = 0 ∨ k = 1 := by
  have : k < 2 := by simpa [sysQ, mQ, Mct.chanIds] using hk
  omega

theorem identQ : Identifiable sysQ SQ := by
  intro δ h _ p hp
  have h1 := h 0 (by simp [sysQ, mQ, Mct.chanIds]) (0 : Fin 2)
  have hp : p = "p" := by simpa [sysQ, mQ] using hp
  subst hp
  have hn : procName sysQ 0 (0 : Fin 1) = "p" := by simp [procName, sysQ, mQ, Mct.chanIds, wQ, chQa]
  have h1 : ∑ j : Fin 1, δ (procName sysQ 0 j) * (1/4) * ((![1, 1] : Fin 2 → ℝ) 0 * (1 + 0 * ((![1, 1] : Fin 2 → ℝ) 0 / (![1, 1] : Fin 2 → ℝ) 0)) /
      ∑ i' : Fin 2, (![1, 1] : Fin 2 → ℝ) i' * (1 + 0 * ((![1, 1] : Fin 2 → ℝ) i' / (![1, 1] : Fin 2 → ℝ) i'))) = 0 := h1
  rw [Fin.sum_univ_one, hn, Fin.sum_univ_two] at h1
  norm_num at h1
  linarith

theorem sumsQ : ∀ k < sysQ.m.chanIds.length, ∀ j, ∑ i, (SQ k).cnt j i ≠ 0 := by
  intro k hk
  rcases chanQ k hk with rfl | rfl
  · intro j
    show ∑ i : Fin 2, (![1, 1] : Fin 2 → ℝ) i ≠ 0
    simp [Fin.sum_univ_two]
  · intro j
    show ∑ i : Fin 2, (![2, 4] : Fin 2 → ℝ) i ≠ 0
    simp [Fin.sum_univ_two]; norm_num

theorem shareQ : ∀ k < sysQ.m.chanIds.length, ∀ j, yQ k j = (fun _ => 8 : String → ℝ) (procName sysQ k j) * (SQ k).eff j := by
  intro k hk
  rcases chanQ k hk with rfl | rfl
  · intro j
    show (2:ℝ) = 8 * (1/4)
    norm_num
  · intro j
    show (6:ℝ) = 8 * (3/4)
    norm_num

theorem posQ : ∀ k < sysQ.m.chanIds.length, ∀ i, (1e-100 : ℝ) ≤ ∑ j, yQ k j * ((SQ k).cnt j i / ∑ i', (SQ k).cnt j i') := by
  intro k hk i
  rcases chanQ k hk with rfl | rfl
  · revert i
    show ∀ i : Fin 2, (1e-100 : ℝ) ≤ ∑ j : Fin 1, 2 * ((![1, 1] : Fin 2 → ℝ) i / ∑ i', (![1, 1] : Fin 2 → ℝ) i')
    intro i
    fin_cases i <;> simp <;> norm_num
  · revert i
    show ∀ i : Fin 2, (1e-100 : ℝ) ≤ ∑ j : Fin 1, 6 * ((![2, 4] : Fin 2 → ℝ) i / ∑ i', (![2, 4] : Fin 2 → ℝ) i')
    intro i
    fin_cases i <;> simp <;> norm_num

end Ex

/-- non-vacuity of C106: a fit of the two-channel example to its own Asimov data, nothing fixed, with an optimiser that finds
true minima, does return, with minimum 0 and the yield 8 and nuisance parameters 0 the data were generated with -/
example : TrueMin Ex.optMin ∧ ∃ r, ((fitRun "iminuit" []).doFit Ex.optMin Ex.sysQA.w Ex.sysQA.m false true false none).1 = .ok r ∧
    r.fval = .fin 0 ∧ r.params.values = paramVec Ex.sysQ Ex.SQ (fun _ => 8) fun _ _ _ => 0 := by
  refine ⟨Ex.optMin_true, ?_⟩
  obtain ⟨q1, q2, q3, q4, q5, q6, q7, q8, q9, q10, q11, d, q12, q13, q14⟩ := asimov_exact Ex.sysQ Ex.sysQ_built
    (by simp [Ex.sysQ, Ex.mQ]) Ex.SQ Ex.modelQ (by simp [Ex.sysQ, Ex.mQ, Mct.chanIds, Ex.wQ, Ex.chQa, Ex.chQb, AllTuple])
    Ex.yQ Ex.paramsQ Ex.sumsQ (fun _ => 8)
    (by simp only [Ex.sysQ]; intro p hp; simp [Ex.mQ] at hp; subst hp; exact Ex.yieldQ) Ex.shareQ
    (fun _ => 0) (fun _ => 1) (by intro p hp; simp [Ex.sysQ, Ex.mQ] at hp) (by intro p hp; simp [Ex.sysQ, Ex.mQ] at hp)
    Ex.posQ Ex.identQ Ex.sysQA rfl
  obtain ⟨m1, m2⟩ := C106_minimum Ex.sysQA q1 (by rw [q2]; simp [Ex.sysQ, Ex.mQ]) Ex.SQ q7 d q12 q13 _ _ q9 (fun _ => 8) q8 q14 q10 q11
  have hal := C51_aligned Ex.sysQA q1.reachable
  have hkn : KnownIds (Ex.sysQA.m.paramNames Ex.sysQA.w) [] := ⟨by simp, by simp⟩
  have hx : Ex.sysQA.m.x0 Ex.sysQA.w = .ok (paramVec Ex.sysQA Ex.SQ (fun _ => 8) fun _ _ _ => 0) := by rw [q4, q5, q6]
  have hl := paramVec_length (reachable_wf q1.reachable) q7 (fun _ => 8) (fun _ _ _ => 0)
  obtain ⟨r, hr, hv, -, hvals⟩ := fit_optMin Ex.sysQA q1.reachable [] hkn _ hx false (.fin 0)
    (paramVec Ex.sysQA Ex.SQ (fun _ => 8) fun _ _ _ => 0) (by
      intro c c1 c2 c3 c4 c5
      have hfeas : MFeasible c (paramVec Ex.sysQA Ex.SQ (fun _ => 8) fun _ _ _ => 0) := by
        refine ⟨by rw [c3, hal.1, hl], fun k hk => ⟨fun _ => by rw [c2], fun _ b v hb hv => ?_⟩⟩
        obtain ⟨b', w1, w2⟩ := c5 k (by rw [← c3]; exact hk) (by intro p q b c hb; simp at hb)
        rw [w2] at hb
        cases hb
        have hbb : b = (none, none) := by
          rcases w1 with ⟨_, _, _, he, _⟩ | ⟨_, w1⟩
          · simp at he
          · rw [w1]; split <;> rfl
        rw [hbb]
        exact ⟨fun _ h => (by cases h), fun _ h => (by cases h)⟩
      constructor
      · refine ⟨⟨⟨true, true, true⟩, ⟨true, true, true⟩, .fin 0, _, c.x0, .ok (Mat.zeros 1 1, Mat.zeros 1 1)⟩, hfeas, by rw [c1]; exact m1,
          by simp, ?_, by show List.length c.x0 = _; rw [c2, c3, hal.1, hl], _, _, rfl⟩
        intro x v hx hv
        rw [c1] at hv
        exact (m2 x v (by rw [hx.1, c3, hal.1]) hv).1
      · intro r hr
        have h1 := hr.2.1
        rw [c1] at h1
        obtain ⟨g1, g2⟩ := m2 r.values r.fval (by rw [hr.1.1, c3, hal.1]) h1
        have g3 := hr.2.2.2.1 _ _ hfeas (by rw [c1]; exact m1)
        have hz : r.fval = .fin 0 := by
          cases hfv : r.fval with
          | nan => exact absurd hfv hr.2.2.1
          | ninf => rw [hfv] at g1; exact absurd trivial g1
          | pinf => rw [hfv] at g3; exact absurd trivial g3
          | fin b =>
            rw [hfv] at g1 g3
            have h1 : b ≤ 0 := not_lt.mp g3
            have h2 : 0 ≤ b := not_lt.mp g1
            rw [le_antisymm h1 h2]
        exact ⟨hz, g2 hz⟩)
  exact ⟨r, hr, hv, by rw [hvals, q6]⟩

end

end TF.Props
