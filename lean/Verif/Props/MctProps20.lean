import Verif.Props.FitterProps11

set_option linter.unusedSimpArgs false

/-!
# A template without entries (C112)
-/

namespace TF.Props

open Classical Spec

noncomputable section

theorem Fl.finset_sum_nan {ι : Type} (s : Finset ι) (f : ι → Fl) {i : ι} (hi : i ∈ s) (h : f i = .nan) :
    ∑ j ∈ s, f j = .nan := by
  rw [← Finset.add_sum_erase s f hi, h, Fl.nan_add]

/-- zero times anything is zero or NaN -/
theorem zero_mul_cases (x : Fl) : (0 : Fl) * x = 0 ∨ (0 : Fl) * x = .nan := by
  cases x with
  | fin r => left; rw [Fl.zero_def, Fl.fin_mul, zero_mul]
  | nan => right; simp
  | pinf => right; rw [Fl.zero_def]; simp [HMul.hMul, Mul.mul, Fl.mul, Fl.mulPinf, Fl.neg]
  | ninf => right; rw [Fl.zero_def]; simp [HMul.hMul, Mul.mul, Fl.mul, Fl.mulPinf, Fl.neg]

theorem sum_zero_or_nan {l : Vec} (h : ∀ v ∈ l, v = 0 ∨ v = .nan) : l.sum = 0 ∨ l.sum = .nan := by
  induction l with
  | nil => left; rfl
  | cons a l ih =>
    rw [List.sum_cons]
    rcases h a (by simp) with rfl | rfl
    · rcases ih (fun v hv => h v (by simp [hv])) with e | e
      · left; rw [e, Fl.zero_def, Fl.fin_add, add_zero]
      · right; rw [e, Fl.add_nan]
    · right; rw [Fl.nan_add]

/-- the fractions of a template without entries are NaN, whatever the nuisance parameters -/
theorem fractions_nan {t : Template} (h : Dims t) (h0 : ∀ v ∈ t.flatCounts, v = 0) {p r : Vec} (hp : p.length = t.numBins)
    (hr : t.fractions p = .ok r) : ∀ v ∈ r, v = .nan := by
  unfold Template.fractions binFractions at hr
  rw [bop_ok (by rw [hp, h.rel])] at hr
  simp only [bind, Except.bind, pure, Except.pure] at hr
  rw [bop_ok (by simp [hp, h.rel, h.len])] at hr
  simp only [Except.ok.injEq] at hr
  subst hr
  set y := List.zipWith (fun x y => x * y) t.flatCounts ((List.zipWith (fun x y => x * y) p t.relErr).map (1 + ·)) with hy
  have hy0 : ∀ v ∈ y, v = 0 ∨ v = .nan := by
    intro v hv
    rw [hy] at hv
    obtain ⟨k, hk, rfl⟩ := List.mem_iff_getElem.mp hv
    rw [List.getElem_zipWith, h0 _ (List.getElem_mem _)]
    exact zero_mul_cases _
  intro v hv
  obtain ⟨a, ha, rfl⟩ := List.mem_map.mp hv
  unfold npSum
  rcases sum_zero_or_nan hy0 with e | e
  · rw [e]
    rcases hy0 a ha with rfl | rfl
    · exact Fl.fin_div_zero
    · exact Fl.nan_div _
  · rw [e, Fl.div_nan]

theorem fractionRows_get {ts : List Template} : ∀ {ps rs : List Vec}, fractionRows ts ps = .ok rs → ts.length = ps.length →
    ∀ k (h1 : k < ts.length) (h2 : k < ps.length), ∃ r, rs[k]? = some r ∧ ts[k].fractions ps[k] = .ok r := by
  induction ts with
  | nil => intro ps rs _ _ k h1; simp at h1
  | cons t ts ih =>
    intro ps rs h hl k h1 h2
    cases ps with
    | nil => simp at hl
    | cons p ps =>
      simp only [fractionRows] at h
      split at h
      · cases h
      · rename_i r hr
        split at h
        · cases h
        · rename_i rs' hrs
          obtain rfl := Except.ok.inj h
          cases k with
          | zero => exact ⟨r, rfl, hr⟩
          | succ k =>
            obtain ⟨q, q1, q2⟩ := ih hrs (by simpa using hl) k (by simpa using h1) (by simpa using h2)
            exact ⟨q, by simpa using q1, q2⟩

/-- the expected events of a channel with a template without entries are NaN in every bin -/
theorem expectedPure_nan {w : World} {c : ℕ} (h : Ready w c) (hex : ∃ t ∈ w.chanTmpls c, ∀ v ∈ t.flatCounts, v = 0)
    {y nui e : Vec} (hy : y.length = (w.chans c).numTemplates) (hn : nui.length = (w.chans c).numNui)
    (he : expectedPure w c y nui = .ok e) : ∀ v ∈ e, v = .nan := by
  unfold expectedPure at he
  rw [bop_ok (by simp [hy, h.el])] at he
  have htl : (w.chanTmpls c).length = (w.chans c).numTemplates := by simp [World.chanTmpls, h.tl]
  obtain ⟨ps, hps, hpl, hpp⟩ : ∃ ps, splitEq nui (w.chans c).numTemplates = .ok ps ∧
      ps.length = (w.chans c).numTemplates ∧ ∀ p ∈ ps, p.length = (w.chans c).bins.prod := by
    unfold splitEq
    have h0 : (w.chans c).numTemplates ≠ 0 := h.ne.ne'
    have hn2 : nui.length = (w.chans c).numTemplates * (w.chans c).bins.prod := hn
    have hmod : nui.length % (w.chans c).numTemplates = 0 := by rw [hn2]; simp
    have hdiv : nui.length / (w.chans c).numTemplates = (w.chans c).bins.prod := by
      rw [hn2]; exact Nat.mul_div_cancel_left _ h.ne
    rw [if_neg h0, if_neg (by simp [hmod])]
    refine ⟨_, rfl, by simp, ?_⟩
    intro p hp
    obtain ⟨k, hk, rfl⟩ := List.mem_map.mp hp
    have hk' := List.mem_range.mp hk
    rw [hdiv, List.length_take, List.length_drop, hn2]
    have : (k + 1) * (w.chans c).bins.prod ≤ (w.chans c).numTemplates * (w.chans c).bins.prod :=
      Nat.mul_le_mul_right _ hk'
    have e : (k + 1) * (w.chans c).bins.prod = k * (w.chans c).bins.prod + (w.chans c).bins.prod := by ring
    omega
  obtain ⟨rs, h1, h2, h3⟩ := fractionRows_ok (n := (w.chans c).bins.prod) (w.chanTmpls c) ps h.dims hpp (by omega)
  have hrne : rs ≠ [] := by intro e; subst e; simp at h2; have := h.ne; omega
  obtain ⟨t, ht, ht0⟩ := hex
  obtain ⟨k, hk, rfl⟩ := List.mem_iff_getElem.mp ht
  obtain ⟨r, r1, r2⟩ := fractionRows_get h1 (by omega) k hk (by omega)
  have hd := h.dims _ ht
  have hnan := fractions_nan hd.1 ht0 (by rw [hpp _ (List.getElem_mem _), hd.2]) r2
  have hrl : r.length = (w.chans c).bins.prod := h3 r (List.mem_of_getElem? r1)
  unfold World.chanFractions at he
  simp only [hps, h1] at he
  have hst : stackRows rs = .ok ⟨rs.length, (w.chans c).bins.prod, fun i j => (rs.getD i []).getD j 0⟩ := by
    cases rs with
    | nil => exact absurd rfl hrne
    | cons q rs =>
      have hh : ((q :: rs).headD []).length = (w.chans c).bins.prod := h3 q (by simp)
      unfold stackRows
      simp only [hh]
      rw [if_pos]
      rw [List.all_eq_true]; intro q hq; simpa using h3 q hq
  rw [hst] at he
  simp only [vecMat] at he
  split at he
  · obtain rfl := Except.ok.inj he
    intro v hv
    obtain ⟨j, hj, rfl⟩ := List.mem_map.mp hv
    have hj := List.mem_range.mp hj
    refine Fl.finset_sum_nan _ _ (i := k) (Finset.mem_range.mpr (by omega)) ?_
    rw [List.getD_eq_getElem?_getD (l := rs), r1, Option.getD_some]
    rw [List.getD_eq_getElem?_getD (l := r), List.getElem?_eq_getElem (by omega), Option.getD_some,
      hnan _ (List.getElem_mem _), Fl.mul_nan]
  · cases he

theorem poissonTerm_nan {d e : Vec} (h : d.length = e.length) (hne : e ≠ []) (hn : ∀ v ∈ e, v = .nan) {p : Fl}
    (hp : poissonTerm d e = .ok p) : p = .nan := by
  unfold poissonTerm at hp
  rw [bop_ok h.symm] at hp
  simp only [bind, Except.bind, pure, Except.pure] at hp
  rw [bop_ok h] at hp
  simp only at hp
  rw [bop_ok (by simp [h])] at hp
  simp only [Except.ok.injEq] at hp
  subst hp
  unfold npSum
  cases e with
  | nil => exact absurd rfl hne
  | cons a e =>
    cases d with
    | nil => simp at h
    | cons b d =>
      obtain rfl := hn a (by simp)
      simp

/-- a channel with a template without entries contributes NaN -/
theorem contribPure_nan {w : World} {c hid : ℕ} (h : Ready w c) (hb : 0 < (w.chans c).bins.prod)
    (hex : ∃ t ∈ w.chanTmpls c, ∀ v ∈ t.flatCounts, v = 0) (hd : (w.chans c).hdata = some hid)
    (hl : (w.hists hid).counts.data.length = (w.chans c).bins.prod) {y n : Vec} {v : Fl}
    (hy : y.length = (w.chans c).numTemplates) (hv : contribPure w c y n = .ok v) : v = .nan := by
  have hn := (contribPure_iff h hd hl hy n).2 ⟨v, hv⟩
  obtain ⟨e, h1, h2⟩ := expectedPure_ok h hy hn
  unfold contribPure at hv
  simp only [hd, h1] at hv
  split at hv
  · cases hv
  · rename_i p hp
    have := poissonTerm_nan (by rw [hl, h2]) (by intro h0; rw [h0] at h2; simp at h2; omega) (expectedPure_nan h hex hy hn h1) hp
    subst this
    split at hv
    · cases hv
    · rw [← Except.ok.inj hv, Fl.nan_add]

theorem channelsPure_nan (w : World) (cs : List ℕ) : ∀ (ys ns : List Vec) (v : Fl), ys.length = cs.length →
    ns.length = cs.length → channelsPure w cs ys ns = .ok v →
    (∃ (k : ℕ) (h1 : k < cs.length) (h2 : k < ys.length) (h3 : k < ns.length),
      ∀ u, contribPure w cs[k] ys[k] ns[k] = .ok u → u = .nan) → v = .nan := by
  induction cs with
  | nil => rintro ys ns v _ _ _ ⟨k, h1, _⟩; simp at h1
  | cons c cs ih =>
    rintro ys ns v hy hn h ⟨k, h1, h2, h3, hk⟩
    cases ys with
    | nil => simp at hy
    | cons y ys =>
      cases ns with
      | nil => simp at hn
      | cons n ns =>
        simp only [channelsPure] at h
        split at h
        · cases h
        · rename_i u hu
          split at h
          · cases h
          · rename_i q hq
            rw [← Except.ok.inj h]
            cases k with
            | zero => rw [hk u hu, Fl.nan_add]
            | succ k =>
              rw [ih ys ns q (by simpa using hy) (by simpa using hn) hq ⟨k, by simpa using h1, by simpa using h2,
                by simpa using h3, hk⟩, Fl.add_nan]

/-- **C112.** If some template of a model (whose channels all have templates and data) has no entries, then the likelihood is
NaN at every parameter vector it accepts - whatever the yield of the process, in particular at yield 0. -/
theorem C112_nan (s : Sys) (h : s.Built) (hne : s.m.channels ≠ []) (hpop : Populated s) (hd : DataEverywhere s)
    (hex : ∃ c ∈ s.m.chanIds, 0 < (s.w.chans c).bins.prod ∧ ∃ t ∈ s.w.chanTmpls c, ∀ v ∈ t.flatCounts, v = 0)
    (x : Vec) (hx : s.m.numProcesses + s.m.numNui s.w ≤ x.length) : objective s.w s.m x = .ok .nan := by
  have hw := reachable_wf h.reachable
  obtain ⟨v, hv⟩ := (C87_accepts s h hne hpop hd x).mpr hx
  rw [hv]
  have hobj : ∀ x, objective s.w s.m x = nllPure s.w s.m x := fun x => (nll_coh h.coherent s.m hw.lt x).1
  rw [← C87_surplus s h.reachable x, hobj] at hv
  set x' := x.take (s.m.numProcesses + s.m.numNui s.w) with hx'
  have hxl : x'.length = s.m.numProcesses + s.m.numNui s.w := by rw [hx', List.length_take]; omega
  have hpc := perChannelPure_eq s.w s.m x' hne (sub_procs hw) hxl
  unfold nllPure at hv
  rw [hpc] at hv
  simp only at hv
  split at hv
  · cases hv
  · rename_i q hq
    have hqn : q = .nan := by
      refine channelsPure_nan s.w s.m.chanIds _ _ q (by simp) (by rw [blocks_length]; simp [nuiSizes]) hq ?_
      obtain ⟨c, hc, hb, ht⟩ := hex
      obtain ⟨hid, d1, d2⟩ := hd c hc
      have hr := ready_of_populated h.reachable hpop c hc
      obtain ⟨k, k1, rfl⟩ := List.mem_iff_getElem.mp hc
      refine ⟨k, k1, by simpa using k1, by rw [blocks_length]; simpa [nuiSizes] using k1, fun u hu => ?_⟩
      refine contribPure_nan hr hb ht d1 d2 ?_ hu
      simp [chanYields, Channel.procs, hr.tl]
    split at hv
    · cases hv
    · rw [← Except.ok.inj hv, hqn, Fl.nan_add]

/-- **C112, consequence.** With an optimiser that returns true minima (never NaN), no fit of such a model returns. -/
theorem C112_no_fit (s : Sys) (h : s.Built) (hne : s.m.channels ≠ []) (hpop : Populated s) (hd : DataEverywhere s)
    (hex : ∃ c ∈ s.m.chanIds, 0 < (s.w.chans c).bins.prod ∧ ∃ t ∈ s.w.chanTmpls c, ∀ v ∈ t.flatCounts, v = 0)
    (id : String) (hid : id.toLower = "iminuit") (hist : List FitOp) (o : Optim) (ho : TrueMin o) (up g fixNui : Bool)
    (lim : Option Bounds) : ∃ e, ((fitRun id hist).doFit o s.w s.m up g fixNui lim).1 = .error e := by
  cases hr : ((fitRun id hist).doFit o s.w s.m up g fixNui lim).1 with
  | error e => exact ⟨e, rfl⟩
  | ok r =>
    exfalso
    have hm1 : minKindOf (fitRun id hist).minimizerId = .ok .iminuit := by rw [fitRun_id]; exact minKind_iminuit hid
    have hal := C51_aligned s h.reachable
    by_cases hk : KnownIds (s.m.paramNames s.w) hist
    · have hzw := minRun_wf .iminuit (s.m.paramNames s.w)
        (setupOps (fitRun id hist) s.m.numProcesses (s.m.numNui s.w) fixNui lim)
      have hz := setup_eq (kd := .iminuit) (id := id) hal.1.symm hk fixNui lim
      obtain ⟨x0, q, hx0, hq, hqf, hqv⟩ := doFit_minuit_inv' hm1 hz hzw.hk hr
      obtain ⟨t1, t2, t3, -⟩ := ho _ _ hq
      have hl : s.m.numProcesses + s.m.numNui s.w ≤ q.values.length := by
        rw [t1.1, ← hal.1]
        exact le_of_eq (congrArg List.length hzw.hn.symm)
      have t2 : objective s.w s.m q.values = .ok q.fval := t2
      rw [C112_nan s h hne hpop hd hex q.values hl] at t2
      exact t3 (Except.ok.inj t2).symm
    · rw [C64_unknown s h.reachable id .iminuit (minKind_iminuit hid) hist hk] at hr
      cases hr

namespace Ex

/-- two processes in one channel; the template of `q` has no entries -/
def opsE : List Op :=
  [.binned1 ⟨[2], vec ![1, 1]⟩ ⟨true, [0, 1, 2]⟩ (some ⟨[2], vec ![1, 1]⟩),
   .binned1 ⟨[2], vec ![0, 0]⟩ ⟨true, [0, 1, 2]⟩ (some ⟨[2], vec ![0, 0]⟩), .newTmpl1 "t" 0, .newTmpl1 "u" 1,
   .defineChannel "a" (.int 2) (.d1 .tuple 0 2), .defineProcess "p", .defineProcess "q",
   .addTemplate "a" "p" 0 (.fin 1), .addTemplate "a" "q" 1 (.fin 1), .addData [("a", 0)]]

def chE : Channel :=
  ⟨"a", [2], .d1 .tuple 0 2, ["p", "q"], [("p", 0), ("q", 1)], [("p", .fin 1), ("q", .fin 1)], some 0, some 1, some .t1,
    some .h1⟩

def wE : World :=
  { World.init with
    hists := Function.update (Function.update (fun _ => dummyHist) 0 (bh ![1, 1] ![1, 1])) 1 (bh ![0, 0] ![0, 0])
    nHists := 2
    tmpls := Function.update (Function.update (fun _ => dummyTmpl) 0 (bt "t" 0 ![1, 1] ![1, 1])) 1
      (bt "u" 1 ![0, 0] ![0, 0])
    nTmpls := 2
    chans := Function.update (fun _ => dummyChan) 0 chE
    nChans := 1 }

def mE : Mct := ⟨[("a", 0)], ["p", "q"], [], [], []⟩

def sysE : Sys := ⟨wE, mE⟩

theorem runE : Sys.init.run opsE = sysE := by
  simp only [opsE, Sys.run, List.foldl_cons, List.foldl_nil, Sys.step, bh_eq, Sys.allocHist, World.newHist,
    Sys.init, World.init, Sys.allocTmpl, World.newTmpl]
  simp [bt_eq, Sys.allocTmpl, World.newTmpl, Function.update_apply]
  simp [Mct.defineChannel, Mct.defineProcess,
    Mct.addTemplate, World.addTemplate, Mct.empty, World.newChan, dictSet, dictGet, Mct.addData, World.addData,
    World.setChan, Channel.new, Channel.addTemplate, Channel.checkTemplate, Channel.procs, bt, bh,
    Hist.setBinned, Hist.blank, ChanBins.toTuple, Channel.addData, Channel.checkHist, sysE, wE, mE, chE,
    World.init, Function.update_apply]

theorem sysE_built : sysE.Built := by
  refine ⟨_, setupFirst_of_noEval ?_, runE⟩
  intro o ho
  simp only [opsE, List.mem_cons, List.not_mem_nil, or_false] at ho
  rcases ho with rfl | rfl | rfl | rfl | rfl | rfl | rfl | rfl | rfl | rfl <;> exact id

end Ex

/-- the likelihood of this model is NaN at every vector of at least 6 numbers, and no fit of it returns -/
example : (∀ x : Vec, 6 ≤ x.length → objective Ex.sysE.w Ex.sysE.m x = .ok .nan) ∧
    ∀ o, TrueMin o → ∀ up g fixNui lim, ∃ e,
      ((fitRun "iminuit" []).doFit o Ex.sysE.w Ex.sysE.m up g fixNui lim).1 = .error e := by
  have hne : Ex.sysE.m.channels ≠ [] := by simp [Ex.sysE, Ex.mE]
  have hpop : Populated Ex.sysE := by
    intro c hc
    simp [Ex.sysE, Ex.mE, Mct.chanIds] at hc
    subst hc
    simp [Ex.sysE, Ex.wE, Ex.chE]
  have hd : DataEverywhere Ex.sysE := by
    intro c hc
    simp [Ex.sysE, Ex.mE, Mct.chanIds] at hc
    subst hc
    exact ⟨0, by simp [Ex.sysE, Ex.wE, Ex.chE], by simp [Ex.sysE, Ex.wE, Ex.chE, Ex.bh, Hist.setBinned, vec_length]⟩
  have hex : ∃ c ∈ Ex.sysE.m.chanIds, 0 < (Ex.sysE.w.chans c).bins.prod ∧
      ∃ t ∈ Ex.sysE.w.chanTmpls c, ∀ v ∈ t.flatCounts, v = 0 := by
    refine ⟨0, by simp [Ex.sysE, Ex.mE, Mct.chanIds], by simp [Ex.sysE, Ex.wE, Ex.chE], Ex.bt "u" 1 ![0, 0] ![0, 0],
      by simp [World.chanTmpls, Ex.sysE, Ex.wE, Ex.chE], ?_⟩
    simp [Ex.bt, vec, Fl.zero_def]
  refine ⟨fun x hx => C112_nan _ Ex.sysE_built hne hpop hd hex x ?_, fun o ho up g fixNui lim =>
    C112_no_fit _ Ex.sysE_built hne hpop hd hex "iminuit" lower_iminuit [] o ho up g fixNui lim⟩
  simpa [Ex.sysE, Ex.mE, Mct.numProcesses, Mct.numNui, Mct.chanIds, Ex.wE, Ex.chE, Channel.numNui,
    Channel.numTemplates, Channel.numBins] using hx

end

end TF.Props
