import Verif.Props.Example
import Verif.Props.StatsProps
import Verif.Lemmas.ChanEval

set_option linter.unusedSimpArgs false

/-!
# Properties of `Channel` (C31–C37)
-/

namespace TF.Props

open Classical Spec
open scoped Matrix

noncomputable section

/-! ## C31 -/

/-- **C31.** `add_template` succeeds exactly for a template with the channel's bins and range, a process
new to the channel and a class equal to that of the templates added before; on success the
process, the template and the efficiency are appended last. -/
theorem C31_accepts (c : Channel) (p : String) (tid : ℕ) (t : Template) (hcls : HistCls) (eff : Fl) :
    ((c.addTemplate p tid t hcls eff).1 = .ok () ↔
      (t.bins = c.bins ∧ t.range = c.range) ∧ p ∉ c.templates.map (·.1) ∧
        (c.ttype = none ∨ c.ttype = some t.cls)) ∧
    ((c.addTemplate p tid t hcls eff).1 = .ok () →
      c.effs.map (·.1) = c.templates.map (·.1) →
      (c.addTemplate p tid t hcls eff).2.processes = c.processes ++ [p] ∧
      (c.addTemplate p tid t hcls eff).2.templates = c.templates ++ [(p, tid)] ∧
      (c.addTemplate p tid t hcls eff).2.effs = c.effs ++ [(p, eff)] ∧
      (c.addTemplate p tid t hcls eff).2.ttype = some t.cls) := by
  unfold Channel.addTemplate Channel.checkTemplate Channel.procs
  by_cases h1 : c.bins = t.bins ∧ c.range = t.range
  · by_cases h2 : p ∈ c.templates.map (·.1)
    · simp only [h1, if_true, h2]
      simp
    · rw [if_pos h1, if_neg h2]
      have key : ∀ c2 : Channel,
          (c2 = if (if c.dim = none then { c with dim := some t.bins.length } else c).ttype = none then
            { (if c.dim = none then { c with dim := some t.bins.length } else c) with
              ttype := some t.cls, htype := some hcls }
            else (if c.dim = none then { c with dim := some t.bins.length } else c)) →
          c2.processes = c.processes ∧ c2.templates = c.templates ∧ c2.effs = c.effs ∧
          (c2.ttype = some t.cls ↔ (c.ttype = none ∨ c.ttype = some t.cls)) := by
        intro c2 h
        subst h
        have hd : ∀ (x : Channel), x = (if c.dim = none then { c with dim := some t.bins.length } else c) →
            x.processes = c.processes ∧ x.templates = c.templates ∧ x.effs = c.effs ∧ x.ttype = c.ttype := by
          intro x hx
          subst hx
          split <;> exact ⟨rfl, rfl, rfl, rfl⟩
        obtain ⟨a, b, d, e⟩ := hd _ rfl
        rw [e]
        by_cases hn : c.ttype = none
        · rw [if_pos hn]
          exact ⟨a, b, d, by simp [hn]⟩
        · rw [if_neg hn]
          exact ⟨a, b, d, by rw [e]; simp [hn]⟩
      simp only
      generalize hc2 : (if (if c.dim = none then { c with dim := some t.bins.length } else c).ttype = none then
            { (if c.dim = none then { c with dim := some t.bins.length } else c) with
              ttype := some t.cls, htype := some hcls }
            else (if c.dim = none then { c with dim := some t.bins.length } else c)) = c2
      obtain ⟨k1, k2, k3, k4⟩ := key c2 hc2.symm
      by_cases h3 : c2.ttype = some t.cls
      · rw [if_neg (by simp [h3])]
        refine ⟨?_, ?_⟩
        · simp only [true_iff]
          exact ⟨⟨h1.1.symm, h1.2.symm⟩, h2, k4.mp h3⟩
        · intro _ he
          refine ⟨by simp [k1], ?_, ?_, h3⟩
          · simp only; rw [k2]; exact dictSet_new _ _ _ h2
          · simp only; rw [k3]; exact dictSet_new _ _ _ (by rw [he]; exact h2)
      · rw [if_pos (fun h => h3 h.symm)]
        refine ⟨?_, by simp⟩
        simp only [reduceCtorEq, false_iff]
        rintro ⟨_, _, h⟩
        exact h3 (k4.mpr h)
  · rw [if_neg h1]
    refine ⟨?_, by simp⟩
    simp only [reduceCtorEq, false_iff]
    rintro ⟨⟨a, b⟩, _⟩
    exact h1 ⟨a.symm, b.symm⟩

/-- **C31**, rejected templates: `RuntimeError`, and the channel object is unchanged. (The hypothesis, that
a channel without dimension has no template type, holds in every reachable state.) -/
theorem C31_rejects (c : Channel) (p : String) (tid : ℕ) (t : Template) (hcls : HistCls) (eff : Fl)
    (hdim : c.dim = none → c.ttype = none)
    (h : (c.addTemplate p tid t hcls eff).1 ≠ .ok ()) :
    (c.addTemplate p tid t hcls eff).1 = .error .runtimeError ∧
    (c.addTemplate p tid t hcls eff).2 = c := by
  unfold Channel.addTemplate at h ⊢
  by_cases h1 : c.checkTemplate t
  · rw [if_pos h1] at h ⊢
    by_cases h2 : p ∈ c.procs
    · rw [if_pos h2] at h ⊢; exact ⟨rfl, rfl⟩
    · rw [if_neg h2] at h ⊢
      simp only at h ⊢
      by_cases hn : c.ttype = none
      · exfalso
        apply h
        by_cases hd : c.dim = none <;> simp [hd, hn]
      · have hd : c.dim ≠ none := fun hd => hn (hdim hd)
        simp only [hd, if_false, hn] at h ⊢
        split
        · exact ⟨rfl, rfl⟩
        · rename_i h3
          rw [if_neg h3] at h
          exact absurd rfl h
  · rw [if_neg h1]; exact ⟨rfl, rfl⟩

/-- **C31** for the channels of a reachable program state, through the multi-channel API: a rejected
template leaves the whole program state unchanged. -/
theorem C31_reachable (s : Sys) (hs : s.Reachable) (ch p : String) (tid : ℕ) (eff : Fl)
    (h : (s.m.addTemplate s.w ch p tid eff).1 ≠ .ok ()) :
    (s.m.addTemplate s.w ch p tid eff).1 = .error .runtimeError ∧
    (s.m.addTemplate s.w ch p tid eff).2 = s.w := by
  unfold Mct.addTemplate at h ⊢
  cases hd : dictGet s.m.channels ch with
  | none => exact ⟨rfl, rfl⟩
  | some c =>
    simp only [hd] at h ⊢
    by_cases hp : p ∉ s.m.processes
    · rw [if_pos hp]; exact ⟨rfl, rfl⟩
    · rw [if_neg hp] at h ⊢
      have hwf := reachable_wf hs
      have hc := hwf.chan c (hwf.chLt _ (dictGet_mem hd))
      obtain ⟨a, b⟩ := C31_rejects (s.w.chans c) p tid (s.w.tmpls tid)
        (s.w.hists (s.w.tmpls tid).hist).cls eff hc.dim.1 h
      refine ⟨a, ?_⟩
      unfold World.addTemplate World.setChan
      simp only [b, Function.update_eq_self]

/-- non-vacuity of C31: an accepted and a rejected template -/
example : (Ex.chA.addTemplate "new" 7 (Ex.bt "x" 0 ![4, 6] ![2, 3]) .h1 1).1 = .ok () ∧
    (Ex.chA.addTemplate "sig" 7 (Ex.bt "x" 0 ![4, 6] ![2, 3]) .h1 1).1 ≠ .ok () := by
  constructor
  · rw [(C31_accepts _ _ _ _ _ _).1]
    simp [Ex.chA, Ex.bt]
  · rw [Ne, (C31_accepts _ _ _ _ _ _).1]
    simp [Ex.chA, Ex.bt]

/-! ## C32 -/

/-- The histogram objects that a channel combines: those of its templates and its data. -/
def ChanHist (w : World) (c : Channel) (h : Hist) : Prop :=
  (∃ p ∈ c.templates, h = w.hists (w.tmpls p.2).hist) ∨ ∃ hid, c.hdata = some hid ∧ h = w.hists hid

theorem chanHist_wf {s : Sys} (hs : s.Reachable) {ch : String} {c : ℕ} (hc : (ch, c) ∈ s.m.channels)
    {h : Hist} (hh : ChanHist s.w (s.w.chans c) h) :
    HistWF h ∧ h.shape = (s.w.chans c).bins ∧ h.range = (s.w.chans c).range := by
  have hwf := reachable_wf hs
  have hcw := hwf.chan c (hwf.chLt _ hc)
  rcases hh with ⟨p, hp, rfl⟩ | ⟨hid, hd, rfl⟩
  · obtain ⟨h1, h2, h3, _⟩ := hcw.tmpl p hp
    have ht := hwf.tmpl _ h1
    exact ⟨hwf.hist _ ht.hist, by rw [← ht.bins, h2], by rw [← ht.range, h3]⟩
  · obtain ⟨h1, h2, h3⟩ := hcw.data hid hd
    exact ⟨hwf.hist _ h1, h2, h3⟩

/-- **C32 (partial).** In every reachable state all histograms combined by a channel agree in the number
of bins and edges, the lower limit and (if there is a bin) the upper limit of every axis. Missing:
the inner edges, see `C32_refuted`. -/
theorem C32_outline_partial (s : Sys) (hs : s.Reachable) (ch : String) (c : ℕ)
    (hc : (ch, c) ∈ s.m.channels) (h h' : Hist) (hh : ChanHist s.w (s.w.chans c) h)
    (hh' : ChanHist s.w (s.w.chans c) h') :
    h.shape = h'.shape ∧ h.edges.map (·.vals.length) = h'.edges.map (·.vals.length) ∧
    h.edges.map (·.vals.head?) = h'.edges.map (·.vals.head?) ∧
    ((∀ n ∈ h.shape, 1 ≤ n) → h.edges.map (·.vals.getLastD 0) = h'.edges.map (·.vals.getLastD 0)) := by
  obtain ⟨⟨e1, k1⟩, b1, r1⟩ := chanHist_wf hs hc hh
  obtain ⟨⟨e2, k2⟩, b2, r2⟩ := chanHist_wf hs hc hh'
  have hsh : h.shape = h'.shape := b1.trans b2.symm
  have hr : h.range = h'.range := r1.trans r2.symm
  refine ⟨hsh, ?_⟩
  rw [hsh, e2]
  rw [e1, e2] at hsh
  rcases k1 with ⟨-, n, e, k, lo, hi, h1, h2, h3, h4, h5, h6⟩ |
    ⟨-, nx, ny, ex, ey, k, kx, ky, xlo, xhi, ylo, yhi, h1, h2, h3, h3', h4, h5, h5', h6, h6'⟩ <;>
  rcases k2 with ⟨-, n', e', k', lo', hi', g1, g2, g3, g4, g5, g6⟩ |
    ⟨-, nx', ny', ex', ey', k', kx', ky', xlo', xhi', ylo', yhi', g1, g2, g3, g3', g4, g5, g5', g6, g6'⟩
  · rw [h4, g4] at hr
    rw [h1, g1] at hsh
    injection hr with _ q1 q2
    have : n = n' := by simpa using hsh
    subst this q1 q2
    rw [h2, g2, g1]
    simp only [List.map_cons, List.map_nil, h3, g3, h5, g5, List.mem_singleton, forall_eq, true_and]
    intro hn
    rw [h6 hn, g6 hn]
  · rw [h1, g1] at hsh; simp at hsh
  · rw [h1, g1] at hsh; simp at hsh
  · rw [h4, g4] at hr
    rw [h1, g1] at hsh
    injection hr with _ _ _ q1 q2 q3 q4
    have : nx = nx' ∧ ny = ny' := by simpa using hsh
    obtain ⟨rfl, rfl⟩ := this
    subst q1 q2 q3 q4
    rw [h2, g2, g1]
    simp only [List.map_cons, List.map_nil, h3, g3, h3', g3', h5, g5, h5', g5', true_and]
    intro hn
    rw [h6 (hn _ (by simp)), g6 (hn _ (by simp)), h6' (hn _ (by simp)), g6' (hn _ (by simp))]

namespace Ex

/-- a template with the same number of bins and range but other inner edges is added to channel `a` -/
def ops2 : List Op :=
  [.binned1 ⟨[2], vec ![1, 1]⟩ ⟨true, [0, 1/2, 2]⟩ (some ⟨[2], vec ![1, 1]⟩), .newTmpl1 "odd" 3,
   .defineProcess "odd", .addTemplate "a" "odd" 3 1]

theorem run2 : ∃ s, sys1.run ops2 = s ∧ ("a", 0) ∈ s.m.channels ∧
    (s.w.chans 0).templates = [("sig", 0), ("bkg", 1), ("odd", 3)] ∧
    ((s.w.hists (s.w.tmpls 0).hist).edges = [⟨true, [0, 1, 2]⟩]) ∧
    ((s.w.hists (s.w.tmpls 3).hist).edges = [⟨true, [0, 1/2, 2]⟩]) := by
  refine ⟨_, rfl, ?_⟩
  have hb : Hist1d.fromBinned ⟨[2], vec ![1, 1]⟩ ⟨true, [0, 1/2, 2]⟩ (some ⟨[2], vec ![1, 1]⟩) =
    .ok ((Hist.blank .h1 [⟨true, [0, 1/2, 2]⟩] [2] (.d1 .tuple 0 2)).setBinned ⟨[2], vec ![1, 1]⟩
      (some ⟨[2], vec ![1, 1]⟩)) := rfl
  simp only [ops2, Sys.run, List.foldl_cons, List.foldl_nil, Sys.step, hb, Sys.allocHist, World.newHist,
    sys1, Mct.defineProcess, Mct.addTemplate, World.addTemplate, m1, dictGet]
  simp [w1, w0, World.init, Template1d.new, Template.build, Hist.setBinned, Hist.blank, Sys.allocTmpl,
    World.newTmpl, NdArr.map, vec_length, dictGet, World.setChan, Channel.addTemplate, Channel.checkTemplate,
    Channel.procs, chA, dictSet, bt, bh, Function.update_apply]

end Ex

/-- **C32 is false of the code:** a reachable channel combines histograms with bins `[0,1),[1,2]` and
`[0,½),[½,2]`; the compatibility check only compares bin numbers and range. -/
theorem C32_refuted : ∃ (s : Sys) (c : ℕ) (h h' : Hist), s.Reachable ∧ ("a", c) ∈ s.m.channels ∧
    ChanHist s.w (s.w.chans c) h ∧ ChanHist s.w (s.w.chans c) h' ∧
    h.edges.map (·.vals) = [[0, 1, 2]] ∧ h'.edges.map (·.vals) = [[0, 1/2, 2]] := by
  obtain ⟨s, hs, h1, h2, h3, h4⟩ := Ex.run2
  refine ⟨s, 0, s.w.hists (s.w.tmpls 0).hist, s.w.hists (s.w.tmpls 3).hist, ?_, h1, ?_, ?_, ?_, ?_⟩
  · obtain ⟨ops, ho⟩ := Ex.sys1_reachable
    exact ⟨ops ++ Ex.ops2, by rw [run_append, ho, hs]⟩
  · exact Or.inl ⟨("sig", 0), by rw [h2]; simp, rfl⟩
  · exact Or.inl ⟨("odd", 3), by rw [h2]; simp, rfl⟩
  · rw [h3]; rfl
  · rw [h4]; rfl

/-! ## C33 -/

/-- **C33.** Bookkeeping of every channel in every reachable state. -/
theorem C33_bookkeeping (s : Sys) (hs : s.Reachable) (ch : String) (c : ℕ)
    (hc : (ch, c) ∈ s.m.channels) :
    (s.w.chans c).processes.Nodup ∧
    (s.w.chans c).templates.map (·.1) = (s.w.chans c).processes ∧
    (s.w.chans c).effs.map (·.1) = (s.w.chans c).processes ∧
    (s.w.chans c).numTemplates = (s.w.chans c).templates.length ∧
    (s.w.chans c).numTemplates = (s.w.chans c).effs.length ∧
    (s.w.chans c).numNui = (s.w.chans c).templates.length * (s.w.chans c).bins.prod ∧
    (∀ p ∈ (s.w.chans c).templates, p.2 < s.w.nTmpls ∧
      (s.w.tmpls p.2).numBins = (s.w.chans c).numBins ∧
      (s.w.tmpls p.2).nuiParams.length = (s.w.chans c).numBins) ∧
    (s.w.chans c).name = ch ∧ ∀ p ∈ (s.w.chans c).processes, p ∈ s.m.processes := by
  have hwf := reachable_wf hs
  have hcw := hwf.chan c (hwf.chLt _ hc)
  have hl1 : (s.w.chans c).numTemplates = (s.w.chans c).templates.length := by
    unfold Channel.numTemplates; rw [← hcw.tkeys]; simp
  have hl2 : (s.w.chans c).numTemplates = (s.w.chans c).effs.length := by
    unfold Channel.numTemplates; rw [← hcw.ekeys]; simp
  refine ⟨hcw.nodup, hcw.tkeys, hcw.ekeys, hl1, hl2, ?_, ?_, hwf.chName _ hc,
    hwf.sub c (hwf.chLt _ hc)⟩
  · unfold Channel.numNui Channel.numBins; rw [hl1]
  · intro p hp
    obtain ⟨h1, h2, h3, _⟩ := hcw.tmpl p hp
    have ht := hwf.tmpl _ h1
    have hn : (s.w.tmpls p.2).numBins = (s.w.chans c).numBins := by
      rw [ht.num, h2]; rfl
    refine ⟨h1, hn, ?_⟩
    unfold Template.nuiParams
    rw [List.length_tail, ht.params, hn]; rfl

/-- non-vacuity of C32, C33: the reachable example has a channel with two templates and data -/
example : Ex.sys1.Reachable ∧ ("a", 0) ∈ Ex.sys1.m.channels ∧ (Ex.sys1.w.chans 0).numTemplates = 2 ∧
    ∃ h, ChanHist Ex.sys1.w (Ex.sys1.w.chans 0) h :=
  ⟨Ex.sys1_reachable, by simp [Ex.sys1, Ex.m1], by simp [Ex.sys1, Ex.w1, Ex.chA, Channel.numTemplates],
   _, Or.inr ⟨2, by simp [Ex.sys1, Ex.w1, Ex.chA], rfl⟩⟩

/-! ## C34 -/

/-- **C34.** Expected events, both as used by the likelihood (yields and nuisance parameters separately)
and through `bin_counts_from_param_values`. -/
theorem C34_expected {K n : ℕ} (w : World) (c : ℕ) (cnt ε : Fin K → Fin n → ℝ) (eff : Fin K → ℝ)
    (R : Fin K → Matrix (Fin n) (Fin n) ℝ) (h : ChanIs w c cnt ε eff R) (hK : 0 < K)
    (hw : Coherent w) (ν : Fin K → ℝ) (θ : Fin K → Fin n → ℝ)
    (hT : ∀ k, ∑ j, cnt k j * (1 + θ k j * ε k j) ≠ 0) :
    ∃ E : Fin n → ℝ,
      (w.expectedEvts c (vec ν) (nuiVec θ)).1 = .ok (vec E) ∧
      (w.binCountsFromParams c (vec ν ++ nuiVec θ)).1 = .ok (vec E) ∧
      (∀ i, E i = ∑ k, ν k * eff k *
        (cnt k i * (1 + θ k i * ε k i) / ∑ j, cnt k j * (1 + θ k j * ε k j))) ∧
      ∑ i, E i = ∑ k, ν k * eff k := by
  have h1 : (w.expectedEvts c (vec ν) (nuiVec θ)).1 = .ok (vec (expected cnt ε eff ν θ)) := by
    rw [(expectedEvts_coh hw c h.alloc _ _).1, expectedPure_eq h hK ν θ hT]
  refine ⟨expected cnt ε eff ν θ, h1, ?_, fun i => rfl, ?_⟩
  · unfold World.binCountsFromParams
    rw [h.num, List.take_left' (vec_length ν), List.drop_left' (vec_length ν)]
    exact h1
  · unfold expected
    rw [Finset.sum_comm]
    apply Finset.sum_congr rfl
    intro k _
    rw [← Finset.mul_sum, ← Finset.sum_div, div_self (hT k), mul_one]

/-- non-vacuity of C34 -/
example : ChanIs Ex.w1 0 Ex.cntA Ex.epsA ![1/2, 1] (fun _ => 1) ∧ Coherent Ex.w1 ∧
    ∀ k : Fin 2, ∑ j, Ex.cntA k j * (1 + (0 : Fin 2 → Fin 2 → ℝ) k j * Ex.epsA k j) ≠ 0 :=
  ⟨Ex.chanA, Ex.w1_coherent, by intro k; fin_cases k <;> simp [Ex.cntA] <;> norm_num⟩

/-! ## C35 -/

/-- **C35.** The nuisance penalty is the sum of the template penalties. -/
theorem C35_gauss {K n : ℕ} (w : World) (c : ℕ) (cnt ε : Fin K → Fin n → ℝ) (eff : Fin K → ℝ)
    (R : Fin K → Matrix (Fin n) (Fin n) ℝ) (h : ChanIs w c cnt ε eff R) (hw : Coherent w)
    (hR : ∀ k, (R k).PosDef) (θ : Fin K → Fin n → ℝ) :
    ∃ g : ℝ, (w.gaussTerm c (nuiVec θ)).1 = .ok (.fin g) ∧
      g = 1 / 2 * ∑ k, (θ k) ⬝ᵥ ((R k)⁻¹.mulVec (θ k)) ∧ 0 ≤ g ∧ (g = 0 ↔ θ = 0) :=
  ⟨penalty R θ, by rw [(gaussTerm_coh hw c h.alloc _).1, gaussPure_eq h θ], rfl,
    (penalty_nonneg hR θ).1, (penalty_nonneg hR θ).2⟩

/-- non-vacuity of C35: the example channel, whose correlation matrices are positive definite -/
example : ChanIs Ex.w1 0 Ex.cntA Ex.epsA ![1/2, 1] (fun _ => 1) ∧
    ∀ _ : Fin 2, (1 : Matrix (Fin 2) (Fin 2) ℝ).PosDef :=
  ⟨Ex.chanA, fun _ => Matrix.PosDef.one⟩

/-! ## C36, C37 -/

theorem contrib_value {K n : ℕ} {w : World} {c : ℕ} {cnt ε : Fin K → Fin n → ℝ} {eff : Fin K → ℝ}
    {R : Fin K → Matrix (Fin n) (Fin n) ℝ} (h : ChanIs w c cnt ε eff R) (hK : 0 < K)
    (hw : Coherent w) {hid : ℕ} (hd : (w.chans c).hdata = some hid) {d : Fin n → ℝ}
    (hdd : (w.hists hid).counts.data = vec d) (ν : Fin K → ℝ) (θ : Fin K → Fin n → ℝ)
    (hT : ∀ k, ∑ j, cnt k j * (1 + θ k j * ε k j) ≠ 0) :
    (w.nllContribution c (vec ν) (nuiVec θ)).1 =
      .ok ((List.ofFn fun i => binTerm (.fin (d i)) (.fin (expected cnt ε eff ν θ i))).sum +
        .fin (penalty R θ)) := by
  rw [(nllContribution_coh hw c h.alloc _ _).1]
  unfold contribPure
  simp only [hd, expectedPure_eq h hK ν θ hT, hdd, poissonTerm_zip, gaussPure_eq h θ]

/-- **C36.** The channel's contribution to the likelihood: formula, bound, and the minimum. -/
theorem C36_nll {K n : ℕ} (w : World) (c : ℕ) (cnt ε : Fin K → Fin n → ℝ) (eff : Fin K → ℝ)
    (R : Fin K → Matrix (Fin n) (Fin n) ℝ) (h : ChanIs w c cnt ε eff R) (hK : 0 < K)
    (hw : Coherent w) (hR : ∀ k, (R k).PosDef) (hid : ℕ) (hd : (w.chans c).hdata = some hid)
    (d : Fin n → ℝ) (hdd : (w.hists hid).counts.data = vec d)
    (hpos : ∀ i, d i = 0 ∨ (1e-100 : ℝ) ≤ d i) (ν : Fin K → ℝ) (θ : Fin K → Fin n → ℝ)
    (hT : ∀ k, ∑ j, cnt k j * (1 + θ k j * ε k j) ≠ 0)
    (hE : ∀ i, 0 < expected cnt ε eff ν θ i) :
    ∃ v : ℝ, (w.nllContribution c (vec ν) (nuiVec θ)).1 = .ok (.fin v) ∧
      v = (∑ i, if d i = 0 then expected cnt ε eff ν θ i
            else expected cnt ε eff ν θ i - d i - d i * Real.log (expected cnt ε eff ν θ i / d i)) +
          1 / 2 * ∑ k, (θ k) ⬝ᵥ ((R k)⁻¹.mulVec (θ k)) ∧
      0 ≤ v ∧ (v = 0 ↔ (∀ i, expected cnt ε eff ν θ i = d i) ∧ θ = 0) := by
  have hd0 : ∀ i, 0 ≤ d i := by
    intro i
    rcases hpos i with h | h
    · exact h.ge
    · exact le_trans (by norm_num) h
  have hnn := fun i => poissonBin_nonneg (hd0 i) (hE i)
  have hp := penalty_nonneg hR θ
  refine ⟨(∑ i, poissonBin (d i) (expected cnt ε eff ν θ i)) + penalty R θ, ?_, rfl, ?_, ?_⟩
  · rw [contrib_value h hK hw hd hdd ν θ hT]
    have : (List.ofFn fun i => binTerm (.fin (d i)) (.fin (expected cnt ε eff ν θ i))) =
        vec fun i => poissonBin (d i) (expected cnt ε eff ν θ i) := by
      unfold vec
      congr 1
      funext i
      exact binTerm_fin (hpos i) (hE i)
    rw [this, vec_sum, Fl.fin_add]
  · exact add_nonneg (Finset.sum_nonneg fun i _ => (hnn i).1) hp.1
  · rw [add_eq_zero_iff_of_nonneg (Finset.sum_nonneg fun i _ => (hnn i).1) hp.1, hp.2,
      Finset.sum_eq_zero_iff_of_nonneg fun i _ => (hnn i).1]
    refine and_congr_left fun _ => ?_
    constructor
    · intro hh i; exact (hnn i).2.mp (hh i (Finset.mem_univ i))
    · intro hh i _; exact (hnn i).2.mpr (hh i)

/-- non-vacuity of C36: the example channel with its data, at yields (10, 10) -/
example : (Ex.w1.chans 0).hdata = some 2 ∧ (Ex.w1.hists 2).counts.data = vec ![10, 5] ∧
    (∀ i, (![10, 5] : Fin 2 → ℝ) i = 0 ∨ (1e-100 : ℝ) ≤ (![10, 5] : Fin 2 → ℝ) i) ∧
    ∀ i, 0 < expected Ex.cntA Ex.epsA ![1/2, 1] ![10, 10] 0 i := by
  refine ⟨Ex.dataA.1, Ex.dataA.2, ?_, ?_⟩
  · intro i; right; fin_cases i <;> norm_num
  · intro i; fin_cases i <;> simp [expected, Ex.cntA, Ex.epsA, Fin.sum_univ_two] <;> norm_num

/-- **C37.** A bin with data (at least 1e-100, the threshold of the code) and vanishing expectation makes
the contribution `+inf` (if no bin with data has a negative expectation); a bin with data and a
negative expectation makes it NaN. -/
theorem C37_impossible {K n : ℕ} (w : World) (c : ℕ) (cnt ε : Fin K → Fin n → ℝ) (eff : Fin K → ℝ)
    (R : Fin K → Matrix (Fin n) (Fin n) ℝ) (h : ChanIs w c cnt ε eff R) (hK : 0 < K)
    (hw : Coherent w) (hid : ℕ) (hd : (w.chans c).hdata = some hid)
    (d : Fin n → ℝ) (hdd : (w.hists hid).counts.data = vec d) (ν : Fin K → ℝ)
    (θ : Fin K → Fin n → ℝ) (hT : ∀ k, ∑ j, cnt k j * (1 + θ k j * ε k j) ≠ 0) (i : Fin n)
    (hi : (1e-100 : ℝ) ≤ d i) :
    (expected cnt ε eff ν θ i = 0 → (∀ j, (1e-100 : ℝ) ≤ d j → 0 ≤ expected cnt ε eff ν θ j) →
      (w.nllContribution c (vec ν) (nuiVec θ)).1 = .ok .pinf) ∧
    (expected cnt ε eff ν θ i < 0 → (w.nllContribution c (vec ν) (nuiVec θ)).1 = .ok .nan) := by
  rw [contrib_value h hK hw hd hdd ν θ hT]
  constructor
  · intro hz hnn
    rw [sum_pinf_of_mem]
    · rfl
    · intro x hx
      obtain ⟨j, rfl⟩ := List.mem_ofFn.mp hx
      by_cases hj : (1e-100 : ℝ) ≤ d j
      · rcases (hnn j hj).eq_or_lt with h0 | h0
        · left; rw [← h0]; exact binTerm_zero hj
        · right; exact ⟨_, binTerm_fin (Or.inr hj) h0⟩
      · right; exact ⟨_, binTerm_empty (not_le.mp hj)⟩
    · exact List.mem_ofFn.mpr ⟨i, by rw [hz]; exact binTerm_zero hi⟩
  · intro hneg
    rw [sum_nan_of_mem]
    · simp
    · exact List.mem_ofFn.mpr ⟨i, binTerm_neg hi hneg⟩

/-- non-vacuity of C37: zero yields give zero expectation, negative ones a negative expectation -/
example : (∀ i, expected Ex.cntA Ex.epsA ![1/2, 1] ![0, 0] 0 i = 0) ∧
    expected Ex.cntA Ex.epsA ![1/2, 1] ![-1, 0] 0 0 < 0 := by
  constructor
  · intro i; simp [expected, Fin.sum_univ_two]
  · simp [expected, Ex.cntA, Ex.epsA, Fin.sum_univ_two]; norm_num

end

end TF.Props
