import Verif.Lemmas.Reach2
import Verif.Props.MctProps8

set_option linter.unusedSimpArgs false

/-!
# Every model built from finite data and physical systematics is well described (C84), and what follows for
the likelihood
-/

namespace TF.Spec

open Classical

noncomputable section

/-- a user program in which every call has finite data, positive semi-definite covariance matrices, finite
variation weights and finite efficiencies -/
def PhysicalProgram (ops : List Op) : Prop := ∀ o ∈ ops, Physical o ∧ FiniteData o

/-- every channel of the model has at least one template and at least one bin -/
def Populated (s : Sys) : Prop :=
  ∀ c ∈ s.m.chanIds, (s.w.chans c).templates ≠ [] ∧ 0 < (s.w.chans c).bins.prod

/-- every channel of the model has data, one number per bin -/
def DataEverywhere (s : Sys) : Prop :=
  ∀ c ∈ s.m.chanIds, ∃ hid, (s.w.chans c).hdata = some hid ∧
    (s.w.hists hid).counts.data.length = (s.w.chans c).bins.prod

/-- `C` is the covariance matrix of template `t`: symmetric positive definite; the template's correlation matrix,
the stored inverse and the relative errors are exactly those of `C` and the nominal contents `c` -/
structure Described (t : Template) {n : ℕ} (c : Fin n → ℝ) (C : Matrix (Fin n) (Fin n) ℝ) : Prop where
  bins : t.numBins = n
  counts : t.flatCounts = vec c
  pos : C.PosDef
  cov : IsReal t.cov C
  corr : IsReal t.corr (Matrix.of fun i j => C i j / (Real.sqrt (C i i) * Real.sqrt (C j j)))
  inv : IsReal t.invCorr (Matrix.of fun i j => C i j / (Real.sqrt (C i i) * Real.sqrt (C j j)))⁻¹
  rel : t.relErr = vec fun i => if c i = 0 then 1e-7 else Real.sqrt (C i i) / c i

end

end TF.Spec

namespace TF.Props

open Classical Spec

noncomputable section

theorem corrOf_of_pos {n : ℕ} {C : Matrix (Fin n) (Fin n) ℝ} (h : C.PosDef) :
    corrOf C = Matrix.of fun i j => C i j / (Real.sqrt (C i i) * Real.sqrt (C j j)) := by
  ext i j
  simp [corrOf, h.diag_pos.ne']

theorem covInv_described {t : Template} {n : ℕ} {c : Fin n → ℝ} {C : Matrix (Fin n) (Fin n) ℝ}
    (h : CovInv t c C) : Described t c C :=
  ⟨h.bins, h.counts, h.pos, h.cov, by rw [← corrOf_of_pos h.pos]; exact h.corr,
    by rw [← corrOf_of_pos h.pos]; exact h.inv, h.rel⟩

/-- **C84, templates.** After every program with physical inputs, raising calls included, every template object
is described by a symmetric positive definite covariance matrix, with correlation matrix, inverse and relative
errors in step. -/
theorem C84_templates (ops : List Op) (hp : PhysicalProgram ops) (i : ℕ)
    (hi : i < (Sys.init.run ops).w.nTmpls) :
    ∃ (n : ℕ) (c : Fin n → ℝ) (C : Matrix (Fin n) (Fin n) ℝ), Described ((Sys.init.run ops).w.tmpls i) c C := by
  obtain ⟨c, C, h⟩ := init_covOk ops (fun o ho => (hp o ho).1) i hi
    ((init_finite ops fun o ho => (hp o ho).2).2 i hi)
  exact ⟨_, c, C, covInv_described h⟩

/-- one channel -/
theorem chan_described {s : Sys} (hw : SysWF s) (hcov : ∀ i < s.w.nTmpls, CovOk (s.w.tmpls i))
    (hfin : ∀ c ∈ s.m.chanIds, ∀ p ∈ (s.w.chans c).templates, FiniteTmpl (s.w.tmpls p.2))
    (heff : EffsFin s.w) (c : ℕ) (hc : c ∈ s.m.chanIds) :
    ∃ (cnt ε : Fin (s.w.chans c).templates.length → Fin (s.w.chans c).bins.prod → ℝ)
      (eff : Fin (s.w.chans c).templates.length → ℝ)
      (R : Fin (s.w.chans c).templates.length → Matrix (Fin (s.w.chans c).bins.prod) (Fin (s.w.chans c).bins.prod) ℝ),
      (∀ j, (R j).PosDef) ∧ ChanIs s.w c cnt ε eff R := by
  have hlt := hw.lt c hc
  have hcw := hw.chan c hlt
  have key : ∀ j : Fin (s.w.chans c).templates.length,
      ∃ (cn : Fin (s.w.chans c).bins.prod → ℝ)
        (C : Matrix (Fin (s.w.chans c).bins.prod) (Fin (s.w.chans c).bins.prod) ℝ),
        CovInv (s.w.tmpls ((s.w.chans c).templates[(j : ℕ)]).2) cn C := by
    intro j
    have hm := List.getElem_mem (l := (s.w.chans c).templates) j.2
    obtain ⟨h1, h2, -, -⟩ := hcw.tmpl _ hm
    obtain ⟨cn, C, h⟩ := hcov _ h1 (hfin c hc _ hm)
    have hb : (s.w.tmpls ((s.w.chans c).templates[(j : ℕ)]).2).numBins = (s.w.chans c).bins.prod := by
      rw [(hw.tmpl _ h1).num, h2]
    rw [← hb]
    exact ⟨cn, C, h⟩
  choose cn C hC using key
  have hel : ((s.w.chans c).effs.map (·.2)).length = (s.w.chans c).templates.length := by
    have h1 := congrArg List.length hcw.tkeys
    have h2 := congrArg List.length hcw.ekeys
    simp at h1 h2 ⊢
    omega
  obtain ⟨eff, he⟩ := finite_vec hel (by
    intro x hx
    obtain ⟨e, hm, rfl⟩ := List.mem_map.mp hx
    exact heff c e hm)
  refine ⟨cn, fun j i => relOf (C j i i) (cn j i), eff, fun j => corrOf (C j), fun j => corrOf_posDef (hC j).pos,
    hlt, ?_, he, ?_⟩
  · have h1 := congrArg List.length hcw.tkeys
    unfold Channel.numTemplates
    simpa using h1.symm
  · refine ⟨fun j => s.w.tmpls ((s.w.chans c).templates[(j : ℕ)]).2, ?_, ?_⟩
    · unfold World.chanTmpls
      apply List.ext_getElem
      · simp
      · intro i h1 h2; simp
    · intro j
      have hm := List.getElem_mem (l := (s.w.chans c).templates) j.2
      obtain ⟨h1, h2, -, -⟩ := hcw.tmpl _ hm
      exact ⟨⟨(hC j).bins, (hC j).counts, (hC j).rel, congrArg List.prod h2⟩, (hC j).corr, (hC j).inv⟩

/-- the description of all channels, with the dimensions read off the objects -/
theorem model_described {s : Sys} (hw : SysWF s) (hcov : ∀ i < s.w.nTmpls, CovOk (s.w.tmpls i))
    (hfin : ∀ c ∈ s.m.chanIds, ∀ p ∈ (s.w.chans c).templates, FiniteTmpl (s.w.tmpls p.2))
    (heff : EffsFin s.w) (hpop : Populated s) : ∃ S : ℕ → ChanSpec, ModelIs s S := by
  have key : ∀ k, ∃ S : ChanSpec, ∀ hk : k < s.m.chanIds.length, 0 < S.K ∧ 0 < S.n ∧ (∀ j, (S.R j).PosDef) ∧
      ChanIs s.w s.m.chanIds[k] S.cnt S.ε S.eff S.R := by
    intro k
    by_cases hk : k < s.m.chanIds.length
    · have hm := List.getElem_mem hk
      obtain ⟨cnt, ε, eff, R, h1, h2⟩ := chan_described hw hcov hfin heff _ hm
      exact ⟨⟨_, _, cnt, ε, eff, R⟩, fun _ => ⟨List.length_pos_of_ne_nil (hpop _ hm).1, (hpop _ hm).2, h1, h2⟩⟩
    · exact ⟨⟨0, 0, Fin.elim0, Fin.elim0, Fin.elim0, Fin.elim0⟩, fun h => absurd h hk⟩
  choose S hS using key
  exact ⟨S, hS⟩

/-- **C84, models.** Every model built by a program with physical inputs, whose channels all have a template and
a bin, is described channel by channel by real numbers: nominal contents, relative errors, efficiencies and
positive definite correlation matrices. -/
theorem C84_models (ops : List Op) (hp : PhysicalProgram ops) (hpop : Populated (Sys.init.run ops)) :
    ∃ S : ℕ → ChanSpec, ModelIs (Sys.init.run ops) S := by
  have hw := run_wf init_wf ops
  refine model_described hw (init_covOk ops fun o ho => (hp o ho).1) ?_ (init_effs ops fun o ho => (hp o ho).1) hpop
  intro c hc p hpm
  exact (init_finite ops fun o ho => (hp o ho).2).2 _ ((hw.chan c (hw.lt c hc)).tmpl p hpm).1

/-- the data of a physical program are real numbers -/
theorem data_described (ops : List Op) (hp : PhysicalProgram ops) (S : ℕ → ChanSpec)
    (hS : ModelIs (Sys.init.run ops) S) (hd : DataEverywhere (Sys.init.run ops)) :
    ∃ d : ∀ k, Fin (S k).n → ℝ, DataIs (Sys.init.run ops) S d := by
  have hw := run_wf init_wf ops
  have key : ∀ k, ∃ d : Fin (S k).n → ℝ, ∀ hk : k < (Sys.init.run ops).m.chanIds.length,
      ∃ hid, ((Sys.init.run ops).w.chans (Sys.init.run ops).m.chanIds[k]).hdata = some hid ∧
        ((Sys.init.run ops).w.hists hid).counts.data = vec d := by
    intro k
    by_cases hk : k < (Sys.init.run ops).m.chanIds.length
    · have hm := List.getElem_mem hk
      obtain ⟨hid, h1, h2⟩ := hd _ hm
      obtain ⟨a, -, -, b⟩ := hS k hk
      rw [(chanIs_numBins hw hm a b).1] at h2
      have hlt := ((hw.chan _ (hw.lt _ hm)).data hid h1).1
      obtain ⟨d, hd⟩ := finite_vec h2 ((init_finite ops fun o ho => (hp o ho).2).1 hid hlt).1
      exact ⟨d, fun _ => ⟨hid, h1, hd⟩⟩
    · exact ⟨fun _ => 0, fun h => absurd h hk⟩
  choose d hd using key
  exact ⟨d, hd⟩

/-- **C54, every model.** For every program with physical inputs that adds templates and systematics before the
first evaluation, with populated channels and data: there are real numbers describing the model (`S`, with
positive definite correlations) and the data (`d`) such that the likelihood has the closed form of `C54_closed`
at *all* parameters for which the expectations are positive, no template's varied contents sum to zero and the
data are zero or not tiny. -/
theorem C54_reachable (ops : List Op) (hset : SetupFirst ops) (hp : PhysicalProgram ops) (s : Sys)
    (hs : s = Sys.init.run ops) (hne : s.m.channels ≠ []) (hpop : Populated s) (hdat : DataEverywhere s) :
    ∃ (S : ℕ → ChanSpec) (d : ∀ k, Fin (S k).n → ℝ), ModelIs s S ∧ DataIs s S d ∧
      ((∀ k < s.m.chanIds.length, ∀ i, d k i = 0 ∨ (1e-100 : ℝ) ≤ d k i) →
        ∀ V E : String → ℝ, ConstraintsAre s V E →
        ∀ (ν : String → ℝ) (θ : ∀ k, Fin (S k).K → Fin (S k).n → ℝ), NonZeroSums s S θ →
        (∀ k < s.m.chanIds.length, ∀ i, 0 < expectedIn s S ν θ k i ∨ (d k i = 0 ∧ expectedIn s S ν θ k i = 0)) →
        ∃ v : ℝ, (s.m.nll s.w (paramVec s S ν θ)).1 = .ok (.fin v) ∧ 0 ≤ v ∧
          v = ∑ k ∈ Finset.range s.m.channels.length,
              ((∑ i, if d k i = 0 then expectedIn s S ν θ k i
                else expectedIn s S ν θ k i - d k i - d k i * Real.log (expectedIn s S ν θ k i / d k i)) +
                1 / 2 * ∑ j, (θ k j) ⬝ᵥ (((S k).R j)⁻¹.mulVec (θ k j))) +
            (s.m.constrained.map fun p => (ν p - V p) ^ 2 / (2 * E p ^ 2)).sum) := by
  subst hs
  obtain ⟨S, hS⟩ := C84_models ops hp hpop
  obtain ⟨d, hd⟩ := data_described ops hp S hS hdat
  exact ⟨S, d, hS, hd, fun hpos V E hc ν θ hT hE =>
    C54_closed _ ⟨ops, hset, rfl⟩ hne S hS d hd hpos V E hc ν θ hT hE⟩

theorem physical_binned {c e : Fin 2 → ℝ} {ed : Edges} :
    FiniteData (.binned1 ⟨[2], vec c⟩ ed (some ⟨[2], vec e⟩)) := by
  constructor
  · intro x hx; obtain ⟨i, rfl⟩ := List.mem_ofFn.mp hx; exact ⟨_, rfl⟩
  · intro x hx; obtain ⟨i, rfl⟩ := List.mem_ofFn.mp hx; exact ⟨_, rfl⟩

/-- non-vacuity of C84 and `C54_reachable`: the two-channel example program -/
example : PhysicalProgram (Ex.ops0 ++ Ex.ops1) ∧ SetupFirst (Ex.ops0 ++ Ex.ops1) ∧
    Populated (Sys.init.run (Ex.ops0 ++ Ex.ops1)) ∧ DataEverywhere (Sys.init.run (Ex.ops0 ++ Ex.ops1)) ∧
    2 < (Sys.init.run (Ex.ops0 ++ Ex.ops1)).w.nTmpls := by
  refine ⟨?_, ?_, ?_, ?_, ?_⟩
  · intro o ho
    simp only [Ex.ops0, Ex.ops1, List.mem_append, List.mem_cons, List.not_mem_nil, or_false] at ho
    rcases ho with (rfl | rfl | rfl | rfl | rfl | rfl) | (rfl | rfl | rfl | rfl | rfl | rfl | rfl | rfl) <;>
      first
        | exact ⟨trivial, physical_binned⟩
        | exact ⟨trivial, trivial⟩
        | exact ⟨⟨_, rfl⟩, trivial⟩
  · refine setupFirst_of_before ?_
    intro pre o post e hs x hx
    have hm : x ∈ Ex.ops0 ++ Ex.ops1 := by rw [e]; simp [hx]
    simp only [Ex.ops0, Ex.ops1, List.mem_append, List.mem_cons, List.not_mem_nil, or_false] at hm
    rcases hm with (rfl | rfl | rfl | rfl | rfl | rfl) | (rfl | rfl | rfl | rfl | rfl | rfl | rfl | rfl) <;> exact id
  · rw [Ex.run1]
    intro c hc
    simp [Ex.sys1, Ex.m1, Mct.chanIds] at hc
    rcases hc with rfl | rfl <;> simp [Ex.sys1, Ex.w1, Ex.chA, Ex.chB]
  · rw [Ex.run1]
    intro c hc
    simp [Ex.sys1, Ex.m1, Mct.chanIds] at hc
    rcases hc with rfl | rfl <;> simp [Ex.sys1, Ex.w1, Ex.chA, Ex.chB, Ex.w0, Ex.bh, Hist.setBinned, vec_length]
  · rw [Ex.run1]; simp [Ex.sys1, Ex.w1, Ex.w0]

end

end TF.Props
