import Verif.Lemmas.Reach
import Verif.Lemmas.MctEval

set_option linter.unusedSimpArgs false

/-!
# Array dimensions of templates and when the likelihood can be evaluated
-/

namespace TF

open Classical Spec Props

noncomputable section

/-- all arrays of a template have the dimensions of its bins -/
structure Dims (t : Template) : Prop where
  len : t.flatCounts.length = t.numBins
  rel : t.relErr.length = t.numBins
  cov : t.cov.rows = t.numBins ∧ t.cov.cols = t.numBins
  inv : t.invCorr.rows = t.numBins ∧ t.invCorr.cols = t.numBins

theorem npInv_dims {A B : Mat} (h : npInv A = .ok B) : B.rows = A.rows ∧ B.cols = A.rows := by
  unfold npInv at h
  split at h
  · cases h
  · split at h
    · split at h
      · cases h
      · obtain rfl := Except.ok.inj h
        exact ⟨rfl, rfl⟩
    · obtain rfl := Except.ok.inj h
      exact ⟨rfl, rfl⟩

theorem relErrs_length {M : Mat} {c : Vec} (h : c.length = M.rows) : (relErrs M c).length = M.rows := by
  simp [relErrs, Mat.diag, h]

theorem cov2corr_rows (M : Mat) : (cov2corr M).rows = M.rows := by
  simp [cov2corr, Mat.mul, invStdDiag, Mat.diagOf, Mat.diag, Mat.map]

theorem addCov_dims {t : Template} (h : Dims t) (m : Mat) : Dims (t.addCov m).2 := by
  unfold Template.addCov
  split
  · simp only
    split
    · exact ⟨h.len, h.rel, h.cov, h.inv⟩
    · rename_i inv hinv
      have hd := npInv_dims hinv
      rw [cov2corr_rows] at hd
      have hr : (t.cov.add m).rows = t.numBins := h.cov.1
      refine ⟨h.len, ?_, ⟨hr, h.cov.2⟩, ?_⟩
      · show (relErrs (t.cov.add m) t.flatCounts).length = _
        rw [relErrs_length (by rw [h.len, hr]), hr]
      · exact ⟨hd.1.trans hr, hd.2.trans hr⟩
  · exact ⟨h.len, h.rel, h.cov, h.inv⟩

theorem apply_cov_dims {t : Template} (h : Dims t) (m : Mat) : Dims (t.apply (.addCovMat m)).2 := by
  simp only [Template.apply, Template.addCovMat]
  split
  · unfold Template1d.addCovMat
    split
    · exact h
    · exact addCov_dims h m
  · exact h

theorem apply_var_dims {t : Template} (h : Dims t) (hh : Hist) (x y : Vec) (up down : Weights) :
    Dims (t.apply (.addVariation hh x y up down)).2 := by
  simp only [Template.apply, Template.addVariation]
  split
  · unfold Template1d.addVariation
    repeat' split
    all_goals first | exact h | exact addCov_dims h _
  · unfold Template2d.addVariation
    repeat' split
    all_goals exact h

theorem new_dims {name : String} {hid : ℕ} {h : Hist} {t : Template} (ht : newTemplate name hid h = .ok t) :
    Dims t := by
  have key : ∀ cls n, Template.build cls name hid h n = .ok t → Dims t := by
    intro cls n hb
    unfold Template.build at hb
    split at hb
    · rename_i hl
      obtain rfl := Except.ok.inj hb
      have hr : (Mat.diagOf (statErrSq h.errSq.data)).rows = n := by simp [Mat.diagOf, statErrSq, hl.2]
      refine ⟨hl.1, ?_, ⟨hr, by simpa [Mat.diagOf] using hr⟩, by simp [Mat.diagOf]⟩
      show (relErrs _ _).length = n
      rw [relErrs_length (by rw [hr, hl.1]), hr]
    · cases hb
  unfold newTemplate at ht
  split at ht
  · unfold Template1d.new at ht
    split at ht
    · exact key _ _ ht
    · cases ht
  · unfold Template2d.new at ht
    split at ht
    · exact key _ _ ht
    · cases ht

theorem init_dims (ops : List Op) : ∀ i < (Sys.init.run ops).w.nTmpls, Dims ((Sys.init.run ops).w.tmpls i) := by
  induction ops using List.reverseRecOn with
  | nil => intro i hi; simp [Sys.run, Sys.init, World.init] at hi
  | append_singleton ops o ih =>
    rw [run_append]
    intro i hi
    by_cases hlt : i < (Sys.init.run ops).w.nTmpls
    · have h := ih i hlt
      show Dims (((Sys.init.run ops).step o).w.tmpls i)
      rcases step_move (Sys.init.run ops) o i hlt with ⟨p, e⟩ | ⟨m, -, e⟩ | ⟨x, y, up, down, -, e⟩
      · rw [e]; exact ⟨h.len, h.rel, h.cov, h.inv⟩
      · rw [e]; exact apply_cov_dims h m
      · rw [e]; exact apply_var_dims h _ _ _ _ _
    · obtain ⟨name, hid, -, e⟩ := step_new (Sys.init.run ops) o i hi hlt
      exact new_dims e

/-! ### evaluation -/

theorem bop_ok {f : Fl → Fl → Fl} {a b : Vec} (h : a.length = b.length) : bop f a b = .ok (List.zipWith f a b) := by
  unfold bop; rw [if_pos h]

theorem fractions_ok {t : Template} (h : Dims t) {p : Vec} (hp : p.length = t.numBins) :
    ∃ r, t.fractions p = .ok r ∧ r.length = t.numBins := by
  unfold Template.fractions binFractions
  rw [bop_ok (by rw [hp, h.rel])]
  simp only [bind, Except.bind, pure, Except.pure]
  rw [bop_ok (by simp [hp, h.rel, h.len])]
  exact ⟨_, rfl, by simp [hp, h.rel, h.len]⟩

theorem fractionRows_ok {n : ℕ} (ts : List Template) : ∀ ps : List Vec, (∀ t ∈ ts, Dims t ∧ t.numBins = n) →
    (∀ p ∈ ps, p.length = n) → ts.length = ps.length →
    ∃ rs, fractionRows ts ps = .ok rs ∧ rs.length = ts.length ∧ ∀ r ∈ rs, r.length = n := by
  induction ts with
  | nil => intro ps _ _ _; exact ⟨[], by simp [fractionRows], rfl, by simp⟩
  | cons t ts ih =>
    intro ps ht hp hl
    cases ps with
    | nil => simp at hl
    | cons p ps =>
      obtain ⟨r, h1, h2⟩ := fractions_ok (ht t (by simp)).1 (p := p) (by rw [hp p (by simp), (ht t (by simp)).2])
      obtain ⟨rs, h3, h4, h5⟩ := ih ps (fun t h => ht t (by simp [h])) (fun p h => hp p (by simp [h])) (by simpa using hl)
      refine ⟨r :: rs, by simp only [fractionRows, h1, h3], by simp [h4], ?_⟩
      intro q hq
      rcases List.mem_cons.mp hq with rfl | hq
      · rw [h2, (ht t (by simp)).2]
      · exact h5 q hq

theorem stackRows_ok {n : ℕ} {rs : List Vec} (hne : rs ≠ []) (h : ∀ r ∈ rs, r.length = n) :
    ∃ M, stackRows rs = .ok M ∧ M.rows = rs.length ∧ M.cols = n := by
  cases rs with
  | nil => exact absurd rfl hne
  | cons r rs =>
    have hh : ((r :: rs).headD []).length = n := h r (by simp)
    unfold stackRows
    simp only [hh]
    have : (r :: rs).all (fun q => decide (q.length = n)) = true := by
      rw [List.all_eq_true]; intro q hq; simpa using h q hq
    rw [if_pos this]
    exact ⟨_, rfl, rfl, rfl⟩

theorem vecMat_ok {v : Vec} {A : Mat} (h : v.length = A.rows) : ∃ r, vecMat v A = .ok r ∧ r.length = A.cols := by
  unfold vecMat; rw [if_pos h]; exact ⟨_, rfl, by simp⟩

theorem blockDiag_dims {n : ℕ} (Ms : List Mat) (h : ∀ M ∈ Ms, M.rows = n ∧ M.cols = n) :
    (blockDiag Ms).rows = Ms.length * n ∧ (blockDiag Ms).cols = Ms.length * n := by
  induction Ms with
  | nil => simp [blockDiag]
  | cons M Ms ih =>
    obtain ⟨h1, h2⟩ := ih fun M hM => h M (by simp [hM])
    obtain ⟨h3, h4⟩ := h M (by simp)
    simp only [blockDiag, h1, h2, h3, h4, List.length_cons]
    constructor <;> ring

/-- A channel object that is ready for evaluation except for its data: `K ≥ 1` templates with `n` bins -/
structure Ready (w : World) (c : ℕ) : Prop where
  ne : 0 < (w.chans c).numTemplates
  tl : (w.chans c).templates.length = (w.chans c).numTemplates
  el : (w.chans c).effs.length = (w.chans c).numTemplates
  dims : ∀ t ∈ w.chanTmpls c, Dims t ∧ t.numBins = (w.chans c).bins.prod

theorem gaussPure_iff {w : World} {c : ℕ} (h : Ready w c) (nui : Vec) :
    (nui.length = (w.chans c).numNui → ∃ g, gaussPure w c nui = .ok g) ∧
    (nui.length ≠ (w.chans c).numNui → gaussPure w c nui = .error .valueError) := by
  have hB := blockDiag_dims (n := (w.chans c).bins.prod) ((w.chanTmpls c).map (·.invCorr)) (by
    intro M hM
    obtain ⟨t, ht, rfl⟩ := List.mem_map.mp hM
    obtain ⟨h1, h2⟩ := h.dims t ht
    rw [← h2]; exact h1.inv)
  have hl : ((w.chanTmpls c).map (·.invCorr)).length = (w.chans c).numTemplates := by
    simp [World.chanTmpls, h.tl]
  rw [hl] at hB
  constructor
  · intro hn
    have hn' : nui.length = (blockDiag ((w.chanTmpls c).map (·.invCorr))).rows := by rw [hB.1, hn]; rfl
    obtain ⟨r, h1, h2⟩ := vecMat_ok hn'
    unfold gaussPure
    simp only [h1, dot]
    rw [if_pos (by rw [h2, hB.2, hn]; rfl)]
    exact ⟨_, rfl⟩
  · intro hn
    have hn' : ¬ nui.length = (blockDiag ((w.chanTmpls c).map (·.invCorr))).rows := by rw [hB.1]; exact hn
    unfold gaussPure vecMat
    rw [if_neg hn']

theorem expectedPure_ok {w : World} {c : ℕ} (h : Ready w c) {y nui : Vec}
    (hy : y.length = (w.chans c).numTemplates) (hn : nui.length = (w.chans c).numNui) :
    ∃ e, expectedPure w c y nui = .ok e ∧ e.length = (w.chans c).bins.prod := by
  unfold expectedPure
  rw [bop_ok (by simp [hy, h.el])]
  have hs := splitEq_blocks (l := nui) (k := (w.chans c).numTemplates) (N := (w.chans c).bins.prod) h.ne hn
  have htl : (w.chanTmpls c).length = (w.chans c).numTemplates := by simp [World.chanTmpls, h.tl]
  obtain ⟨ps, hps, hpl, hpp⟩ : ∃ ps, splitEq nui (w.chans c).numTemplates = .ok ps ∧
      ps.length = (w.chans c).numTemplates ∧ ∀ p ∈ ps, p.length = (w.chans c).bins.prod := by
    unfold splitEq
    have h0 : (w.chans c).numTemplates ≠ 0 := h.ne.ne'
    have hn2 : nui.length = (w.chans c).numTemplates * (w.chans c).bins.prod := hn
    have hmod : nui.length % (w.chans c).numTemplates = 0 := by rw [hn2]; simp
    have hdiv : nui.length / (w.chans c).numTemplates = (w.chans c).bins.prod := by
      rw [hn2]; exact Nat.mul_div_cancel_left _ h.ne
    rw [if_neg h0, if_neg (by simp [hmod])]
    refine ⟨_, rfl, by simp, ?_⟩
    intro p hp
    obtain ⟨k, hk, rfl⟩ := List.mem_map.mp hp
    have hk' := List.mem_range.mp hk
    rw [hdiv, List.length_take, List.length_drop, hn2]
    have : (k + 1) * (w.chans c).bins.prod ≤ (w.chans c).numTemplates * (w.chans c).bins.prod :=
      Nat.mul_le_mul_right _ hk'
    have e : (k + 1) * (w.chans c).bins.prod = k * (w.chans c).bins.prod + (w.chans c).bins.prod := by ring
    omega
  obtain ⟨rs, h1, h2, h3⟩ := fractionRows_ok (n := (w.chans c).bins.prod) (w.chanTmpls c) ps h.dims hpp (by omega)
  obtain ⟨M, h4, h5, h6⟩ := stackRows_ok (rs := rs) (by
    intro e; subst e; simp at h2; have := h.ne; omega) h3
  unfold World.chanFractions
  simp only [hps, h1, h4]
  have hv : (List.zipWith (· * ·) y ((w.chans c).effs.map (·.2))).length = M.rows := by
    simp [hy, h.el, h5, h2, htl]
  obtain ⟨e, he, hel⟩ := vecMat_ok hv
  exact ⟨e, he, by rw [hel, h6]⟩

theorem poissonTerm_ok {d e : Vec} (h : d.length = e.length) : ∃ p, poissonTerm d e = .ok p := by
  unfold poissonTerm
  rw [bop_ok h.symm]
  simp only [bind, Except.bind, pure, Except.pure]
  rw [bop_ok h]
  simp only
  rw [bop_ok (by simp [h])]
  exact ⟨_, rfl⟩

/-- with data, a channel contributes a number for nuisance vectors of exactly the right length, and raises
`ValueError` for every other length -/
theorem contribPure_iff {w : World} {c hid : ℕ} (h : Ready w c) (hd : (w.chans c).hdata = some hid)
    (hl : (w.hists hid).counts.data.length = (w.chans c).bins.prod) {y : Vec}
    (hy : y.length = (w.chans c).numTemplates) (nui : Vec) :
    (nui.length = (w.chans c).numNui → ∃ v, contribPure w c y nui = .ok v) ∧
    ((∃ v, contribPure w c y nui = .ok v) → nui.length = (w.chans c).numNui) := by
  constructor
  · intro hn
    obtain ⟨e, h1, h2⟩ := expectedPure_ok h hy hn
    obtain ⟨p, h3⟩ := poissonTerm_ok (d := (w.hists hid).counts.data) (e := e) (by rw [hl, h2])
    obtain ⟨g, h4⟩ := (gaussPure_iff h nui).1 hn
    unfold contribPure
    simp only [hd, h1, h3, h4]
    exact ⟨_, rfl⟩
  · rintro ⟨v, hv⟩
    by_contra hn
    have hg := (gaussPure_iff h nui).2 hn
    unfold contribPure at hv
    simp only [hd, hg] at hv
    split at hv
    · cases hv
    · split at hv <;> cases hv

/-! ### pieces of the nuisance vector -/

theorem splitIdxFrom_sum {α : Type} (a : List α) (ns : List ℕ) : ∀ (n acc : ℕ),
    ((splitIdxFrom a acc (cumsumFrom acc (n :: ns)).dropLast).map (·.length)).sum = a.length - acc ∧
    (splitIdxFrom a acc (cumsumFrom acc (n :: ns)).dropLast).length = ns.length + 1 := by
  induction ns with
  | nil =>
    intro n acc
    simp [cumsumFrom, splitIdxFrom]
  | cons k ns ih =>
    intro n acc
    have e : (cumsumFrom acc (n :: k :: ns)).dropLast =
        (acc + n) :: (cumsumFrom (acc + n) (k :: ns)).dropLast := by
      simp only [cumsumFrom, List.dropLast_cons_cons]
    rw [e]
    simp only [splitIdxFrom]
    obtain ⟨h1, h2⟩ := ih k (acc + n)
    constructor
    · simp only [List.map_cons, List.sum_cons, h1]
      simp
      omega
    · simp [h2]

theorem channelsPure_ok {w : World} (cs : List ℕ) : ∀ (ys ns : List Vec) (_ : ys.length = cs.length)
    (_ : ns.length = cs.length),
    ((∃ v, channelsPure w cs ys ns = .ok v) ↔
      ∀ k (h1 : k < cs.length) (h2 : k < ys.length) (h3 : k < ns.length), ∃ v, contribPure w cs[k] ys[k] ns[k] = .ok v) := by
  induction cs with
  | nil =>
    intro ys ns _ _
    simp [channelsPure]
  | cons c cs ih =>
    intro ys ns hy hn
    cases ys with
    | nil => simp at hy
    | cons y ys =>
      cases ns with
      | nil => simp at hn
      | cons n ns =>
        have ih' := ih ys ns (by simpa using hy) (by simpa using hn)
        constructor
        · rintro ⟨v, hv⟩
          unfold channelsPure at hv
          cases hc : contribPure w c y n with
          | error e => rw [hc] at hv; cases hv
          | ok u =>
            rw [hc] at hv
            simp only at hv
            cases hr : channelsPure w cs ys ns with
            | error e => rw [hr] at hv; cases hv
            | ok r =>
              intro k h1 h2 h3
              cases k with
              | zero => exact ⟨u, hc⟩
              | succ k => exact (ih'.mp ⟨r, hr⟩) k (by simpa using h1) (by simpa using h2) (by simpa using h3)
        · intro h
          obtain ⟨u, hu⟩ := h 0 (by simp) (by simp) (by simp)
          obtain ⟨r, hr⟩ := ih'.mpr fun k h1 h2 h3 => by
            exact h (k + 1) (Nat.succ_lt_succ h1) (Nat.succ_lt_succ h2) (Nat.succ_lt_succ h3)
          simp only [List.getElem_cons_zero] at hu
          unfold channelsPure
          rw [hu]
          simp only [hr]
          exact ⟨_, rfl⟩

theorem constraintSum_ok (m : Mct) (x : Vec) (hx : m.processes.length ≤ x.length) (ps : List String)
    (h : ∀ p ∈ ps, p ∈ m.processes ∧ p ∈ m.cvals.map (·.1) ∧ p ∈ m.cerrs.map (·.1)) :
    ∃ k, m.constraintSum x ps = .ok k := by
  induction ps with
  | nil => exact ⟨0, rfl⟩
  | cons p ps ih =>
    obtain ⟨k, hk⟩ := ih fun p hp => h p (by simp [hp])
    obtain ⟨h1, h2, h3⟩ := h p (by simp)
    have hlt : m.processes.idxOf p < x.length :=
      lt_of_lt_of_le (List.idxOf_lt_length_iff.mpr h1) hx
    obtain ⟨v, hv⟩ : ∃ v, dictGet m.cvals p = some v := by
      cases e : dictGet m.cvals p with
      | none => exact absurd h2 (dictGet_none.mp e)
      | some v => exact ⟨v, rfl⟩
    obtain ⟨e, he⟩ : ∃ v, dictGet m.cerrs p = some v := by
      cases e : dictGet m.cerrs p with
      | none => exact absurd h3 (dictGet_none.mp e)
      | some v => exact ⟨v, rfl⟩
    unfold Mct.constraintSum
    rw [if_neg (by simpa using h1)]
    simp only [List.getElem?_eq_getElem hlt, hv, he, hk]
    exact ⟨_, rfl⟩

end

end TF
