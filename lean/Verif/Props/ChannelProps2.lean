import Verif.Props.ChannelProps

set_option linter.unusedSimpArgs false

/-!
# Properties of `Channel` (C38–C42)
-/

namespace TF.Spec

/-- `r` is the integer nearest to `x`; of two equally near ones, the even one -/
def IsRint (x r : ℝ) : Prop := ∃ k : ℤ, r = k ∧ |x - k| ≤ 1 / 2 ∧ (|x - k| = 1 / 2 → Even k)

end TF.Spec

namespace TF.Props

open Classical Spec
open scoped Matrix

noncomputable section

/-! ## C38, C39: generated data sets -/

/-- every container of a range is a tuple -/
def AllTuple : PyRange → Prop
  | .d1 k _ _ => k = .tuple
  | .d2 k kx ky _ _ _ _ => k = .tuple ∧ kx = .tuple ∧ ky = .tuple

theorem getBinRange_of {e : Edges} {n : ℕ} {lo hi : ℝ} (hl : e.vals.length = n + 1)
    (h1 : e.vals.head? = some lo) (h2 : e.vals.getLastD 0 = hi) : getBinRange e = .ok (lo, hi) := by
  unfold getBinRange
  cases hv : e.vals with
  | nil => rw [hv] at hl; simp at hl
  | cons a l =>
    rw [hv] at h1 h2
    have : a = lo := by simpa using h1
    simp only [this]
    rw [← this, h2]

/-- what `from_binned_data` on the channel's own edges produces -/
theorem datasetFrom_spec {s : Sys} (hs : SysWF s) {c : ℕ} (hc : c < s.w.nChans)
    {p : String} {tid : ℕ} {rest : List (String × ℕ)}
    (ht : (s.w.chans c).templates = (p, tid) :: rest) (hb : ∀ n ∈ (s.w.chans c).bins, 1 ≤ n)
    (a : NdArr) :
    ∃ h, s.w.datasetFrom c a = .ok h ∧ h.counts = a ∧ h.errSq = (a.map Fl.sqrt).map Fl.sq ∧
      h.shape = (s.w.chans c).bins ∧ h.edges = (s.w.hists (s.w.tmpls tid).hist).edges ∧
      (h.range = (s.w.chans c).range ↔ AllTuple (s.w.chans c).range) := by
  have hcw := hs.chan c hc
  obtain ⟨h1, h2, h3, h4⟩ := hcw.tmpl (p, tid) (by rw [ht]; simp)
  have htw := hs.tmpl tid h1
  have hhw := hs.hist _ htw.hist
  have hbins : (s.w.hists (s.w.tmpls tid).hist).shape = (s.w.chans c).bins := by rw [← htw.bins]; exact h2
  have hrange : (s.w.hists (s.w.tmpls tid).hist).range = (s.w.chans c).range := by
    rw [← htw.range]; exact h3
  generalize hh : s.w.hists (s.w.tmpls tid).hist = h0 at *
  obtain ⟨hsh, hk⟩ := hhw
  rcases hcw.types with ⟨t1, t2⟩ | ⟨t1, t2⟩ | ⟨t1, t2⟩
  · rw [t1] at h4; simp at h4
  · rw [t1] at h4
    have hcl : h0.cls = .h1 := by
      rcases htw.cls with ⟨_, b⟩ | ⟨b, _⟩
      · rw [hh] at b; exact b
      · simp only at h4; rw [b] at h4; simp at h4
    rcases hk with ⟨-, n, e, k, lo, hi, g1, g2, g3, g4, g5, g6⟩ | ⟨b, _⟩
    · have hbn : (s.w.chans c).bins = [n] := by rw [← hbins, hsh, g1]
      have hn : 1 ≤ n := hb n (by rw [hbn]; simp)
      have hr := getBinRange_of g3 g5 (g6 hn)
      refine ⟨(Hist.blank .h1 [e] [e.vals.length - 1] (.d1 .tuple lo hi)).setBinned a (some (a.map Fl.sqrt)),
        ?_, rfl, rfl, ?_, ?_, ?_⟩
      · unfold World.datasetFrom
        simp only [t2, ht, hh, g2, List.getD_cons_zero, Hist1d.fromBinned, Hist1d.init, hr]
      · simp [Hist.setBinned, Hist.blank, hbn, g3]
      · simp [Hist.setBinned, Hist.blank, g2]
      · rw [← hrange, g4]
        simp only [Hist.setBinned, Hist.blank, AllTuple]
        constructor
        · intro h; injection h with h _ _; exact h.symm
        · intro h; rw [h]
    · rw [hcl] at b; simp at b
  · rw [t1] at h4
    have hcl : h0.cls = .h2 := by
      rcases htw.cls with ⟨b, _⟩ | ⟨_, b⟩
      · simp only at h4; rw [b] at h4; simp at h4
      · rw [hh] at b; exact b
    rcases hk with ⟨b, _⟩ | ⟨-, nx, ny, ex, ey, k, kx, ky, xlo, xhi, ylo, yhi, g1, g2, g3, g3', g4, g5, g5', g6, g6'⟩
    · rw [hcl] at b; simp at b
    · have hbn : (s.w.chans c).bins = [nx, ny] := by rw [← hbins, hsh, g1]
      have hr := getBinRange_of g3 g5 (g6 (hb nx (by rw [hbn]; simp)))
      have hr' := getBinRange_of g3' g5' (g6' (hb ny (by rw [hbn]; simp)))
      refine ⟨(Hist.blank .h2 [ex, ey] [ex.vals.length - 1, ey.vals.length - 1]
        (.d2 .tuple .tuple .tuple xlo xhi ylo yhi)).setBinned a (some (a.map Fl.sqrt)),
        ?_, rfl, rfl, ?_, ?_, ?_⟩
      · unfold World.datasetFrom
        simp only [t2, ht, hh, g2, List.getD_cons_zero, List.getD_cons_succ, Hist2d.fromBinned, Hist2d.init,
          hr, hr']
      · simp [Hist.setBinned, Hist.blank, hbn, g3, g3']
      · simp [Hist.setBinned, Hist.blank, g2]
      · rw [← hrange, g4]
        simp only [Hist.setBinned, Hist.blank, AllTuple]
        constructor
        · intro h; injection h with a1 a2 a3; exact ⟨a1.symm, a2.symm, a3.symm⟩
        · rintro ⟨a1, a2, a3⟩; rw [a1, a2, a3]

theorem asimov_dataset {w : World} {c : ℕ} {i : Bool} {h : Hist} (hh : w.asimov c i = .ok h) :
    ∃ a, w.datasetFrom c a = .ok h := by
  unfold World.asimov at hh
  split at hh
  · simp at hh
  · exact ⟨_, hh⟩

theorem toy_dataset {w : World} {c : ℕ} {d : Vec → ℕ → ℕ} {h : Hist} (hh : w.toy c d = .ok h) :
    ∃ a, w.datasetFrom c a = .ok h := by
  unfold World.toy at hh
  split at hh
  · simp at hh
  · split at hh
    · exact ⟨_, hh⟩
    · simp at hh

/-- **C38 (partial).** In every reachable model: an Asimov or toy data set of a channel (with at least
one template and at least one bin per axis) is accepted by `add_data` of that channel exactly when the channel's range was
given as tuple(s). Missing: channels whose range was given as list, see `C38_refuted`. -/
theorem C38_accepted_partial (s : Sys) (hs : s.Reachable) (ch : String) (c : ℕ)
    (hc : (ch, c) ∈ s.m.channels) (ht : (s.w.chans c).templates ≠ [])
    (hb : ∀ n ∈ (s.w.chans c).bins, 1 ≤ n) (h : Hist)
    (hh : (∃ i, s.w.asimov c i = .ok h) ∨ ∃ draw, s.w.toy c draw = .ok h) (hid : ℕ) :
    (((s.w.chans c).addData hid h).1 = .ok () ↔ AllTuple (s.w.chans c).range) ∧
    (AllTuple (s.w.chans c).range → ((s.w.chans c).addData hid h).2.hdata = some hid) := by
  have hwf := reachable_wf hs
  have hlt := hwf.chLt _ hc
  obtain ⟨⟨p, tid⟩, rest, ht'⟩ := List.exists_cons_of_ne_nil ht
  have : ∃ a, s.w.datasetFrom c a = .ok h := by
    rcases hh with ⟨i, hi⟩ | ⟨d, hd⟩
    · exact asimov_dataset hi
    · exact toy_dataset hd
  obtain ⟨a, ha⟩ := this
  obtain ⟨h', e1, e2, e3, e4, e5, e6⟩ := datasetFrom_spec hwf hlt ht' hb a
  rw [ha] at e1
  have := Except.ok.inj e1
  subst this
  have key : (s.w.chans c).checkHist h ↔ AllTuple (s.w.chans c).range := by
    unfold Channel.checkHist
    rw [← e6]
    constructor
    · rintro ⟨_, q⟩; exact q.symm
    · intro q; exact ⟨e4.symm, q.symm⟩
  unfold Channel.addData
  by_cases hk : (s.w.chans c).checkHist h
  · rw [if_pos hk]; exact ⟨⟨fun _ => key.mp hk, fun _ => rfl⟩, fun _ => rfl⟩
  · rw [if_neg hk]
    exact ⟨⟨fun q => by simp at q, fun q => absurd (key.mpr q) hk⟩, fun q => absurd (key.mpr q) hk⟩

/-- the pieces of `frac`, for a whole list of templates -/
theorem sumValues_ofFn {K n : ℕ} (hK : 0 < K) (T : Fin K → Template) (cnt ε : Fin K → Fin n → ℝ)
    (y : Fin K → ℝ) (θ : Fin K → Fin n → ℝ) (bins : List ℕ) (hbins : ∀ k, (T k).bins = bins)
    (hs : ∀ k, HasShape (T k) (cnt k) (ε k)) (hp : ∀ k, HasParams (T k) (y k) (θ k))
    (hT : ∀ k, ∑ j, varied (cnt k) (ε k) (θ k) j ≠ 0) :
    sumValues (List.ofFn T) = .ok ⟨bins, vec fun i => ∑ k, y k * frac (cnt k) (ε k) (θ k) i⟩ := by
  induction K with
  | zero => omega
  | succ K ih =>
    have hv := values_vec (hs 0) (hp 0) (hT 0)
    rw [hbins 0] at hv
    rw [List.ofFn_succ]
    cases K with
    | zero =>
      simp only [List.ofFn_zero, sumValues, hv]
      congr 3
      funext i
      rw [Fin.sum_univ_succ, Finset.univ_eq_empty, Finset.sum_empty, add_zero]
    | succ K =>
      have := ih (Nat.succ_pos _) (fun k => T k.succ) (fun k => cnt k.succ) (fun k => ε k.succ)
        (fun k => y k.succ) (fun k => θ k.succ) (fun k => hbins _) (fun k => hs _) (fun k => hp _)
        (fun k => hT _)
      have hne : ∃ t ts, (List.ofFn fun k : Fin (K + 1) => T k.succ) = t :: ts := by
        rw [List.ofFn_succ]; exact ⟨_, _, rfl⟩
      obtain ⟨t, ts, he⟩ := hne
      rw [he] at this ⊢
      simp only [sumValues, hv, this, NdArr.iadd]
      rw [if_pos ⟨trivial, by simp [vec_length]⟩]
      rw [zipWith_vec _ _ _ (fun i => ∑ k, y k * frac (cnt k) (ε k) (θ k) i)]
      intro i
      rw [Fl.fin_add, Fin.sum_univ_succ (fun k => y k * frac (cnt k) (ε k) (θ k) i)]

theorem isRint_iff (x r : ℝ) : IsRint x r ↔ r = Fl.rintR x := by
  have hf1 := Int.floor_le x
  have hf2 := Int.lt_floor_add_one x
  constructor
  · rintro ⟨k, rfl, h1, h2⟩
    rw [abs_le] at h1
    unfold Fl.rintR
    have hk : k = ⌊x⌋ ∨ k = ⌊x⌋ + 1 := by
      have a1 : (k : ℝ) < ((⌊x⌋ + 2 : ℤ) : ℝ) := by push_cast; linarith
      have a2 : ((⌊x⌋ - 1 : ℤ) : ℝ) < k := by push_cast; linarith
      have := Int.cast_lt.mp a1
      have := Int.cast_lt.mp a2
      omega
    rcases hk with rfl | rfl
    · split_ifs with q1 q2 q3
      · rfl
      · exact absurd h1.2 (not_le.mpr q2)
      · rfl
      · exfalso
        exact q3 (h2 (by rw [abs_of_nonneg (by linarith)]; linarith))
    · push_cast at h1 h2 ⊢
      split_ifs with q1 q2 q3
      · linarith
      · rfl
      · exfalso
        have he := h2 (by rw [abs_of_nonpos (by linarith)]; linarith)
        exact (Int.not_even_iff_odd.mpr (Even.add_one q3)) he
      · rfl
  · rintro rfl
    unfold Fl.rintR
    split_ifs with q1 q2 q3
    · exact ⟨⌊x⌋, rfl, by rw [abs_of_nonneg (by linarith)]; linarith, fun h => by
        rw [abs_of_nonneg (by linarith)] at h; linarith⟩
    · refine ⟨⌊x⌋ + 1, by push_cast; rfl, ?_, fun h => ?_⟩
      · push_cast; rw [abs_of_nonpos (by linarith)]; linarith
      · push_cast at h; rw [abs_of_nonpos (by linarith)] at h; linarith
    · exact ⟨⌊x⌋, rfl, by rw [abs_of_nonneg (by linarith)]; linarith, fun _ => q3⟩
    · refine ⟨⌊x⌋ + 1, by push_cast; rfl, ?_, fun _ => Odd.add_one (Int.not_even_iff_odd.mp q3)⟩
      push_cast; rw [abs_of_nonpos (by linarith)]; linarith

/-- **C39 (rounding).** With `integer_values=True` each content is replaced by the nearest integer, ties by the even one. -/
theorem C39_rounding (x r : ℝ) : Fl.rint (.fin x) = .fin r ↔ IsRint x r := by
  rw [isRint_iff, Fl.rint_fin]
  constructor
  · intro h; exact (Fl.fin.inj h).symm
  · rintro rfl; rfl

/-- **C39.** In every reachable model: the Asimov data set of a channel whose template `k` has nominal
contents `cnt k`, relative errors `ε k`, yield `y k` and nuisance parameters `θ k`. -/
theorem C39_asimov {K n : ℕ} (s : Sys) (hs : s.Reachable) (ch : String) (c : ℕ)
    (hc : (ch, c) ∈ s.m.channels) (hb : ∀ n ∈ (s.w.chans c).bins, 1 ≤ n) (hK : 0 < K)
    (T : Fin K → Template) (hT : s.w.chanTmpls c = List.ofFn T) (cnt ε : Fin K → Fin n → ℝ)
    (y : Fin K → ℝ) (θ : Fin K → Fin n → ℝ)
    (hsh : ∀ k, HasShape (T k) (cnt k) (ε k)) (hp : ∀ k, HasParams (T k) (y k) (θ k))
    (hS : ∀ k, ∑ j, cnt k j * (1 + θ k j * ε k j) ≠ 0) (integer : Bool) :
    ∃ (h : Hist) (a : Fin n → ℝ), s.w.asimov c integer = .ok h ∧
      (∀ i, a i = ∑ k, y k * (cnt k i * (1 + θ k i * ε k i) / ∑ j, cnt k j * (1 + θ k j * ε k j))) ∧
      h.counts.data = vec (fun i => if integer then Fl.rintR (a i) else a i) ∧
      ((∀ i, 0 ≤ a i) → h.binErrors.data =
        vec fun i => Real.sqrt (if integer then Fl.rintR (a i) else a i)) ∧
      h.shape = (s.w.chans c).bins := by
  have hwf := reachable_wf hs
  have hlt := hwf.chLt _ hc
  have hcw := hwf.chan c hlt
  have hlen : (s.w.chans c).templates.length = K := by
    have := congrArg List.length hT
    simpa [World.chanTmpls] using this
  obtain ⟨⟨p, tid⟩, rest, ht'⟩ : ∃ q rest, (s.w.chans c).templates = q :: rest := by
    apply List.exists_cons_of_ne_nil
    intro h; rw [h] at hlen; simp at hlen; omega
  have hbins : ∀ k, (T k).bins = (s.w.chans c).bins := by
    intro k
    have hm : T k ∈ s.w.chanTmpls c := by rw [hT]; exact List.mem_ofFn.mpr ⟨k, rfl⟩
    unfold World.chanTmpls at hm
    obtain ⟨q, hq, e⟩ := List.mem_map.mp hm
    rw [← e]; exact (hcw.tmpl q hq).2.1
  have hsum := sumValues_ofFn hK T cnt ε y θ _ hbins hsh hp hS
  set a : Fin n → ℝ := fun i => ∑ k, y k * frac (cnt k) (ε k) (θ k) i with ha
  obtain ⟨h, e1, e2, e3, e4, -, -⟩ := datasetFrom_spec hwf hlt ht' hb
    (if integer then NdArr.map Fl.rint ⟨(s.w.chans c).bins, vec a⟩ else ⟨(s.w.chans c).bins, vec a⟩)
  have hdat : h.counts.data = vec (fun i => if integer then Fl.rintR (a i) else a i) := by
    rw [e2]
    cases integer with
    | false => simp
    | true => simpa [NdArr.map] using map_vec a Fl.rint (fun i => Fl.rintR (a i)) (fun i => rfl)
  refine ⟨h, a, ?_, fun i => rfl, hdat, ?_, e4⟩
  · unfold World.asimov
    rw [hT, hsum]
    exact e1
  · intro hnn
    have hnn' : ∀ i, 0 ≤ (if integer then Fl.rintR (a i) else a i) := by
      intro i
      cases integer with
      | false => exact hnn i
      | true =>
        simp only [if_true]
        have h0 : (0:ℝ) ≤ ⌊a i⌋ := by exact_mod_cast Int.floor_nonneg.mpr (hnn i)
        unfold Fl.rintR
        split_ifs <;> linarith
    unfold Hist.binErrors
    rw [e3]
    rw [e2] at hdat
    show (((_ : List Fl).map Fl.sqrt).map Fl.sq).map Fl.sqrt = _
    rw [hdat]
    rw [map_vec _ Fl.sqrt _ (fun i => Fl.sqrt_fin (hnn' i)), map_vec _ Fl.sq _ (fun i => Fl.sq_fin _),
      map_vec _ Fl.sqrt _ (fun i => Fl.sqrt_fin (sq_nonneg _))]
    congr 1
    funext i
    rw [Real.sqrt_sq (Real.sqrt_nonneg _)]

/-- **C39**, nothing is changed: generating an Asimov data set and storing it as data leaves every
template object, every existing histogram object and everything else of the channels unchanged. -/
theorem C39_pure (s : Sys) (integer : Bool) :
    (s.step (.addAsimov integer)).w.tmpls = s.w.tmpls ∧
    (∀ i < s.w.nHists, (s.step (.addAsimov integer)).w.hists i = s.w.hists i) ∧
    (∀ c, { (s.step (.addAsimov integer)).w.chans c with hdata := none } =
      { s.w.chans c with hdata := none }) ∧ (s.step (.addAsimov integer)).m = s.m := by
  have key : ∀ (l : List (String × Hist)) (w : World), (s.m.addDatasets w l).2.tmpls = w.tmpls ∧
      w.nHists ≤ (s.m.addDatasets w l).2.nHists ∧
      (∀ i < w.nHists, (s.m.addDatasets w l).2.hists i = w.hists i) ∧
      ∀ c, { (s.m.addDatasets w l).2.chans c with hdata := none } = { w.chans c with hdata := none } := by
    intro l
    induction l with
    | nil => intro w; exact ⟨rfl, le_refl _, fun _ _ => rfl, fun _ => rfl⟩
    | cons q l ih =>
      intro w
      obtain ⟨ch, h⟩ := q
      have hn : ∀ i < w.nHists, (w.newHist h).2.hists i = w.hists i := by
        intro i hi
        have : i ≠ w.nHists := by omega
        simp [World.newHist, Function.update_of_ne this]
      have hle : w.nHists ≤ (w.newHist h).2.nHists := Nat.le_succ _
      simp only [Mct.addDatasets]
      cases hd : dictGet s.m.channels ch with
      | none => exact ⟨rfl, hle, hn, fun _ => rfl⟩
      | some c =>
        simp only
        have ha : ∀ c', { ((w.newHist h).2.addData c (w.newHist h).1).2.chans c' with hdata := none } =
            { w.chans c' with hdata := none } := by
          intro c'
          simp only [World.addData, World.setChan]
          by_cases e : c' = c
          · subst e
            simp only [Function.update_self, Channel.addData]
            split <;> rfl
          · rw [Function.update_of_ne e]; rfl
        have hf : ((w.newHist h).2.addData c (w.newHist h).1).2.tmpls = w.tmpls ∧
            ((w.newHist h).2.addData c (w.newHist h).1).2.hists = (w.newHist h).2.hists ∧
            ((w.newHist h).2.addData c (w.newHist h).1).2.nHists = (w.newHist h).2.nHists := ⟨rfl, rfl, rfl⟩
        generalize (w.newHist h).2.addData c (w.newHist h).1 = r at ha hf ⊢
        obtain ⟨r1, w1⟩ := r
        simp only at ha hf
        obtain ⟨f1, f2, f3⟩ := hf
        cases r1 with
        | error e =>
          exact ⟨f1, by rw [f3]; exact hle, fun i hi => by rw [f2]; exact hn i hi, ha⟩
        | ok u =>
          obtain ⟨i1, i2, i3, i4⟩ := ih w1
          refine ⟨i1.trans f1, by rw [f3] at i2; exact le_trans hle i2, ?_, fun c' => (i4 c').trans (ha c')⟩
          intro i hi
          simp only
          rw [i3 i (by rw [f3]; omega), f2]; exact hn i hi
  simp only [Sys.step]
  split
  · exact ⟨rfl, fun _ _ => rfl, fun _ => rfl, rfl⟩
  · obtain ⟨a, _, b, d⟩ := key ‹_› s.w
    exact ⟨a, b, d, rfl⟩

/-! ## C42 -/

/-- **C42.** -/
theorem C42_propagated {m n : ℕ} (jac cov : Mat) (J : Matrix (Fin m) (Fin n) ℝ)
    (C : Matrix (Fin n) (Fin n) ℝ) (hJ : IsReal jac J) (hC : IsReal cov C) (hpsd : C.PosSemidef) :
    ∃ P : Matrix (Fin m) (Fin m) ℝ, IsReal (propagateCov jac cov) P ∧ P = J * C * Jᵀ ∧ P.PosSemidef ∧
      Pᵀ = P ∧ ∃ u : Fin m → ℝ, postFitBinUncertainty jac cov = vec u ∧ (∀ i, 0 ≤ u i) ∧
        ∀ i, u i ^ 2 = (J * C * Jᵀ) i i := by
  have h1 : IsReal (propagateCov jac cov) (J * C * Jᵀ) := (hJ.mul hC).mul hJ.transpose
  have h2 : (J * C * Jᵀ).PosSemidef := by
    have := hpsd.mul_mul_conjTranspose_same J
    rwa [Matrix.conjTranspose_eq_transpose_of_trivial] at this
  refine ⟨_, h1, rfl, h2, ?_, fun i => Real.sqrt ((J * C * Jᵀ) i i), ?_, fun i => Real.sqrt_nonneg _,
    fun i => Real.sq_sqrt h2.diag_nonneg⟩
  · have := h2.isHermitian
    rwa [Matrix.IsHermitian, Matrix.conjTranspose_eq_transpose_of_trivial] at this
  · unfold postFitBinUncertainty
    rw [isReal_diag h1]
    exact map_vec _ _ _ (fun i => Fl.sqrt_fin h2.diag_nonneg)

/-- non-vacuity of C42 -/
example : IsReal (Mat.ofMatrix !![1, 2; 0, 1]) !![(1:ℝ), 2; 0, 1] ∧
    (1 : Matrix (Fin 2) (Fin 2) ℝ).PosSemidef := ⟨isReal_ofMatrix _, Matrix.PosSemidef.one⟩

end

end TF.Props
