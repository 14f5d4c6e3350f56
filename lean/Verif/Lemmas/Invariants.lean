import Verif.Lemmas.Frames
import Verif.Props.TemplateProps2

set_option linter.unusedSimpArgs false

/-! Well-formedness invariants of every reachable program state. -/

namespace TF

open Classical Props

noncomputable section

/-! ### dictionaries -/

theorem dictSet_new {κ ν : Type} [DecidableEq κ] (d : List (κ × ν)) (k : κ) (v : ν)
    (h : k ∉ d.map (·.1)) : dictSet d k v = d ++ [(k, v)] := by
  induction d with
  | nil => rfl
  | cons a d ih =>
    obtain ⟨k', v'⟩ := a
    simp only [List.map_cons, List.mem_cons, not_or] at h
    simp only [dictSet, if_neg (Ne.symm h.1), ih h.2, List.cons_append]

theorem dictSet_keys_old {κ ν : Type} [DecidableEq κ] (d : List (κ × ν)) (k : κ) (v : ν)
    (h : k ∈ d.map (·.1)) : (dictSet d k v).map (·.1) = d.map (·.1) := by
  induction d with
  | nil => simp at h
  | cons a d ih =>
    obtain ⟨k', v'⟩ := a
    simp only [dictSet]
    split
    · rename_i e; subst e; rfl
    · rename_i e
      simp only [List.map_cons, List.mem_cons] at h
      rcases h with h | h
      · exact absurd h.symm e
      · simp [ih h]

theorem dictSet_mem {κ ν : Type} [DecidableEq κ] (d : List (κ × ν)) (k : κ) (v : ν) (x : κ × ν)
    (h : x ∈ dictSet d k v) : x = (k, v) ∨ x ∈ d := by
  induction d with
  | nil => left; simpa [dictSet] using h
  | cons a d ih =>
    obtain ⟨k', v'⟩ := a
    simp only [dictSet] at h
    split at h
    · rcases List.mem_cons.mp h with h | h
      · left; exact h
      · right; simp [h]
    · rcases List.mem_cons.mp h with h | h
      · right; simp [h]
      · rcases ih h with h | h
        · left; exact h
        · right; simp [h]

theorem dictGet_mem {κ ν : Type} [DecidableEq κ] {d : List (κ × ν)} {k : κ} {v : ν}
    (h : dictGet d k = some v) : (k, v) ∈ d := by
  induction d with
  | nil => simp [dictGet] at h
  | cons a d ih =>
    obtain ⟨k', v'⟩ := a
    simp only [dictGet] at h
    split at h
    · rename_i e; subst e; simp at h; subst h; simp
    · exact List.mem_cons_of_mem _ (ih h)

theorem dictGet_of_mem {κ ν : Type} [DecidableEq κ] {d : List (κ × ν)} {k : κ} {v : ν}
    (hn : (d.map (·.1)).Nodup) (h : (k, v) ∈ d) : dictGet d k = some v := by
  induction d with
  | nil => simp at h
  | cons a d ih =>
    obtain ⟨k', v'⟩ := a
    simp only [List.map_cons, List.nodup_cons] at hn
    simp only [dictGet]
    rcases List.mem_cons.mp h with h | h
    · simp at h; rw [if_pos h.1.symm, h.2]
    · rw [if_neg]
      · exact ih hn.2 h
      · rintro rfl
        exact hn.1 (List.mem_map.mpr ⟨_, h, rfl⟩)

theorem dictGet_none {κ ν : Type} [DecidableEq κ] {d : List (κ × ν)} {k : κ} :
    dictGet d k = none ↔ k ∉ d.map (·.1) := by
  induction d with
  | nil => simp [dictGet]
  | cons a d ih =>
    obtain ⟨k', v'⟩ := a
    simp only [dictGet, List.map_cons, List.mem_cons, not_or]
    split
    · rename_i e; subst e; simp
    · rename_i e; rw [ih]; exact ⟨fun h => ⟨Ne.symm e, h⟩, fun h => h.2⟩

theorem dictGet_set {κ ν : Type} [DecidableEq κ] (d : List (κ × ν)) (k : κ) (v : ν) :
    dictGet (dictSet d k v) k = some v := by
  induction d with
  | nil => simp [dictSet, dictGet]
  | cons a d ih =>
    obtain ⟨k', v'⟩ := a
    simp only [dictSet]
    split
    · simp [dictGet]
    · rename_i e; simp [dictGet, e, ih]

theorem dictGet_set_ne {κ ν : Type} [DecidableEq κ] (d : List (κ × ν)) (k k2 : κ) (v : ν) (h : k2 ≠ k) :
    dictGet (dictSet d k v) k2 = dictGet d k2 := by
  induction d with
  | nil => simp [dictSet, dictGet, Ne.symm h]
  | cons a d ih =>
    obtain ⟨k', v'⟩ := a
    simp only [dictSet]
    split
    · rename_i e; subst e; simp [dictGet, Ne.symm h]
    · simp only [dictGet, ih]

/-! ### histograms -/

/-- A histogram object: shape equals the bin numbers, edges and range fit together (the last edge is
the upper limit if there is a bin at all). -/
def HistWF (h : Hist) : Prop :=
  h.shape = h.numBins ∧
  ((h.cls = .h1 ∧ ∃ n e k lo hi, h.numBins = [n] ∧ h.edges = [e] ∧ e.vals.length = n + 1 ∧
      h.range = .d1 k lo hi ∧ e.vals.head? = some lo ∧ (1 ≤ n → e.vals.getLastD 0 = hi)) ∨
   (h.cls = .h2 ∧ ∃ nx ny ex ey k kx ky xlo xhi ylo yhi, h.numBins = [nx, ny] ∧ h.edges = [ex, ey] ∧
      ex.vals.length = nx + 1 ∧ ey.vals.length = ny + 1 ∧
      h.range = .d2 k kx ky xlo xhi ylo yhi ∧ ex.vals.head? = some xlo ∧ ey.vals.head? = some ylo ∧
      (1 ≤ nx → ex.vals.getLastD 0 = xhi) ∧ (1 ≤ ny → ey.vals.getLastD 0 = yhi)))

theorem linspace_head (lo hi : ℝ) (n : ℕ) : (linspace lo hi (n + 1)).head? = some lo := by
  simp [linspace, List.range_succ_eq_map]

theorem linspace_last (lo hi : ℝ) (n : ℕ) (h : 1 ≤ n) : (linspace lo hi (n + 1)).getLastD 0 = hi := by
  have hn : (n : ℝ) ≠ 0 := by exact_mod_cast (by omega : n ≠ 0)
  simp [linspace, List.range_succ]
  field_simp
  ring

theorem histWF_of_frame {h h' : Hist} (hw : HistWF h) (h1 : h'.numBins = h.numBins)
    (h2 : h'.edges = h.edges) (h3 : h'.shape = h.shape) (h4 : h'.range = h.range) (h5 : h'.cls = h.cls) :
    HistWF h' := by
  unfold HistWF; rw [h1, h2, h3, h4, h5]; exact hw

theorem fill_wf {h : Hist} (hw : HistWF h) (x y : Vec) (w : Weights) : HistWF (h.fill x y w).2 := by
  obtain ⟨a, b, c, d, e⟩ := fill_frame h x y w
  exact histWF_of_frame hw a b c d e

theorem uniform1_wf {n : ℤ} {r : Option PyRange} {h : Hist} (hh : uniform1 n r = .ok h) : HistWF h := by
  unfold uniform1 at hh
  split at hh
  · split at hh
    · simp at hh
    · have := Except.ok.inj hh
      subst this
      exact ⟨rfl, Or.inl ⟨rfl, _, _, _, _, _, rfl, rfl, by simp [linspace_length], rfl, linspace_head _ _ _,
        fun hn => linspace_last _ _ _ hn⟩⟩
  · simp at hh

theorem init1_wf {b : Bins1} {r : Option PyRange} {h : Hist} (hh : Hist1d.init b r = .ok h) : HistWF h := by
  unfold Hist1d.init at hh
  split at hh
  · exact uniform1_wf hh
  · simp at hh
  · exact uniform1_wf hh
  · rename_i e
    unfold getBinRange at hh
    cases hv : e.vals with
    | nil => simp [hv] at hh
    | cons a l =>
      simp only [hv] at hh
      have := Except.ok.inj hh
      subst this
      exact ⟨rfl, Or.inl ⟨rfl, l.length, e, _, _, _, by simp [Hist.blank], rfl, by simp [hv], rfl,
        by simp [hv], fun _ => by rw [hv]⟩⟩

theorem init2_wf {b : Bins2} {r : Option PyRange} {h : Hist} (hh : Hist2d.init b r = .ok h) : HistWF h := by
  unfold Hist2d.init at hh
  split at hh
  · split at hh
    · split at hh
      · simp at hh
      · have := Except.ok.inj hh
        subst this
        exact ⟨rfl, Or.inr ⟨rfl, _, _, _, _, _, _, _, _, _, _, _, rfl, rfl, by simp [linspace_length],
          by simp [linspace_length], rfl, linspace_head _ _ _, linspace_head _ _ _,
          fun hn => linspace_last _ _ _ hn, fun hn => linspace_last _ _ _ hn⟩⟩
    · simp at hh
  · rename_i ex ey
    unfold getBinRange at hh
    cases hx : ex.vals with
    | nil => simp [hx] at hh
    | cons a l =>
      cases hy : ey.vals with
      | nil => simp [hx, hy] at hh
      | cons b k =>
        simp only [hx, hy] at hh
        have := Except.ok.inj hh
        subst this
        exact ⟨rfl, Or.inr ⟨rfl, l.length, k.length, ex, ey, _, _, _, _, _, _, _, by simp [Hist.blank], rfl,
          by simp [hx], by simp [hy], rfl, by simp [hx], by simp [hy], fun _ => by rw [hx], fun _ => by rw [hy]⟩⟩

theorem new1_wf {b : Bins1} {r : Option PyRange} {d : Option Vec} {w : Weights} {h : Hist}
    (hh : Hist1d.new b r d w = .ok h) : HistWF h := by
  unfold Hist1d.new at hh
  split at hh
  · simp at hh
  · rename_i h0 h0e
    have hw := init1_wf h0e
    split at hh
    · have := Except.ok.inj hh; subst this; exact hw
    · rename_i dd
      split at hh
      · rename_i h' he
        have := Except.ok.inj hh; subst this
        have hf : (Hist1d.fill h0 dd w).2 = h' := by rw [he]
        rw [← hf]
        obtain ⟨a, b, c, d, e⟩ := accumulate_frame h0
          (binnedSum ((h0.edges.getD 0 ⟨true, []⟩).vals) dd (w.values dd.length))
          (binnedSum ((h0.edges.getD 0 ⟨true, []⟩).vals) dd ((w.values dd.length).map Fl.sq)) w.noPow
        exact histWF_of_frame hw a b c d e
      · simp at hh

theorem new2_wf {b : Bins2} {r : Option PyRange} {d : Option (Vec × Vec)} {w : Weights} {h : Hist}
    (hh : Hist2d.new b r d w = .ok h) : HistWF h := by
  unfold Hist2d.new at hh
  split at hh
  · simp at hh
  · rename_i h0 h0e
    have hw := init2_wf h0e
    split at hh
    · have := Except.ok.inj hh; subst this; exact hw
    · rename_i dx dy
      split at hh
      · rename_i h' he
        have := Except.ok.inj hh; subst this
        have hf : (Hist2d.fill h0 dx dy w).2 = h' := by rw [he]
        rw [← hf]
        unfold Hist2d.fill
        dsimp only
        generalize binnedSum2 _ _ _ _ _ = s1
        generalize binnedSum2 _ _ _ _ _ = s2
        obtain ⟨a, b, c, d, e⟩ := accumulate_frame h0 s1 s2 w.noPow
        exact histWF_of_frame hw a b c d e
      · simp at hh

theorem binned1_wf {c : NdArr} {e : Edges} {er : Option NdArr} {h : Hist}
    (hh : Hist1d.fromBinned c e er = .ok h) : HistWF h := by
  unfold Hist1d.fromBinned at hh
  split at hh
  · simp at hh
  · rename_i h0 h0e
    have := Except.ok.inj hh; subst this
    exact histWF_of_frame (init1_wf h0e) rfl rfl rfl rfl rfl

theorem binned2_wf {c : NdArr} {ex ey : Edges} {er : Option NdArr} {h : Hist}
    (hh : Hist2d.fromBinned c ex ey er = .ok h) : HistWF h := by
  unfold Hist2d.fromBinned at hh
  split at hh
  · simp at hh
  · rename_i h0 h0e
    have := Except.ok.inj hh; subst this
    exact histWF_of_frame (init2_wf h0e) rfl rfl rfl rfl rfl

/-! ### templates -/

/-- A template object and its histogram fit together. -/
structure TmplWF (w : World) (t : Template) : Prop where
  hist : t.hist < w.nHists
  bins : t.bins = (w.hists t.hist).shape
  range : t.range = (w.hists t.hist).range
  cls : (t.cls = .t1 ∧ (w.hists t.hist).cls = .h1) ∨ (t.cls = .t2 ∧ (w.hists t.hist).cls = .h2)
  num : t.numBins = t.bins.prod
  len : t.flatCounts.length = t.numBins
  params : t.params.length = t.numBins + 1

theorem build_fields {cls : TmplCls} {name : String} {hid : ℕ} {h : Hist} {n : ℕ} {t : Template}
    (ht : Template.build cls name hid h n = .ok t) :
    t.cls = cls ∧ t.hist = hid ∧ t.bins = h.shape ∧ t.range = h.range ∧ t.numBins = n ∧
    t.flatCounts.length = n ∧ t.params.length = n + 1 := by
  unfold Template.build at ht
  split at ht
  · rename_i hl
    have := Except.ok.inj ht
    subst this
    exact ⟨rfl, rfl, rfl, rfl, rfl, hl.1, by simp [initParams]⟩
  · simp at ht

theorem newTmpl1_wf {w : World} {name : String} {hid : ℕ} (hlt : hid < w.nHists)
    (hw : HistWF (w.hists hid)) {t : Template} (ht : Template1d.new name hid (w.hists hid) = .ok t) :
    TmplWF w t := by
  unfold Template1d.new at ht
  split at ht
  · rename_i hc
    obtain ⟨a, b, c, d, e, f, g⟩ := build_fields ht
    have hn : (w.hists hid).shape = (w.hists hid).numBins := hw.1
    have hp : t.numBins = t.bins.prod := by
      rw [c, e, hn]
      rcases hw.2 with ⟨_, n, _, _, _, _, h2, _⟩ | ⟨h2, _⟩
      · rw [h2]; simp
      · rw [hc] at h2; simp at h2
    exact ⟨by rw [b]; exact hlt, by rw [b, c], by rw [b, d], Or.inl ⟨a, by rw [b, hc]⟩, hp,
      by rw [e, f], by rw [e, g]⟩
  · simp at ht

theorem newTmpl2_wf {w : World} {name : String} {hid : ℕ} (hlt : hid < w.nHists)
    (hw : HistWF (w.hists hid)) {t : Template} (ht : Template2d.new name hid (w.hists hid) = .ok t) :
    TmplWF w t := by
  unfold Template2d.new at ht
  split at ht
  · rename_i hc
    obtain ⟨a, b, c, d, e, f, g⟩ := build_fields ht
    have hn : (w.hists hid).shape = (w.hists hid).numBins := hw.1
    exact ⟨by rw [b]; exact hlt, by rw [b, c], by rw [b, d], Or.inr ⟨a, by rw [b, hc]⟩,
      by rw [c, e, hn], by rw [e, f], by rw [e, g]⟩
  · simp at ht

/-! ### channels -/

/-- A channel object: the process list, the template dict and the efficiency dict have the same
keys in the same order without repetition; templates and data fit the channel's bins and range. -/
structure ChanWF (w : World) (c : Channel) : Prop where
  tkeys : c.templates.map (·.1) = c.processes
  ekeys : c.effs.map (·.1) = c.processes
  nodup : c.processes.Nodup
  tmpl : ∀ p ∈ c.templates, p.2 < w.nTmpls ∧ (w.tmpls p.2).bins = c.bins ∧
    (w.tmpls p.2).range = c.range ∧ some (w.tmpls p.2).cls = c.ttype
  types : (c.ttype = none ∧ c.htype = none) ∨ (c.ttype = some .t1 ∧ c.htype = some .h1) ∨
    (c.ttype = some .t2 ∧ c.htype = some .h2)
  dim : (c.dim = none → c.ttype = none) ∧ (∀ d, c.dim = some d → d = c.bins.length) ∧ (c.templates = [] → c.dim = none)
  data : ∀ h, c.hdata = some h → h < w.nHists ∧ (w.hists h).shape = c.bins ∧ (w.hists h).range = c.range

/-- Well-formed program state. -/
structure SysWF (s : Sys) : Prop where
  hist : ∀ i < s.w.nHists, HistWF (s.w.hists i)
  tmpl : ∀ i < s.w.nTmpls, TmplWF s.w (s.w.tmpls i)
  chan : ∀ i < s.w.nChans, ChanWF s.w (s.w.chans i)
  procs : s.m.processes.Nodup
  chNames : (s.m.channels.map (·.1)).Nodup
  chIds : s.m.chanIds.Nodup
  chLt : ∀ p ∈ s.m.channels, p.2 < s.w.nChans
  chName : ∀ p ∈ s.m.channels, (s.w.chans p.2).name = p.1
  sub : ∀ c < s.w.nChans, ∀ p ∈ (s.w.chans c).processes, p ∈ s.m.processes
  cons : ∀ p ∈ s.m.constrained, p ∈ s.m.processes ∧ p ∈ s.m.cvals.map (·.1) ∧ p ∈ s.m.cerrs.map (·.1)

theorem init_wf : SysWF Sys.init := by
  refine ⟨?_, ?_, ?_, ?_, ?_, ?_, ?_, ?_, ?_, ?_⟩ <;>
    simp [Sys.init, World.init, Mct.empty, Mct.chanIds]

theorem TmplWF.step {w w' : World} {t t' : Template} (h : TmplWF w t) (hs : TmplStep w w')
    (hf : SameFrame t t') (hl : t'.params.length = t.numBins + 1) : TmplWF w' t' :=
  ⟨by rw [hf.hist, hs.nHists]; exact h.hist, by rw [hf.bins, hf.hist, hs.hists]; exact h.bins,
   by rw [hf.range, hf.hist, hs.hists]; exact h.range, by rw [hf.cls, hf.hist, hs.hists]; exact h.cls,
   by rw [hf.numBins, hf.bins]; exact h.num, by rw [hf.flatCounts, hf.numBins]; exact h.len,
   by rw [hf.numBins]; exact hl⟩

theorem ChanWF.step {w w' : World} {c : Channel} (h : ChanWF w c) (hs : TmplStep w w') : ChanWF w' c :=
  ⟨h.tkeys, h.ekeys, h.nodup, fun p hp => by
    rw [hs.nTmpls, (hs.tmpls p.2).bins, (hs.tmpls p.2).range, (hs.tmpls p.2).cls]; exact h.tmpl p hp,
   h.types, h.dim, fun hid hh => by rw [hs.nHists, hs.hists]; exact h.data hid hh⟩

theorem SysWF.tmplStep {s s' : Sys} (h : SysWF s) (hs : TmplStep s.w s'.w) (hm : s'.m = s.m) : SysWF s' := by
  refine ⟨?_, ?_, ?_, ?_, ?_, ?_, ?_, ?_, ?_, ?_⟩
  · rw [hs.nHists, hs.hists]; exact h.hist
  · intro i hi
    rw [hs.nTmpls] at hi
    exact (h.tmpl i hi).step hs (hs.tmpls i) (hs.len i (h.tmpl i hi).params)
  · intro i hi
    rw [hs.nChans] at hi
    rw [hs.chans]; exact (h.chan i hi).step hs
  · rw [hm]; exact h.procs
  · rw [hm]; exact h.chNames
  · rw [hm]; exact h.chIds
  · rw [hm, hs.nChans]; exact h.chLt
  · rw [hm, hs.chans]; exact h.chName
  · rw [hm, hs.chans, hs.nChans]; exact h.sub
  · rw [hm]; exact h.cons

/-- histograms may be added, old ones keep everything but their content -/
structure HistStep (w w' : World) : Prop where
  le : w.nHists ≤ w'.nHists
  tmpls : w'.tmpls = w.tmpls
  nTmpls : w'.nTmpls = w.nTmpls
  chans : w'.chans = w.chans
  nChans : w'.nChans = w.nChans
  old : ∀ i < w.nHists, (w'.hists i).shape = (w.hists i).shape ∧ (w'.hists i).range = (w.hists i).range ∧
    (w'.hists i).cls = (w.hists i).cls ∧ (w'.hists i).edges = (w.hists i).edges
  wf : (∀ i < w.nHists, HistWF (w.hists i)) → ∀ i < w'.nHists, HistWF (w'.hists i)

theorem TmplWF.histStep {w w' : World} {t : Template} (h : TmplWF w t) (hs : HistStep w w') : TmplWF w' t := by
  obtain ⟨a, b, c, _⟩ := hs.old t.hist h.hist
  exact ⟨lt_of_lt_of_le h.hist hs.le, by rw [a]; exact h.bins, by rw [b]; exact h.range,
    by rw [c]; exact h.cls, h.num, h.len, h.params⟩

theorem ChanWF.histStep {w w' : World} {c : Channel} (h : ChanWF w c) (hs : HistStep w w') : ChanWF w' c :=
  ⟨h.tkeys, h.ekeys, h.nodup, fun p hp => by rw [hs.nTmpls, hs.tmpls]; exact h.tmpl p hp, h.types, h.dim,
   fun hid hh => by
    obtain ⟨a, b, c⟩ := h.data hid hh
    obtain ⟨d, e, _⟩ := hs.old hid a
    exact ⟨lt_of_lt_of_le a hs.le, by rw [d, b], by rw [e, c]⟩⟩

theorem SysWF.histStep {s s' : Sys} (h : SysWF s) (hs : HistStep s.w s'.w) (hm : s'.m = s.m) : SysWF s' := by
  refine ⟨hs.wf h.hist, ?_, ?_, ?_, ?_, ?_, ?_, ?_, ?_, ?_⟩
  · intro i hi
    rw [hs.nTmpls] at hi
    rw [hs.tmpls]; exact (h.tmpl i hi).histStep hs
  · intro i hi
    rw [hs.nChans] at hi
    rw [hs.chans]; exact (h.chan i hi).histStep hs
  · rw [hm]; exact h.procs
  · rw [hm]; exact h.chNames
  · rw [hm]; exact h.chIds
  · rw [hm, hs.nChans]; exact h.chLt
  · rw [hm, hs.chans]; exact h.chName
  · rw [hm, hs.chans, hs.nChans]; exact h.sub
  · rw [hm]; exact h.cons

theorem newHist_step (w : World) (h : Hist) (hw : HistWF h) : HistStep w (w.newHist h).2 := by
  refine ⟨Nat.le_succ _, rfl, rfl, rfl, rfl, ?_, ?_⟩
  · intro i hi
    have : i ≠ w.nHists := by omega
    simp [World.newHist, Function.update_of_ne this]
  · intro h0 i hi
    by_cases e : i = w.nHists
    · subst e; simpa [World.newHist] using hw
    · have : i < w.nHists := by simp only [World.newHist] at hi; omega
      simpa [World.newHist, Function.update_of_ne e] using h0 i this

theorem allocHist_wf {s : Sys} (h : SysWF s) (r : Except Err Hist) (hr : ∀ x, r = .ok x → HistWF x) :
    SysWF (s.allocHist r) := by
  cases r with
  | error e => exact h
  | ok x => exact h.histStep (newHist_step s.w x (hr x rfl)) rfl

theorem fill_step (w : World) (i : ℕ) (x y : Vec) (W : Weights) :
    HistStep w (w.setHist i ((w.hists i).fill x y W).2) := by
  obtain ⟨a, b, c, d, e⟩ := fill_frame (w.hists i) x y W
  refine ⟨le_refl _, rfl, rfl, rfl, rfl, ?_, ?_⟩
  · intro j hj
    by_cases h : j = i
    · subst h; simp [World.setHist]; exact ⟨c, d, e, b⟩
    · simp [World.setHist, Function.update_of_ne h]
  · intro h0 j hj
    by_cases h : j = i
    · subst h; simpa [World.setHist] using fill_wf (h0 j hj) x y W
    · simpa [World.setHist, Function.update_of_ne h] using h0 j hj

theorem newTmpl_wf {s : Sys} (h : SysWF s) (t : Template) (ht : TmplWF s.w t) :
    SysWF { s with w := (s.w.newTmpl t).2 } := by
  refine ⟨h.hist, ?_, ?_, h.procs, h.chNames, h.chIds, h.chLt, h.chName, h.sub, h.cons⟩
  · intro i hi
    have hs : ∀ t', TmplWF s.w t' → TmplWF (s.w.newTmpl t).2 t' := fun t' h' =>
      ⟨h'.hist, h'.bins, h'.range, h'.cls, h'.num, h'.len, h'.params⟩
    by_cases e : i = s.w.nTmpls
    · subst e; simpa [World.newTmpl] using hs t ht
    · have : i < s.w.nTmpls := by simp only [World.newTmpl] at hi; omega
      simpa [World.newTmpl, Function.update_of_ne e] using hs _ (h.tmpl i this)
  · intro i hi
    have hc := h.chan i hi
    refine ⟨hc.tkeys, hc.ekeys, hc.nodup, ?_, hc.types, hc.dim, hc.data⟩
    intro p hp
    obtain ⟨a, b, c, d⟩ := hc.tmpl p hp
    have hne : p.2 ≠ s.w.nTmpls := by omega
    simp only [World.newTmpl, Function.update_of_ne hne]
    exact ⟨by omega, b, c, d⟩

theorem allocTmpl_wf {s : Sys} (h : SysWF s) (r : Except Err Template) (hr : ∀ t, r = .ok t → TmplWF s.w t) :
    SysWF (s.allocTmpl r) := by
  cases r with
  | error e => exact h
  | ok t => exact newTmpl_wf h t (hr t rfl)

theorem defineChannel_wf {s : Sys} (h : SysWF s) (n : String) (b : ChanBins) (r : PyRange) :
    SysWF ⟨(s.m.defineChannel s.w n b r).1, (s.m.defineChannel s.w n b r).2⟩ := by
  have hch : ∀ c, ChanWF s.w c → ChanWF (s.w.newChan (Channel.new n b r)).2 c := fun c hc =>
    ⟨hc.tkeys, hc.ekeys, hc.nodup, hc.tmpl, hc.types, hc.dim, hc.data⟩
  have hlt : ∀ p ∈ dictSet s.m.channels n s.w.nChans, p = (n, s.w.nChans) ∨ p ∈ s.m.channels :=
    fun p hp => dictSet_mem _ _ _ p hp
  refine ⟨h.hist, fun i hi => ?_, ?_, h.procs, ?_, ?_, ?_, ?_, ?_, h.cons⟩
  · have h' := h.tmpl i hi
    exact ⟨h'.hist, h'.bins, h'.range, h'.cls, h'.num, h'.len, h'.params⟩
  · intro i hi
    simp only [Mct.defineChannel] at hi ⊢
    by_cases e : i = s.w.nChans
    · subst e
      simp only [World.newChan, Function.update_self]
      refine ⟨rfl, rfl, by simp [Channel.new], by simp [Channel.new], Or.inl ⟨rfl, rfl⟩, ⟨fun _ => rfl, fun _ h => by simp [Channel.new] at h, fun _ => rfl⟩, by simp [Channel.new]⟩
    · have : i < s.w.nChans := by simp only [World.newChan] at hi; omega
      have hc := hch _ (h.chan i this)
      simp only [World.newChan, Function.update_of_ne e]
      exact ⟨hc.tkeys, hc.ekeys, hc.nodup, hc.tmpl, hc.types, hc.dim, hc.data⟩
  · show ((dictSet s.m.channels n s.w.nChans).map (·.1)).Nodup
    by_cases hn : n ∈ s.m.channels.map (·.1)
    · rw [dictSet_keys_old _ _ _ hn]; exact h.chNames
    · rw [dictSet_new _ _ _ hn, List.map_append, List.nodup_append]
      exact ⟨h.chNames, by simp, by
        intro a ha b hb
        simp at hb; subst hb; rintro rfl; exact hn ha⟩
  · show ((dictSet s.m.channels n s.w.nChans).map (·.2)).Nodup
    have key : ∀ d : List (String × ℕ), (d.map (·.2)).Nodup → (∀ p ∈ d, p.2 < s.w.nChans) →
        ((dictSet d n s.w.nChans).map (·.2)).Nodup := by
      intro d
      induction d with
      | nil => intro _ _; simp [dictSet]
      | cons a d ih =>
        obtain ⟨k', v'⟩ := a
        intro hn hl
        simp only [List.map_cons, List.nodup_cons] at hn
        simp only [dictSet]
        split
        · simp only [List.map_cons, List.nodup_cons]
          refine ⟨?_, hn.2⟩
          intro hm
          obtain ⟨p, hp, he⟩ := List.mem_map.mp hm
          have := hl p (by simp [hp])
          omega
        · simp only [List.map_cons, List.nodup_cons]
          refine ⟨?_, ih hn.2 fun p hp => hl p (by simp [hp])⟩
          intro hm
          obtain ⟨p, hp, he⟩ := List.mem_map.mp hm
          rcases dictSet_mem _ _ _ p hp with h1 | h1
          · subst h1
            have := hl (k', v') (by simp)
            simp at he this; omega
          · exact hn.1 (List.mem_map.mpr ⟨p, h1, he⟩)
    exact key _ h.chIds h.chLt
  · intro p hp
    rcases hlt p hp with e | e
    · subst e; simp [Mct.defineChannel, World.newChan]
    · have := h.chLt p e
      simp only [Mct.defineChannel, World.newChan]; omega
  · intro p hp
    rcases hlt p hp with e | e
    · subst e; simp [Mct.defineChannel, World.newChan, Channel.new]
    · have hl := h.chLt p e
      have hne : p.2 ≠ s.w.nChans := by omega
      simp only [Mct.defineChannel, World.newChan, Function.update_of_ne hne]
      exact h.chName p e
  · intro c hc p hp
    simp only [Mct.defineChannel, World.newChan] at hc hp
    by_cases e : c = s.w.nChans
    · subst e
      simp [Channel.new] at hp
    · rw [Function.update_of_ne e] at hp
      exact h.sub c (by omega) p hp

/-! ### changing one channel object -/

theorem setChan_wf {s : Sys} (h : SysWF s) (i : ℕ) (c : Channel) (hi : i < s.w.nChans)
    (hc : ChanWF s.w c) (hn : c.name = (s.w.chans i).name) (hp : ∀ p ∈ c.processes, p ∈ s.m.processes) :
    SysWF { s with w := s.w.setChan i c } := by
  have hch : ∀ c, ChanWF s.w c → ChanWF (s.w.setChan i c) c := fun c hc =>
    ⟨hc.tkeys, hc.ekeys, hc.nodup, hc.tmpl, hc.types, hc.dim, hc.data⟩
  refine ⟨h.hist, fun j hj => ?_, ?_, h.procs, h.chNames, h.chIds, h.chLt, ?_, ?_, h.cons⟩
  · have h' := h.tmpl j hj
    exact ⟨h'.hist, h'.bins, h'.range, h'.cls, h'.num, h'.len, h'.params⟩
  · intro j hj
    by_cases e : j = i
    · subst e
      simp only [World.setChan, Function.update_self]
      exact ⟨hc.tkeys, hc.ekeys, hc.nodup, hc.tmpl, hc.types, hc.dim, hc.data⟩
    · have hc := h.chan j hj
      simp only [World.setChan, Function.update_of_ne e]
      exact ⟨hc.tkeys, hc.ekeys, hc.nodup, hc.tmpl, hc.types, hc.dim, hc.data⟩
  · intro p hp'
    by_cases e : p.2 = i
    · simp only [World.setChan, e, Function.update_self, hn]; rw [← e]; exact h.chName p hp'
    · simp only [World.setChan, Function.update_of_ne e]; exact h.chName p hp'
  · intro j hj p hp'
    by_cases e : j = i
    · subst e; simp only [World.setChan, Function.update_self] at hp'; exact hp p hp'
    · simp only [World.setChan, Function.update_of_ne e] at hp'; exact h.sub j hj p hp'

theorem addTemplate_chan_wf {w : World} {c : Channel} (hc : ChanWF w c) (p : String) (tid : ℕ)
    (ht : tid < w.nTmpls) (hw : TmplWF w (w.tmpls tid)) (eff : Fl) :
    ChanWF w (c.addTemplate p tid (w.tmpls tid) (w.hists (w.tmpls tid).hist).cls eff).2 ∧
    (c.addTemplate p tid (w.tmpls tid) (w.hists (w.tmpls tid).hist).cls eff).2.name = c.name ∧
    ∀ q ∈ (c.addTemplate p tid (w.tmpls tid) (w.hists (w.tmpls tid).hist).cls eff).2.processes,
      q ∈ c.processes ∨ q = p := by
  unfold Channel.addTemplate
  by_cases h1 : c.checkTemplate (w.tmpls tid)
  · rw [if_pos h1]
    by_cases h2 : p ∈ c.procs
    · rw [if_pos h2]; exact ⟨hc, rfl, fun q hq => Or.inl hq⟩
    · rw [if_neg h2]
      dsimp only
      -- the channel after the type bookkeeping
      set c1 : Channel := if c.dim = none then { c with dim := some (w.tmpls tid).bins.length } else c with hc1
      have e1 : c1.processes = c.processes ∧ c1.templates = c.templates ∧ c1.effs = c.effs ∧
          c1.bins = c.bins ∧ c1.range = c.range ∧ c1.hdata = c.hdata ∧ c1.name = c.name ∧
          c1.ttype = c.ttype ∧ c1.htype = c.htype := by
        rw [hc1]; split <;> exact ⟨rfl, rfl, rfl, rfl, rfl, rfl, rfl, rfl, rfl⟩
      obtain ⟨a1, a2, a3, a4, a5, a6, a7, a8, a9⟩ := e1
      set c2 : Channel := if c1.ttype = none then { c1 with ttype := some (w.tmpls tid).cls, htype := some (w.hists (w.tmpls tid).hist).cls } else c1 with hc2
      have e2 : c2.processes = c.processes ∧ c2.templates = c.templates ∧ c2.effs = c.effs ∧
          c2.bins = c.bins ∧ c2.range = c.range ∧ c2.hdata = c.hdata ∧ c2.name = c.name := by
        rw [hc2]; split <;> exact ⟨a1, a2, a3, a4, a5, a6, a7⟩
      obtain ⟨b1, b2, b3, b4, b5, b6, b7⟩ := e2
      have hty : (c2.ttype = none ∧ c2.htype = none) ∨ (c2.ttype = some .t1 ∧ c2.htype = some .h1) ∨
          (c2.ttype = some .t2 ∧ c2.htype = some .h2) := by
        rw [hc2]
        split
        · rcases hw.cls with ⟨x, y⟩ | ⟨x, y⟩
          · right; left; simp [x, y]
          · right; right; simp [x, y]
        · rw [a8, a9]; exact hc.types
      have hdim : c2.dim = none → c2.ttype = none := by
        have h1d : c1.dim ≠ none := by
          rw [hc1]
          by_cases hd : c.dim = none
          · rw [if_pos hd]; simp
          · rw [if_neg hd]; exact hd
        have h2d : c2.dim = c1.dim := by rw [hc2]; split <;> rfl
        intro h0
        rw [h2d] at h0
        exact absurd h0 h1d
      have hdimv : ∀ d, c2.dim = some d → d = c2.bins.length := by
        have h2d : c2.dim = c1.dim := by rw [hc2]; split <;> rfl
        intro d hd
        rw [h2d, hc1] at hd
        rw [b4]
        by_cases hn : c.dim = none
        · rw [if_pos hn] at hd
          rw [h1.1]
          exact (Option.some.inj hd).symm
        · rw [if_neg hn] at hd
          exact hc.dim.2.1 d hd
      have hkeep : c.ttype ≠ none → c2.ttype = c.ttype := by
        intro hne
        rw [hc2, a8, if_neg hne, a8]
      have hwf2 : (c2.templates = [] → c2.dim = none) → ChanWF w c2 := by
        intro hemp
        refine ⟨by rw [b2, b1]; exact hc.tkeys, by rw [b3, b1]; exact hc.ekeys, by rw [b1]; exact hc.nodup, ?_,
          hty, ⟨hdim, hdimv, hemp⟩, by rw [b4, b5, b6]; exact hc.data⟩
        rw [b2, b4, b5]
        intro q hq
        obtain ⟨x1, x2, x3, x4⟩ := hc.tmpl q hq
        exact ⟨x1, x2, x3, by rw [hkeep (by rw [← x4]; simp), x4]⟩
      by_cases h3 : some (w.tmpls tid).cls ≠ c2.ttype
      · rw [if_pos h3]
        refine ⟨hwf2 ?_, b7, fun q hq => Or.inl (by rw [← b1]; exact hq)⟩
        intro he
        exfalso
        rw [b2] at he
        have hcd := hc.dim.2.2 he
        have hct := hc.dim.1 hcd
        apply h3
        rw [hc2, a8, if_pos hct]
      · rw [if_neg h3]
        rw [not_not] at h3
        have hnp : p ∉ c2.processes := by rw [b1, ← hc.tkeys]; exact h2
        have ht' : p ∉ c2.templates.map (·.1) := by rw [b2, hc.tkeys, ← b1]; exact hnp
        have he' : p ∉ c2.effs.map (·.1) := by rw [b3, hc.ekeys, ← b1]; exact hnp
        refine ⟨⟨?_, ?_, ?_, ?_, hty, ⟨hdim, hdimv, fun he => absurd (congrArg List.length he) (by
          show (dictSet c2.templates p tid).length ≠ 0
          rw [dictSet_new _ _ _ ht']; simp)⟩, by rw [b4, b5, b6]; exact hc.data⟩, b7, ?_⟩
        · show (dictSet c2.templates p tid).map (·.1) = c2.processes ++ [p]
          rw [dictSet_new _ _ _ ht', List.map_append, b2, hc.tkeys, b1]; rfl
        · show (dictSet c2.effs p eff).map (·.1) = c2.processes ++ [p]
          rw [dictSet_new _ _ _ he', List.map_append, b3, hc.ekeys, b1]; rfl
        · show (c2.processes ++ [p]).Nodup
          rw [List.nodup_append]
          exact ⟨by rw [b1]; exact hc.nodup, by simp, by
            intro a ha b hb; simp at hb; subst hb; rintro rfl; exact hnp ha⟩
        · intro q hq
          change q ∈ dictSet c2.templates p tid at hq
          rcases dictSet_mem _ _ _ q hq with e | e
          · subst e
            refine ⟨ht, ?_, ?_, h3⟩
            · show _ = c2.bins; rw [b4]; exact h1.1.symm
            · show _ = c2.range; rw [b5]; exact h1.2.symm
          · rw [b2] at e
            obtain ⟨x1, x2, x3, x4⟩ := hc.tmpl q e
            exact ⟨x1, x2.trans b4.symm, x3.trans b5.symm, by rw [← hkeep (by rw [← x4]; simp)] at x4; exact x4⟩
        · intro q hq
          have : q ∈ c2.processes ++ [p] := hq
          simp only [List.mem_append, List.mem_singleton, b1] at this
          exact this
  · rw [if_neg h1]; exact ⟨hc, rfl, fun q hq => Or.inl hq⟩

theorem addTemplate_wf {s : Sys} (h : SysWF s) (ch p : String) (tid : ℕ) (ht : tid < s.w.nTmpls) (eff : Fl) :
    SysWF { s with w := (s.m.addTemplate s.w ch p tid eff).2 } := by
  unfold Mct.addTemplate
  cases hd : dictGet s.m.channels ch with
  | none => exact h
  | some c =>
    dsimp only
    by_cases hp : p ∉ s.m.processes
    · rw [if_pos hp]; exact h
    · rw [if_neg hp]
      rw [not_not] at hp
      have hc := h.chLt _ (dictGet_mem hd)
      obtain ⟨a, b, d⟩ := addTemplate_chan_wf (h.chan c hc) p tid ht (h.tmpl tid ht) eff
      exact setChan_wf h c _ hc a b (fun q hq => by
        rcases d q hq with e | e
        · exact h.sub c hc q e
        · rw [e]; exact hp)

theorem addData_chan_wf {w : World} {c : Channel} (hc : ChanWF w c) (hid : ℕ) (hh : hid < w.nHists) :
    ChanWF w (c.addData hid (w.hists hid)).2 ∧ (c.addData hid (w.hists hid)).2.name = c.name ∧
    (c.addData hid (w.hists hid)).2.processes = c.processes := by
  unfold Channel.addData
  split
  · rename_i h1
    refine ⟨⟨hc.tkeys, hc.ekeys, hc.nodup, hc.tmpl, hc.types, hc.dim, ?_⟩, rfl, rfl⟩
    intro h e
    have := Option.some.inj e
    subst this
    exact ⟨hh, h1.1.symm, h1.2.symm⟩
  · exact ⟨hc, rfl, rfl⟩

theorem worldAddData_wf {s : Sys} (h : SysWF s) (c hid : ℕ) (hc : c < s.w.nChans) (hh : hid < s.w.nHists) :
    SysWF { s with w := (s.w.addData c hid).2 } := by
  obtain ⟨a, b, d⟩ := addData_chan_wf (h.chan c hc) hid hh
  exact setChan_wf h c _ hc a b (fun q hq => by rw [d] at hq; exact h.sub c hc q hq)

theorem addData_wf (hs : List (String × ℕ)) : ∀ {s : Sys}, SysWF s → (∀ x ∈ hs, x.2 < s.w.nHists) →
    SysWF { s with w := (s.m.addData s.w hs).2 } := by
  induction hs with
  | nil => intro s h _; exact h
  | cons a hs ih =>
    intro s h hl
    obtain ⟨ch, hid⟩ := a
    simp only [Mct.addData]
    cases hd : dictGet s.m.channels ch with
    | none => exact h
    | some c =>
      dsimp only
      have hc := h.chLt _ (dictGet_mem hd)
      have h1 := worldAddData_wf h c hid hc (hl (ch, hid) (by simp))
      have hn : (s.w.addData c hid).2.nHists = s.w.nHists := rfl
      generalize hr : s.w.addData c hid = r at h1 hn ⊢
      obtain ⟨r1, w1⟩ := r
      cases r1 with
      | error e => exact h1
      | ok u =>
        have := ih (s := { s with w := w1 }) h1 (fun x hx => by
          show x.2 < w1.nHists
          rw [hn]; exact hl x (by simp [hx]))
        exact this

theorem generate_wf {m : Mct} {gen : ℕ → Except Err Hist} (hg : ∀ c h, gen c = .ok h → HistWF h)
    {l : List (String × Hist)} (hl : m.generate gen = .ok l) : ∀ x ∈ l, HistWF x.2 := by
  unfold Mct.generate at hl
  revert l
  induction m.channels with
  | nil => intro l hl; simp at hl; subst hl; simp
  | cons a cs ih =>
    intro l hl
    simp only [List.foldr_cons] at hl
    cases h1 : gen a.2 with
    | error e => simp [h1] at hl
    | ok h =>
      simp only [h1] at hl
      generalize hf : List.foldr _ _ cs = r at hl ih
      cases r with
      | error e => simp at hl
      | ok l' =>
        have := Except.ok.inj hl
        subst this
        intro x hx
        rcases List.mem_cons.mp hx with e | e
        · subst e; exact hg _ _ h1
        · exact ih rfl x e

theorem datasetFrom_wf {w : World} {c : ℕ} {a : NdArr} {h : Hist} (hh : w.datasetFrom c a = .ok h) :
    HistWF h := by
  unfold World.datasetFrom at hh
  split at hh
  · simp at hh
  · simp at hh
  · exact binned1_wf hh
  · exact binned2_wf hh

theorem asimov_wf {w : World} {c : ℕ} {i : Bool} {h : Hist} (hh : w.asimov c i = .ok h) : HistWF h := by
  unfold World.asimov at hh
  split at hh
  · simp at hh
  · exact datasetFrom_wf hh

theorem toy_wf {w : World} {c : ℕ} {d : Vec → ℕ → ℕ} {h : Hist} (hh : w.toy c d = .ok h) : HistWF h := by
  unfold World.toy at hh
  split at hh
  · simp at hh
  · split at hh
    · exact datasetFrom_wf hh
    · simp at hh

theorem addDatasets_wf (l : List (String × Hist)) : ∀ {s : Sys}, SysWF s → (∀ x ∈ l, HistWF x.2) →
    SysWF { s with w := (s.m.addDatasets s.w l).2 } := by
  induction l with
  | nil => intro s h _; exact h
  | cons a l ih =>
    intro s h hl
    obtain ⟨ch, hh⟩ := a
    simp only [Mct.addDatasets]
    have h0 : SysWF { s with w := (s.w.newHist hh).2 } :=
      h.histStep (newHist_step s.w hh (hl (ch, hh) (by simp))) rfl
    cases hd : dictGet s.m.channels ch with
    | none => exact h0
    | some c =>
      dsimp only
      have hc := h.chLt _ (dictGet_mem hd)
      have h1 := worldAddData_wf h0 c s.w.nHists hc (by simp [World.newHist])
      change SysWF { s with w := ((s.w.newHist hh).2.addData c (s.w.newHist hh).1).2 } at h1
      generalize hr : (s.w.newHist hh).2.addData c (s.w.newHist hh).1 = r at h1 ⊢
      obtain ⟨r1, w1⟩ := r
      cases r1 with
      | error e => exact h1
      | ok u => exact ih (s := { s with w := w1 }) h1 (fun x hx => hl x (by simp [hx]))

theorem step_wf {s : Sys} (h : SysWF s) (o : Op) : SysWF (s.step o) := by
  by_cases ht : o.isTmplStep
  · obtain ⟨a, b⟩ := step_tmplStep s o ht
    exact h.tmplStep a b
  cases o with
  | newHist1 b r d w => exact allocHist_wf h _ fun x hx => new1_wf hx
  | newHist2 b r d w => exact allocHist_wf h _ fun x hx => new2_wf hx
  | binned1 c e er => exact allocHist_wf h _ fun x hx => binned1_wf hx
  | binned2 c ex ey er => exact allocHist_wf h _ fun x hx => binned2_wf hx
  | fill i x y w =>
    simp only [Sys.step]
    split
    · exact h.histStep (fill_step s.w i x y w) rfl
    · exact h
  | newTmpl1 n i =>
    simp only [Sys.step]
    split
    · rename_i hi; exact allocTmpl_wf h _ fun t ht => newTmpl1_wf hi (h.hist i hi) ht
    · exact h
  | newTmpl2 n i =>
    simp only [Sys.step]
    split
    · rename_i hi; exact allocTmpl_wf h _ fun t ht => newTmpl2_wf hi (h.hist i hi) ht
    · exact h
  | defineChannel n b r => exact defineChannel_wf h n b r
  | defineProcess n =>
    simp only [Sys.step, Mct.defineProcess]
    split
    · rename_i hn
      refine ⟨h.hist, h.tmpl, h.chan, ?_, h.chNames, h.chIds, h.chLt, h.chName, ?_, ?_⟩
      · show (s.m.processes ++ [n]).Nodup
        rw [List.nodup_append]
        exact ⟨h.procs, by simp, by intro a ha b hb; simp at hb; subst hb; rintro rfl; exact hn ha⟩
      · intro c hc p hp; exact List.mem_append_left _ (h.sub c hc p hp)
      · intro p hp
        exact ⟨List.mem_append_left _ (h.cons p hp).1, (h.cons p hp).2⟩
    · exact h
  | addTemplate c p t e =>
    simp only [Sys.step]
    split
    · rename_i hi; exact addTemplate_wf h c p t hi e
    · exact h
  | addData hs =>
    simp only [Sys.step]
    split
    · rename_i hi; exact addData_wf hs h hi
    · exact h
  | constrain p v e =>
    simp only [Sys.step, Mct.addConstraint]
    split
    · exact h
    · rename_i hp
      rw [not_not] at hp
      refine ⟨h.hist, h.tmpl, h.chan, h.procs, h.chNames, h.chIds, h.chLt, h.chName, h.sub, ?_⟩
      have hk : ∀ (d : List (String × Fl)) (k q : String) (v : Fl), q ∈ d.map (·.1) ∨ q = k →
          q ∈ (dictSet d k v).map (·.1) := by
        intro d k q v hq
        by_contra hcon
        rw [← dictGet_none] at hcon
        by_cases e : q = k
        · subst e; rw [dictGet_set] at hcon; simp at hcon
        · rw [dictGet_set_ne _ _ _ _ e, dictGet_none] at hcon
          rcases hq with hq | hq
          · exact hcon hq
          · exact e hq
      intro q hq
      rcases List.mem_append.mp hq with e1 | e1
      · exact ⟨(h.cons q e1).1, hk _ _ _ _ (Or.inl (h.cons q e1).2.1), hk _ _ _ _ (Or.inl (h.cons q e1).2.2)⟩
      · simp at e1; subst e1
        exact ⟨hp, hk _ _ _ _ (Or.inr rfl), hk _ _ _ _ (Or.inr rfl)⟩
  | addAsimov i =>
    simp only [Sys.step]
    split
    · exact h
    · rename_i l hl
      exact addDatasets_wf l h (generate_wf (fun c x hx => asimov_wf hx) hl)
  | addToy d =>
    simp only [Sys.step]
    split
    · exact h
    · rename_i l hl
      exact addDatasets_wf l h (generate_wf (fun c x hx => toy_wf hx) hl)
  | _ => exact absurd trivial ht

theorem run_wf {s : Sys} (h : SysWF s) (ops : List Op) : SysWF (s.run ops) := by
  induction ops generalizing s with
  | nil => exact h
  | cons o ops ih => exact ih (step_wf h o)

/-- every state of every API history is well-formed -/
theorem reachable_wf {s : Sys} (h : s.Reachable) : SysWF s := by
  obtain ⟨ops, rfl⟩ := h
  exact run_wf init_wf ops

end

end TF
