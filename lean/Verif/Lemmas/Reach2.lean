import Verif.Lemmas.Reach

set_option linter.unusedSimpArgs false

/-!
# Histories with finite data keep every histogram finite
-/

namespace TF.Spec

open Classical

noncomputable section

/-- finite number -/
def Finite (x : Fl) : Prop := ∃ r : ℝ, x = .fin r

/-- finite non-negative number -/
def FiniteNonneg (x : Fl) : Prop := ∃ r : ℝ, 0 ≤ r ∧ x = .fin r

/-- all weights are finite -/
def FiniteWeights (w : Weights) : Prop :=
  match w with
  | .none => True
  | .list l | .array l | .tuple l => ∀ x ∈ l, Finite x

/-- binned input: finite contents; finite errors, or no errors and non-negative contents -/
def FiniteBinned (counts : NdArr) (errors : Option NdArr) : Prop :=
  (∀ x ∈ counts.data, Finite x) ∧
    match errors with
    | some e => ∀ x ∈ e.data, Finite x
    | none => ∀ x ∈ counts.data, FiniteNonneg x

/-- An API call with finite data: event weights and binned contents and errors are finite. (Event positions may
be anything. Adding an Asimov data set is not allowed here, because the model's expectation may be
infinite or NaN.) -/
def FiniteData : Op → Prop
  | .newHist1 _ _ _ w => FiniteWeights w
  | .newHist2 _ _ _ w => FiniteWeights w
  | .binned1 c _ e => FiniteBinned c e
  | .binned2 c _ _ e => FiniteBinned c e
  | .fill _ _ _ w => FiniteWeights w
  | .addAsimov _ => False
  | _ => True

/-- contents finite, squared errors finite and not negative -/
def FiniteHist (h : Hist) : Prop :=
  (∀ x ∈ h.counts.data, Finite x) ∧ ∀ x ∈ h.errSq.data, FiniteNonneg x

end

end TF.Spec

namespace TF

open Classical Spec Props

noncomputable section

theorem Spec.FiniteNonneg.finite {x : Fl} (h : FiniteNonneg x) : Finite x := by
  obtain ⟨r, _, e⟩ := h; exact ⟨r, e⟩

theorem finite_zero : FiniteNonneg 0 := ⟨0, le_refl _, rfl⟩

theorem finite_one : Finite 1 := ⟨1, rfl⟩

theorem finite_add {a b : Fl} (ha : Finite a) (hb : Finite b) : Finite (a + b) := by
  obtain ⟨x, rfl⟩ := ha; obtain ⟨y, rfl⟩ := hb; exact ⟨x + y, Fl.fin_add _ _⟩

theorem finiteNonneg_add {a b : Fl} (ha : FiniteNonneg a) (hb : FiniteNonneg b) : FiniteNonneg (a + b) := by
  obtain ⟨x, hx, rfl⟩ := ha; obtain ⟨y, hy, rfl⟩ := hb; exact ⟨x + y, add_nonneg hx hy, Fl.fin_add _ _⟩

theorem finiteNonneg_sq {a : Fl} (ha : Finite a) : FiniteNonneg (Fl.sq a) := by
  obtain ⟨x, rfl⟩ := ha; exact ⟨x ^ 2, sq_nonneg _, Fl.sq_fin _⟩

theorem finite_sqrt {a : Fl} (ha : FiniteNonneg a) : Finite (Fl.sqrt a) := by
  obtain ⟨x, hx, rfl⟩ := ha; exact ⟨Real.sqrt x, Fl.sqrt_fin hx⟩

theorem finite_sum : ∀ {l : Vec}, (∀ x ∈ l, Finite x) → Finite l.sum
  | [], _ => finite_zero.finite
  | a :: l, h => by
    rw [List.sum_cons]
    exact finite_add (h a (by simp)) (finite_sum fun x hx => h x (by simp [hx]))

theorem finiteNonneg_sum : ∀ {l : Vec}, (∀ x ∈ l, FiniteNonneg x) → FiniteNonneg l.sum
  | [], _ => finite_zero
  | a :: l, h => by
    rw [List.sum_cons]
    exact finiteNonneg_add (h a (by simp)) (finiteNonneg_sum fun x hx => h x (by simp [hx]))

theorem values_finite' {w : Weights} (h : FiniteWeights w) (n : ℕ) : ∀ x ∈ w.values n, Finite x := by
  cases w with
  | none => intro x hx; simp [Weights.values] at hx; rw [hx.2]; exact finite_one
  | list l => exact h
  | array l => exact h
  | tuple l => exact h

theorem binnedSum_all {P : Fl → Prop} (hs : ∀ l : Vec, (∀ x ∈ l, P x) → P l.sum) {e : List ℝ} {d v : Vec}
    {a : NdArr} (h : binnedSum e d v = .ok a) (hv : ∀ x ∈ v, P x) : ∀ x ∈ a.data, P x := by
  unfold binnedSum at h
  split at h
  · simp at h
  · split at h
    · have := Except.ok.inj h
      subst this
      intro x hx
      simp only [List.mem_map] at hx
      obtain ⟨i, _, rfl⟩ := hx
      apply hs
      intro x hx
      simp only [List.mem_map, List.mem_filter] at hx
      obtain ⟨p, ⟨hp, _⟩, rfl⟩ := hx
      exact hv _ (List.of_mem_zip hp).2
    · simp at h

theorem binnedSum2_all {P : Fl → Prop} (hs : ∀ l : Vec, (∀ x ∈ l, P x) → P l.sum) {e f : List ℝ} {x y v : Vec}
    {a : NdArr} (h : binnedSum2 e f x y v = .ok a) (hv : ∀ x ∈ v, P x) : ∀ x ∈ a.data, P x := by
  unfold binnedSum2 at h
  split at h
  · simp at h
  · split at h
    · simp at h
    · split at h
      · have := Except.ok.inj h
        subst this
        intro x hx
        simp only [List.mem_map] at hx
        obtain ⟨i, _, rfl⟩ := hx
        apply hs
        intro x hx
        simp only [List.mem_map, List.mem_filter] at hx
        obtain ⟨p, ⟨hp, _⟩, rfl⟩ := hx
        exact hv _ (List.of_mem_zip hp).2
      · simp at h

theorem iadd_all {P : Fl → Prop} (hp : ∀ a b, P a → P b → P (a + b)) {a b c : NdArr} (h : a.iadd b = .ok c)
    (ha : ∀ x ∈ a.data, P x) (hb : ∀ x ∈ b.data, P x) : ∀ x ∈ c.data, P x := by
  unfold NdArr.iadd at h
  split at h
  · have := Except.ok.inj h
    subst this
    intro x hx
    rw [List.mem_iff_getElem] at hx
    obtain ⟨i, hi', rfl⟩ := hx
    rw [List.getElem_zipWith]
    exact hp _ _ (ha _ (List.getElem_mem _)) (hb _ (List.getElem_mem _))
  · simp at h

theorem accumulate_fin {h : Hist} {s s2 : Except Err NdArr} {b : Bool} (hh : FiniteHist h)
    (hs : ∀ a, s = .ok a → ∀ x ∈ a.data, Finite x) (hs2 : ∀ a, s2 = .ok a → ∀ x ∈ a.data, FiniteNonneg x) :
    FiniteHist (h.accumulate s s2 b).2 := by
  unfold Hist.accumulate
  cases s with
  | error e => exact hh
  | ok a =>
    cases hi : h.counts.iadd a with
    | error e => simp only [hi]; exact hh
    | ok c =>
      have hc : FiniteHist { h with counts := c } :=
        ⟨iadd_all (fun _ _ => finite_add) hi hh.1 (hs a rfl), hh.2⟩
      simp only [hi]
      split
      · exact hc
      · cases s2 with
        | error e => exact hc
        | ok a2 =>
          simp only
          cases hj : h.errSq.iadd a2 with
          | error e => exact hc
          | ok q => exact ⟨hc.1, iadd_all (fun _ _ => finiteNonneg_add) hj hh.2 (hs2 a2 rfl)⟩

theorem map_sq_nonneg {l : Vec} (h : ∀ x ∈ l, Finite x) : ∀ x ∈ l.map Fl.sq, FiniteNonneg x := by
  intro x hx
  obtain ⟨y, hy, rfl⟩ := List.mem_map.mp hx
  exact finiteNonneg_sq (h y hy)

theorem fill1_fin {h : Hist} (hh : FiniteHist h) (d : Vec) {w : Weights} (hw : FiniteWeights w) :
    FiniteHist (Hist1d.fill h d w).2 := by
  unfold Hist1d.fill
  exact accumulate_fin hh (fun a ha => binnedSum_all (fun _ => finite_sum) ha (values_finite' hw _))
    (fun a ha => binnedSum_all (fun _ => finiteNonneg_sum) ha (map_sq_nonneg (values_finite' hw _)))

theorem fill2_fin {h : Hist} (hh : FiniteHist h) (x y : Vec) {w : Weights} (hw : FiniteWeights w) :
    FiniteHist (Hist2d.fill h x y w).2 := by
  unfold Hist2d.fill
  exact accumulate_fin hh (fun a ha => binnedSum2_all (fun _ => finite_sum) ha (values_finite' hw _))
    (fun a ha => binnedSum2_all (fun _ => finiteNonneg_sum) ha (map_sq_nonneg (values_finite' hw _)))

theorem fill_fin {h : Hist} (hh : FiniteHist h) (x y : Vec) {w : Weights} (hw : FiniteWeights w) :
    FiniteHist (h.fill x y w).2 := by
  unfold Hist.fill
  split
  · exact fill1_fin hh x hw
  · exact fill2_fin hh x y hw

theorem blank_fin (c : HistCls) (e : List Edges) (n : List ℕ) (r : PyRange) : FiniteHist (Hist.blank c e n r) := by
  constructor
  · intro x hx; simp [Hist.blank, NdArr.zeros] at hx; rw [hx.2]; exact finite_zero.finite
  · intro x hx; simp [Hist.blank, NdArr.zeros] at hx; rw [hx.2]; exact finite_zero

theorem uniform1_fin {n : ℤ} {r : Option PyRange} {h : Hist} (hh : uniform1 n r = .ok h) : FiniteHist h := by
  unfold uniform1 at hh
  split at hh
  · split at hh
    · simp at hh
    · have := Except.ok.inj hh; subst this; exact blank_fin _ _ _ _
  · simp at hh

theorem init1_fin {b : Bins1} {r : Option PyRange} {h : Hist} (hh : Hist1d.init b r = .ok h) : FiniteHist h := by
  unfold Hist1d.init at hh
  split at hh
  · exact uniform1_fin hh
  · simp at hh
  · exact uniform1_fin hh
  · split at hh
    · simp at hh
    · have := Except.ok.inj hh; subst this; exact blank_fin _ _ _ _

theorem init2_fin {b : Bins2} {r : Option PyRange} {h : Hist} (hh : Hist2d.init b r = .ok h) : FiniteHist h := by
  unfold Hist2d.init at hh
  split at hh
  · split at hh
    · split at hh
      · simp at hh
      · have := Except.ok.inj hh; subst this; exact blank_fin _ _ _ _
    · simp at hh
  · split at hh
    · have := Except.ok.inj hh; subst this; exact blank_fin _ _ _ _
    · simp at hh
    · simp at hh

theorem new1_fin {b : Bins1} {r : Option PyRange} {d : Option Vec} {w : Weights} {h : Hist}
    (hw : FiniteWeights w) (hh : Hist1d.new b r d w = .ok h) : FiniteHist h := by
  unfold Hist1d.new at hh
  split at hh
  · simp at hh
  · rename_i h0 e0
    have h0f := init1_fin e0
    split at hh
    · have := Except.ok.inj hh; subst this; exact h0f
    · rename_i d
      have hf := fill1_fin h0f d hw
      generalize Hist1d.fill h0 d w = g at hh hf
      obtain ⟨g1, g2⟩ := g
      cases g1 with
      | error e => simp at hh
      | ok u => have := Except.ok.inj hh; subst this; exact hf

theorem new2_fin {b : Bins2} {r : Option PyRange} {d : Option (Vec × Vec)} {w : Weights} {h : Hist}
    (hw : FiniteWeights w) (hh : Hist2d.new b r d w = .ok h) : FiniteHist h := by
  unfold Hist2d.new at hh
  split at hh
  · simp at hh
  · rename_i h0 e0
    have h0f := init2_fin e0
    split at hh
    · have := Except.ok.inj hh; subst this; exact h0f
    · rename_i x y
      have hf := fill2_fin h0f x y hw
      generalize Hist2d.fill h0 x y w = g at hh hf
      obtain ⟨g1, g2⟩ := g
      cases g1 with
      | error e => simp at hh
      | ok u => have := Except.ok.inj hh; subst this; exact hf

theorem setBinned_fin (h : Hist) {c : NdArr} {e : Option NdArr} (hc : FiniteBinned c e) :
    FiniteHist (h.setBinned c e) := by
  refine ⟨hc.1, ?_⟩
  unfold Hist.setBinned
  cases e with
  | some e => exact map_sq_nonneg hc.2
  | none =>
    apply map_sq_nonneg
    intro x hx
    obtain ⟨y, hy, rfl⟩ := List.mem_map.mp hx
    exact finite_sqrt (hc.2 y hy)

theorem binned1_fin {c : NdArr} {e : Edges} {er : Option NdArr} {h : Hist} (hc : FiniteBinned c er)
    (hh : Hist1d.fromBinned c e er = .ok h) : FiniteHist h := by
  unfold Hist1d.fromBinned at hh
  split at hh
  · simp at hh
  · have := Except.ok.inj hh; subst this; exact setBinned_fin _ hc

theorem binned2_fin {c : NdArr} {ex ey : Edges} {er : Option NdArr} {h : Hist} (hc : FiniteBinned c er)
    (hh : Hist2d.fromBinned c ex ey er = .ok h) : FiniteHist h := by
  unfold Hist2d.fromBinned at hh
  split at hh
  · simp at hh
  · have := Except.ok.inj hh; subst this; exact setBinned_fin _ hc

theorem datasetFrom_fin {w : World} {c : ℕ} {a : NdArr} {h : Hist} (ha : ∀ x ∈ a.data, FiniteNonneg x)
    (hh : w.datasetFrom c a = .ok h) : FiniteHist h := by
  have hb : FiniteBinned a (some (a.map Fl.sqrt)) := by
    refine ⟨fun x hx => (ha x hx).finite, ?_⟩
    intro x hx
    obtain ⟨y, hy, rfl⟩ := List.mem_map.mp hx
    exact finite_sqrt (ha y hy)
  unfold World.datasetFrom at hh
  split at hh
  · simp at hh
  · simp at hh
  · exact binned1_fin hb hh
  · exact binned2_fin hb hh

theorem toy_fin {w : World} {c : ℕ} {d : Vec → ℕ → ℕ} {h : Hist} (hh : w.toy c d = .ok h) : FiniteHist h := by
  unfold World.toy at hh
  split at hh
  · simp at hh
  · split at hh
    · refine datasetFrom_fin ?_ hh
      intro x hx
      obtain ⟨i, _, rfl⟩ := List.mem_map.mp hx
      exact ⟨_, Nat.cast_nonneg _, rfl⟩
    · simp at hh

theorem generate_all {P : Hist → Prop} {gen : ℕ → Except Err Hist} (hg : ∀ c h, gen c = .ok h → P h)
    (l : List (String × ℕ)) : ∀ r, l.foldr (fun ch acc =>
    match gen ch.2 with
    | .error e => .error e
    | .ok h => match acc with
      | .error e => .error e
      | .ok l => .ok ((ch.1, h) :: l)) (.ok [] : Except Err (List (String × Hist))) = .ok r →
    ∀ x ∈ r, P x.2 := by
  induction l with
  | nil => intro r hr; have := Except.ok.inj hr; subst this; simp
  | cons a l ih =>
    intro r hr
    rw [List.foldr_cons] at hr
    generalize hacc : l.foldr _ _ = acc at hr ih
    cases h1 : gen a.2 with
    | error e => rw [h1] at hr; simp at hr
    | ok h =>
      rw [h1] at hr
      cases acc with
      | error e => simp at hr
      | ok l' =>
        have := Except.ok.inj hr
        subst this
        intro x hx
        rcases List.mem_cons.mp hx with rfl | hx
        · exact hg _ _ h1
        · exact ih l' rfl x hx

/-- all histograms of the heap are finite -/
def HistsFin (w : World) : Prop := ∀ i < w.nHists, FiniteHist (w.hists i)

theorem newHist_fin {w : World} (h : HistsFin w) {x : Hist} (hx : FiniteHist x) : HistsFin (w.newHist x).2 := by
  intro i hi
  by_cases e : i = w.nHists
  · subst e; simpa [World.newHist] using hx
  · have : i < w.nHists := by
      have : i < w.nHists + 1 := hi
      omega
    simp only [World.newHist, Function.update_of_ne e]; exact h i this

theorem addData_hists (hs : List (String × ℕ)) : ∀ (w : World) (m : Mct),
    (m.addData w hs).2.hists = w.hists ∧ (m.addData w hs).2.nHists = w.nHists := by
  induction hs with
  | nil => intro w m; exact ⟨rfl, rfl⟩
  | cons a hs ih =>
    intro w m
    simp only [Mct.addData]
    cases dictGet m.channels a.1 with
    | none => exact ⟨rfl, rfl⟩
    | some c =>
      simp only
      have h : (w.addData c a.2).2.hists = w.hists ∧ (w.addData c a.2).2.nHists = w.nHists := ⟨rfl, rfl⟩
      generalize w.addData c a.2 = r at h ⊢
      obtain ⟨r1, w1⟩ := r
      cases r1 with
      | error e => exact h
      | ok u => exact ⟨(ih w1 m).1.trans h.1, (ih w1 m).2.trans h.2⟩

theorem addDatasets_fin (l : List (String × Hist)) : ∀ (w : World) (m : Mct), HistsFin w →
    (∀ x ∈ l, FiniteHist x.2) → HistsFin (m.addDatasets w l).2 := by
  induction l with
  | nil => intro w m h _; exact h
  | cons a l ih =>
    intro w m h hl
    have h0 := newHist_fin h (hl a (by simp))
    simp only [Mct.addDatasets]
    cases dictGet m.channels a.1 with
    | none => exact h0
    | some c =>
      simp only
      have h1 : HistsFin ((w.newHist a.2).2.addData c (w.newHist a.2).1).2 := h0
      generalize (w.newHist a.2).2.addData c (w.newHist a.2).1 = r at h1 ⊢
      obtain ⟨r1, w1⟩ := r
      cases r1 with
      | error e => exact h1
      | ok u => exact ih w1 m h1 fun x hx => hl x (by simp [hx])

theorem step_histsFin {s : Sys} (o : Op) (ho : FiniteData o) (h : HistsFin s.w) : HistsFin (s.step o).w := by
  have halloc : ∀ r, (∀ x, r = .ok x → FiniteHist x) → HistsFin (s.allocHist r).w := by
    intro r hr; cases r with
    | error e => exact h
    | ok x => exact newHist_fin h (hr x rfl)
  have hallocT : ∀ r, HistsFin (s.allocTmpl r).w := by intro r; cases r <;> exact h
  have hts : ∀ _ : o.isTmplStep, HistsFin (s.step o).w := fun h' => by
    unfold HistsFin
    rw [(step_tmplStep s o h').1.hists, (step_tmplStep s o h').1.nHists]; exact h
  cases o with
  | newHist1 b r d w => exact halloc _ fun x hx => new1_fin ho hx
  | newHist2 b r d w => exact halloc _ fun x hx => new2_fin ho hx
  | binned1 c e er => exact halloc _ fun x hx => binned1_fin ho hx
  | binned2 c ex ey er => exact halloc _ fun x hx => binned2_fin ho hx
  | fill i x y w =>
    simp only [Sys.step]
    split
    · rename_i hi
      intro j hj
      by_cases e : j = i
      · subst e; simpa [World.setHist] using fill_fin (h j hi) x y ho
      · simp only [World.setHist, Function.update_of_ne e]; exact h j hj
    · exact h
  | newTmpl1 n i => simp only [Sys.step]; split <;> [exact hallocT _; exact h]
  | newTmpl2 n i => simp only [Sys.step]; split <;> [exact hallocT _; exact h]
  | defineChannel n b r => exact h
  | defineProcess n => exact h
  | addTemplate c p t e =>
    simp only [Sys.step]
    split
    · unfold Mct.addTemplate
      split
      · exact h
      · split <;> exact h
    · exact h
  | addData hs =>
    simp only [Sys.step]
    split
    · unfold HistsFin; rw [(addData_hists hs s.w s.m).1, (addData_hists hs s.w s.m).2]; exact h
    · exact h
  | constrain p v e => exact h
  | addAsimov i => exact ho.elim
  | addToy d =>
    simp only [Sys.step]
    cases hl : s.m.toy s.w d with
    | error e => exact h
    | ok l =>
      exact addDatasets_fin l _ _ h (generate_all (P := FiniteHist)
        (gen := fun c => s.w.toy c (d c)) (fun c x hx => toy_fin hx) s.m.channels l hl)
  | _ => exact hts trivial

theorem newTemplate_finite {name : String} {hid : ℕ} {h : Hist} {t : Template}
    (ht : newTemplate name hid h = .ok t) (hf : FiniteHist h) : FiniteTmpl t := by
  have : t.flatCounts = h.counts.data ∧ t.flatErrSq = h.errSq.data := by
    unfold newTemplate at ht
    cases hc : h.cls with
    | h1 =>
      rw [hc] at ht
      simp only [Template1d.new, hc, Template.build] at ht
      split at ht
      · have := Except.ok.inj ht; subst this; exact ⟨rfl, rfl⟩
      · simp at ht
    | h2 =>
      rw [hc] at ht
      simp only [Template2d.new, hc, Template.build] at ht
      split at ht
      · have := Except.ok.inj ht; subst this; exact ⟨rfl, rfl⟩
      · simp at ht
  unfold FiniteTmpl
  rw [this.1, this.2]; exact hf

theorem init_finite (ops : List Op) (ho : ∀ o ∈ ops, FiniteData o) :
    HistsFin (Sys.init.run ops).w ∧
      ∀ i < (Sys.init.run ops).w.nTmpls, FiniteTmpl ((Sys.init.run ops).w.tmpls i) := by
  induction ops using List.reverseRecOn with
  | nil => exact ⟨fun i hi => absurd hi (Nat.not_lt_zero i), fun i hi => absurd hi (Nat.not_lt_zero i)⟩
  | append_singleton ops o ih =>
    obtain ⟨h1, h2⟩ := ih fun o' h' => ho o' (by simp [h'])
    rw [run_append]
    refine ⟨step_histsFin o (ho o (by simp)) h1, ?_⟩
    intro i hi
    show FiniteTmpl (((Sys.init.run ops).step o).w.tmpls i)
    by_cases hlt : i < (Sys.init.run ops).w.nTmpls
    · rcases step_move _ o i hlt with ⟨p, e⟩ | ⟨m, rfl, e⟩ | ⟨x, y, up, down, rfl, e⟩
      · rw [e]; exact h2 i hlt
      · rw [e]; unfold FiniteTmpl
        rw [(apply_frame _ _).flatCounts, (apply_frame _ _).flatErrSq]; exact h2 i hlt
      · rw [e]; unfold FiniteTmpl
        rw [(apply_frame _ _).flatCounts, (apply_frame _ _).flatErrSq]; exact h2 i hlt
    · obtain ⟨name, hid, hh, e⟩ := step_new _ o i hi hlt
      exact newTemplate_finite e (h1 hid hh)

end

end TF
