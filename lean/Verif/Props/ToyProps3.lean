import Verif.Props.ToyProps2

set_option linter.unusedSimpArgs false

/-!
# The linearity test (C77)
-/

namespace TF.Spec

open Classical

noncomputable section

/-- the model at a scan point: all parameters reset, then the yield of process `p` set to `v` -/
def scanState (s : Sys) (p : String) (v : Fl) : World := (s.m.setYield (s.m.resetParameters s.w) p v).2

/-- `m` is the mean and `d` the (population) standard deviation of the real numbers `col` -/
def MeanStd (col : Vec) (m d : Fl) : Prop :=
  ∀ (n : ℕ) (f : Fin n → ℝ), 0 < n → col = vec f →
    m = .fin ((∑ i, f i) / n) ∧ d = .fin (Real.sqrt ((∑ i, (f i - (∑ j, f j) / n) ^ 2) / n))

/-- What goes wrong at a scan point with outcomes `oc` that starts with attempt `K`; `e` is the exception raised and
`K'` the next unused attempt. -/
def ScanFails (oc : ℕ → Except Err (Vec × Vec)) (known : Prop) (nExp K : ℕ) (e : Err) (K' : ℕ) : Prop :=
  (¬ known ∧ e = .runtimeError ∧ K' = K) ∨
  (known ∧ nExp = 0 ∧ e = .indexError ∧ K' = K) ∨
  (known ∧ ∃ ks K1, Consecutive oc 10 K ks K1 ∧ ks.length < nExp ∧ FailsWith oc 10 K1 e K')

/-- A linearity scan over the points `vs`, starting with attempt `K`: per point `v` there are `nExp` consecutive
successful experiments (at most 10 attempts each) with the outcomes `oc v`, continuing the numbering of the attempts
from point to point, and the result of the point is mean and standard deviation of entry `k` of their fitted values. -/
inductive Scan (oc : Fl → ℕ → Except Err (Vec × Vec)) (nExp k : ℕ) : ℕ → List Fl → List (Fl × Fl) → ℕ → Prop
  | nil (K : ℕ) : Scan oc nExp k K [] [] K
  | cons {K K' K'' : ℕ} {v : Fl} {vs : List Fl} {ks : List ℕ} {ps us : List Vec} {col : Vec} {m d : Fl} {rs : List (Fl × Fl)} :
      Consecutive (oc v) 10 K ks K' → ks.length = nExp → Rows (oc v) ks ps us → col.length = nExp →
      (∀ i < nExp, ∃ row x, ps[i]? = some row ∧ row[k]? = some x ∧ col[i]? = some x) → MeanStd col m d →
      Scan oc nExp k K' vs rs K'' → Scan oc nExp k K (v :: vs) ((m, d) :: rs) K''

end

end TF.Spec

namespace TF.Props

open Classical Spec

noncomputable section

theorem npMean_vec {n : ℕ} (f : Fin n → ℝ) (hn : 0 < n) : npMean (vec f) = .fin ((∑ i, f i) / n) := by
  have hn' : (n : ℝ) ≠ 0 := by exact_mod_cast hn.ne'
  unfold npMean
  unfold npSum
  rw [vec_sum, vec_length, Fl.fin_div _ _ hn']

theorem meanStd_of (col : Vec) : MeanStd col (npMean col) (npStd col) := by
  rintro n f hn rfl
  refine ⟨npMean_vec f hn, ?_⟩
  unfold npStd
  rw [npMean_vec f hn, map_vec _ (fun x => Fl.sq (x - .fin ((∑ i, f i) / n))) (fun i => (f i - (∑ j, f j) / n) ^ 2)
    (fun i => by rw [Fl.fin_sub, Fl.sq_fin]), npMean_vec _ hn, Fl.sqrt_fin]
  exact div_nonneg (Finset.sum_nonneg fun i _ => sq_nonneg _) (Nat.cast_nonneg _)

/-! ### reset and set_yield on models that differ only in their data -/

theorem setYieldLoop_same (p : String) (v : Fl) (cs : List ℕ) : ∀ {a b : World}, SameButData a b →
    (b.setYieldLoop p v cs).1 = (a.setYieldLoop p v cs).1 ∧ SameButData (a.setYieldLoop p v cs).2 (b.setYieldLoop p v cs).2 := by
  induction cs with
  | nil => intro a b h; exact ⟨rfl, h⟩
  | cons c cs ih =>
    intro a b h
    obtain ⟨d, hd⟩ := h.chans c
    simp only [World.setYieldLoop]
    rw [hd, h.tmpls]
    simp only
    cases dictGet (a.chans c).templates p with
    | none => exact ih h
    | some tid =>
      cases dictGet (a.chans c).effs p with
      | none => exact ih h
      | some eff =>
        simp only
        cases (a.tmpls tid).setYield (.float (v * eff)) with
        | error e => exact ⟨rfl, h⟩
        | ok t =>
          simp only
          exact ih ⟨by simp only [World.setTmpl]; rw [h.tmpls], h.nTmpls, h.nChans, h.chans, h.nHists, h.hists⟩

theorem setYield_same {a b : World} (h : SameButData a b) (m : Mct) (p : String) (v : Fl) :
    (m.setYield b p v).1 = (m.setYield a p v).1 ∧ SameButData (m.setYield a p v).2 (m.setYield b p v).2 := by
  unfold Mct.setYield
  split
  · exact ⟨rfl, h⟩
  · exact setYieldLoop_same p v _ h

theorem reset_same {s : Sys} (hw : SysWF s) {b : World} (h : SameButData s.w b) :
    SameButData (s.m.resetParameters s.w) (s.m.resetParameters b) := by
  obtain ⟨f1, e1⟩ := resetChannels_paramOnly s.m.chanIds s.w
  obtain ⟨f2, e2⟩ := resetChannels_paramOnly s.m.chanIds b
  obtain ⟨a1, a2, a3⟩ := resetChannels_spec s.m.chanIds s.w
  obtain ⟨b1, b2, b3⟩ := resetChannels_spec s.m.chanIds b
  unfold Mct.resetParameters
  have ht : ∀ c, (b.chans c).templates = (s.w.chans c).templates := by
    intro c; obtain ⟨d, hd⟩ := h.chans c; rw [hd]
  refine ⟨?_, by rw [e1, e2]; exact h.nTmpls, by rw [e1, e2]; exact h.nChans, by rw [a2, b2]; exact h.chans,
    by rw [e1, e2]; exact h.nHists, ?_⟩
  · funext i
    rw [a3, b3, h.tmpls]
    simp only [ht]
    by_cases hc : ∃ c ∈ s.m.chanIds, i ∈ (s.w.chans c).templates.map (·.2)
    · rw [if_pos hc, if_pos hc]
      obtain ⟨c, hc, hi⟩ := hc
      obtain ⟨q, hq, rfl⟩ := List.mem_map.mp hi
      have hl := ((hw.chan c (hw.lt c hc)).tmpl q hq).1
      rw [h.hists _ (hw.tmpl q.2 hl).hist]
    · rw [if_neg hc, if_neg hc]
  · rw [e1, e2]; exact h.hists

theorem setYieldLoop_other (p : String) (v : Fl) (cs : List ℕ) : ∀ (w : World) (i : ℕ),
    (∀ c ∈ cs, i ∉ (w.chans c).templates.map (·.2)) → (w.setYieldLoop p v cs).2.tmpls i = w.tmpls i := by
  induction cs with
  | nil => intro w i _; rfl
  | cons c cs ih =>
    intro w i hi
    have h2 := fun c hc => hi c (List.mem_cons_of_mem _ hc)
    simp only [World.setYieldLoop]
    cases hd : dictGet (w.chans c).templates p with
    | none => exact ih w i h2
    | some tid =>
      cases dictGet (w.chans c).effs p with
      | none => exact ih w i h2
      | some eff =>
        simp only
        cases (w.tmpls tid).setYield (.float (v * eff)) with
        | error e => rfl
        | ok t =>
          simp only
          have hne : i ≠ tid := by
            rintro rfl
            exact hi c (by simp) (List.mem_map.mpr ⟨_, dictGet_mem hd, rfl⟩)
          rw [ih (w.setTmpl tid t) i h2]
          simp [World.setTmpl, Function.update_of_ne hne]

theorem ParamOnly.eq_of {a b : World} (h : ParamOnly a b) (ht : b.tmpls = a.tmpls) : b = a := by
  obtain ⟨f, rfl⟩ := h
  simp only at ht
  rw [ht]

theorem reset_setYield {s : Sys} (p : String) (v : Fl) :
    s.m.resetParameters (scanState s p v) = s.m.resetParameters s.w := by
  unfold scanState
  obtain ⟨f, hf⟩ := setYield_paramOnly (s.m.resetParameters s.w) s.m p v
  obtain ⟨a1, a2, a3⟩ := resetChannels_spec s.m.chanIds s.w
  obtain ⟨b1, b2, b3⟩ := resetChannels_spec s.m.chanIds (s.m.setYield (s.m.resetParameters s.w) p v).2
  obtain ⟨g, hg⟩ := resetChannels_paramOnly s.m.chanIds s.w
  obtain ⟨h, hh⟩ := resetChannels_paramOnly s.m.chanIds (s.m.setYield (s.m.resetParameters s.w) p v).2
  have hot : ∀ i, (¬ ∃ c ∈ s.m.chanIds, i ∈ (s.w.chans c).templates.map (·.2)) →
      (s.m.setYield (s.m.resetParameters s.w) p v).2.tmpls i = (s.m.resetParameters s.w).tmpls i := by
    intro i hi
    unfold Mct.setYield
    split
    · rfl
    · refine setYieldLoop_other p v _ _ i fun c hc hm => hi ⟨c, hc, ?_⟩
      unfold Mct.resetParameters at hm
      rw [a2] at hm
      exact hm
  have key : (s.m.resetParameters (s.m.setYield (s.m.resetParameters s.w) p v).2).tmpls = (s.m.resetParameters s.w).tmpls := by
    funext i
    have hch : (s.m.setYield (s.m.resetParameters s.w) p v).2.chans = s.w.chans := by rw [hf]; exact a2
    have hhi : (s.m.setYield (s.m.resetParameters s.w) p v).2.hists = s.w.hists := by rw [hf]; exact a1
    show ((s.m.setYield (s.m.resetParameters s.w) p v).2.resetChannels s.m.chanIds).tmpls i = _
    rw [b3, hch, hhi]
    by_cases hc : ∃ c ∈ s.m.chanIds, i ∈ (s.w.chans c).templates.map (·.2)
    · rw [if_pos hc]
      have e1 : (s.m.setYield (s.m.resetParameters s.w) p v).2.tmpls i = { s.w.tmpls i with params := f i } := by
        rw [hf]
        show { (s.w.resetChannels s.m.chanIds).tmpls i with params := f i } = _
        rw [hg]
      rw [e1]
      show _ = (s.w.resetChannels s.m.chanIds).tmpls i
      rw [a3, if_pos hc]
      rfl
    · rw [if_neg hc, hot i hc]
  exact ParamOnly.eq_of ((setYield_paramOnly (s.m.resetParameters s.w) s.m p v).trans
    (resetChannels_paramOnly s.m.chanIds _)) key

theorem scan_built {s : Sys} (hb : s.Built) (p : String) (v : Fl) : Sys.Built ⟨scanState s p v, s.m⟩ := by
  have h1 := Sys.Built.step hb (o := .reset) (by simp [Op.structural])
  exact Sys.Built.step h1 (o := .setYield p v) (by simp [Op.structural])

/-- one scan point -/
theorem scan_point {s : Sys} (hs : s.Built) (env : ToyEnv) (p : String) (nExp : ℕ) (v : Fl) (t : Toy)
    (hR : SameButData (s.m.resetParameters s.w) (s.m.resetParameters t.w)) (hB : Sys.Built ⟨t.w, s.m⟩)
    (r : Except Err (Fl × Fl) × Toy) (hr : r = t.linearityPoint env s.m p v nExp) :
    SameButData (s.m.resetParameters s.w) (s.m.resetParameters r.2.w) ∧ Sys.Built ⟨r.2.w, s.m⟩ ∧
    r.2.minimizerId = t.minimizerId ∧
    ((∃ m d ks ps us col, r.1 = .ok (m, d) ∧
        Consecutive (toyFit env s.m t.minimizerId false (scanState s p v)) 10 t.tries ks r.2.tries ∧ ks.length = nExp ∧
        Rows (toyFit env s.m t.minimizerId false (scanState s p v)) ks ps us ∧ col.length = nExp ∧
        (∀ i < nExp, ∃ row x, ps[i]? = some row ∧ row[s.m.processes.idxOf p]? = some x ∧ col[i]? = some x) ∧
        MeanStd col m d ∧ SameButData (scanState s p v) r.2.w) ∨
     (∃ e, r.1 = .error e ∧ ScanFails (toyFit env s.m t.minimizerId false (scanState s p v)) (p ∈ s.m.processes) nExp t.tries e r.2.tries)) := by
  have hw := reachable_wf hs.reachable
  have hws := reachable_wf (scan_built hs p v).reachable
  have hB1 : Sys.Built ⟨scanState ⟨t.w, s.m⟩ p v, s.m⟩ := scan_built hB p v
  obtain ⟨hy1, hy2⟩ := setYield_same hR s.m p v
  have hback : ∀ w', SameButData (scanState s p v) w' → SameButData (s.m.resetParameters s.w) (s.m.resetParameters w') := by
    intro w' h
    have := reset_same (s := ⟨scanState s p v, s.m⟩) hws h
    simp only at this
    rwa [reset_setYield] at this
  unfold Toy.linearityPoint at hr
  simp only at hr
  have hT : scanState ⟨t.w, s.m⟩ p v = (s.m.setYield (s.m.resetParameters t.w) p v).2 := rfl
  rw [hT] at hB1
  by_cases hp : p ∈ s.m.processes
  swap
  · have h0 : s.m.setYield (s.m.resetParameters t.w) p v = (.error .runtimeError, s.m.resetParameters t.w) := by
      unfold Mct.setYield; rw [if_pos hp]
    rw [h0] at hr
    simp only at hr
    subst hr
    have h1 := Sys.Built.step hB (o := .reset) (by simp [Op.structural])
    refine ⟨?_, h1, rfl, .inr ⟨_, rfl, .inl ⟨hp, rfl, rfl⟩⟩⟩
    apply hback
    have hu : scanState s p v = s.m.resetParameters s.w := by
      unfold scanState Mct.setYield; rw [if_pos hp]
    rw [hu]; exact hR
  have hyk : (s.m.setYield (s.m.resetParameters t.w) p v).1 = .ok () := by
    unfold Mct.setYield; rw [if_neg (not_not.mpr hp)]; exact setYieldLoop_ok p v _ _
  have hy2 : SameButData (scanState s p v) (s.m.setYield (s.m.resetParameters t.w) p v).2 := hy2
  generalize s.m.setYield (s.m.resetParameters t.w) p v = q at hr hy2 hB1 hyk
  obtain ⟨q1, w1⟩ := q
  simp only at hyk hy2 hB1
  subst hyk
  simp only at hr
  have hex := experiments_spec (scan_built hs p v) env false 10 nExp
    (Toy.mk t.resetState.minimizerId t.resetState.params t.resetState.uncs t.resetState.fitted w1 t.resetState.tries)
    ⟨hy2, hB1.coherent⟩ hB1 _ rfl
  simp only at hex
  generalize Toy.experiments env s.m (Toy.mk t.resetState.minimizerId t.resetState.params t.resetState.uncs t.resetState.fitted w1 t.resetState.tries) false 10 nExp = E at hex hr
  obtain ⟨E1, t2⟩ := E
  simp only [Toy.resetState] at hex
  obtain ⟨e1, e2, e3, e4, ks, K', e5, ⟨f1, f2, f3, ⟨ps, us, f4, f5, f6⟩, -⟩ | ⟨f1, e, f2, f3⟩⟩ := hex
  swap
  · subst f2
    simp only at hr
    subst hr
    exact ⟨hback _ e1.same, e2, e3, .inr ⟨e, rfl, .inr (.inr ⟨hp, ks, K', e5, f1, f3⟩)⟩⟩
  subst f1
  simp only [List.nil_append] at f5 f6
  simp only at hr
  have htr : Toy.toyResults s.m (Toy.mk t2.minimizerId t2.params t2.uncs true t2.w t2.tries) p =
      match column ps (s.m.processes.idxOf p), column us (s.m.processes.idxOf p) with
      | .ok a, .ok b => .ok (a, b)
      | .error e, _ => .error e
      | _, .error e => .error e := by
    unfold Toy.toyResults
    simp only [Bool.true_eq_false, if_false]
    rw [if_neg (not_not.mpr hp), f5, f6]
    cases column ps (s.m.processes.idxOf p) <;> cases column us (s.m.processes.idxOf p) <;> rfl
  rw [htr] at hr
  by_cases h0 : nExp = 0
  · have : ps = [] := List.length_eq_zero_iff.mp (by rw [f4.1, f2, h0])
    have hc : column ps (s.m.processes.idxOf p) = .error .indexError := by rw [this]; simp [column]
    rw [hc] at hr
    simp only at hr
    subst hr
    refine ⟨hback _ e1.same, e2, e3, .inr ⟨_, rfl, .inr (.inl ⟨hp, h0, rfl, ?_⟩)⟩⟩
    have : ks = [] := List.length_eq_zero_iff.mp (by rw [f2, h0])
    subst this
    cases e5
    exact f3
  have hk : s.m.processes.idxOf p < s.m.processes.length := List.idxOf_lt_length_iff.mpr hp
  have hlen := (C51_aligned ⟨scanState s p v, s.m⟩ (scan_built hs p v).reachable).1
  have hrow : ∀ i < nExp, ∃ v u, ps[i]? = some v ∧ us[i]? = some u ∧ s.m.processes.idxOf p < v.length ∧
      s.m.processes.idxOf p < u.length := by
    intro i hi
    have hik : i < ks.length := by rw [f2]; exact hi
    obtain ⟨v', u, g1, g2, g3⟩ := f4.2.2 i ks[i] (List.getElem?_eq_getElem hik)
    obtain ⟨l1, l2⟩ := toyFit_length (s := ⟨scanState s p v, s.m⟩) g3
    refine ⟨v', u, g1, g2, ?_, ?_⟩
    · rw [l1, hlen]; unfold Mct.numProcesses; simp only; omega
    · rw [l2, hlen]; unfold Mct.numProcesses; simp only; omega
  have hall : ∀ (rows : List Vec), rows.length = nExp → (∀ i < nExp, ∃ v, rows[i]? = some v ∧ s.m.processes.idxOf p < v.length) →
      ∀ r ∈ rows, s.m.processes.idxOf p < r.length := by
    intro rows hl hr r hm
    obtain ⟨i, hi, rfl⟩ := List.getElem_of_mem hm
    obtain ⟨v, e1, e2⟩ := hr i (by omega)
    rw [List.getElem?_eq_getElem hi] at e1
    cases e1; exact e2
  have h3 : ps.length = nExp := by rw [f4.1, f2]
  have h4 : us.length = nExp := by rw [f4.2.1, f2]
  have c1 := column_ok (rows := ps) (by intro h; rw [h] at h3; simp at h3; omega)
    (hall ps h3 fun i hi => by obtain ⟨v, u, e1, e2, e3, e4⟩ := hrow i hi; exact ⟨v, e1, e3⟩)
  have c2 := column_ok (rows := us) (by intro h; rw [h] at h4; simp at h4; omega)
    (hall us h4 fun i hi => by obtain ⟨v, u, e1, e2, e3, e4⟩ := hrow i hi; exact ⟨u, e2, e4⟩)
  rw [c1, c2] at hr
  simp only at hr
  subst hr
  refine ⟨hback _ e1.same, e2, e3, .inl ⟨_, _, ks, ps, us, ps.map fun r => r.getD (s.m.processes.idxOf p) 0, rfl, ?_, f2, f4, ?_, ?_,
    meanStd_of _, e1.same⟩⟩
  · simp only at f3 ⊢; rw [f3]; exact e5
  · simp [h3]
  · intro i hi
    obtain ⟨v, u, g1, g2, g3, g4⟩ := hrow i hi
    refine ⟨v, v[s.m.processes.idxOf p], g1, List.getElem?_eq_getElem g3, ?_⟩
    rw [List.getElem?_map, g1]
    simp [List.getD_eq_getElem?_getD, List.getElem?_eq_getElem g3]

theorem scan_loop {s : Sys} (hs : s.Built) (env : ToyEnv) (p : String) (nExp : ℕ) (vs : List Fl) : ∀ t : Toy,
    SameButData (s.m.resetParameters s.w) (s.m.resetParameters t.w) → Sys.Built ⟨t.w, s.m⟩ →
    ∀ r, r = t.linearityLoop env s.m p nExp vs →
    Sys.Built ⟨r.2.w, s.m⟩ ∧
    ((∃ rs, r.1 = .ok rs ∧ Scan (fun v => toyFit env s.m t.minimizerId false (scanState s p v)) nExp (s.m.processes.idxOf p)
        t.tries vs rs r.2.tries ∧ ∀ v, vs.getLast? = some v → SameButData (scanState s p v) r.2.w) ∨
     (∃ e pre v post rs K, r.1 = .error e ∧ vs = pre ++ v :: post ∧
        Scan (fun v => toyFit env s.m t.minimizerId false (scanState s p v)) nExp (s.m.processes.idxOf p) t.tries pre rs K ∧
        ScanFails (toyFit env s.m t.minimizerId false (scanState s p v)) (p ∈ s.m.processes) nExp K e r.2.tries)) := by
  induction vs with
  | nil =>
    intro t hR hB r hr
    simp only [Toy.linearityLoop] at hr
    subst hr
    exact ⟨hB, .inl ⟨[], rfl, .nil _, by simp⟩⟩
  | cons v vs ih =>
    intro t hR hB r hr
    simp only [Toy.linearityLoop] at hr
    obtain ⟨a1, a2, a3, a4⟩ := scan_point hs env p nExp v t hR hB _ rfl
    generalize t.linearityPoint env s.m p v nExp = q at hr a1 a2 a3 a4
    obtain ⟨q1, t1⟩ := q
    simp only at a1 a2 a3 a4
    rcases a4 with ⟨m, d, ks, ps, us, col, b1, b2, b3, b4, b5, b6, b7, b8⟩ | ⟨e, b1, b2⟩
    · subst b1
      simp only at hr
      obtain ⟨i1, i2⟩ := ih t1 a1 a2 _ rfl
      rw [a3] at i2
      generalize hL : t1.linearityLoop env s.m p nExp vs = L at hr i1 i2
      obtain ⟨L1, t2⟩ := L
      simp only at i1 i2
      rcases i2 with ⟨rs, c1, c2, c3⟩ | ⟨e, pre, v', post, rs, K, c1, c2, c3, c4⟩
      · subst c1
        simp only at hr
        subst hr
        refine ⟨i1, .inl ⟨_, rfl, .cons b2 b3 b4 b5 b6 b7 c2, ?_⟩⟩
        intro v' hv'
        cases vs with
        | nil =>
          simp only [Toy.linearityLoop] at hL
          injection hL with _ hL
          subst hL
          simp at hv'; subst hv'; exact b8
        | cons a vs => rw [List.getLast?_cons_cons] at hv'; exact c3 v' hv'
      · subst c1
        simp only at hr
        subst hr
        exact ⟨i1, .inr ⟨e, v :: pre, v', post, _, K, rfl, by rw [c2]; rfl, .cons b2 b3 b4 b5 b6 b7 c3, c4⟩⟩
    · subst b1
      simp only at hr
      subst hr
      exact ⟨a2, .inr ⟨e, [], v, vs, [], t.tries, rfl, rfl, .nil _, b2⟩⟩

/-- **C77.** For every model `s` built channel by channel before evaluation (`Built`), every earlier use of the study object `t`, every
process name, limits, `n_points`, `n_exp`, random numbers and optimiser behaviour: `do_linearity_test` scans the
`n_points` equidistant points from `lo` to `hi`. At each point `v` the model is the start model with *all* parameters reset and the
yield of `p` set to `v` (`scanState s p v`), whatever happened at earlier points; `n_exp` consecutive successful experiments
(each at most 10 attempts, a new toy data set per attempt) are made, and mean and standard deviation reported for the point are those of
the fitted yields of `p` in exactly these `n_exp` experiments. If the test raises, it does so at the first point at which
the process is unknown, there is no experiment to average, or an experiment fails as described in C74. -/
theorem C77_linearity (s : Sys) (hs : s.Built) (env : ToyEnv) (t : Toy) (ht : t.w = s.w) (p : String) (lo hi : ℝ)
    (nPoints nExp : ℕ) (r : Except Err (Vec × Vec × Vec) × Toy)
    (hr : r = t.linearityTest env s.m p (.fin lo) (.fin hi) nPoints nExp) :
    ∃ pts : Vec, pts.length = nPoints ∧
      (∀ i < nPoints, pts[i]? = some (.fin (if nPoints = 1 then lo else lo + i * ((hi - lo) / (nPoints - 1))))) ∧
      Sys.Built ⟨r.2.w, s.m⟩ ∧
      ((∃ rs, r.1 = .ok (pts, rs.map (·.1), rs.map (·.2)) ∧ rs.length = nPoints ∧
          Scan (fun v => toyFit env s.m t.minimizerId false (scanState s p v)) nExp (s.m.processes.idxOf p)
            t.tries pts rs r.2.tries ∧
          ∀ v, pts.getLast? = some v → SameButData (scanState s p v) r.2.w) ∨
       (∃ e pre v post rs K, r.1 = .error e ∧ pts = pre ++ v :: post ∧
          Scan (fun v => toyFit env s.m t.minimizerId false (scanState s p v)) nExp (s.m.processes.idxOf p) t.tries pre rs K ∧
          ScanFails (toyFit env s.m t.minimizerId false (scanState s p v)) (p ∈ s.m.processes) nExp K e r.2.tries)) := by
  refine ⟨linspaceFl (.fin lo) (.fin hi) nPoints, by simp [linspaceFl], ?_, ?_⟩
  · intro i hi'
    unfold linspaceFl
    rw [List.getElem?_map, List.getElem?_range hi', Option.map_some]
    congr 1
    by_cases h1 : nPoints = 1
    · rw [if_neg (by omega), if_pos h1, if_pos h1]
    · rw [if_neg h1, if_neg h1]
      have hne : ((nPoints : ℝ) - 1) ≠ 0 := by
        intro h
        have : (nPoints : ℝ) = 1 := by linarith
        exact h1 (by exact_mod_cast this)
      by_cases h2 : 1 < nPoints ∧ i + 1 = nPoints
      · rw [if_pos h2]
        congr 1
        have : (i : ℝ) = nPoints - 1 := by rw [← h2.2]; push_cast; ring
        rw [this]
        field_simp
        ring
      · rw [if_neg h2, Fl.fin_sub, Fl.fin_div _ _ hne, Fl.fin_mul, Fl.fin_add]
  · unfold Toy.linearityTest at hr
    obtain ⟨a1, a2⟩ := scan_loop hs env p nExp (linspaceFl (.fin lo) (.fin hi) nPoints) t
      (by rw [ht]; exact SameButData.refl _) (by rw [ht]; exact hs) _ rfl
    generalize t.linearityLoop env s.m p nExp (linspaceFl (.fin lo) (.fin hi) nPoints) = q at hr a1 a2
    obtain ⟨q1, t1⟩ := q
    simp only at a1 a2
    rcases a2 with ⟨rs, c1, c2, c3⟩ | ⟨e, pre, v', post, rs, K, c1, c2, c3, c4⟩
    · subst c1
      simp only at hr
      subst hr
      refine ⟨a1, .inl ⟨rs, rfl, ?_, c2, c3⟩⟩
      have hl : ∀ {oc : Fl → ℕ → Except Err (Vec × Vec)} {n k K : ℕ} {vs rs K'}, Scan oc n k K vs rs K' → rs.length = vs.length := by
        intro oc n k K vs rs K' h
        induction h with
        | nil => rfl
        | cons _ _ _ _ _ _ _ ih => simp [ih]
      rw [hl c2]; simp [linspaceFl]
    · subst c1
      simp only at hr
      subst hr
      exact ⟨a1, .inr ⟨e, pre, v', post, rs, K, rfl, c2, c3, c4⟩⟩

/-! ### an example -/

namespace Ex

/-- the example model with yield `v` -/
def wV (v : ℝ) : World :=
  { wZ with tmpls := Function.update (fun _ => dummyTmpl) 0 { bt "t" 0 ![1, 1] ![1, 1] with params := [.fin v, .fin 0, .fin 0] } }

theorem scanV (v : ℝ) : scanState sysZ "p" (.fin v) = wV v := by
  have h1 : sysZ.m.resetParameters sysZ.w = wZ := by
    simp [sysZ, mZ, Mct.resetParameters, Mct.chanIds, World.resetChannels, World.resetChannel, wZ, chZ, World.resetTmpls,
      World.setTmpl, Template.reset, bt]
  unfold scanState
  rw [h1]
  simp [sysZ, mZ, Mct.setYield, Mct.chanIds, World.setYieldLoop, wZ, chZ, dictGet, Template.setYield, wV, World.setTmpl, bt, initParams,
    List.replicate, Fl.zero_def]

theorem builtV (v : ℝ) : Sys.Built ⟨wV v, mZ⟩ := by
  have := scan_built sysZ_built "p" (.fin v)
  rw [scanV] at this
  exact this

theorem toyV (v : ℝ) (hv : 0 ≤ v) (draw : ℕ → Vec → ℕ → ℕ) :
    ∃ h, mZ.toy (wV v) draw = .ok [("a", h)] ∧ h.shape = [2] ∧ h.range = .d1 .tuple 0 2 := by
  have hh : HasShape (bt "t" 0 ![1, 1] ![1, 1]) ![1, 1] (fun i => (![1, 1] : Fin 2 → ℝ) i / (![1, 1] : Fin 2 → ℝ) i) := by
    obtain ⟨T, hT, hh⟩ := (chanIs_single wZ 0 (by simp [wZ]) "p" 0 1 "t" 0 ![1, 1] ![1, 1] (by intro i; fin_cases i <;> simp)
        (by intro i; fin_cases i <;> simp) (by simp [wZ, chZ]) (by simp [wZ, chZ]) (by simp [wZ, chZ]) (by simp [wZ])).tmpls
    have : T 0 = bt "t" 0 ![1, 1] ![1, 1] := by
      simp [World.chanTmpls, wZ, chZ] at hT
      exact hT.symm
    rw [← this]; exact (hh 0).1
  obtain ⟨a, ha, h1, -⟩ := C83_toy (K := 1) (n := 2) ⟨wV v, mZ⟩ (builtV v).reachable "a" 0 (by simp [mZ])
    (by simp [wV, wZ, chZ]) Nat.one_pos (fun _ => { bt "t" 0 ![1, 1] ![1, 1] with params := [.fin v, .fin 0, .fin 0] }) (by
      simp [World.chanTmpls, wV, wZ, chZ]) (fun _ => ![1, 1])
    (fun _ i => (![1, 1] : Fin 2 → ℝ) i / (![1, 1] : Fin 2 → ℝ) i) (fun _ => v) (fun _ _ => 0)
    (fun k => ⟨hh.bins, hh.counts, hh.rel, hh.prod⟩)
    (fun k => by simp [HasParams, vec, List.ofFn_succ])
    (fun k => by simp [Fin.sum_univ_two]) (draw 0)
  obtain ⟨h, e1, e2, e3, e4, e5⟩ := h1 (by
    intro i
    rw [ha]
    have : (![1, 1] : Fin 2 → ℝ) i = 1 := by fin_cases i <;> rfl
    simp [this, Fin.sum_univ_two]
    positivity)
  refine ⟨h, ?_, e4, e5.mpr rfl⟩
  have : mZ.channels = [("a", 0)] := rfl
  unfold Mct.toy Mct.generate
  rw [this]
  simp only [List.foldr_cons, List.foldr_nil, e1]

theorem toyFitV (v : ℝ) (hv : 0 ≤ v) (g : Bool) (k : ℕ) : toyFit envZ mZ "iminuit" g (wV v) k =
    if k = 0 then .error .runtimeError else .ok ([.fin 2, .fin 0, .fin 0], [.fin 1, .fin 0, .fin 0]) := by
  obtain ⟨h, h1, h2, h3⟩ := toyV v hv (envZ.draw k)
  have hB : (Sys.step ⟨wV v, mZ⟩ (.addToy (envZ.draw k))).Built := Sys.Built.step (builtV v) (by simp [Op.structural])
  simp only [Sys.step, h1] at hB
  unfold toyFit
  rw [h1]
  simp only
  have hsame := addDatasets_same [("a", h)] (wV v) mZ
  have hok : (mZ.addDatasets (wV v) [("a", h)]).1 = .ok () := by
    simp [Mct.addDatasets, mZ, dictGet, World.addData, World.newHist, wV, wZ, chZ, Channel.addData, Channel.checkHist, h2, h3]
  rw [hok]
  obtain ⟨n1, n2, n3⟩ := names_same hsame mZ
  generalize mZ.addDatasets (wV v) [("a", h)] = q at hB n1 n2 n3 ⊢
  obtain ⟨q1, w1⟩ := q
  simp only at hB n1 n2 n3 ⊢
  have hn : mZ.paramNames (wV v) = ["p_yield", "a_p_bin_0", "a_p_bin_1"] := by
    have := (names_params (setYield_paramOnly sysZ.w mZ "p" (.fin v)) mZ).1
    rw [← namesZ]
    simp [sysZ, mZ, Mct.paramNames, World.channelNames, wV, wZ, chZ, bt]
  have hx : ∃ x0, mZ.x0 (wV v) = .ok x0 := by
    simp [Mct.x0, Mct.nuiParams, Mct.allTmpls, World.chanTmpls, mZ, Mct.chanIds, wV, wZ, chZ]
  obtain ⟨x0, hx⟩ := hx
  rw [hn] at n1
  rw [hx] at n3
  obtain ⟨c, -, -, -, -, -, c6⟩ := C64_iminuit ⟨w1, mZ⟩ hB.reachable "iminuit" lower_iminuit [] ⟨by simp, by simp⟩ _ n3 g true none
  have hnew : fitRun "iminuit" [] = Fitter.new "iminuit" := rfl
  rw [hnew] at c6
  simp only at c6
  by_cases hk : k = 0
  · rw [if_pos hk, (c6 (envZ.optim k)).1 .runtimeError (by simp [envZ, hk])]
  · rw [if_neg hk, (c6 (envZ.optim k)).2 ⟨⟨true, true, true⟩, ⟨true, true, true⟩, .fin 0, [.fin 2, .fin 0, .fin 0], [.fin 1, .fin 0, .fin 0],
          .ok (Mat.zeros 3 3, Mat.zeros 3 3)⟩ _ _ (by simp [envZ, hk]) (by rw [n1]; rfl) (by rw [n1]; rfl) rfl]

end Ex

/-- non-vacuity of C77: a scan of three points from 0 to 10 with two experiments each (one attempt fails) succeeds -/
example : ∃ pts ms ds, ((Toy.new Ex.sysZ.w "iminuit" 0).linearityTest Ex.envZ Ex.sysZ.m "p" (.fin 0) (.fin 10) 3 2).1 = .ok (pts, ms, ds) ∧
    ms.length = 3 := by
  obtain ⟨pts, p1, p2, p3, ⟨rs, h1, h2, h3, h4⟩ | ⟨e, pre, v, post, rs, K, h1, h2, h3, h4⟩⟩ :=
    C77_linearity Ex.sysZ Ex.sysZ_built Ex.envZ (Toy.new Ex.sysZ.w "iminuit" 0) rfl "p" 0 10 3 2 _ rfl
  · exact ⟨pts, _, _, h1, by simp [h2]⟩
  · exfalso
    have hv : ∃ x : ℝ, v = .fin x ∧ 0 ≤ x := by
      have hi : pre.length < 3 := by rw [← p1, h2]; simp
      have h0 := p2 pre.length hi
      rw [h2, List.getElem?_append_right le_rfl] at h0
      simp at h0
      exact ⟨_, h0, by positivity⟩
    obtain ⟨x, rfl, hx⟩ := hv
    have hid : (Toy.new Ex.sysZ.w "iminuit" 0).minimizerId = "iminuit" := rfl
    rw [hid, Ex.scanV] at h4
    have hp : "p" ∈ Ex.sysZ.m.processes := by simp [Ex.sysZ, Ex.mZ]
    rcases h4 with ⟨h5, _⟩ | ⟨_, h5, _⟩ | ⟨_, ks, K1, h5, h6, h7⟩
    · exact h5 hp
    · cases h5
    · rcases h7 with ⟨k, -, -, -, h8, h9, -⟩ | ⟨h8, -⟩
      · have := Ex.toyFitV x hx false k
        rw [show Ex.mZ = Ex.sysZ.m from rfl, h8] at this
        split at this
        · injection this with this; subst this; exact h9 (.inl rfl)
        · cases this
      · obtain ⟨e, h9, -⟩ := h8 (K1 + 1) (by omega) (by omega)
        have := Ex.toyFitV x hx false (K1 + 1)
        rw [show Ex.mZ = Ex.sysZ.m from rfl, h9, if_neg (by omega)] at this
        cases this

end

end TF.Props
