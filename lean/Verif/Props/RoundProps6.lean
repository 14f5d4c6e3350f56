import Verif.Props.RoundProps5
import Verif.Props.MctProps7
import Verif.Model.RoundMct

set_option linter.unusedSimpArgs false

/-!
# Accuracy of the likelihood of the whole model in floating point (C128)
-/

namespace TF.Spec

open TF

noncomputable section

/-- the library's `** 2`: relative error `κ u`, with absolute errors `κ u lo` below the normal range -/
def SqAccurate (ρ : ℝ → Fl) (u κ lo hi : ℝ) (sqr : Fl → Fl) : Prop :=
  ∀ z, Representable ρ z → 2 * z ^ 2 ≤ hi → ∃ r, sqr (.fin z) = .fin r ∧ 0 ≤ r ∧ |r - z ^ 2| ≤ κ * u * max (z ^ 2) lo

/-- the size of a constraint term, with a floor for underflow -/
def constraintSize (lo x v e : ℝ) : ℝ := (x - v) ^ 2 / (2 * e ^ 2) + lo / e ^ 2 + lo

/-- everything computed for a constraint stays in the range of normal numbers -/
structure ConstraintInRange (ρ : ℝ → Fl) (lo hi x v e : ℝ) : Prop where
  floats : Representable ρ x ∧ Representable ρ v ∧ Representable ρ e
  normal : lo ≤ e ^ 2
  top : 3 * (x - v) ^ 2 ≤ hi
  bottom : 2 * e ^ 2 ≤ hi

/-- channel number `k` of the model `s` is described by `S k`, and the inverse correlation matrices that it has stored are `Q k` -/
def StoredModel (s : Sys) (S : ℕ → ChanSpec) (Q : ∀ k, Fin (S k).K → Matrix (Fin (S k).n) (Fin (S k).n) ℝ) : Prop :=
  ∀ k, (hk : k < s.m.chanIds.length) → 0 < (S k).K ∧ 0 < (S k).n ∧
    ChanStored s.w s.m.chanIds[k] (S k).cnt (S k).ε (S k).eff (Q k)

end

end TF.Spec

namespace TF.Props

open Classical Spec

noncomputable section

variable {ρ : ℝ → Fl} {u lo hi : ℝ}

/-! ### a constraint -/

set_option maxHeartbeats 800000 in
theorem constraint_err (A : Accurate ρ u lo hi) {κ : ℝ} (hκ : 0 ≤ κ) {sqr : Fl → Fl} (hsq : SqAccurate ρ u κ lo hi sqr)
    {x v e : ℝ} (he : e ≠ 0) (hr : ConstraintInRange ρ lo hi x v e) (hs : 16 * constraintSize lo x v e ≤ hi)
    (hu : (10 + 6 * κ) * u ≤ 1) :
    ∃ t, constraintTermR ρ sqr (.fin x) (.fin v) (.fin e) = .fin t ∧ Representable ρ t ∧
      |t - gaussTerm x v e| ≤ (10 + 4 * κ) * u * constraintSize lo x v e ∧
      |gaussTerm x v e| ≤ constraintSize lo x v e ∧ 0 ≤ constraintSize lo x v e := by
  obtain ⟨⟨rx, rv, re⟩, hn, ht, hb⟩ := hr
  have hu0 := A.u0
  have hu1 := A.u1
  have hlo := A.lo0
  have hlo1 := A.lo1
  have hhi := A.hi1
  have hκu := mul_nonneg hκ hu0
  have he2 : 0 < e ^ 2 := by positivity
  set D := x - v with hD
  have hDabs : |D| ≤ hi := by
    have h1 : |D| ≤ 1 + D ^ 2 := by
      rw [← sq_abs]
      nlinarith [sq_nonneg (|D| - 1), abs_nonneg D]
    nlinarith
  obtain ⟨z, ez, hz⟩ := A.add x (-v) rx (A.neg _ rv) (by rw [← sub_eq_add_neg]; exact hDabs)
  rw [← sub_eq_add_neg, ← hD] at ez hz
  have rz := A.idem _ _ ez
  set W := D ^ 2 / 2 + lo with hW
  have hD2 : 0 ≤ D ^ 2 := sq_nonneg _
  have hW0 : 0 ≤ W := by positivity
  have hz2 : |z ^ 2 - D ^ 2| ≤ (2 + u) * u * D ^ 2 := by
    have e1 : z ^ 2 - D ^ 2 = (z - D) * (z - D + 2 * D) := by ring
    rw [e1, abs_mul, ← sq_abs D]
    have h1 : |z - D + 2 * D| ≤ u * |D| + 2 * |D| := by
      refine (abs_add_le _ _).trans (add_le_add hz ?_)
      rw [abs_mul, abs_of_pos (by norm_num : (0:ℝ) < 2)]
    have h2 := mul_le_mul hz h1 (abs_nonneg _) (mul_nonneg hu0 (abs_nonneg D))
    refine h2.trans (le_of_eq ?_)
    ring
  have hz2' : |z ^ 2 - D ^ 2| ≤ 17 / 8 * u * D ^ 2 := by
    refine hz2.trans ?_
    have : (2 + u) * u ≤ 17 / 8 * u := mul_le_mul_of_nonneg_right (by linarith) hu0
    exact mul_le_mul_of_nonneg_right this hD2
  have hzle : z ^ 2 ≤ 3 / 2 * D ^ 2 := by
    have h1 := (abs_le.mp hz2').2
    have h2 : 17 / 8 * u * D ^ 2 ≤ 1 / 2 * D ^ 2 := mul_le_mul_of_nonneg_right (by linarith) hD2
    linarith
  obtain ⟨r, er, r0, hr⟩ := hsq z rz (by linarith)
  have hmax : max (z ^ 2) lo ≤ 3 / 2 * D ^ 2 + lo := max_le (by linarith) (by linarith)
  have hr' : |r - z ^ 2| ≤ κ * u * (3 / 2 * D ^ 2 + lo) := hr.trans (mul_le_mul_of_nonneg_left hmax hκu)
  have p1 := mul_nonneg hu0 hD2
  have p2 := mul_nonneg hκu hD2
  have p3 := mul_nonneg hu0 hlo
  have p4 := mul_nonneg hκu hlo
  have hrD : |r / 2 - D ^ 2 / 2| ≤ (17 / 8 + 3 / 2 * κ) * u * W := by
    have h1 : |r - D ^ 2| ≤ |r - z ^ 2| + |z ^ 2 - D ^ 2| := abs_sub_le _ _ _
    rw [← sub_div, abs_div, abs_of_pos (by norm_num : (0:ℝ) < 2), hW]
    linarith
  have hrW : r / 2 ≤ 2 * W := by
    have h1 := (abs_le.mp hrD).2
    have h2 : (17 / 8 + 3 / 2 * κ) * u * W ≤ 1 * W := mul_le_mul_of_nonneg_right (by linarith) hW0
    have h3 : D ^ 2 / 2 ≤ W := by rw [hW]; linarith
    linarith
  have hWhi : 2 * W ≤ hi := by rw [hW]; linarith
  obtain ⟨h, eh, hh⟩ := A.rel (1 / 2 * r) (by rw [abs_of_nonneg (by positivity)]; linarith)
  rw [abs_of_nonneg (show 0 ≤ 1 / 2 * r by positivity)] at hh
  have h0 : 0 ≤ h := A.sign _ _ (by positivity) eh
  have hmax2 : max (1 / 2 * r) lo ≤ 2 * W := max_le (by linarith) (by rw [hW]; linarith)
  have hhD : |h - D ^ 2 / 2| ≤ (5 + 3 / 2 * κ) * u * W := by
    have h1 : |h - D ^ 2 / 2| ≤ |h - 1 / 2 * r| + |1 / 2 * r - D ^ 2 / 2| := abs_sub_le _ _ _
    have h2 := mul_le_mul_of_nonneg_left hmax2 hu0
    have e1 : 1 / 2 * r - D ^ 2 / 2 = r / 2 - D ^ 2 / 2 := by ring
    rw [e1] at h1
    have p5 := mul_nonneg hu0 hW0
    linarith
  have hhW : h ≤ 2 * W := by
    have h1 := (abs_le.mp hhD).2
    have h2 : (5 + 3 / 2 * κ) * u * W ≤ 1 * W := mul_le_mul_of_nonneg_right (by linarith) hW0
    have h3 : D ^ 2 / 2 ≤ W := by rw [hW]; linarith
    linarith
  obtain ⟨q, eq, -, hq⟩ := hsq e re hb
  rw [max_eq_left hn] at hq
  have hκ6 : κ * u ≤ 1 / 6 := by linarith
  have hqlo : 5 / 6 * e ^ 2 ≤ q := by
    have h1 := (abs_le.mp hq).1
    have h2 := mul_le_mul_of_nonneg_right hκ6 he2.le
    linarith
  have hq0 : 0 < q := lt_of_lt_of_le (by positivity) hqlo
  have hWe : 0 ≤ W / e ^ 2 := by positivity
  have hsz : constraintSize lo x v e = W / e ^ 2 + lo := by
    unfold constraintSize
    rw [← hD, hW]
    field_simp
  have hgt : gaussTerm x v e = D ^ 2 / 2 / e ^ 2 := by
    unfold gaussTerm
    rw [← hD]
    field_simp
  have hinv : ∀ a, 0 ≤ a → a / q ≤ 6 / 5 * (a / e ^ 2) := fun a ha => by
    rw [← mul_div_assoc, div_le_div_iff₀ hq0 he2]
    nlinarith
  have hdiv : |h / q - D ^ 2 / 2 / e ^ 2| ≤ (6 + 3 * κ) * u * (W / e ^ 2) := by
    have e1 : h / q - D ^ 2 / 2 / e ^ 2 = (h - D ^ 2 / 2) / q + D ^ 2 / 2 * (e ^ 2 - q) / e ^ 2 / q := by
      field_simp
      ring
    rw [e1]
    have h1 : |(h - D ^ 2 / 2) / q| ≤ 6 / 5 * ((5 + 3 / 2 * κ) * u * W / e ^ 2) := by
      rw [abs_div, abs_of_pos hq0]
      refine (div_le_div_of_nonneg_right hhD hq0.le).trans (hinv _ ?_)
      exact (abs_nonneg _).trans hhD
    have h2 : |D ^ 2 / 2 * (e ^ 2 - q) / e ^ 2 / q| ≤ 6 / 5 * (κ * u * W / e ^ 2) := by
      rw [abs_div, abs_of_pos hq0, abs_div, abs_of_pos he2, abs_mul, abs_of_nonneg (by positivity), abs_sub_comm]
      have h3 : D ^ 2 / 2 * |q - e ^ 2| / e ^ 2 ≤ κ * u * W := by
        rw [div_le_iff₀ he2]
        have h4 : D ^ 2 / 2 ≤ W := by rw [hW]; linarith
        calc D ^ 2 / 2 * |q - e ^ 2| ≤ W * (κ * u * e ^ 2) := mul_le_mul h4 hq (abs_nonneg _) hW0
          _ = κ * u * W * e ^ 2 := by ring
      exact (div_le_div_of_nonneg_right h3 hq0.le).trans (hinv _ (mul_nonneg hκu hW0))
    refine (abs_add_le _ _).trans ((add_le_add h1 h2).trans (le_of_eq ?_))
    field_simp
    ring
  have hhq : h / q ≤ 12 / 5 * (W / e ^ 2) := by
    refine (hinv _ h0).trans ?_
    have := div_le_div_of_nonneg_right hhW he2.le
    rw [mul_div_assoc] at this
    linarith
  have hhq0 : 0 ≤ h / q := div_nonneg h0 hq0.le
  rw [hsz] at hs
  obtain ⟨t, et, htt⟩ := A.rel (h / q) (by rw [abs_of_nonneg hhq0]; linarith)
  rw [abs_of_nonneg hhq0] at htt
  refine ⟨t, ?_, A.idem _ _ et, ?_, ?_, ?_⟩
  · unfold constraintTermR
    rw [Fl.fin_sub, rd_fin, ← hD, ez, er, Fl.fin_mul, rd_fin, eh, eq, Fl.fin_div _ _ hq0.ne', rd_fin, et]
  · rw [hgt, hsz]
    have h1 : |t - D ^ 2 / 2 / e ^ 2| ≤ |t - h / q| + |h / q - D ^ 2 / 2 / e ^ 2| := abs_sub_le _ _ _
    have h2 : max (h / q) lo ≤ 12 / 5 * (W / e ^ 2) + lo := max_le (by linarith) (by linarith)
    have h3 := mul_le_mul_of_nonneg_left h2 hu0
    have p5 := mul_nonneg hu0 hWe
    have p6 := mul_nonneg hκu hWe
    linarith
  · rw [hgt, hsz, abs_of_nonneg (by positivity)]
    have : D ^ 2 / 2 / e ^ 2 ≤ W / e ^ 2 := div_le_div_of_nonneg_right (by rw [hW]; linarith) he2.le
    linarith
  · rw [hsz]
    linarith

/-! ### the loop over channels and constraints -/

theorem gaussTermR_frame (dot : List (Fl × Fl) → Fl) {w : World} (hw : Coherent w) (c : ℕ) (hc : c < w.nChans) (n : Vec) :
    CacheOnly w (w.gaussTermR ρ dot c n).2 ∧ Coherent (w.gaussTermR ρ dot c n).2 := by
  obtain ⟨-, h2⟩ := invCorrBlock_coh hw c hc
  have h3 := invCorrBlock_frame w c
  unfold World.gaussTermR
  generalize w.invCorrBlock c = r at h2 h3 ⊢
  obtain ⟨r1, w1⟩ := r
  simp only at h2 h3
  cases r1 with
  | error e => exact ⟨h3, h2⟩
  | ok B =>
    simp only
    cases vecMatR dot n B with
    | error e => exact ⟨h3, h2⟩
    | ok v =>
      simp only
      split_ifs <;> exact ⟨h3, h2⟩

theorem nllContributionR_frame (lg : Fl → Fl) (sum : Vec → Fl) (dot : List (Fl × Fl) → Fl) {w : World} (hw : Coherent w) (c : ℕ)
    (hc : c < w.nChans) (y n : Vec) :
    CacheOnly w (w.nllContributionR ρ lg sum dot c y n).2 ∧ Coherent (w.nllContributionR ρ lg sum dot c y n).2 := by
  unfold World.nllContributionR
  cases (w.chans c).hdata with
  | none => exact ⟨CacheOnly.refl w, hw⟩
  | some hid =>
    simp only
    obtain ⟨f1, c1⟩ := expectedEvtsR_frame (ρ := ρ) sum dot hw c hc y n
    generalize w.expectedEvtsR ρ sum dot c y n = r at f1 c1 ⊢
    obtain ⟨r1, w1⟩ := r
    simp only at f1 c1
    cases r1 with
    | error e => exact ⟨f1, c1⟩
    | ok ex =>
      simp only
      cases poissonTermR ρ lg sum (w.hists hid).counts.data ex with
      | error e => exact ⟨f1, c1⟩
      | ok p =>
        simp only
        obtain ⟨f2, c2⟩ := gaussTermR_frame (ρ := ρ) dot c1 c (by rw [f1.nChans]; exact hc) n
        generalize w1.gaussTermR ρ dot c n = r at f2 c2 ⊢
        obtain ⟨r2, w2⟩ := r
        cases r2 <;> exact ⟨f1.trans f2, c2⟩

/-- adding the terms one after the other -/
def addAll (ρ : ℝ → Fl) (acc : Fl) (ts : List ℝ) : Fl := ts.foldl (fun a t => (a + .fin t).rd ρ) acc

theorem addAll_sum (l : Vec) (acc : Fl) (h : SumR ρ l acc) (ts : List ℝ) : SumR ρ (l ++ ts.map Fl.fin) (addAll ρ acc ts) := by
  induction ts generalizing l acc with
  | nil => simpa [addAll] using h
  | cons t ts ih =>
    have := ih (l ++ [.fin t]) _ (SumR.add h (SumR.one (.fin t)))
    simpa [addAll] using this

theorem nllChannelsR_terms (lg : Fl → Fl) (sum : Vec → Fl) (dot : List (Fl × Fl) → Fl) {w : World} (P : ℕ → ℝ → Prop) (cs : List ℕ)
    (hcs : ∀ c ∈ cs, c < w.nChans) : ∀ (w' : World) (acc : Fl) (ys ns : List Vec), CacheOnly w w' → Coherent w' →
    ys.length = cs.length → ns.length = cs.length →
    (∀ (k : ℕ) (h1 : k < cs.length) (h2 : k < ys.length) (h3 : k < ns.length) (w1 : World), CacheOnly w w1 → Coherent w1 →
      ∃ v, (w1.nllContributionR ρ lg sum dot cs[k] ys[k] ns[k]).1 = .ok (.fin v) ∧ P k v) →
    ∃ vs : List ℝ, vs.length = cs.length ∧ (∀ k, (h : k < vs.length) → P k vs[k]) ∧
      (w'.nllChannelsR ρ lg sum dot acc cs ys ns).1 = .ok (addAll ρ acc vs) := by
  induction cs generalizing P with
  | nil =>
    intro w' acc ys ns _ _ hy hn _
    refine ⟨[], rfl, fun k h => absurd h (by simp), ?_⟩
    unfold World.nllChannelsR
    rfl
  | cons c cs ih =>
    intro w' acc ys ns hf hco hy hn h
    cases ys with
    | nil => simp at hy
    | cons y ys =>
      cases ns with
      | nil => simp at hn
      | cons n ns =>
        obtain ⟨v, hv, hP⟩ := h 0 (by simp) (by simp) (by simp) w' hf hco
        simp only [List.getElem_cons_zero] at hv
        obtain ⟨f1, c1⟩ := nllContributionR_frame (ρ := ρ) lg sum dot hco c (by rw [hf.nChans]; exact hcs c (by simp)) y n
        unfold World.nllChannelsR
        generalize w'.nllContributionR ρ lg sum dot c y n = r at hv f1 c1 ⊢
        obtain ⟨r1, w1⟩ := r
        simp only at hv f1 c1
        subst hv
        obtain ⟨vs, l1, l2, l3⟩ := ih (fun k => P (k + 1)) (fun c hc => hcs c (by simp [hc])) w1 ((acc + .fin v).rd ρ) ys ns
          (hf.trans f1) c1 (by simpa using hy) (by simpa using hn) (by
            intro k h1 h2 h3 w2 a b
            have := h (k + 1) (by simpa using h1) (by simpa using h2) (by simpa using h3) w2 a b
            simpa using this)
        refine ⟨v :: vs, by simp [l1], ?_, ?_⟩
        · intro k hk
          cases k with
          | zero => exact hP
          | succ k => simpa using l2 k (by simpa using hk)
        · simp only [l3]
          rfl

theorem constraintSumR_terms (sqr : Fl → Fl) (m : Mct) (x : Vec) (X V E : String → ℝ) (P : String → ℝ → Prop) (ps : List String)
    (h : ∀ p ∈ ps, p ∈ m.processes ∧ x[m.processes.idxOf p]? = some (.fin (X p)) ∧ dictGet m.cvals p = some (.fin (V p)) ∧
      dictGet m.cerrs p = some (.fin (E p)))
    (hP : ∀ p ∈ ps, ∃ t, constraintTermR ρ sqr (.fin (X p)) (.fin (V p)) (.fin (E p)) = .fin t ∧ P p t) (acc : Fl) :
    ∃ t : String → ℝ, (∀ p ∈ ps, P p (t p)) ∧ m.constraintSumR ρ sqr x acc ps = .ok (addAll ρ acc (ps.map t)) := by
  have hP' : ∀ p, ∃ t, p ∈ ps → constraintTermR ρ sqr (.fin (X p)) (.fin (V p)) (.fin (E p)) = .fin t ∧ P p t := fun p => by
    by_cases hp : p ∈ ps
    · obtain ⟨t, ht⟩ := hP p hp
      exact ⟨t, fun _ => ht⟩
    · exact ⟨0, fun h => absurd h hp⟩
  choose t ht using hP'
  refine ⟨t, fun p hp => (ht p hp).2, ?_⟩
  clear hP
  induction ps generalizing acc with
  | nil => rfl
  | cons p ps ih =>
    obtain ⟨a, b, c, d⟩ := h p (by simp)
    unfold Mct.constraintSumR
    rw [if_neg (by simpa using a), b, c, d]
    simp only
    rw [(ht p (by simp)).1, ih (fun q hq => h q (by simp [hq])) _ (fun q hq => ht q (by simp [hq]))]
    rfl

/-! ### the parameter vector -/

theorem stored_num {s : Sys} (hw : SysWF s) {S : ℕ → ChanSpec} {Q : ∀ k, Fin (S k).K → Matrix (Fin (S k).n) (Fin (S k).n) ℝ}
    (hS : StoredModel s S Q) (k : ℕ) (hk : k < s.m.chanIds.length) :
    (s.w.chans s.m.chanIds[k]).numNui = (S k).K * (S k).n ∧ (s.w.chans s.m.chanIds[k]).templates.length = (S k).K := by
  obtain ⟨hK, -, h⟩ := hS k hk
  have hcw := hw.chan _ (hw.lt _ (List.getElem_mem hk))
  obtain ⟨T, hT, hs⟩ := h.tmpls
  have hmem : T ⟨0, hK⟩ ∈ s.w.chanTmpls s.m.chanIds[k] := by rw [hT]; exact List.mem_ofFn.mpr ⟨_, rfl⟩
  unfold World.chanTmpls at hmem
  obtain ⟨q, hq, e⟩ := List.mem_map.mp hmem
  have h1 : (s.w.chans s.m.chanIds[k]).bins.prod = (S k).n := by
    rw [← (hcw.tmpl q hq).2.1, e]; exact (hs _).1.prod
  refine ⟨?_, ?_⟩
  · unfold Channel.numNui Channel.numBins; rw [h1, h.num]
  · have := congrArg List.length hT
    simpa [World.chanTmpls] using this

theorem stored_length {s : Sys} (hw : SysWF s) {S : ℕ → ChanSpec} {Q : ∀ k, Fin (S k).K → Matrix (Fin (S k).n) (Fin (S k).n) ℝ}
    (hS : StoredModel s S Q) (ν : String → ℝ) (θ : ∀ k, Fin (S k).K → Fin (S k).n → ℝ) :
    (paramVec s S ν θ).length = s.m.numProcesses + s.m.numNui s.w := by
  unfold paramVec Mct.numProcesses Mct.numNui
  rw [List.length_append, List.length_map, List.length_flatten]
  congr 2
  apply List.ext_getElem
  · simp
  · intro k h1 h2
    have hk : k < s.m.chanIds.length := by simpa using h2
    simp only [List.getElem_map, List.getElem_range, nuiVec_length]
    exact ((stored_num hw hS k hk).1).symm

theorem stored_block {s : Sys} (hw : SysWF s) {S : ℕ → ChanSpec} {Q : ∀ k, Fin (S k).K → Matrix (Fin (S k).n) (Fin (S k).n) ℝ}
    (hS : StoredModel s S Q) (ν : String → ℝ) (θ : ∀ k, Fin (S k).K → Fin (S k).n → ℝ) (k : ℕ) (hk : k < s.m.chanIds.length) :
    ((paramVec s S ν θ).drop (nuiOffset s k 0)).take (s.w.chans s.m.chanIds[k]).numNui = nuiVec (θ k) := by
  have hsz : nuiSizes s.w s.m = ((List.range s.m.chanIds.length).map fun k => nuiVec (θ k)).map List.length := by
    apply List.ext_getElem
    · simp [nuiSizes]
    · intro k h1 h2
      have hk : k < s.m.chanIds.length := by simpa using h2
      simp only [nuiSizes, List.getElem_map, List.getElem_range, nuiVec_length]
      exact (stored_num hw hS k hk).1
  have hb := blocks_of_flatten ((List.range s.m.chanIds.length).map fun k => nuiVec (θ k))
  rw [← hsz] at hb
  have hk' : k < (nuiSizes s.w s.m).length := by simpa [nuiSizes] using hk
  have hg := blocks_get (nuiSizes s.w s.m) ((List.range s.m.chanIds.length).map fun k => nuiVec (θ k)).flatten k hk'
  have hd : (paramVec s S ν θ).drop (nuiOffset s k 0) =
      (((List.range s.m.chanIds.length).map fun k => nuiVec (θ k)).flatten).drop ((nuiSizes s.w s.m).take k).sum := by
    have e : nuiOffset s k 0 = s.m.processes.length + ((nuiSizes s.w s.m).take k).sum := by
      simp [nuiSizes, nuiOffset, List.map_take, Channel.numNui, Channel.numBins]
    have hl : (s.m.processes.map fun p => Fl.fin (ν p)).length = s.m.processes.length := by simp
    rw [e, paramVec, ← hl, List.drop_length_add_append]
  rw [hd]
  have e2 : (nuiSizes s.w s.m)[k] = (s.w.chans s.m.chanIds[k]).numNui := by simp [nuiSizes]
  rw [← e2, ← hg, List.getElem_of_eq hb, List.getElem_map]
  exact congrArg (fun k => nuiVec (θ k)) (List.getElem_range _)

theorem stored_yields {s : Sys} (hw : SysWF s) {S : ℕ → ChanSpec} {Q : ∀ k, Fin (S k).K → Matrix (Fin (S k).n) (Fin (S k).n) ℝ}
    (hS : StoredModel s S Q) (ν : String → ℝ) (θ : ∀ k, Fin (S k).K → Fin (S k).n → ℝ) (k : ℕ) (hk : k < s.m.chanIds.length) :
    ((s.w.chans s.m.chanIds[k]).procs.map fun p => (paramVec s S ν θ).getD (s.m.processes.idxOf p) 0) =
      vec fun j : Fin (S k).K => ν (procName s k j) := by
  have hl := (stored_num hw hS k hk).2
  have hsub := hw.subset _ (List.getElem_mem hk)
  apply List.ext_getElem
  · simp [Channel.procs, hl, vec_length]
  · intro j h1 h2
    have hj : j < (s.w.chans s.m.chanIds[k]).procs.length := by simpa using h1
    simp only [List.getElem_map]
    rw [List.getD_eq_getElem?_getD, paramVec_yield ν θ _ (hsub _ (List.getElem_mem hj))]
    simp only [Option.getD_some, vec, List.getElem_ofFn, procName, List.getD_eq_getElem?_getD,
      List.getElem?_eq_getElem hk]
    have : (s.w.chans s.m.chanIds[k]).procs = (s.w.chans s.m.chanIds[k]).templates.map (·.1) := rfl
    rw [← this, List.getElem?_eq_getElem hj]
    rfl

/-- **C128.** The likelihood of a model with any channels and constraints, computed in floating point: each channel contributes the error
of `C127`, each constraint `(10 + 4 κ) u` times its size, and adding up the `N` terms `4 N u` times the size of all terms. -/
theorem C128_likelihood (A : Accurate ρ u lo hi) {κ κ' : ℝ} (hκ : 0 ≤ κ) (hκ' : 0 ≤ κ') {lg sqr : Fl → Fl} (hlg : LogAccurate ρ u κ lg)
    (hsq : SqAccurate ρ u κ' lo hi sqr) {sum : Vec → Fl} (hsum : Summation ρ sum) {dot : List (Fl × Fl) → Fl} (hdot : DotProduct ρ dot)
    (s : Sys) (h : s.Built) (hne : s.m.channels ≠ []) (S : ℕ → ChanSpec)
    (Q : ∀ k, Fin (S k).K → Matrix (Fin (S k).n) (Fin (S k).n) ℝ) (hS : StoredModel s S Q) (d : ∀ k, Fin (S k).n → ℝ)
    (hd : DataIs s S d) (V E : String → ℝ) (hc : ConstraintsAre s V E) (ν : String → ℝ) (θ : ∀ k, Fin (S k).K → Fin (S k).n → ℝ)
    (hr : ∀ k < s.m.chanIds.length, NllInRange ρ lo hi (S k).cnt (S k).ε (S k).eff (Q k) (d k) (fun j => ν (procName s k j)) (θ k))
    (hrc : ∀ p ∈ s.m.constrained, ConstraintInRange ρ lo hi (ν p) (V p) (E p))
    (P : ℕ → ℝ) (hP : P = fun k => ∑ i, poissonSize (d k i) (expectedIn s S ν θ k i))
    (N : ℕ) (hN : N = s.m.chanIds.length + s.m.constrained.length)
    (hsize : 16 * (∑ k ∈ Finset.range s.m.chanIds.length, (P k + penaltySize lo (Q k) (θ k)) +
      (s.m.constrained.map fun p => constraintSize lo (ν p) (V p) (E p)).sum) ≤ hi)
    (hu : ∀ k < s.m.chanIds.length, (6 * ((S k).n:ℝ) + 2 * (S k).K + 3 * κ + 34) * u ≤ 1 ∧ (6 * (((S k).K * (S k).n : ℕ) : ℝ) + 4) * u ≤ 1)
    (hu' : (10 + 6 * κ') * u ≤ 1) (huN : 2 * ((N : ℝ) + 1) * u ≤ 1) :
    ∃ vr v : ℝ, (s.m.nllR ρ lg sqr sum dot s.w (paramVec s S ν θ)).1 = .ok (.fin vr) ∧
      (s.m.nll s.w (paramVec s S ν θ)).1 = .ok (.fin v) ∧
      |vr - v| ≤ ∑ k ∈ Finset.range s.m.chanIds.length,
          ((6 * ((S k).n:ℝ) + 2 * (S k).K + 3 * κ + 34 + 4 * N) * u * P k +
            (3 * (((S k).K * (S k).n : ℕ) : ℝ) + 4 + 4 * N) * u * penaltySize lo (Q k) (θ k)) +
        (10 + 4 * κ' + 4 * N) * u * (s.m.constrained.map fun p => constraintSize lo (ν p) (V p) (E p)).sum := by
  have hw := reachable_wf h.reachable
  have hu0 := A.u0
  have hu1 := A.u1
  have hN0 : (0:ℝ) ≤ N := Nat.cast_nonneg _
  have hNu := mul_nonneg hN0 hu0
  set L := s.m.chanIds.length with hL
  have hlen : L = s.m.channels.length := by simp [hL, Mct.chanIds]
  set X : ℕ → ℝ := fun k => chanNll (S k).cnt (S k).ε (S k).eff (Q k) (d k) (fun j => ν (procName s k j)) (θ k) with hX
  set q : ℕ → ℝ := fun k => penaltySize lo (Q k) (θ k) with hq
  set c : String → ℝ := fun p => constraintSize lo (ν p) (V p) (E p) with hcs
  set g : String → ℝ := fun p => gaussTerm (ν p) (V p) (E p) with hg
  -- the exact value
  have hexact : (s.m.nll s.w (paramVec s S ν θ)).1 = .ok (.fin (∑ k ∈ Finset.range L, X k + (s.m.constrained.map g).sum)) := by
    have hadd := C54_additive s h hne (paramVec s S ν θ) (stored_length hw hS ν θ) (fun k => .fin (X k)) (by
      intro k hk
      obtain ⟨a, -, b⟩ := hS k hk
      obtain ⟨hid, h1, h2⟩ := hd k hk
      rw [stored_block hw hS ν θ k hk, stored_yields hw hS ν θ k hk]
      exact chanNll_exact b a h.coherent h1 h2 _ (θ k) (fun j => ((hr k hk).tmpls j).pos.ne')
        fun i => ((hr k hk).data i).imp id fun h => ⟨h.1, h.2.2.1⟩) ν V E (fun p hp => paramVec_yield ν θ p (hc p hp).1) hc
    rw [show (fun k => Fl.fin (X k)) = Fl.fin ∘ X from rfl, ← List.map_map, Fl.list_sum_fin, Fl.fin_add, list_sum_range] at hadd
    exact hadd
  -- the computed terms of the channels
  have hcontrib : ∀ k, (hk : k < L) → ∀ w1, CacheOnly s.w w1 → Coherent w1 →
      ∃ v, (w1.nllContributionR ρ lg sum dot s.m.chanIds[k] (vec fun j : Fin (S k).K => ν (procName s k j)) (nuiVec (θ k))).1 =
        .ok (.fin v) ∧ (Representable ρ v ∧
        |v - X k| ≤ (6 * ((S k).n:ℝ) + 2 * (S k).K + 3 * κ + 34) * u * P k + (3 * (((S k).K * (S k).n : ℕ) : ℝ) + 4) * u * q k ∧
        |X k| ≤ P k + q k ∧ 0 ≤ P k ∧ 0 ≤ q k) := by
    intro k hk w1 hfr hco
    obtain ⟨a, a', b⟩ := hS k hk
    obtain ⟨hid, h1, h2⟩ := hd k hk
    have b' : ChanStored w1 s.m.chanIds[k] (S k).cnt (S k).ε (S k).eff (Q k) := by
      obtain ⟨T, t1, t2⟩ := b.tmpls
      exact ⟨by rw [hfr.nChans]; exact b.alloc, by rw [hfr.chans]; exact b.num, by rw [hfr.chans]; exact b.effs, T,
        by rw [hfr.chanTmpls]; exact t1, t2⟩
    have := contribR_err A hκ hlg hsum hdot w1 s.m.chanIds[k] _ _ _ _ b' hco a a' hid (by rw [hfr.chans]; exact h1) (d k)
      (by rw [hfr.hists]; exact h2) _ (θ k) (hr k hk) (hu k hk).1 (hu k hk).2
    rw [hP]
    exact this
  obtain ⟨ys, ns, e1, e2, e3, e4, -⟩ := C47_partition s h hne (paramVec s S ν θ) (stored_length hw hS ν θ)
  have hpc := perChannel_coh h.coherent s.m hw.lt (paramVec s S ν θ)
  have hpf := perChannel_frame s.w s.m (paramVec s S ν θ)
  obtain ⟨vs, hvl, hvs, hval⟩ := nllChannelsR_terms (ρ := ρ) lg sum dot (w := s.w) (fun k v => Representable ρ v ∧
        |v - X k| ≤ (6 * ((S k).n:ℝ) + 2 * (S k).K + 3 * κ + 34) * u * P k + (3 * (((S k).K * (S k).n : ℕ) : ℝ) + 4) * u * q k ∧
        |X k| ≤ P k + q k ∧ 0 ≤ P k ∧ 0 ≤ q k) s.m.chanIds hw.lt _ 0 ys ns hpf hpc.2 (by rw [e2, ← hlen]) (by rw [e3, ← hlen]) (by
      intro k h1 h2 h3 w1 hfr hco
      obtain ⟨a, b, -⟩ := e4 k h1
      rw [List.getElem?_eq_getElem h2, stored_yields hw hS ν θ k h1] at a
      rw [List.getElem?_eq_getElem h3, stored_block hw hS ν θ k h1] at b
      rw [Option.some.inj a, Option.some.inj b]
      exact hcontrib k h1 w1 hfr hco)
  -- the sizes
  have hPq : ∀ k < L, 0 ≤ P k ∧ 0 ≤ q k ∧ |X k| ≤ P k + q k := fun k hk => by
    obtain ⟨-, -, a, b, c⟩ := hvs k (by rw [hvl]; exact hk)
    exact ⟨b, c, a⟩
  have hc0 : ∀ p ∈ s.m.constrained, 0 ≤ c p := fun p hp => by
    have := (hc p hp).2.2.2
    have := A.lo0
    simp only [hcs, constraintSize]
    positivity
  have hcsum0 : 0 ≤ (s.m.constrained.map c).sum := List.sum_nonneg (by
    intro a ha
    obtain ⟨p, hp, rfl⟩ := List.mem_map.mp ha
    exact hc0 p hp)
  have hPsum0 : 0 ≤ ∑ k ∈ Finset.range L, (P k + q k) :=
    Finset.sum_nonneg fun k hk => add_nonneg (hPq k (Finset.mem_range.mp hk)).1 (hPq k (Finset.mem_range.mp hk)).2.1
  have hcle : ∀ p ∈ s.m.constrained, c p ≤ (s.m.constrained.map c).sum := fun p hp =>
    List.single_le_sum (by
      intro a ha
      obtain ⟨p, hp, rfl⟩ := List.mem_map.mp ha
      exact hc0 p hp) _ (List.mem_map.mpr ⟨p, hp, rfl⟩)
  obtain ⟨t, ht, htval⟩ := constraintSumR_terms (ρ := ρ) sqr s.m (paramVec s S ν θ) ν V E
    (fun p t => Representable ρ t ∧ |t - g p| ≤ (10 + 4 * κ') * u * c p ∧ |g p| ≤ c p) s.m.constrained
    (fun p hp => ⟨(hc p hp).1, paramVec_yield ν θ p (hc p hp).1, (hc p hp).2.1, (hc p hp).2.2.1⟩)
    (fun p hp => by
      obtain ⟨t, h1, h2, h3, h4, -⟩ := constraint_err A hκ' hsq (hc p hp).2.2.2 (hrc p hp) (by
        have := hcle p hp
        simp only [hcs] at this hsize hcsum0 hPsum0
        linarith) hu'
      exact ⟨t, h1, h2, h3, h4⟩) (addAll ρ 0 vs)
  -- the whole computed value
  have hvr : (s.m.nllR ρ lg sqr sum dot s.w (paramVec s S ν θ)).1 = .ok (addAll ρ 0 (vs ++ s.m.constrained.map t)) := by
    unfold Mct.nllR
    generalize s.m.perChannel s.w (paramVec s S ν θ) = r at e1 hval ⊢
    obtain ⟨r1, w1⟩ := r
    simp only at e1 hval
    subst e1
    simp only
    generalize w1.nllChannelsR ρ lg sum dot 0 s.m.chanIds ys ns = r at hval ⊢
    obtain ⟨r1, w1⟩ := r
    simp only at hval
    subst hval
    simp only
    rw [htval, addAll, addAll, addAll, List.foldl_append]
  set ts := vs ++ s.m.constrained.map t with hts
  have hS1 := addAll_sum (ρ := ρ) [0] 0 (SumR.one 0) ts
  have hvsum : vs.sum = ∑ k ∈ Finset.range L, vs.getD k 0 := by
    rw [← list_sum_range, hL, ← hvl]
    congr 1
    apply List.ext_getElem
    · simp
    · intro k h1 h2
      simp [List.getD_eq_getElem?_getD, List.getElem?_eq_getElem h1]
  have hvsabs : (vs.map fun x => |x|).sum = ∑ k ∈ Finset.range L, |vs.getD k 0| := by
    rw [← list_sum_range, hL, ← hvl]
    congr 1
    apply List.ext_getElem
    · simp
    · intro k h1 h2
      have h1 : k < vs.length := by simpa using h1
      simp [List.getD_eq_getElem?_getD, List.getElem?_eq_getElem h1]
  have hvk : ∀ k, k < L → Representable ρ (vs.getD k 0) ∧
        |vs.getD k 0 - X k| ≤ (6 * ((S k).n:ℝ) + 2 * (S k).K + 3 * κ + 34) * u * P k + (3 * (((S k).K * (S k).n : ℕ) : ℝ) + 4) * u * q k := by
    intro k hk
    have hk' : k < vs.length := by rw [hvl]; exact hk
    have := hvs k hk'
    rw [List.getD_eq_getElem?_getD, List.getElem?_eq_getElem hk']
    exact ⟨this.1, this.2.1⟩
  have hvabs : ∀ k < L, |vs.getD k 0| ≤ 2 * (P k + q k) := fun k hk => by
    obtain ⟨a, b, c'⟩ := hPq k hk
    have h1 : |vs.getD k 0| ≤ |vs.getD k 0 - X k| + |X k| := by
      have := abs_add_le (vs.getD k 0 - X k) (X k)
      rwa [sub_add_cancel] at this
    have h2 := mul_le_mul_of_nonneg_right (hu k hk).1 a
    have h3 : (3 * (((S k).K * (S k).n : ℕ) : ℝ) + 4) * u * q k ≤ 1 * q k := by
      refine mul_le_mul_of_nonneg_right ?_ b
      have h4 := (hu k hk).2
      have h5 : (0:ℝ) ≤ (((S k).K * (S k).n : ℕ) : ℝ) * u := mul_nonneg (Nat.cast_nonneg _) hu0
      linarith
    have := (hvk k hk).2
    linarith
  have htabs : ∀ p ∈ s.m.constrained, |t p| ≤ 2 * c p := fun p hp => by
    obtain ⟨-, a, b⟩ := ht p hp
    have h1 : |t p| ≤ |t p - g p| + |g p| := by
      have := abs_add_le (t p - g p) (g p)
      rwa [sub_add_cancel] at this
    have h2 : (10 + 4 * κ') * u * c p ≤ 1 * c p := by
      refine mul_le_mul_of_nonneg_right ?_ (hc0 p hp)
      have := mul_nonneg hκ' hu0
      linarith
    linarith
  have habsum : ((([0] : Vec) ++ ts.map Fl.fin).map fun x => |x.toReal|).sum ≤
      2 * (∑ k ∈ Finset.range L, (P k + q k) + (s.m.constrained.map c).sum) := by
    have e : ((([0] : Vec) ++ ts.map Fl.fin).map fun x => |x.toReal|).sum =
        (vs.map fun x => |x|).sum + (s.m.constrained.map fun p => |t p|).sum := by
      rw [hts]
      simp [Fl.toReal, Fl.zero_def, List.map_map, Function.comp_def]
    rw [e, hvsabs, mul_add, Finset.mul_sum, ← List.sum_map_mul_left]
    refine add_le_add (Finset.sum_le_sum fun k hk => hvabs k (Finset.mem_range.mp hk)) ?_
    exact List.sum_le_sum fun p hp => htabs p hp
  have hlen1 : (([0] : Vec) ++ ts.map Fl.fin).length = N + 1 := by
    rw [hN, hts]
    simp [hvl]
    omega
  obtain ⟨vr, evr, -, herr⟩ := sum_err A hS1 (by
      intro x hx
      rcases List.mem_append.mp hx with hx | hx
      · rw [List.mem_singleton.mp hx]
        exact ⟨0, rfl, A.zero⟩
      · obtain ⟨y, hy, rfl⟩ := List.mem_map.mp hx
        rcases List.mem_append.mp hy with hy | hy
        · obtain ⟨k, hk, rfl⟩ := List.getElem_of_mem hy
          exact ⟨_, rfl, (hvs k hk).1⟩
        · obtain ⟨p, hp, rfl⟩ := List.mem_map.mp hy
          exact ⟨_, rfl, (ht p hp).1⟩) (by rw [hlen1]; push_cast; exact huN) (by linarith)
  rw [hlen1, Nat.add_sub_cancel] at herr
  have hsumR : ((([0] : Vec) ++ ts.map Fl.fin).map Fl.toReal).sum = ∑ k ∈ Finset.range L, vs.getD k 0 + (s.m.constrained.map t).sum := by
    rw [hts, ← hvsum]
    simp [Fl.toReal, Fl.zero_def, List.map_map, Function.comp_def]
  rw [hsumR] at herr
  refine ⟨vr, _, by rw [hvr, evr], hexact, ?_⟩
  have hgr := growth hu0 hu1 (k := N) (by linarith)
  have hT0 : 0 ≤ ∑ k ∈ Finset.range L, (P k + q k) + (s.m.constrained.map c).sum := add_nonneg hPsum0 hcsum0
  have h1 : ((1 + u) ^ N - 1) * ((([0] : Vec) ++ ts.map Fl.fin).map fun x => |x.toReal|).sum ≤
      2 * N * u * (2 * (∑ k ∈ Finset.range L, (P k + q k) + (s.m.constrained.map c).sum)) :=
    mul_le_mul hgr habsum (List.sum_nonneg (by
      intro a ha
      obtain ⟨x, -, rfl⟩ := List.mem_map.mp ha
      exact abs_nonneg _)) (by positivity)
  have h2 : |∑ k ∈ Finset.range L, vs.getD k 0 - ∑ k ∈ Finset.range L, X k| ≤ ∑ k ∈ Finset.range L,
      ((6 * ((S k).n:ℝ) + 2 * (S k).K + 3 * κ + 34) * u * P k + (3 * (((S k).K * (S k).n : ℕ) : ℝ) + 4) * u * q k) := by
    rw [← Finset.sum_sub_distrib]
    exact (Finset.abs_sum_le_sum_abs _ _).trans (Finset.sum_le_sum fun k hk => (hvk k (Finset.mem_range.mp hk)).2)
  have h3 : |(s.m.constrained.map t).sum - (s.m.constrained.map g).sum| ≤ (10 + 4 * κ') * u * (s.m.constrained.map c).sum := by
    have hpt : ∀ p ∈ s.m.constrained, |t p - g p| ≤ (10 + 4 * κ') * u * c p := fun p hp => (ht p hp).2.1
    generalize s.m.constrained = l at hpt
    clear_value c g
    induction l with
    | nil => simp
    | cons p l ih =>
      simp only [List.map_cons, List.sum_cons]
      have a := hpt p (by simp)
      have b := ih fun p hp => hpt p (by simp [hp])
      have e : t p + (l.map t).sum - (g p + (l.map g).sum) = (t p - g p) + ((l.map t).sum - (l.map g).sum) := by ring
      rw [e, mul_add]
      exact (abs_add_le _ _).trans (add_le_add a b)
  have e5 : ∑ k ∈ Finset.range L, ((6 * ((S k).n:ℝ) + 2 * (S k).K + 3 * κ + 34 + 4 * N) * u * P k +
        (3 * (((S k).K * (S k).n : ℕ) : ℝ) + 4 + 4 * N) * u * q k) =
      ∑ k ∈ Finset.range L, ((6 * ((S k).n:ℝ) + 2 * (S k).K + 3 * κ + 34) * u * P k + (3 * (((S k).K * (S k).n : ℕ) : ℝ) + 4) * u * q k) +
      4 * N * u * ∑ k ∈ Finset.range L, (P k + q k) := by
    rw [Finset.mul_sum, ← Finset.sum_add_distrib]
    exact Finset.sum_congr rfl fun k _ => by ring
  rw [e5]
  have e6 : vr - (∑ k ∈ Finset.range L, X k + (s.m.constrained.map g).sum) =
      (vr - (∑ k ∈ Finset.range L, vs.getD k 0 + (s.m.constrained.map t).sum)) +
      (∑ k ∈ Finset.range L, vs.getD k 0 - ∑ k ∈ Finset.range L, X k) + ((s.m.constrained.map t).sum - (s.m.constrained.map g).sum) := by
    ring
  rw [e6]
  have h4 := (abs_add_le ((vr - (∑ k ∈ Finset.range L, vs.getD k 0 + (s.m.constrained.map t).sum)) +
      (∑ k ∈ Finset.range L, vs.getD k 0 - ∑ k ∈ Finset.range L, X k)) ((s.m.constrained.map t).sum - (s.m.constrained.map g).sum))
  have h5 := abs_add_le (vr - (∑ k ∈ Finset.range L, vs.getD k 0 + (s.m.constrained.map t).sum))
      (∑ k ∈ Finset.range L, vs.getD k 0 - ∑ k ∈ Finset.range L, X k)
  have h6 := herr.trans h1
  linarith

end

end TF.Props
