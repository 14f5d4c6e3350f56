import Verif.Lemmas.Near
import Verif.Props.ChannelProps

set_option linter.unusedSimpArgs false

/-!
# Accuracy of fractions and expected events in floating point (C126)
-/

namespace TF.Spec

open TF

/-- an algorithm for one entry of a matrix product: any order, bracketing and use of fused multiply-add -/
def DotProduct (ρ : ℝ → Fl) (dot : List (Fl × Fl) → Fl) : Prop := ∀ l, DotR ρ l (dot l)

/-- the contents and nuisance parameters of a template are in the range where products neither underflow nor overflow: bin contents
are zero or at least `4 lo`, not all are zero, no bin is varied below half its content, fractions do not underflow -/
structure InRange (lo hi : ℝ) {n : ℕ} (c ε θ : Fin n → ℝ) : Prop where
  counts : ∀ i, c i = 0 ∨ 4 * lo ≤ c i
  pos : 0 < ∑ j, varied c ε θ j
  total : 4 * ∑ j, varied c ε θ j ≤ hi
  variation : ∀ i, -1 / 2 ≤ θ i * ε i ∧ 4 * (θ i * ε i) ≤ hi
  fracs : ∀ i, frac c ε θ i = 0 ∨ 2 * lo ≤ frac c ε θ i

/-- Channel object `c` of the heap `w` has `K` templates with `n` bins each; template number `k` has the bin contents `cnt k` and the
relative errors `ε k`, the efficiency `eff k`, and stores the matrix `S k` as the inverse of its correlation matrix (in floating point
this is not exactly the inverse). -/
structure ChanStored (w : World) (c : ℕ) {K n : ℕ} (cnt ε : Fin K → Fin n → ℝ) (eff : Fin K → ℝ)
    (S : Fin K → Matrix (Fin n) (Fin n) ℝ) : Prop where
  alloc : c < w.nChans
  num : (w.chans c).numTemplates = K
  effs : (w.chans c).effs.map (·.2) = vec eff
  tmpls : ∃ T : Fin K → Template, w.chanTmpls c = List.ofFn T ∧ ∀ k, HasShape (T k) (cnt k) (ε k) ∧ IsReal (T k).invCorr (S k)

end TF.Spec

namespace TF.Props

open Classical Spec

noncomputable section

/-! ### fractions -/

variable {ρ : ℝ → Fl} {u lo hi : ℝ}

theorem inRange_c {n : ℕ} {c ε θ : Fin n → ℝ} (A : Accurate ρ u lo hi) (h : InRange lo hi c ε θ) (i : Fin n) : 0 ≤ c i := by
  rcases h.counts i with e | e
  · exact e.ge
  · linarith [A.lo0]

theorem inRange_varied {n : ℕ} {c ε θ : Fin n → ℝ} (A : Accurate ρ u lo hi) (h : InRange lo hi c ε θ) (i : Fin n) :
    0 ≤ varied c ε θ i ∧ varied c ε θ i ≤ ∑ j, varied c ε θ j := by
  have hn : ∀ i, 0 ≤ varied c ε θ i := fun i => mul_nonneg (inRange_c A h i) (by linarith [(h.variation i).1])
  exact ⟨hn i, Finset.single_le_sum (fun j _ => hn j) (Finset.mem_univ i)⟩

theorem frac_range {n : ℕ} {c ε θ : Fin n → ℝ} (A : Accurate ρ u lo hi) (h : InRange lo hi c ε θ) (i : Fin n) :
    0 ≤ frac c ε θ i ∧ frac c ε θ i ≤ 1 := by
  obtain ⟨h1, h2⟩ := inRange_varied A h i
  exact ⟨div_nonneg h1 h.pos.le, (div_le_one h.pos).mpr h2⟩

/-- the rounded weighted content of a bin: three roundings -/
theorem weightedR_near {n : ℕ} {c ε θ : Fin n → ℝ} (A : Accurate ρ u lo hi) (h : InRange lo hi c ε θ) (i : Fin n) :
    ∃ r, weightedR ρ θ c ε i = .fin r ∧ Representable ρ r ∧ 0 ≤ r ∧ Near u 3 r (varied c ε θ i) := by
  have hc := inRange_c A h i
  obtain ⟨v1, v2⟩ := h.variation i
  obtain ⟨w0, wS⟩ := inRange_varied A h i
  have hi1 := A.hi1
  have hu1 := A.u1
  have hu0 := A.u0
  have hx0 : (1 / 2 : ℝ) ≤ 1 + θ i * ε i := by linarith
  have habs : |θ i * ε i| ≤ 1 + θ i * ε i := abs_le.mpr ⟨by linarith, by linarith⟩
  obtain ⟨a, ea, ha⟩ := A.rel (θ i * ε i) (abs_le.mpr ⟨by linarith, by linarith⟩)
  have ha' : |(1 + a) - (1 + θ i * ε i)| ≤ u * (1 + θ i * ε i) := by
    rw [show (1 + a) - (1 + θ i * ε i) = a - θ i * ε i by ring]
    exact ha.trans (mul_le_mul_of_nonneg_left (max_le habs (by linarith [A.lo1])) hu0)
  have n1 := near_round hu0 hu1 (by linarith) ha'
  have n1' := n1.half hu1 (by linarith) (by norm_num; linarith)
  have hadd : |1 + a| ≤ hi := by
    rw [abs_of_nonneg (n1.nonneg hu1 (by linarith))]
    linarith [n1'.2]
  obtain ⟨b, eb, hb⟩ := A.add 1 a A.one (A.idem _ _ ea) hadd
  have p1 := n1.nonneg hu1 (by linarith)
  rw [abs_of_nonneg p1] at hb
  have n2 := (near_round hu0 hu1 p1 hb).trans hu1 n1
  have n2' := n2.half hu1 (by linarith) (by norm_num; linarith)
  have hb0 : (1 / 4 : ℝ) ≤ b := by linarith [n2'.1]
  have n3 := (near_refl (u := u) (c i)).mul hu1 n2 hc (by linarith)
  have n3' := n3.half hu1 w0 (by norm_num; linarith)
  obtain ⟨r, er, rr, r0, hr⟩ := rd_near A (mul_nonneg hc (by linarith)) (x := c i * b) (by
    rcases h.counts i with e | e
    · left; rw [e, zero_mul]
    · right; nlinarith [A.lo0]) (by
    have : c i * (1 + θ i * ε i) = varied c ε θ i := rfl
    linarith [n3'.2, h.total])
  refine ⟨r, ?_, rr, r0, ?_⟩
  · unfold weightedR
    rw [rd_fin, ea, Fl.one_def, Fl.fin_add, rd_fin, eb, Fl.fin_mul, rd_fin, er]
  · exact hr.trans hu1 n3

/-- fractions are accurate to `n + 6` roundings -/
theorem fractionsR_near {n : ℕ} {c ε θ : Fin n → ℝ} (A : Accurate ρ u lo hi) (h : InRange lo hi c ε θ) {sum : Vec → Fl}
    (hsum : Summation ρ sum) (hn : 2 * ((n + 6 : ℕ) : ℝ) * u ≤ 1) :
    ∃ f : Fin n → ℝ, binFractionsR ρ sum (vec θ) (vec c) (vec ε) = .ok (vec f) ∧
      ∀ i, 0 ≤ f i ∧ Near u (n + 6) (f i) (frac c ε θ i) := by
  have hu1 := A.u1
  have hu0 := A.u0
  choose wr ew rw' w0 nw using weightedR_near A h
  have hnpos : 0 < n := by
    rcases Nat.eq_zero_or_pos n with e | e
    · subst e
      exact absurd h.pos (by simp)
    · exact e
  have hlist : (List.ofFn (weightedR ρ θ c ε)).map Fl.toReal = List.ofFn wr := by
    rw [List.map_ofFn]
    congr 1
    funext i
    simp [ew i, Fl.toReal]
  have nsum : Near u 3 (∑ i, wr i) (∑ i, varied c ε θ i) := near_sum nw
  have nsum' := nsum.half hu1 h.pos.le (by norm_num; linarith)
  have hcast : ((n + 6 : ℕ) : ℝ) = n + 6 := by push_cast; ring
  rw [hcast] at hn
  obtain ⟨s, es, rs, s0, ns⟩ := sum_near A (hsum (List.ofFn (weightedR ρ θ c ε))) (by
      intro x hx
      obtain ⟨i, rfl⟩ := (List.mem_ofFn' _ _).mp hx
      exact ⟨wr i, ew i, w0 i, rw' i⟩) (by
      rw [List.length_ofFn]
      nlinarith) (by
      rw [hlist, List.sum_ofFn]
      linarith [h.total])
  rw [hlist, List.sum_ofFn, List.length_ofFn] at ns
  have nS := ns.trans hu1 nsum
  have hspos := nS.pos hu1 h.pos
  have key : ∀ i, ∃ f, (weightedR ρ θ c ε i / sum (List.ofFn (weightedR ρ θ c ε))).rd ρ = .fin f ∧ 0 ≤ f ∧
      Near u (n + 6) f (frac c ε θ i) := by
    intro i
    obtain ⟨f0, f1⟩ := frac_range A h i
    have nq : Near u (3 + (n - 1 + 3)) (wr i / s) (frac c ε θ i) := (nw i).div hu1 nS (inRange_varied A h i).1 h.pos
    have e5 : 3 + (n - 1 + 3) = n + 5 := by omega
    rw [e5] at nq
    have nq' := nq.half hu1 f0 (by push_cast; nlinarith)
    obtain ⟨r, er, -, r0, hr⟩ := rd_near A (x := wr i / s) (div_nonneg (w0 i) hspos.le) (by
      rcases h.fracs i with e | e
      · left
        rw [e] at nq
        exact near_zero hu1 nq
      · right; linarith [nq'.1]) (by linarith [nq'.2, A.hi1])
    refine ⟨r, ?_, r0, ?_⟩
    · rw [ew i, es, Fl.fin_div _ _ hspos.ne', rd_fin, er]
    · have := hr.trans hu1 nq
      rwa [show 1 + (n + 5) = n + 6 by omega] at this
  choose f ef f0 nf using key
  refine ⟨f, ?_, fun i => ⟨f0 i, nf i⟩⟩
  rw [binFractionsR_eq]
  congr 1
  rw [vec_eq]
  congr 1
  funext i
  exact ef i

/-- **C126, fractions.** In a floating-point arithmetic with relative rounding error `u` the computed fractions of a template of `n` bins
have a relative error of at most `2 (n + 6) u` (for doubles `(n + 6) 2^-52`), whatever the order of summation, and their sum differs from
one by no more than that. -/
theorem C126_fractions {n : ℕ} {c ε θ : Fin n → ℝ} (A : Accurate ρ u lo hi) (h : InRange lo hi c ε θ) {sum : Vec → Fl}
    (hsum : Summation ρ sum) (hn : 2 * ((n + 6 : ℕ) : ℝ) * u ≤ 1) :
    ∃ f : Fin n → ℝ, binFractionsR ρ sum (vec θ) (vec c) (vec ε) = .ok (vec f) ∧
      (∀ i, |f i - frac c ε θ i| ≤ 2 * ((n + 6 : ℕ) : ℝ) * u * frac c ε θ i) ∧
      |∑ i, f i - 1| ≤ 2 * ((n + 6 : ℕ) : ℝ) * u := by
  obtain ⟨f, ef, hf⟩ := fractionsR_near A h hsum hn
  refine ⟨f, ef, fun i => (hf i).2.rel_error A.u0 A.u1 (frac_range A h i).1 hn, ?_⟩
  have e1 : ∑ i, frac c ε θ i = 1 := by
    unfold frac
    rw [← Finset.sum_div, div_self h.pos.ne']
  have := (near_sum fun i => (hf i).2).rel_error A.u0 A.u1 (by rw [e1]; norm_num) hn
  rwa [e1, mul_one] at this

/-! ### expected events -/

theorem fractionRowsR_ofFn {K : ℕ} (sum : Vec → Fl) (T : Fin K → Template) (P F : Fin K → Vec)
    (h : ∀ k, (T k).fractionsR ρ sum (P k) = .ok (F k)) :
    fractionRowsR ρ sum (List.ofFn T) (List.ofFn P) = .ok (List.ofFn F) := by
  induction K with
  | zero => simp [fractionRowsR]
  | succ K ih =>
    simp only [List.ofFn_succ, fractionRowsR, h 0]
    rw [ih (fun k => T k.succ) (fun k => P k.succ) (fun k => F k.succ) (fun k => h k.succ)]

/-- the expected events are computed from the current efficiencies and fractions -/
theorem expectedEvtsR_coh (sum : Vec → Fl) (dot : List (Fl × Fl) → Fl) {w : World} (h : Coherent w) (c : ℕ) (hc : c < w.nChans) (y n v : Vec) (F : Mat)
    (hv : bop (fun x y => (x * y).rd ρ) y ((w.chans c).effs.map (·.2)) = .ok v) (hF : w.chanFractionsR ρ sum c n = .ok F) :
    (w.expectedEvtsR ρ sum dot c y n).1 = vecMatR dot v F := by
  obtain ⟨h1, h2⟩ := effArray_coh h c hc
  have h3 := effArray_frame w c
  unfold World.expectedEvtsR
  generalize w.effArray c = r at h1 h2 h3 ⊢
  obtain ⟨r1, w1⟩ := r
  simp only at h1 h2 h3
  subst h1
  have e : w1.chanFractionsR ρ sum c n = w.chanFractionsR ρ sum c n := by
    unfold World.chanFractionsR
    rw [h3.chanTmpls c, h3.chans]
  simp only [hv, e, hF]

theorem vecMatR_vec {m n : ℕ} (dot : List (Fl × Fl) → Fl) (f : Fin m → ℝ) {M : Mat} {A : Matrix (Fin m) (Fin n) ℝ} (h : IsReal M A) :
    vecMatR dot (vec f) M = .ok (List.ofFn fun j => dot (List.ofFn fun i => (.fin (f i), .fin (A i j)))) := by
  unfold vecMatR
  rw [if_pos (by rw [vec_length, h.1])]
  congr 1
  apply List.ext_getElem
  · simp [h.2.1]
  · intro j h1 h2
    simp only [List.length_ofFn] at h2
    simp only [List.getElem_map, List.getElem_range, List.getElem_ofFn]
    congr 1
    apply List.ext_getElem
    · simp [h.1]
    · intro i h3 h4
      simp only [List.length_ofFn] at h4
      simp only [List.getElem_map, List.getElem_range, List.getElem_ofFn]
      have e1 := h.2.2 ⟨i, h4⟩ ⟨j, h2⟩
      simp only at e1
      rw [e1]
      simp [vec, h4]

theorem _root_.TF.Spec.ChanIs.stored {K n : ℕ} {w : World} {c : ℕ} {cnt ε : Fin K → Fin n → ℝ} {eff : Fin K → ℝ}
    {R : Fin K → Matrix (Fin n) (Fin n) ℝ} (h : ChanIs w c cnt ε eff R) : ChanStored w c cnt ε eff fun k => (R k)⁻¹ := by
  obtain ⟨T, h1, h2⟩ := h.tmpls
  exact ⟨h.alloc, h.num, h.effs, T, h1, fun k => ⟨(h2 k).1, (h2 k).2.2⟩⟩

theorem expectedPure_stored {w : World} {c K n : ℕ} {cnt ε : Fin K → Fin n → ℝ} {eff : Fin K → ℝ}
    {S : Fin K → Matrix (Fin n) (Fin n) ℝ} (h : ChanStored w c cnt ε eff S) (hK : 0 < K)
    (ν : Fin K → ℝ) (θ : Fin K → Fin n → ℝ)
    (hT : ∀ k, ∑ j, cnt k j * (1 + θ k j * ε k j) ≠ 0) :
    expectedPure w c (vec ν) (nuiVec θ) = .ok (vec (expected cnt ε eff ν θ)) := by
  obtain ⟨T, hT1, hT2⟩ := h.tmpls
  have h1 : bop (· * ·) (vec ν) ((w.chans c).effs.map (·.2)) = .ok (vec fun k => ν k * eff k) := by
    rw [h.effs]; exact TF.bop_vec _ _ _ _ (fun i => rfl)
  have h2 : splitEq (nuiVec θ) (w.chans c).numTemplates = .ok (List.ofFn fun k => vec (θ k)) := by
    rw [h.num]; exact splitEq_nui hK θ
  have h3 := fractionRows_ofFn T (fun k => vec (θ k)) (fun k => vec (frac (cnt k) (ε k) (θ k)))
    (fun k => fractions_vec (hT2 k).1 (θ k) (hT k))
  obtain ⟨M, h4, h5⟩ := stackRows_ofFn hK (fun k => frac (cnt k) (ε k) (θ k))
  have h6 : w.chanFractions c (nuiVec θ) = .ok M := by
    unfold World.chanFractions
    rw [h2]; simp only; rw [hT1, h3]; exact h4
  unfold expectedPure
  rw [h1]; simp only; rw [h6]; simp only
  rw [vecMat_vec _ h5]
  congr 2

/-- the exact expected events, in terms of the fractions -/
theorem expected_frac {K n : ℕ} (cnt ε : Fin K → Fin n → ℝ) (eff ν : Fin K → ℝ) (θ : Fin K → Fin n → ℝ) (i : Fin n) :
    expected cnt ε eff ν θ i = ∑ k, ν k * eff k * frac (cnt k) (ε k) (θ k) i := rfl

/-- expected events are accurate to `n + K + 7` roundings -/
theorem expectedR_near (A : Accurate ρ u lo hi) {sum : Vec → Fl} (hsum : Summation ρ sum) {dot : List (Fl × Fl) → Fl}
    (hdot : DotProduct ρ dot) {K n : ℕ} (w : World) (c : ℕ) (cnt ε : Fin K → Fin n → ℝ) (eff : Fin K → ℝ)
    (S : Fin K → Matrix (Fin n) (Fin n) ℝ) (h : ChanStored w c cnt ε eff S) (hK : 0 < K) (hw : Coherent w) (ν : Fin K → ℝ)
    (θ : Fin K → Fin n → ℝ) (hin : ∀ k, InRange lo hi (cnt k) (ε k) (θ k))
    (hν : ∀ k, 0 ≤ ν k * eff k ∧ ν k * eff k ≤ hi ∧ (ν k * eff k = 0 ∨ lo ≤ ν k * eff k))
    (hp : ∀ k i, ν k * eff k * frac (cnt k) (ε k) (θ k) i = 0 ∨ 2 * lo ≤ ν k * eff k * frac (cnt k) (ε k) (θ k) i)
    (hE : ∀ i, 4 * expected cnt ε eff ν θ i ≤ hi) (hn : 2 * ((n + K + 7 : ℕ) : ℝ) * u ≤ 1) :
    ∃ E : Fin n → ℝ, (w.expectedEvtsR ρ sum dot c (vec ν) (nuiVec θ)).1 = .ok (vec E) ∧
      ∀ i, 0 ≤ E i ∧ Representable ρ (E i) ∧ Near u (n + K + 7) (E i) (expected cnt ε eff ν θ i) := by
  have hu0 := A.u0
  have hu1 := A.u1
  have hcast : ((n + K + 7 : ℕ) : ℝ) = n + K + 7 := by push_cast; ring
  rw [hcast] at hn
  have hK0 : (0:ℝ) ≤ K := Nat.cast_nonneg _
  have hn0 : (0:ℝ) ≤ n := Nat.cast_nonneg _
  have hle : ∀ m : ℝ, m ≤ n + K + 7 → 2 * m * u ≤ 1 := fun m hm => by nlinarith
  have hv : ∀ k, ∃ r, (Fl.fin (ν k) * Fl.fin (eff k)).rd ρ = .fin r ∧ 0 ≤ r ∧ Near u 1 r (ν k * eff k) := by
    intro k
    obtain ⟨r, e, -, r0, hr⟩ := rd_near A (hν k).1 (hν k).2.2 (hν k).2.1
    exact ⟨r, by rw [Fl.fin_mul, rd_fin, e], r0, hr⟩
  choose v ev v0 nv using hv
  have hf : ∀ k, ∃ f : Fin n → ℝ, binFractionsR ρ sum (vec (θ k)) (vec (cnt k)) (vec (ε k)) = .ok (vec f) ∧
      ∀ i, 0 ≤ f i ∧ Near u (n + 6) (f i) (frac (cnt k) (ε k) (θ k) i) := fun k =>
    fractionsR_near A (hin k) hsum (by push_cast; exact hle _ (by linarith))
  choose f ef hf using hf
  obtain ⟨T, hT, hTk⟩ := h.tmpls
  obtain ⟨F, hF, hFr⟩ := stackRows_ofFn hK f
  have hCF : w.chanFractionsR ρ sum c (nuiVec θ) = .ok F := by
    unfold World.chanFractionsR nuiVec
    rw [h.num, splitEq_nui hK θ]
    simp only
    rw [hT, fractionRowsR_ofFn sum T _ (fun k => vec (f k)) (fun k => by
      unfold Template.fractionsR
      rw [(hTk k).1.counts, (hTk k).1.rel, ef k])]
    exact hF
  have hV : bop (fun x y => (x * y).rd ρ) (vec ν) ((w.chans c).effs.map (·.2)) = .ok (vec v) := by
    rw [h.effs, vec_eq, vec_eq, bop_vec, vec_eq]
    congr 2
    funext k
    exact ev k
  rw [expectedEvtsR_coh sum dot hw c h.alloc _ _ _ _ hV hCF, vecMatR_vec dot v hFr]
  have hterm : ∀ k i, Near u (n + 7) (v k * f k i) (ν k * eff k * frac (cnt k) (ε k) (θ k) i) := fun k i => by
    have := (nv k).mul hu1 (hf k i).2 (hν k).1 (frac_range A (hin k) i).1
    rwa [show 1 + (n + 6) = n + 7 by omega] at this
  have key : ∀ i, ∃ E, dot (List.ofFn fun k => ((.fin (v k) : Fl), (.fin (f k i) : Fl))) = .fin E ∧ 0 ≤ E ∧ Representable ρ E ∧
      Near u (n + K + 7) E (expected cnt ε eff ν θ i) := by
    intro i
    have hnn : ∀ k, 0 ≤ ν k * eff k * frac (cnt k) (ε k) (θ k) i := fun k => mul_nonneg (hν k).1 (frac_range A (hin k) i).1
    have hsumE : Near u (n + 7) (∑ k, v k * f k i) (expected cnt ε eff ν θ i) := by
      rw [expected_frac]
      exact near_sum fun k => hterm k i
    have hE0 : 0 ≤ expected cnt ε eff ν θ i := by
      rw [expected_frac]
      exact Finset.sum_nonneg fun k _ => hnn k
    have hs' := hsumE.half hu1 hE0 (by push_cast; exact hle _ (by linarith))
    have elist : ((List.ofFn fun k => ((.fin (v k) : Fl), (.fin (f k i) : Fl))).map prodR).sum = ∑ k, v k * f k i := by
      rw [List.map_ofFn, List.sum_ofFn]
      rfl
    obtain ⟨s, es, rs, s0, ns⟩ := dot_near A (hdot (List.ofFn fun k => ((.fin (v k) : Fl), (.fin (f k i) : Fl)))) (by
        intro x hx
        obtain ⟨k, rfl⟩ := (List.mem_ofFn' _ _).mp hx
        refine ⟨v k, f k i, rfl, v0 k, (hf k i).1, ?_⟩
        rcases hp k i with e | e
        · left
          have := hterm k i
          rw [e] at this
          exact near_zero hu1 this
        · right
          have := (hterm k i).half hu1 (hnn k) (by push_cast; exact hle _ (by linarith))
          linarith [this.1]) (by
        rw [List.length_ofFn]
        exact hle _ (by linarith)) (by
        rw [elist]
        linarith [hE i])
    rw [elist, List.length_ofFn] at ns
    refine ⟨s, es, s0, rs, ?_⟩
    have := ns.trans hu1 hsumE
    rwa [show K + (n + 7) = n + K + 7 by omega] at this
  choose E eE E0 rE nE using key
  refine ⟨E, ?_, fun i => ⟨E0 i, rE i, nE i⟩⟩
  congr 1
  rw [vec_eq]
  congr 1
  funext i
  exact eE i

/-- **C126, expected events.** The expected events per bin that a channel of `K` templates with `n` bins computes in floating point have
a relative error of at most `2 (n + K + 7) u` with respect to the exact ones, for every order of the additions and every use of fused
multiply-add in the matrix product. -/
theorem C126_expected (A : Accurate ρ u lo hi) {sum : Vec → Fl} (hsum : Summation ρ sum) {dot : List (Fl × Fl) → Fl}
    (hdot : DotProduct ρ dot) {K n : ℕ} (w : World) (c : ℕ) (cnt ε : Fin K → Fin n → ℝ) (eff : Fin K → ℝ)
    (S : Fin K → Matrix (Fin n) (Fin n) ℝ) (h : ChanStored w c cnt ε eff S) (hK : 0 < K) (hw : Coherent w) (ν : Fin K → ℝ)
    (θ : Fin K → Fin n → ℝ) (hin : ∀ k, InRange lo hi (cnt k) (ε k) (θ k))
    (hν : ∀ k, 0 ≤ ν k * eff k ∧ ν k * eff k ≤ hi ∧ (ν k * eff k = 0 ∨ lo ≤ ν k * eff k))
    (hp : ∀ k i, ν k * eff k * frac (cnt k) (ε k) (θ k) i = 0 ∨ 2 * lo ≤ ν k * eff k * frac (cnt k) (ε k) (θ k) i)
    (hE : ∀ i, 4 * expected cnt ε eff ν θ i ≤ hi) (hn : 2 * ((n + K + 7 : ℕ) : ℝ) * u ≤ 1) :
    ∃ Ê E : Fin n → ℝ, (w.expectedEvtsR ρ sum dot c (vec ν) (nuiVec θ)).1 = .ok (vec Ê) ∧
      (w.expectedEvts c (vec ν) (nuiVec θ)).1 = .ok (vec E) ∧
      ∀ i, |Ê i - E i| ≤ 2 * ((n + K + 7 : ℕ) : ℝ) * u * E i := by
  obtain ⟨Ê, e, hE'⟩ := expectedR_near A hsum hdot w c cnt ε eff S h hK hw ν θ hin hν hp hE hn
  refine ⟨Ê, expected cnt ε eff ν θ, e, ?_, fun i => ?_⟩
  · rw [(expectedEvts_coh hw c h.alloc _ _).1, expectedPure_stored h hK ν θ (fun k => (hin k).pos.ne')]
  · refine (hE' i).2.2.rel_error A.u0 A.u1 ?_ hn
    rw [expected_frac]
    exact Finset.sum_nonneg fun k _ => mul_nonneg (hν k).1 (frac_range A (hin k) i).1

/-- accumulating from the left without fused operations -/
def dotLeft (ρ : ℝ → Fl) : List (Fl × Fl) → Fl
  | [] => 0
  | p :: l => l.foldl (fun s q => (s + (q.1 * q.2).rd ρ).rd ρ) ((p.1 * p.2).rd ρ)

theorem dotLeft_ok (ρ : ℝ → Fl) : DotProduct ρ (dotLeft ρ) := by
  intro l
  cases l with
  | nil => exact .nil
  | cons p l =>
    have : ∀ (l pre : List (Fl × Fl)) (a : Fl), DotR ρ pre a →
        DotR ρ (pre ++ l) (l.foldl (fun s q => (s + (q.1 * q.2).rd ρ).rd ρ) a) := by
      intro l
      induction l with
      | nil => intro pre a h; simpa using h
      | cons q l ih =>
        intro pre a h
        have := ih (pre ++ [q]) _ (.add h (.one q.1 q.2))
        simpa using this
    exact this l [p] _ (.one p.1 p.2)

theorem small_lo : (2:ℝ) ^ (-1022 : ℤ) ≤ 1 / 1024 := by
  rw [show (1 / 1024 : ℝ) = 2 ^ (-10 : ℤ) by norm_num]
  exact zpow_le_zpow_right₀ (by norm_num) (by norm_num)

theorem large_hi : (1024 : ℝ) ≤ Fl.maxFloat := by
  unfold Fl.maxFloat
  have h1 : (2:ℝ) ^ 10 ≤ 2 ^ 1023 := pow_le_pow_right₀ (by norm_num) (by norm_num)
  have h2 : (1:ℝ) ≤ 2 - 2 ^ (-52 : ℤ) := by norm_num
  have h3 : (1024:ℝ) = 1 * 2 ^ 10 := by norm_num
  rw [h3]
  exact mul_le_mul h2 h1 (by positivity) (by linarith)

/-- non-vacuity of C126: the example channel with two templates of two bins in double precision; yields 10 and 20, first nuisance
parameter 1/3 -/
example : ∃ Ê E : Fin 2 → ℝ,
    (Ex.w1.expectedEvtsR float64 (sumLeft float64) (dotLeft float64) 0 (vec ![10, 20]) (nuiVec ![![1 / 3, 0], ![0, 0]])).1 = .ok (vec Ê) ∧
    (Ex.w1.expectedEvts 0 (vec ![10, 20]) (nuiVec ![![1 / 3, 0], ![0, 0]])).1 = .ok (vec E) ∧
    ∀ i, |Ê i - E i| ≤ 2 * ((2 + 2 + 7 : ℕ) : ℝ) * 2 ^ (-53 : ℤ) * E i := by
  have e0 : ∀ i, Ex.epsA 0 i = 1 / 2 := by intro i; fin_cases i <;> norm_num [Ex.epsA]
  obtain ⟨lo, hi, A, hl, hh⟩ : ∃ lo hi, Accurate float64 (2 ^ (-53 : ℤ)) lo hi ∧ lo ≤ 1 / 1024 ∧ 1024 ≤ hi :=
    ⟨_, _, float64_accurate, small_lo, large_hi⟩
  refine C126_expected A (sumLeft_ok _) (dotLeft_ok _) Ex.w1 0 Ex.cntA Ex.epsA ![1 / 2, 1] (fun _ => 1⁻¹) Ex.chanA.stored
    (by norm_num) Ex.w1_coherent ![10, 20] ![![1 / 3, 0], ![0, 0]] ?_ ?_ ?_ ?_ (by norm_num)
  · intro k
    fin_cases k
    · refine ⟨fun i => ?_, ?_, ?_, fun i => ?_, fun i => ?_⟩
      · right; fin_cases i <;> simp [Ex.cntA] <;> linarith
      · simp [varied, Ex.cntA, e0]; norm_num
      · simp [varied, Ex.cntA, e0]; norm_num; linarith
      · fin_cases i <;> simp [e0] <;> norm_num <;> linarith
      · right; fin_cases i <;> simp [frac, varied, Ex.cntA, e0] <;> norm_num <;> linarith
    · refine ⟨fun i => ?_, ?_, ?_, fun i => ?_, fun i => ?_⟩
      · right; fin_cases i <;> simp [Ex.cntA] <;> linarith
      · simp [varied, Ex.cntA]
      · simp [varied, Ex.cntA]; norm_num; linarith
      · fin_cases i <;> simp <;> norm_num <;> linarith
      · right; fin_cases i <;> simp [frac, varied, Ex.cntA] <;> norm_num <;> linarith
  · intro k
    fin_cases k <;> simp <;> norm_num <;> refine ⟨?_, ?_⟩ <;> linarith
  · intro k i
    right
    fin_cases k <;> fin_cases i <;> simp [frac, varied, Ex.cntA, e0] <;> norm_num <;> linarith
  · intro i
    fin_cases i <;> simp [expected, Ex.cntA, e0] <;> norm_num <;> linarith

end

end TF.Props
