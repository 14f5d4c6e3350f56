import Verif.Props.CurvProps2
import Verif.Props.ToyStat3

set_option linter.unusedSimpArgs false

/-!
# The reported uncertainty of the number of events (C139)
-/

namespace TF.Spec

open TF Classical

noncomputable section

/-- the part of the events of process `p` that the templates of the model accept: the sum of its efficiencies over all channels -/
def acceptance (s : Sys) (S : ℕ → ChanSpec) (p : String) : ℝ :=
  ∑ k ∈ Finset.range s.m.chanIds.length, ∑ j : Fin (S k).K, if procName s k j = p then (S k).eff j else 0

/-- the acceptances of the processes in the order of the parameters, `0` for nuisance parameters -/
def acceptances (s : Sys) (S : ℕ → ChanSpec) (n : ℕ) (q : Fin n) : ℝ :=
  if h : q < s.m.processes.length then acceptance s S (s.m.processes[(q : ℕ)]'h) else 0

end

end TF.Spec

namespace TF.Props

open Classical Spec MeasureTheory ProbabilityTheory
open scoped Matrix Topology

noncomputable section

theorem slotIdx_yield {s : Sys} (hw : SysWF s) (S : ℕ → ChanSpec) {p : String} (hp : p ∈ s.m.processes) :
    slotIdx s S (.inl p) = s.m.processes.idxOf p := by
  obtain ⟨h1, h2⟩ := List.getElem?_eq_some_iff.mp (pslots_yield S hp)
  have := slotIdx_get hw S _ h1
  rwa [h2] at this

theorem acceptances_dot {s : Sys} (hw : SysWF s) {S : ℕ → ChanSpec} (hS : ModelIs s S) {n : ℕ} (hn : (pslots s S).length = n) (v : Fin n → ℝ) :
    v ⬝ᵥ acceptances s S n = ∑ k ∈ Finset.range s.m.chanIds.length, ∑ j : Fin (S k).K, (S k).eff j * yieldsOf s S v (procName s k j) := by
  have hP : s.m.processes.length ≤ n := by rw [← hn]; simp [pslots]
  have e : ∀ q : Fin n, acceptances s S n q = ∑ k ∈ Finset.range s.m.chanIds.length, ∑ j : Fin (S k).K,
      if s.m.processes.idxOf (procName s k j) = q then (S k).eff j else 0 := by
    intro q
    unfold acceptances
    split
    · rename_i h
      unfold acceptance
      refine Finset.sum_congr rfl fun k hk => Finset.sum_congr rfl fun j _ => ?_
      congr 1
      have hm := procName_mem hw hS k (Finset.mem_range.mp hk) j
      apply propext
      constructor
      · intro hh
        rw [hh, List.Nodup.idxOf_getElem hw.procs]
      · intro hh
        have h1 := List.idxOf_lt_length_iff.mpr hm
        have := List.getElem_idxOf h1
        rw [← this]; simp only [hh]
    · rename_i h
      symm
      refine Finset.sum_eq_zero fun k hk => Finset.sum_eq_zero fun j _ => ?_
      rw [if_neg]
      have hm := procName_mem hw hS k (Finset.mem_range.mp hk) j
      have h1 := List.idxOf_lt_length_iff.mpr hm
      omega
  unfold dotProduct
  simp only [e, Finset.mul_sum]
  rw [Finset.sum_comm]
  refine Finset.sum_congr rfl fun k hk => ?_
  rw [Finset.sum_comm]
  refine Finset.sum_congr rfl fun j _ => ?_
  have hm := procName_mem hw hS k (Finset.mem_range.mp hk) j
  have h1 := List.idxOf_lt_length_iff.mpr hm
  have : ∀ q : Fin n, (v q * if s.m.processes.idxOf (procName s k j) = q then (S k).eff j else 0) =
      if q = ⟨s.m.processes.idxOf (procName s k j), by omega⟩ then v q * (S k).eff j else 0 := by
    intro q
    by_cases hq : s.m.processes.idxOf (procName s k j) = q
    · rw [if_pos hq, if_pos (Fin.ext hq.symm)]
    · rw [if_neg hq, if_neg (fun h => hq (by rw [h])), mul_zero]
  rw [Finset.sum_congr rfl fun q _ => this q, Finset.sum_ite_eq' Finset.univ]
  simp only [Finset.mem_univ, if_true]
  unfold yieldsOf vget
  rw [slotIdx_yield hw S hm, dif_pos (by omega), mul_comm]

theorem vec_of {s : Sys} (hw : SysWF s) (S : ℕ → ChanSpec) {n : ℕ} {x : Fin n → ℝ} {ν : String → ℝ}
    {θ : ∀ k, Fin (S k).K → Fin (S k).n → ℝ} (hx : paramVec s S ν θ = vec x) :
    (∀ p ∈ s.m.processes, yieldsOf s S x p = ν p) ∧
      ∀ q (hq : q < (pslots s S).length), ∀ k j i, (pslots s S)[q] = .inr ⟨k, j, i⟩ → nuisOf s S x k j i = θ k j i := by
  have hl : (pslots s S).length = n := by
    have := congrArg List.length hx
    rw [paramVec_slots] at this
    simpa [vec] using this
  have key : ∀ q (hq : q < (pslots s S).length), Fl.fin (vget x q) = pval ν θ ((pslots s S)[q]) := by
    intro q hq
    have h1 : (vec x)[q]'(by simp [vec]; omega) = pval ν θ ((pslots s S)[q]) := by
      simp only [← hx, paramVec_slots, List.getElem_map]
    rw [← h1]
    simp [vec, vget, hl ▸ hq]
  constructor
  · intro p hp
    obtain ⟨h1, h2⟩ := List.getElem?_eq_some_iff.mp (pslots_yield S hp)
    have := key _ h1
    rw [h2] at this
    unfold yieldsOf
    rw [slotIdx_yield hw S hp]
    exact Fl.fin.inj this
  · intro q hq k j i he
    have := key q hq
    rw [he] at this
    have hi := slotIdx_get hw S q hq
    rw [he] at hi
    unfold nuisOf
    rw [hi]
    exact Fl.fin.inj this

theorem frac_slope_sum {s : Sys} {S : ℕ → ChanSpec} {θ : ∀ k, Fin (S k).K → Fin (S k).n → ℝ} (hT : NonZeroSums s S θ)
    (η : ∀ k, Fin (S k).K → Fin (S k).n → ℝ) {k : ℕ} (hk : k < s.m.chanIds.length) (j : Fin (S k).K) :
    ∑ i, fracSlope S θ η k j i = 0 := by
  have h1 : ∑ i, fracIn S θ k j i = 1 := by
    unfold fracIn
    rw [← Finset.sum_div, div_self (hT k hk j)]
  unfold fracSlope
  rw [← Finset.sum_div, Finset.sum_sub_distrib, ← Finset.sum_mul, h1]
  unfold totalSlope
  simp


theorem nuis_zero {s : Sys} (hw : SysWF s) (S : ℕ → ChanSpec) {n : ℕ} {u : Fin n → ℝ} {ν : String → ℝ}
    (hu : paramVec s S ν (fun _ _ _ => 0) = vec u) (k : ℕ) (j : Fin (S k).K) (i : Fin (S k).n) : nuisOf s S u k j i = 0 := by
  have hl : (pslots s S).length = n := by
    have := congrArg List.length hu
    rw [paramVec_slots] at this
    simpa [vec] using this
  by_cases hm : (Sum.inr ⟨k, j, i⟩ : String ⊕ (Σ k, Fin (S k).K × Fin (S k).n)) ∈ pslots s S
  · obtain ⟨q, hq, he⟩ := List.getElem_of_mem hm
    exact (vec_of hw S hu).2 q hq k j i he
  · unfold nuisOf vget
    rw [dif_neg]
    unfold slotIdx
    have := @List.idxOf_eq_length _ _ (@instBEqOfDecidableEq _ (Classical.decEq _)) (@instLawfulBEq _ (Classical.decEq _)) _ hm
    omega

/-- **C139, at a point where the likelihood is stationary in the yields.** In a model without constraints let `ν`, `θ` be parameters with positive expectations at which the likelihood is stationary in every yield. The matrix
of second derivatives maps the vector of the yields (with zeros for the nuisance parameters) to the vector of the acceptances. -/
theorem C139_hesse (s : Sys) (h : s.Built) (hne : s.m.channels ≠ []) (S : ℕ → ChanSpec) (hS : ModelIs s S)
    (d : ∀ k, Fin (S k).n → ℝ) (hd : DataIs s S d)
    (hpos : ∀ k < s.m.chanIds.length, ∀ i, d k i = 0 ∨ (1e-100 : ℝ) ≤ d k i) (hnc : s.m.constrained = [])
    (ν : String → ℝ) (θ : ∀ k, Fin (S k).K → Fin (S k).n → ℝ) (hT : NonZeroSums s S θ)
    (hE : ∀ k < s.m.chanIds.length, ∀ i, 0 < expectedIn s S ν θ k i)
    (h0 : ∀ p ∈ s.m.processes, score s S d (fun _ => 0) (fun _ => 1) ν θ p = 0)
    {n : ℕ} (x : Fin n → ℝ) (hx : paramVec s S ν θ = vec x) (A : Matrix (Fin n) (Fin n) ℝ) (hA : IsHesse (objective s.w s.m) x A)
    (u : Fin n → ℝ) (hu : paramVec s S ν (fun _ _ _ => 0) = vec u) :
    A.mulVec u = acceptances s S n := by
  have hw := reachable_wf h.reachable
  have hlen : s.m.channels.length = s.m.chanIds.length := by simp [Mct.chanIds]
  have hl : (pslots s S).length = n := by
    have := congrArg List.length hx
    rw [paramVec_slots] at this
    simpa [vec] using this
  have hc : ConstraintsAre s (fun _ => 0) (fun _ => 1) := by
    intro p hp; rw [hnc] at hp; cases hp
  have hQ : ∀ v : Fin n → ℝ, v ⬝ᵥ A.mulVec v = information s S d (fun _ => 1) ν (yieldsOf s S v) θ (nuisOf s S v) +
      ∑ k ∈ Finset.range s.m.channels.length, ∑ i, (1 - d k i / expectedIn s S ν θ k i) * bendIn s S ν (yieldsOf s S v) θ (nuisOf s S v) k i := by
    intro v
    have h1 := hA.2 v
    simp only [paramVec_of hw S hx] at h1
    exact HasCurvature_unique h1 (C131_curvature s h hne S hS d hd hpos _ _ hc ν θ hT hE _ _)
  have hyu : ∀ k < s.m.chanIds.length, ∀ j : Fin (S k).K, yieldsOf s S u (procName s k j) = ν (procName s k j) :=
    fun k hk j => (vec_of hw S hu).1 _ (procName_mem hw hS k hk j)
  have hnu : nuisOf s S u = fun _ _ _ => 0 := by
    funext k j i; exact nuis_zero hw S hu k j i
  have hys : ∀ v p, yieldsOf s S (v + u) p = yieldsOf s S v p + yieldsOf s S u p := by
    intro v p; unfold yieldsOf vget; split <;> simp
  have hns : ∀ v, nuisOf s S (v + u) = nuisOf s S v := by
    intro v
    funext k j i
    have := congrFun (congrFun (congrFun hnu k) j) i
    unfold nuisOf vget at this ⊢
    split
    · rename_i hh; rw [dif_pos hh] at this; simp [this]
    · rfl
  refine dotProduct_eq _ _ fun v => ?_
  rw [dotProduct_comm, dotProduct_comm (acceptances s S n), acceptances_dot hw hS hl]
  have hsym : u ⬝ᵥ A.mulVec v = v ⬝ᵥ A.mulVec u := by
    rw [Matrix.dotProduct_mulVec, ← Matrix.mulVec_transpose, hA.1, dotProduct_comm]
  have hbil : (v + u) ⬝ᵥ A.mulVec (v + u) = v ⬝ᵥ A.mulVec v + u ⬝ᵥ A.mulVec u + 2 * (v ⬝ᵥ A.mulVec u) := by
    rw [Matrix.mulVec_add, add_dotProduct, dotProduct_add, dotProduct_add, hsym]; ring
  rw [hQ, hQ, hQ] at hbil
  have hts : ∀ k j, totalSlope S (nuisOf s S u) k j = 0 := fun k j => by simp [totalSlope, hnu]
  have hfs : ∀ k j i, fracSlope S θ (nuisOf s S u) k j i = 0 := fun k j i => by
    unfold fracSlope; rw [hts, hnu]; simp
  -- the parts of each bin
  set G : ∀ k, Fin (S k).n → ℝ := fun k i => expectedIn s S (yieldsOf s S v) θ k i with hG
  set F : ∀ k, Fin (S k).n → ℝ := fun k i => ∑ j : Fin (S k).K, (S k).eff j * (ν (procName s k j) * fracSlope S θ (nuisOf s S v) k j i) with hF
  have hsv : ∀ k i, slopeIn s S ν (yieldsOf s S v) θ (nuisOf s S v) k i = G k i + F k i := by
    intro k i
    simp only [hG, hF]
    rw [expectedIn_eq, ← Finset.sum_add_distrib]
    unfold slopeIn
    exact Finset.sum_congr rfl fun j _ => by ring
  have hsu : ∀ k < s.m.chanIds.length, ∀ i, slopeIn s S ν (yieldsOf s S u) θ (nuisOf s S u) k i = expectedIn s S ν θ k i := by
    intro k hk i
    rw [expectedIn_eq]
    unfold slopeIn
    exact Finset.sum_congr rfl fun j _ => by rw [hfs, hyu k hk]; ring
  have hsvu : ∀ k < s.m.chanIds.length, ∀ i, slopeIn s S ν (yieldsOf s S (v + u)) θ (nuisOf s S (v + u)) k i = G k i + F k i + expectedIn s S ν θ k i := by
    intro k hk i
    rw [← hsv, ← hsu k hk i, hns]
    unfold slopeIn
    rw [← Finset.sum_add_distrib]
    exact Finset.sum_congr rfl fun j _ => by rw [hys, hfs]; ring
  have hbu : ∀ k i, bendIn s S ν (yieldsOf s S u) θ (nuisOf s S u) k i = 0 := by
    intro k i; simp [bendIn, hfs]
  have hbvu : ∀ k < s.m.chanIds.length, ∀ i, bendIn s S ν (yieldsOf s S (v + u)) θ (nuisOf s S (v + u)) k i =
      bendIn s S ν (yieldsOf s S v) θ (nuisOf s S v) k i + 2 * F k i := by
    intro k hk i
    simp only [hF]
    rw [hns, Finset.mul_sum]
    unfold bendIn
    rw [← Finset.sum_add_distrib]
    exact Finset.sum_congr rfl fun j _ => by rw [hys, hyu k hk]; ring
  have hF0 : ∀ k < s.m.chanIds.length, ∑ i, F k i = 0 := by
    intro k hk
    simp only [hF]
    rw [Finset.sum_comm]
    refine Finset.sum_eq_zero fun j _ => ?_
    rw [← Finset.mul_sum, ← Finset.mul_sum, frac_slope_sum hT _ hk j]; ring
  have hsc : ∑ k ∈ Finset.range s.m.chanIds.length, ∑ i, (1 - d k i / expectedIn s S ν θ k i) * G k i = 0 := by
    have := slope_by_process hw hS (d := d) hc (θ := θ) ν (yieldsOf s S v)
    rw [hnc] at this
    simp only [List.map_nil, List.sum_nil, add_zero] at this
    rw [this]
    refine Finset.sum_eq_zero fun p hp => ?_
    rw [h0 p (List.mem_toFinset.mp hp), mul_zero]
  have hGs : ∀ k < s.m.chanIds.length, ∑ i, G k i = ∑ j : Fin (S k).K, (S k).eff j * yieldsOf s S v (procName s k j) := by
    intro k hk
    simp only [hG, expectedIn_eq]
    rw [Finset.sum_comm]
    refine Finset.sum_congr rfl fun j _ => ?_
    have h1 : ∑ i, fracIn S θ k j i = 1 := by
      unfold fracIn
      rw [← Finset.sum_div, div_self (hT k hk j)]
    rw [← Finset.mul_sum, h1]; ring
  unfold information at hbil
  rw [hnc, hlen] at hbil
  simp only [List.map_nil, List.sum_nil, add_zero, ← Finset.sum_add_distrib] at hbil
  have hterm : ∀ k ∈ Finset.range s.m.chanIds.length, (((∑ i, d k i * (slopeIn s S ν (yieldsOf s S (v + u)) θ (nuisOf s S (v + u)) k i / expectedIn s S ν θ k i) ^ 2) +
      ∑ j, (nuisOf s S (v + u) k j) ⬝ᵥ (((S k).R j)⁻¹.mulVec (nuisOf s S (v + u) k j))) + ∑ i,
        (1 - d k i / expectedIn s S ν θ k i) * bendIn s S ν (yieldsOf s S (v + u)) θ (nuisOf s S (v + u)) k i) =
      (((∑ i, d k i * (slopeIn s S ν (yieldsOf s S v) θ (nuisOf s S v) k i / expectedIn s S ν θ k i) ^ 2) +
      ∑ j, (nuisOf s S v k j) ⬝ᵥ (((S k).R j)⁻¹.mulVec (nuisOf s S v k j))) + ∑ i,
        (1 - d k i / expectedIn s S ν θ k i) * bendIn s S ν (yieldsOf s S v) θ (nuisOf s S v) k i) +
      (((∑ i, d k i * (slopeIn s S ν (yieldsOf s S u) θ (nuisOf s S u) k i / expectedIn s S ν θ k i) ^ 2) +
      ∑ j, (nuisOf s S u k j) ⬝ᵥ (((S k).R j)⁻¹.mulVec (nuisOf s S u k j))) + ∑ i,
        (1 - d k i / expectedIn s S ν θ k i) * bendIn s S ν (yieldsOf s S u) θ (nuisOf s S u) k i) +
      2 * (∑ i, G k i - ∑ i, (1 - d k i / expectedIn s S ν θ k i) * G k i) := by
    intro k hk
    have hk := Finset.mem_range.mp hk
    have hz : ∑ j, (nuisOf s S u k j) ⬝ᵥ (((S k).R j)⁻¹.mulVec (nuisOf s S u k j)) = 0 := Finset.sum_eq_zero fun j _ => by
      rw [hnu]; simp [dotProduct]
    have hn2 : ∑ j, (nuisOf s S (v + u) k j) ⬝ᵥ (((S k).R j)⁻¹.mulVec (nuisOf s S (v + u) k j)) =
      ∑ j, (nuisOf s S v k j) ⬝ᵥ (((S k).R j)⁻¹.mulVec (nuisOf s S v k j)) := by rw [hns]
    rw [hz, hn2]
    have h1 : (∑ i, d k i * (slopeIn s S ν (yieldsOf s S (v + u)) θ (nuisOf s S (v + u)) k i / expectedIn s S ν θ k i) ^ 2) + ∑ i,
        (1 - d k i / expectedIn s S ν θ k i) * bendIn s S ν (yieldsOf s S (v + u)) θ (nuisOf s S (v + u)) k i =
        (∑ i, d k i * (slopeIn s S ν (yieldsOf s S v) θ (nuisOf s S v) k i / expectedIn s S ν θ k i) ^ 2) +
        (∑ i, (1 - d k i / expectedIn s S ν θ k i) * bendIn s S ν (yieldsOf s S v) θ (nuisOf s S v) k i) +
        (∑ i, d k i * (slopeIn s S ν (yieldsOf s S u) θ (nuisOf s S u) k i / expectedIn s S ν θ k i) ^ 2) +
        (∑ i, (1 - d k i / expectedIn s S ν θ k i) * bendIn s S ν (yieldsOf s S u) θ (nuisOf s S u) k i) +
        2 * (∑ i, G k i - ∑ i, (1 - d k i / expectedIn s S ν θ k i) * G k i + ∑ i, F k i) := by
      simp only [← Finset.sum_add_distrib, ← Finset.sum_sub_distrib, Finset.mul_sum]
      refine Finset.sum_congr rfl fun i _ => ?_
      have he := (hE k hk i).ne'
      rw [hsvu k hk, hsv, hsu k hk, hbvu k hk, hbu]
      field_simp
      ring
    rw [hF0 k hk] at h1
    linarith
  rw [Finset.sum_congr rfl hterm, Finset.sum_add_distrib, Finset.sum_add_distrib, ← Finset.mul_sum, Finset.sum_sub_distrib, hsc, sub_zero] at hbil
  rw [← Finset.sum_congr rfl fun k hk => hGs k (Finset.mem_range.mp hk)]
  linarith


/-- the shares of a template sum to one: the expected number of events of a model -/
theorem expected_total {s : Sys} {S : ℕ → ChanSpec} {θ : ∀ k, Fin (S k).K → Fin (S k).n → ℝ} (hT : NonZeroSums s S θ) (ν : String → ℝ)
    {k : ℕ} (hk : k < s.m.chanIds.length) : ∑ i, expectedIn s S ν θ k i = ∑ j : Fin (S k).K, (S k).eff j * ν (procName s k j) := by
  simp only [expectedIn_eq]
  rw [Finset.sum_comm]
  refine Finset.sum_congr rfl fun j _ => ?_
  have h1 : ∑ i, fracIn S θ k j i = 1 := by
    unfold fracIn
    rw [← Finset.sum_div, div_self (hT k hk j)]
  rw [← Finset.mul_sum, h1]; ring

/-- a scipy fit that returns the covariance: it is the inverse of the (invertible) matrix of the numerical differentiation -/
theorem scipy_cov {s : Sys} (hr : s.Reachable) {id : String} (hid : id.toLower = "scipy") {ops : List FitOp}
    (hk : KnownIds (s.m.paramNames s.w) ops) {o : Optim} {up fixNui : Bool} {lim : Option Bounds} {r : MinResult}
    (hfit : ((fitRun id ops).doFit o s.w s.m up true fixNui lim).1 = .ok r) {n : ℕ} {H : Mat} {A : Matrix (Fin n) (Fin n) ℝ}
    (hH : o.hessian r.params.values = .ok H) (hA : IsReal H A) :
    A.det ≠ 0 ∧ IsReal r.params.cov A⁻¹ ∧ r.params.errors = List.ofFn fun i => Fl.sqrt (.fin (A⁻¹ i i)) := by
  have hal := C51_aligned s hr
  have hz := setup_eq (kd := .scipy) (id := id) hal.1.symm hk fixNui lim
  have hzw := minRun_wf .scipy (s.m.paramNames s.w)
    (setupOps (fitRun id ops) s.m.numProcesses (s.m.numNui s.w) fixNui lim)
  have hm1 : minKindOf (fitRun id ops).minimizerId = .ok .scipy := by rw [fitRun_id]; exact minKind_scipy hid
  obtain ⟨x1, q, hx1, hq, -, -, hval⟩ := doFit_scipy_inv hm1 hz hzw.hk hfit
  have e := doFit_minimize hm1 hz hfit hx1
  unfold Minimizer.minimize at e
  rw [hzw.hk] at e
  simp only at e
  have key : ∀ C : Mat, npInv H = .ok C → A.det ≠ 0 ∧ IsReal C A⁻¹ := by
    intro C hC
    by_cases hd : A.det = 0
    · rw [npInv_singular hA hd] at hC; cases hC
    · obtain ⟨N, h1, h2⟩ := npInv_isReal hA hd
      rw [h1] at hC
      obtain rfl := Except.ok.inj hC
      exact ⟨hd, h2⟩
  rcases scipy_cases o _ (objective s.w s.m) x1 true with ⟨er, -, h2⟩ | ⟨q', h1, h2⟩
  · rw [h2] at e; cases e
  · rw [hq] at h1
    obtain rfl := Except.ok.inj h1
    rw [← hval] at h2
    rcases h2 with ⟨-, h3⟩ | ⟨-, -, h3⟩ | ⟨-, -, ⟨h0, -⟩ | ⟨-, er, -, h3⟩ | ⟨-, H', C, -, -, -, h3⟩ | ⟨-, H', C, h4, h5, -, h3⟩⟩
    · rw [h3] at e; cases e
    · rw [h3] at e; cases e
    · cases h0
    · rw [h3] at e; cases e
    · rw [h3] at e; cases e
    · rw [h3] at e
      have er := Except.ok.inj e
      have er1 : r.params.cov = C := by rw [← er]
      have er2 : r.params.errors = C.diag.map Fl.sqrt := by rw [← er]
      rw [hH] at h4
      obtain rfl := Except.ok.inj h4
      obtain ⟨k1, k2⟩ := key C h5
      refine ⟨k1, er1 ▸ k2, ?_⟩
      rw [er2, isReal_diag k2]
      simp only [vec, List.map_ofFn]
      rfl

/-- **C139.** A scipy fit (exact minimization and differentiation) of a model without constraints that returns the covariance, with every fitted yield free to move and every bin expected to be
populated: the reported covariance gives the total number of accepted events a variance equal to the number of observed events (as for a Poisson number). Its covariances with the yields are the fitted
yields, those with the nuisance parameters are zero. -/
theorem C139_total (s : Sys) (h : s.Built) (hne : s.m.channels ≠ []) (S : ℕ → ChanSpec) (hS : ModelIs s S)
    (d : ∀ k, Fin (S k).n → ℝ) (hd : DataIs s S d)
    (hpos : ∀ k < s.m.chanIds.length, ∀ i, d k i = 0 ∨ (1e-100 : ℝ) ≤ d k i) (hnc : s.m.constrained = []) (hused : AllUsed s S)
    (id : String) (hid : id.toLower = "scipy") (ops : List FitOp)
    (hk : KnownIds (s.m.paramNames s.w) ops) (hone : ∀ k < (s.m.paramNames s.w).length, OneId (s.m.paramNames s.w) ops k)
    (o : Optim) (ho : TrueMinScipy o) (hH : ExactHesse o (objective s.w s.m)) (up fixNui : Bool) (lim : Option Bounds)
    (h1 : ∀ j k, j < (s.m.paramNames s.w).length → k < (s.m.paramNames s.w).length →
      WantedFixed (s.m.paramNames s.w) ops s.m.numProcesses fixNui j →
      WantedFixed (s.m.paramNames s.w) ops s.m.numProcesses fixNui k → j = k)
    (r : MinResult) (hr : ((fitRun id ops).doFit o s.w s.m up true fixNui lim).1 = .ok r) (v : ℝ) (hv : r.fval = .fin v)
    (hfree : ∀ ν θ, r.params.values = paramVec s S ν θ →
      (∀ p ∈ s.m.processes, MayMove s ops fixNui lim (s.m.processes.idxOf p) (ν p)) ∧
      ∀ k < s.m.chanIds.length, ∀ i, 0 < expectedIn s S ν θ k i) :
    ∃ ν θ, r.params.values = paramVec s S ν θ ∧ ∃ C : Matrix (Fin (s.m.paramNames s.w).length) (Fin (s.m.paramNames s.w).length) ℝ,
      IsReal r.params.cov C ∧ (∀ q, 0 ≤ C q q → r.params.errors[(q : ℕ)]? = some (.fin (Real.sqrt (C q q)))) ∧
      vec (C.mulVec (acceptances s S (s.m.paramNames s.w).length)) = paramVec s S ν (fun _ _ _ => 0) ∧
      acceptances s S (s.m.paramNames s.w).length ⬝ᵥ C.mulVec (acceptances s S (s.m.paramNames s.w).length) =
        ∑ k ∈ Finset.range s.m.chanIds.length, ∑ i, d k i := by
  have hw := reachable_wf h.reachable
  have hal := C51_aligned s h.reachable
  have hc : ConstraintsAre s (fun _ => 0) (fun _ => 1) := by
    intro p hp; rw [hnc] at hp; cases hp
  obtain ⟨ν, θ, e1, e2, e3, e4⟩ := C123_scipy s h hne S hS d hd hpos _ _ hc hused id hid ops hk hone o ho up true fixNui lim h1 r hr v hv
  obtain ⟨f1, f2⟩ := hfree ν θ e1
  have hlen : ∀ θ', (paramVec s S ν θ').length = (s.m.paramNames s.w).length := fun θ' => by rw [paramVec_length hw hS, hal.1]
  obtain ⟨x, hx⟩ := paramVec_real s S ν θ (hlen θ)
  obtain ⟨u, hu⟩ := paramVec_real s S ν (fun _ _ _ => 0) (hlen _)
  obtain ⟨A, hA⟩ := C131_hesse_exists s h hne S hS d hd hpos _ _ hc ν θ e2 f2 x hx
  obtain ⟨H, hH1, hH2⟩ := hH _ x A hA
  have hsc : ∀ p ∈ s.m.processes, score s S d (fun _ => 0) (fun _ => 1) ν θ p = 0 := fun p hp =>
    le_antisymm ((e4.1 p hp).2 (f1 p hp).2) ((e4.1 p hp).1 (f1 p hp).1)
  have hAu := C139_hesse s h hne S hS d hd hpos hnc ν θ e2 f2 hsc x hx A hA u hu
  obtain ⟨g1, g2, g3⟩ := scipy_cov h.reachable hid hk hr (by rw [e1, hx]; exact hH1) hH2
  have hCu : A⁻¹.mulVec (acceptances s S (s.m.paramNames s.w).length) = u := by
    rw [← hAu, Matrix.mulVec_mulVec, Matrix.nonsing_inv_mul _ (isUnit_iff_ne_zero.mpr g1), Matrix.one_mulVec]
  refine ⟨ν, θ, e1, A⁻¹, g2, fun q hq => by
    rw [g3, List.getElem?_ofFn, dif_pos q.isLt]
    simp [Fl.sqrt, not_lt.mpr hq], by rw [hCu, hu], ?_⟩
  rw [hCu, dotProduct_comm, acceptances_dot hw hS (by rw [← hlen θ, paramVec_slots]; simp)]
  rw [← C123_total s h S hS d _ _ hc hnc ops fixNui lim ν θ e3 e4 fun p hp => .inr (f1 p hp)]
  refine Finset.sum_congr rfl fun k hk => ?_
  have hk := Finset.mem_range.mp hk
  rw [expected_total e2 ν hk]
  refine Finset.sum_congr rfl fun j _ => ?_
  rw [(vec_of hw S hu).1 _ (procName_mem hw hS k hk j)]

/-- **C139, one process.** With a single process the reported error of the yield is the square root of the number of observed events divided by the acceptance of the process, the fitted yield is the
number of observed events divided by the acceptance, and the yield is not correlated with any nuisance parameter. -/
theorem C139_yield (s : Sys) (h : s.Built) (hne : s.m.channels ≠ []) (S : ℕ → ChanSpec) (hS : ModelIs s S)
    (d : ∀ k, Fin (S k).n → ℝ) (hd : DataIs s S d)
    (hpos : ∀ k < s.m.chanIds.length, ∀ i, d k i = 0 ∨ (1e-100 : ℝ) ≤ d k i) (hnc : s.m.constrained = []) (hused : AllUsed s S)
    (p : String) (hp : s.m.processes = [p]) (hac : 0 < acceptance s S p)
    (id : String) (hid : id.toLower = "scipy") (ops : List FitOp)
    (hk : KnownIds (s.m.paramNames s.w) ops) (hone : ∀ k < (s.m.paramNames s.w).length, OneId (s.m.paramNames s.w) ops k)
    (o : Optim) (ho : TrueMinScipy o) (hH : ExactHesse o (objective s.w s.m)) (up fixNui : Bool) (lim : Option Bounds)
    (h1 : ∀ j k, j < (s.m.paramNames s.w).length → k < (s.m.paramNames s.w).length →
      WantedFixed (s.m.paramNames s.w) ops s.m.numProcesses fixNui j →
      WantedFixed (s.m.paramNames s.w) ops s.m.numProcesses fixNui k → j = k)
    (r : MinResult) (hr : ((fitRun id ops).doFit o s.w s.m up true fixNui lim).1 = .ok r) (v : ℝ) (hv : r.fval = .fin v)
    (hfree : ∀ ν θ, r.params.values = paramVec s S ν θ →
      (∀ p ∈ s.m.processes, MayMove s ops fixNui lim (s.m.processes.idxOf p) (ν p)) ∧
      ∀ k < s.m.chanIds.length, ∀ i, 0 < expectedIn s S ν θ k i) (N : ℝ) (hN : N = ∑ k ∈ Finset.range s.m.chanIds.length, ∑ i, d k i) :
    r.params.values[0]? = some (.fin (N / acceptance s S p)) ∧
      r.params.errors[0]? = some (.fin (Real.sqrt N / acceptance s S p)) ∧
      ∀ q, 0 < q → q < (s.m.paramNames s.w).length → r.params.cov.e q 0 = .fin 0 := by
  have hw := reachable_wf h.reachable
  have hal := C51_aligned s h.reachable
  obtain ⟨ν, θ, e1, C, c1, c2, c3, c4⟩ := C139_total s h hne S hS d hd hpos hnc hused id hid ops hk hone o ho hH up fixNui lim h1 r hr v hv hfree
  have hnn : s.m.processes.length = 1 := by rw [hp]; rfl
  have hn : 0 < (s.m.paramNames s.w).length := by rw [hal.1]; unfold Mct.numProcesses; omega
  have ha : ∀ q : Fin (s.m.paramNames s.w).length, acceptances s S (s.m.paramNames s.w).length q = if q = ⟨0, hn⟩ then acceptance s S p else 0 := by
    intro q
    unfold acceptances
    by_cases hq : q = ⟨0, hn⟩
    · rw [if_pos hq, dif_pos (by rw [hnn, hq]; simp)]
      congr 1
      subst hq
      simp [hp]
    · rw [if_neg hq, dif_neg]
      rw [hnn]
      intro h0
      exact hq (Fin.ext (by simp; omega))
  have hCa : ∀ q : Fin (s.m.paramNames s.w).length, C.mulVec (acceptances s S (s.m.paramNames s.w).length) q = C q ⟨0, hn⟩ * acceptance s S p := by
    intro q
    unfold Matrix.mulVec dotProduct
    simp only [ha, mul_ite, mul_zero, Finset.sum_ite_eq', Finset.sum_ite_eq, Finset.mem_univ, if_true]
  have hu : ∀ q : Fin (s.m.paramNames s.w).length, (paramVec s S ν (fun _ _ _ => 0))[(q : ℕ)]? = some (.fin (C q ⟨0, hn⟩ * acceptance s S p)) := by
    intro q
    rw [← c3]
    simp [vec, hCa]
  have hy : ∀ θ', (paramVec s S ν θ')[0]? = some (.fin (ν p)) := by
    intro θ'
    have := paramVec_yield (S := S) ν θ' p (by rw [hp]; simp)
    rwa [show s.m.processes.idxOf p = 0 by rw [hp]; simp] at this
  have h00 : C ⟨0, hn⟩ ⟨0, hn⟩ * acceptance s S p = ν p := by
    have h2 := hu ⟨0, hn⟩
    rw [hy] at h2
    exact (Fl.fin.inj (Option.some.inj h2)).symm
  have hNv : N = acceptance s S p * ν p := by
    rw [hN, ← c4]
    unfold dotProduct
    simp only [ha, ite_mul, zero_mul, Finset.sum_ite_eq', Finset.sum_ite_eq, Finset.mem_univ, if_true, hCa, h00]
  have hac' := hac.ne'
  refine ⟨?_, ?_, ?_⟩
  · rw [e1, hy, hNv, mul_div_cancel_left₀ _ hac']
  · have hN0 : 0 ≤ N := by
      rw [hN]
      refine Finset.sum_nonneg fun k hk => Finset.sum_nonneg fun i _ => ?_
      rcases hpos k (Finset.mem_range.mp hk) i with h0 | h0
      · exact h0.ge
      · exact le_trans (by norm_num) h0
    have : C ⟨0, hn⟩ ⟨0, hn⟩ = N / (acceptance s S p) ^ 2 := by
      rw [hNv, ← h00]; field_simp
    have e := c2 ⟨0, hn⟩ (by rw [this]; positivity)
    simp only at e
    rw [e, this, Real.sqrt_div' _ (sq_nonneg _), Real.sqrt_sq hac.le]
  · intro q hq0 hq
    have h2 := hu ⟨q, hq⟩
    have h3 := c1.2.2 ⟨q, hq⟩ ⟨0, hn⟩
    have hm : (paramVec s S ν (fun _ _ _ => 0))[q]? = some (.fin 0) := by
      have hql : q < (pslots s S).length := by
        have := (List.getElem?_eq_some_iff.mp h2).1
        rw [paramVec_slots] at this; simpa using this
      rw [paramVec_slots, List.getElem?_map, List.getElem?_eq_getElem hql, Option.map_some]
      congr 1
      have : (pslots s S)[q] ∈ ((List.range s.m.chanIds.length).flatMap fun k =>
          (List.finRange (S k).K).flatMap fun j => (List.finRange (S k).n).map fun i => (Sum.inr ⟨k, j, i⟩ : String ⊕ (Σ k, Fin (S k).K × Fin (S k).n))) := by
        refine List.mem_of_getElem? (i := q - 1) ?_
        have e : (pslots s S)[q]? = some (pslots s S)[q] := List.getElem?_eq_getElem hql
        rw [← e]
        unfold pslots
        rw [List.getElem?_append_right (by simp [hnn]; omega)]
        simp [hnn]
      simp only [List.mem_flatMap, List.mem_map] at this
      obtain ⟨k, -, j, -, i, -, e⟩ := this
      rw [← e]; rfl
    rw [hm] at h2
    have h4 := (Fl.fin.inj (Option.some.inj h2)).symm
    rw [(mul_eq_zero.mp h4).resolve_right hac'] at h3
    exact h3


/-- a parameter vector determines the expectations -/
theorem paramVec_expected {s : Sys} (hw : SysWF s) {S : ℕ → ChanSpec} (hS : ModelIs s S) {ν ν' : String → ℝ}
    {θ θ' : ∀ k, Fin (S k).K → Fin (S k).n → ℝ} (he : paramVec s S ν θ = paramVec s S ν' θ') :
    (∀ p ∈ s.m.processes, ν p = ν' p) ∧ ∀ k < s.m.chanIds.length, ∀ i, expectedIn s S ν θ k i = expectedIn s S ν' θ' k i := by
  have h1 : ∀ p ∈ s.m.processes, ν p = ν' p := by
    intro p hp
    have e := paramVec_yield (S := S) ν θ p hp
    rw [he, paramVec_yield ν' θ' p hp] at e
    exact (Fl.fin.inj (Option.some.inj e)).symm
  refine ⟨h1, fun k hk i => ?_⟩
  have h2 : θ k = θ' k := by
    funext j i
    have e := paramVec_nui hw hS ν θ k hk j i
    rw [he, paramVec_nui hw hS ν' θ' k hk j i] at e
    exact (Fl.fin.inj (Option.some.inj e)).symm
  unfold expectedIn
  refine Finset.sum_congr rfl fun j _ => ?_
  have h3 := h1 _ (procName_mem hw hS k hk j)
  simp only [h3, h2]

/-- **C139, toys.** In a fit of a toy data set as in `C139_total`, the variance that the reported covariance gives the number of accepted events is the number of events drawn for the toy data set, and so
is the number of events the fitted model expects. (For independent Poisson numbers its average over toys and its variance are the same number, see `C137_unbiased`: on average the reported variance is the
true one.) -/
theorem C139_toys (s : Sys) (h : s.Built) (hne : s.m.channels ≠ []) (S : ℕ → ChanSpec) (hS : ModelIs s S)
    (htup : ∀ c ∈ s.m.chanIds, AllTuple (s.w.chans c).range)
    (y : ∀ k, Fin (S k).K → ℝ) (θ₀ : ∀ k, Fin (S k).K → Fin (S k).n → ℝ) (hp : ParamsAre s S y θ₀) (hT₀ : NonZeroSums s S θ₀)
    (hnn : ∀ k < s.m.chanIds.length, ∀ i, 0 ≤ presentIn S y θ₀ k i) (hnc : s.m.constrained = []) (hused : AllUsed s S)
    (draw : ℕ → Vec → ℕ → ℕ) (s' : Sys) (hs' : s' = s.step (.addToy draw))
    (id : String) (hid : id.toLower = "scipy") (ops : List FitOp)
    (hk : KnownIds (s.m.paramNames s.w) ops) (hone : ∀ k < (s.m.paramNames s.w).length, OneId (s.m.paramNames s.w) ops k)
    (o : Optim) (ho : TrueMinScipy o) (hH : ExactHesse o (objective s'.w s'.m)) (up fixNui : Bool) (lim : Option Bounds)
    (h1 : ∀ j k, j < (s.m.paramNames s.w).length → k < (s.m.paramNames s.w).length →
      WantedFixed (s.m.paramNames s.w) ops s.m.numProcesses fixNui j →
      WantedFixed (s.m.paramNames s.w) ops s.m.numProcesses fixNui k → j = k) (r : MinResult)
    (hr : ((fitRun id ops).doFit o s'.w s'.m up true fixNui lim).1 = .ok r) (v : ℝ) (hv : r.fval = .fin v)
    (hfree : ∀ ν θ, r.params.values = paramVec s S ν θ →
        (∀ p ∈ s.m.processes, MayMove s ops fixNui lim (s.m.processes.idxOf p) (ν p)) ∧
        ∀ k < s.m.chanIds.length, ∀ i, 0 < expectedIn s S ν θ k i) :
    ∃ ν θ C, r.params.values = paramVec s S ν θ ∧ IsReal r.params.cov C ∧
      acceptances s S (s.m.paramNames s.w).length ⬝ᵥ C.mulVec (acceptances s S (s.m.paramNames s.w).length) =
        (eventsDrawn s S (presentIn S y θ₀) draw : ℝ) ∧
      eventsExpected s S ν θ = (eventsDrawn s S (presentIn S y θ₀) draw : ℝ) := by
  obtain ⟨q1, q2, q3, q4, q5, q6, q7⟩ := toy_model s h S hS htup y θ₀ hp hT₀ hnn draw
  have hsame := toy_same s draw
  rw [← hs'] at q1 q2 q3 q4 q5 q6 q7 hsame
  have hnm : s'.m.paramNames s'.w = s.m.paramNames s.w := by rw [q2]; exact (names_same hsame s.m).1
  have hu : AllUsed s' S := by
    unfold AllUsed; simp only [q2, q6]; exact hused
  have hac : ∀ n, acceptances s' S n = acceptances s S n := by
    intro n; funext q
    unfold acceptances acceptance
    simp only [q2, q6]
  have hfree' : ∀ ν θ, r.params.values = paramVec s' S ν θ →
      (∀ p ∈ s'.m.processes, MayMove s' ops fixNui lim (s'.m.processes.idxOf p) (ν p)) ∧
      ∀ k < s'.m.chanIds.length, ∀ i, 0 < expectedIn s' S ν θ k i := by
    intro ν θ he
    rw [q5] at he
    have := hfree ν θ he
    simp only [q7]
    unfold MayMove at this ⊢
    rw [hnm, q2]
    exact this
  have hc : ConstraintsAre s' (fun _ => 0) (fun _ => 1) := by
    intro p hp; rw [q2, hnc] at hp; cases hp
  obtain ⟨ν, θ, e1, C, c1, -, -, c4⟩ := C139_total s' q1 (by rw [q2]; exact hne) S q3 _ q4 (fun k _ i => toyData_floor k i) (by rw [q2]; exact hnc) hu
    id hid ops (by rw [hnm]; exact hk) (by rw [hnm]; exact hone) o ho hH up fixNui lim (by rw [hnm, q2]; exact h1) r hr v hv hfree'
  obtain ⟨ν2, θ2, b1, -, b3, b4⟩ := C123_scipy s' q1 (by rw [q2]; exact hne) S q3 _ q4 (fun k _ i => toyData_floor k i) _ _ hc hu
    id hid ops (by rw [hnm]; exact hk) (by rw [hnm]; exact hone) o ho up true fixNui lim (by rw [hnm, q2]; exact h1) r hr v hv
  have ht := C123_total s' q1 S q3 _ _ _ hc (by rw [q2]; exact hnc) ops fixNui lim ν2 θ2 b3 b4 fun p hp => .inr ((hfree' ν2 θ2 b1).1 p hp)
  simp only [hac] at c4
  have hch : s'.m.chanIds.length = s.m.chanIds.length := by rw [q2]
  rw [hch] at c4 ht
  refine ⟨ν2, θ2, ?_⟩
  rw [eventsDrawn_eq]
  have hfin : eventsExpected s S ν2 θ2 = ∑ k ∈ Finset.range s.m.chanIds.length, ∑ i, toyData s S (presentIn S y θ₀) draw k i := by
    rw [← ht]
    unfold eventsExpected
    simp only [q7]
  have hcast : ∀ (n' m : ℕ) (_ : n' = m) (D : ℝ) (C : Matrix (Fin n') (Fin n') ℝ), IsReal r.params.cov C →
      acceptances s S n' ⬝ᵥ C.mulVec (acceptances s S n') = D →
      ∃ C : Matrix (Fin m) (Fin m) ℝ, IsReal r.params.cov C ∧ acceptances s S m ⬝ᵥ C.mulVec (acceptances s S m) = D := by
    rintro n' _ rfl D C h1 h2
    exact ⟨C, h1, h2⟩
  obtain ⟨C', g1, g2⟩ := hcast _ _ (by rw [hnm]) _ C c1 c4
  exact ⟨C', by rw [b1, q5], g1, g2, hfin⟩

/-- non-vacuity of C139: the free scipy fit of the two-channel example (acceptances 1/4 and 3/4) to its own Asimov data, with 8 events. The yield is 8 and its reported error is √8. -/
example : acceptance Ex.sysQA Ex.SQ "p" = 1 ∧ ∃ r,
    ((fitRun "scipy" []).doFit (Ex.optExact (objective Ex.sysQA.w Ex.sysQA.m)) Ex.sysQA.w Ex.sysQA.m false true false none).1 = .ok r ∧
    r.params.values[0]? = some (.fin 8) ∧ r.params.errors[0]? = some (.fin (Real.sqrt 8)) := by
  obtain ⟨q1, q2, q3, q4, q5, q6, q7, q8, q9, q10, q11, d, q12, q13, q14⟩ := asimov_exact Ex.sysQ Ex.sysQ_built
    (by simp [Ex.sysQ, Ex.mQ]) Ex.SQ Ex.modelQ (by simp [Ex.sysQ, Ex.mQ, Mct.chanIds, Ex.wQ, Ex.chQa, Ex.chQb, AllTuple])
    Ex.yQ Ex.paramsQ Ex.sumsQ (fun _ => 8)
    (by simp only [Ex.sysQ]; intro p hp; simp [Ex.mQ] at hp; subst hp; exact Ex.yieldQ) Ex.shareQ
    (fun _ => 0) (fun _ => 1) (by intro p hp; simp [Ex.sysQ, Ex.mQ] at hp) (by intro p hp; simp [Ex.sysQ, Ex.mQ] at hp)
    Ex.posQ Ex.identQ Ex.sysQA rfl
  have hne : Ex.sysQA.m.channels ≠ [] := by rw [q2]; simp [Ex.sysQ, Ex.mQ]
  have hw := reachable_wf q1.reachable
  have hkn : KnownIds (Ex.sysQA.m.paramNames Ex.sysQA.w) [] := ⟨by simp, by simp⟩
  have hx0 : Ex.sysQA.m.x0 Ex.sysQA.w = .ok (paramVec Ex.sysQA Ex.SQ (fun _ => 8) fun _ _ _ => 0) := by rw [q4, q5, q6]
  have hp1 : Ex.sysQA.m.processes = ["p"] := by rw [q2]; rfl
  have hlen : Ex.sysQA.m.chanIds.length = 2 := by rw [q2]; rfl
  have hpn : ∀ k < 2, ∀ j : Fin (Ex.SQ k).K, procName Ex.sysQA k j = "p" := by
    intro k hk j
    have := procName_mem hw q7 k (by rw [hlen]; exact hk) j
    rw [hp1] at this; simpa using this
  have hacc : acceptance Ex.sysQA Ex.SQ "p" = 1 := by
    unfold acceptance
    rw [hlen, Finset.sum_range_succ, Finset.sum_range_one]
    rw [Finset.sum_congr rfl fun j _ => if_pos (hpn 0 (by norm_num) j), Finset.sum_congr rfl fun j _ => if_pos (hpn 1 (by norm_num) j)]
    show (∑ j : Fin 1, (1 / 4 : ℝ)) + ∑ j : Fin 1, (3 / 4 : ℝ) = 1
    norm_num
  obtain ⟨-, r, hr, -, -⟩ := Ex.fitQA [] hkn (by simp) false
  have hval := C106_scipy Ex.sysQA q1 hne Ex.SQ q7 d q12 q13 _ _ q9 (fun _ => 8) hx0 q8 q14 q10 q11
    (Ex.optExact (objective Ex.sysQA.w Ex.sysQA.m)) (Ex.optExact_min _) "scipy" lower_scipy [] hkn false true false none (by simp) (by simp) r hr
  have hvals : paramVec Ex.sysQA Ex.SQ (fun _ => 8) (fun _ _ _ => 0) = r.params.values := by
    have := hval.2
    rw [hx0] at this
    exact Except.ok.inj this
  have hfx : ∀ q, ¬ WantedFixed (Ex.sysQA.m.paramNames Ex.sysQA.w) [] Ex.sysQA.m.numProcesses false q := by
    rintro q (⟨pid, hp, -⟩ | ⟨hp, -⟩)
    · simp at hp
    · cases hp
  have hbd : ∀ q b, WantedBounds (Ex.sysQA.m.paramNames Ex.sysQA.w) [] Ex.sysQA.m.numProcesses none q b → b = (none, none) := by
    rintro q b (⟨pre, op, post, he, -⟩ | ⟨-, hb⟩)
    · simp at he
    · rw [hb]; split <;> rfl
  have hN : (8 : ℝ) = ∑ k ∈ Finset.range Ex.sysQA.m.chanIds.length, ∑ i, d k i := by
    rw [← Finset.sum_congr rfl fun k hk => Finset.sum_congr rfl fun i _ => q14 k (Finset.mem_range.mp hk) i]
    rw [Finset.sum_congr rfl fun k hk => expected_total q8 (fun _ => 8) (Finset.mem_range.mp hk), hlen, Finset.sum_range_succ, Finset.sum_range_one]
    show 8 = (∑ j : Fin 1, (1 / 4 : ℝ) * 8) + ∑ j : Fin 1, (3 / 4 : ℝ) * 8
    norm_num
  obtain ⟨y1, y2, -⟩ := C139_yield Ex.sysQA q1 hne Ex.SQ q7 d q12 (fun k hk i => .inr (q13 k hk i)) (by rw [q2]; rfl) (allUsed_of_identifiable q11)
    "p" hp1 (by rw [hacc]; norm_num) "scipy" lower_scipy [] hkn (by intro k _ p q b c hb; simp at hb)
    (Ex.optExact (objective Ex.sysQA.w Ex.sysQA.m)) (Ex.optExact_min _) (Ex.optExact_hesse _) false false none
    (fun j k _ _ hj => absurd hj (hfx j)) r hr 0 hval.1 (by
      intro ν θ he
      rw [← hvals] at he
      obtain ⟨e1, e2⟩ := paramVec_expected hw q7 he
      refine ⟨fun p _ => ⟨⟨hfx _, fun b hi hb hh => by rw [hbd _ b hb] at hh; cases hh⟩, ⟨hfx _, fun b hi hb hh => by rw [hbd _ b hb] at hh; cases hh⟩⟩, ?_⟩
      intro k hk i
      rw [← e2 k hk i, q14 k hk i]
      exact lt_of_lt_of_le (by norm_num) (q13 k hk i)) 8 hN
  rw [hacc, div_one] at y1 y2
  exact ⟨hacc, r, hr, y1, y2⟩

end
end TF.Props
