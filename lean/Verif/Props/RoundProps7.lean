import Verif.Props.RoundProps6
import Verif.Props.FitterProps7

set_option linter.unusedSimpArgs false

/-!
# The likelihood of the whole model in double precision (C128)
-/

namespace TF.Props

open Classical Spec

noncomputable section

/-- a square that is the rounded product satisfies the assumption with `κ = 1` -/
theorem sq_accurate {ρ : ℝ → Fl} {u lo hi : ℝ} (A : Accurate ρ u lo hi) : SqAccurate ρ u 1 lo hi fun z => (z * z).rd ρ := by
  intro z _ hz
  have h0 : 0 ≤ z ^ 2 := sq_nonneg z
  obtain ⟨r, er, hr⟩ := A.rel (z ^ 2) (by rw [abs_of_nonneg h0]; linarith)
  refine ⟨r, ?_, A.sign _ _ h0 er, ?_⟩
  · simp only [Fl.fin_mul, rd_fin, ← sq, er]
  · rw [abs_of_nonneg h0] at hr
    rwa [one_mul]

/-- **C128 in double precision.** With a `log1p` of at most one unit in the last place (`2⁻⁵²`) and correctly rounded squares, for models
whose channels have fewer than `2⁵³ / 6` nuisance parameters or so. -/
theorem C128_double {lg : Fl → Fl} (hlg : LogAccurate float64 (2 ^ (-53 : ℤ)) 2 lg) {sum : Vec → Fl}
    (hsum : Summation float64 sum) {dot : List (Fl × Fl) → Fl} (hdot : DotProduct float64 dot)
    (s : Sys) (h : s.Built) (hne : s.m.channels ≠ []) (S : ℕ → ChanSpec)
    (Q : ∀ k, Fin (S k).K → Matrix (Fin (S k).n) (Fin (S k).n) ℝ) (hS : StoredModel s S Q) (d : ∀ k, Fin (S k).n → ℝ)
    (hd : DataIs s S d) (V E : String → ℝ) (hc : ConstraintsAre s V E) (ν : String → ℝ) (θ : ∀ k, Fin (S k).K → Fin (S k).n → ℝ)
    (hr : ∀ k < s.m.chanIds.length, NllInRange float64 (2 ^ (-1022 : ℤ)) Fl.maxFloat (S k).cnt (S k).ε (S k).eff (Q k) (d k)
      (fun j => ν (procName s k j)) (θ k))
    (hrc : ∀ p ∈ s.m.constrained, ConstraintInRange float64 (2 ^ (-1022 : ℤ)) Fl.maxFloat (ν p) (V p) (E p))
    (N : ℕ) (hN : N = s.m.chanIds.length + s.m.constrained.length) (hN' : N < 2 ^ 52)
    (hsize : 16 * (∑ k ∈ Finset.range s.m.chanIds.length,
        (∑ i, poissonSize (d k i) (expectedIn s S ν θ k i) + penaltySize (2 ^ (-1022 : ℤ)) (Q k) (θ k)) +
      (s.m.constrained.map fun p => constraintSize (2 ^ (-1022 : ℤ)) (ν p) (V p) (E p)).sum) ≤ Fl.maxFloat)
    (hu : ∀ k < s.m.chanIds.length, 6 * ((S k).K * (S k).n) + 2 * (S k).K + 40 ≤ 2 ^ 53) :
    ∃ vr v : ℝ, (s.m.nllR float64 lg (fun z => (z * z).rd float64) sum dot s.w (paramVec s S ν θ)).1 = .ok (.fin vr) ∧
      (s.m.nll s.w (paramVec s S ν θ)).1 = .ok (.fin v) ∧
      |vr - v| ≤ ∑ k ∈ Finset.range s.m.chanIds.length,
          ((6 * ((S k).n:ℝ) + 2 * (S k).K + 40 + 4 * N) * 2 ^ (-53 : ℤ) * ∑ i, poissonSize (d k i) (expectedIn s S ν θ k i) +
            (3 * (((S k).K * (S k).n : ℕ) : ℝ) + 4 + 4 * N) * 2 ^ (-53 : ℤ) * penaltySize (2 ^ (-1022 : ℤ)) (Q k) (θ k)) +
        (14 + 4 * N) * 2 ^ (-53 : ℤ) * (s.m.constrained.map fun p => constraintSize (2 ^ (-1022 : ℤ)) (ν p) (V p) (E p)).sum := by
  have hz : (2:ℝ) ^ (-53 : ℤ) = 1 / 2 ^ 53 := by norm_num
  have hN1 : ((N : ℝ) + 1) ≤ 2 ^ 52 := by exact_mod_cast hN'
  have hu1 : ∀ k < s.m.chanIds.length, (6 * ((S k).n:ℝ) + 2 * (S k).K + 3 * 2 + 34) * 2 ^ (-53 : ℤ) ≤ 1 ∧
      (6 * (((S k).K * (S k).n : ℕ) : ℝ) + 4) * 2 ^ (-53 : ℤ) ≤ 1 := by
    intro k hk
    have hs : (6 * (((S k).K * (S k).n : ℕ) : ℝ) + 2 * (S k).K + 40) ≤ 2 ^ 53 := by exact_mod_cast hu k hk
    have hKn : ((S k).n : ℝ) ≤ (((S k).K * (S k).n : ℕ) : ℝ) := by exact_mod_cast Nat.le_mul_of_pos_left _ (hS k hk).1
    have hK0 : (0:ℝ) ≤ (S k).K := Nat.cast_nonneg _
    constructor
    · rw [hz, mul_one_div, div_le_one (by positivity)]
      linarith
    · rw [hz, mul_one_div, div_le_one (by positivity)]
      linarith
  obtain ⟨vr, v, h1, h2, h3⟩ := C128_likelihood float64_accurate (κ := 2) (κ' := 1) (by norm_num) (by norm_num) hlg (sq_accurate float64_accurate)
    hsum hdot s h hne S Q hS d hd V E hc ν θ hr hrc _ rfl N hN hsize hu1 (by norm_num)
    (by rw [hz, mul_one_div, div_le_one (by positivity)]; linarith)
  refine ⟨vr, v, h1, h2, h3.trans (le_of_eq ?_)⟩
  congr 1
  · exact Finset.sum_congr rfl fun k _ => by ring
  · ring

/-! ### example -/

namespace Ex

/-- `sysZ` with the constraint `12 ± 3` on the yield -/
def sysZc : Sys := ⟨wZ, ⟨[("a", 0)], ["p"], ["p"], [("p", .fin 12)], [("p", .fin 3)]⟩⟩

theorem runZc : Sys.init.run (opsZ ++ [.constrain "p" (.fin 12) (.fin 3)]) = sysZc := by
  rw [run_append, runZ]
  simp [Sys.run, Sys.step, Mct.addConstraint, sysZ, mZ, sysZc, dictSet]

theorem sysZc_built : sysZc.Built := by
  refine ⟨_, setupFirst_of_noEval ?_, runZc⟩
  intro o ho
  simp only [opsZ, List.mem_cons, List.not_mem_nil, or_false, List.cons_append, List.nil_append] at ho
  rcases ho with rfl | rfl | rfl | rfl | rfl | rfl | rfl | rfl <;> exact id

end Ex

/-- the likelihood at yield 10 and one nuisance parameter at one standard deviation: two bins without data, the penalty and the
constraint -/
example : ∃ vr v : ℝ,
    (Ex.sysZc.m.nllR float64 lg64 (fun z => (z * z).rd float64) (sumLeft float64) (dotLeft float64) Ex.sysZc.w
      [.fin 10, .fin 1, .fin 0]).1 = .ok (.fin vr) ∧
    (Ex.sysZc.m.nll Ex.sysZc.w [.fin 10, .fin 1, .fin 0]).1 = .ok (.fin v) ∧ |vr - v| ≤ 1 / 10 ^ 12 := by
  have hlen : Ex.sysZc.m.chanIds.length = 1 := rfl
  have hstored : StoredModel Ex.sysZc Ex.SZ (fun _ _ => 1⁻¹) := by
    intro k hk
    have : k = 0 := by simpa [hlen] using hk
    subst this
    obtain ⟨a, b, -, c⟩ := Ex.modelZ 0 (by simp [Ex.sysZ, Ex.mZ, Mct.chanIds])
    exact ⟨a, b, c.stored⟩
  have hdata : DataIs Ex.sysZc Ex.SZ (fun _ _ => 0) := by
    intro k hk
    have : k = 0 := by simpa [hlen] using hk
    subst this
    exact Ex.dataZ 0 (by simp [Ex.sysZ, Ex.mZ, Mct.chanIds])
  have hcon : ConstraintsAre Ex.sysZc (fun _ => 12) (fun _ => 3) := by
    intro p hp
    have : p = "p" := by simpa [Ex.sysZc] using hp
    subst this
    exact ⟨by simp [Ex.sysZc], by simp [Ex.sysZc, dictGet], by simp [Ex.sysZc, dictGet], by norm_num⟩
  set θ : ∀ k, Fin (Ex.SZ k).K → Fin (Ex.SZ k).n → ℝ := fun _ _ => (![1, 0] : Fin 2 → ℝ) with hθ
  have hvec : paramVec Ex.sysZc Ex.SZ (fun _ => 10) θ = [.fin 10, .fin 1, .fin 0] := by
    have : nuiVec (fun (_ : Fin 1) => (![1, 0] : Fin 2 → ℝ)) = [.fin 1, .fin 0] := by
      simp [nuiVec, vec, List.ofFn_succ]
    have e : nuiVec (θ 0) = [.fin 1, .fin 0] := this
    unfold paramVec
    rw [hlen]
    simp [e, Ex.sysZc]
  have hexp : ∀ i : Fin 2, expected (K := 1) (fun _ => ![1, 1]) (fun _ i => (![1, 1] : Fin 2 → ℝ) i / (![1, 1] : Fin 2 → ℝ) i)
      (fun _ => 1) (fun _ => 10) (fun _ => (![1, 0] : Fin 2 → ℝ)) i = 10 * ![2 / 3, 1 / 3] i := by
    intro i
    fin_cases i <;> simp [expected] <;> norm_num
  obtain ⟨lo, hi, A, hl, hh⟩ : ∃ lo hi, Accurate float64 (2 ^ (-53 : ℤ)) lo hi ∧ lo ≤ 1 / 1024 ∧ 1024 ≤ hi :=
    ⟨_, _, float64_accurate, small_lo, large_hi⟩
  have hl0 := A.lo0
  have hQ : penaltySize lo (K := 1) (n := 2) (fun _ => 1⁻¹) (fun _ => ![1, 0]) ≤ 2 := by
    simp [penaltySize, Fin.sum_univ_two, Matrix.one_apply]
    linarith
  have hPs : ∑ i : Fin 2, poissonSize 0 (expected (K := 1) (fun _ => ![1, 1])
      (fun _ i => (![1, 1] : Fin 2 → ℝ) i / (![1, 1] : Fin 2 → ℝ) i) (fun _ => 1) (fun _ => 10) (fun _ => (![1, 0] : Fin 2 → ℝ)) i) ≤ 10 := by
    simp only [hexp, Fin.sum_univ_two, poissonSize]
    simp
    norm_num
  have hC : constraintSize lo 10 12 3 ≤ 1 := by
    unfold constraintSize
    norm_num
    linarith
  have hr : NllInRange float64 lo hi (K := 1) (n := 2) (fun _ => ![1, 1]) (fun _ i => (![1, 1] : Fin 2 → ℝ) i / (![1, 1] : Fin 2 → ℝ) i)
      (fun _ => 1) (fun _ => 1⁻¹) (fun _ => 0) (fun _ => 10) (fun _ => ![1, 0]) := by
    refine ⟨?_, ?_, ?_, ?_, ?_, ?_, ?_, ?_⟩
    · intro k
      refine ⟨fun i => ?_, ?_, ?_, fun i => ?_, fun i => ?_⟩
      · right; fin_cases i <;> simp <;> linarith
      · simp [varied]; norm_num
      · simp [varied]; norm_num; linarith
      · fin_cases i <;> simp <;> norm_num <;> linarith
      · right; fin_cases i <;> simp [frac, varied] <;> norm_num <;> linarith
    · intro k
      simp
      refine ⟨?_, ?_⟩ <;> linarith
    · intro k i
      right
      fin_cases i <;> simp [frac, varied] <;> norm_num <;> linarith
    · intro i
      exact A.zero
    · intro i
      exact .inl rfl
    · linarith
    · intro k j
      fin_cases j <;> simp [Fin.sum_univ_two, Matrix.one_apply] <;> linarith
    · linarith
  have hrc : ConstraintInRange float64 lo hi 10 12 3 := by
    refine ⟨⟨?_, ?_, ?_⟩, ?_, ?_, ?_⟩
    · exact_mod_cast float64_int 10 (by norm_num)
    · exact_mod_cast float64_int 12 (by norm_num)
    · exact_mod_cast float64_int 3 (by norm_num)
    · norm_num; linarith
    · norm_num; linarith
    · norm_num; linarith
  obtain ⟨vr, v, h1, h2, h3⟩ := C128_likelihood A (κ := 2) (κ' := 1) (by norm_num) (by norm_num) lg64_accurate (sq_accurate A)
    (sumLeft_ok _) (dotLeft_ok _) Ex.sysZc Ex.sysZc_built (by simp [Ex.sysZc]) Ex.SZ (fun _ _ => 1⁻¹) hstored _ hdata _ _ hcon
    (fun _ => 10) θ (fun k hk => hr) (fun p hp => hrc) (fun _ => _) rfl 2 rfl (by
      rw [hlen, Finset.sum_range_one]
      show 16 * (_ + _ + ([constraintSize lo 10 12 3] : List ℝ).sum) ≤ hi
      rw [List.sum_singleton]
      refine (mul_le_mul_of_nonneg_left (add_le_add (add_le_add hPs hQ) hC) (by norm_num)).trans ?_
      linarith) (fun k hk => by
        show (6 * ((2:ℕ):ℝ) + 2 * ((1:ℕ):ℝ) + 3 * 2 + 34) * 2 ^ (-53 : ℤ) ≤ 1 ∧ (6 * ((1 * 2 : ℕ) : ℝ) + 4) * 2 ^ (-53 : ℤ) ≤ 1
        norm_num) (by norm_num) (by norm_num)
  rw [hvec] at h1 h2
  refine ⟨vr, v, h1, h2, h3.trans ?_⟩
  rw [hlen, Finset.sum_range_one]
  show (6 * ((2:ℕ):ℝ) + 2 * ((1:ℕ):ℝ) + 3 * 2 + 34 + 4 * ((2:ℕ):ℝ)) * 2 ^ (-53 : ℤ) * _ +
    (3 * ((1 * 2 : ℕ) : ℝ) + 4 + 4 * ((2:ℕ):ℝ)) * 2 ^ (-53 : ℤ) * _ +
    (10 + 4 * 1 + 4 * ((2:ℕ):ℝ)) * 2 ^ (-53 : ℤ) * ([constraintSize lo 10 12 3] : List ℝ).sum ≤ _
  rw [List.sum_singleton]
  have a1 := mul_le_mul_of_nonneg_left hPs
    (show (0:ℝ) ≤ (6 * ((2:ℕ):ℝ) + 2 * ((1:ℕ):ℝ) + 3 * 2 + 34 + 4 * ((2:ℕ):ℝ)) * 2 ^ (-53 : ℤ) by positivity)
  have a2 := mul_le_mul_of_nonneg_left hQ (show (0:ℝ) ≤ (3 * ((1 * 2 : ℕ) : ℝ) + 4 + 4 * ((2:ℕ):ℝ)) * 2 ^ (-53 : ℤ) by positivity)
  have a3 := mul_le_mul_of_nonneg_left hC (show (0:ℝ) ≤ (10 + 4 * 1 + 4 * ((2:ℕ):ℝ)) * 2 ^ (-53 : ℤ) by positivity)
  refine (add_le_add (add_le_add a1 a2) a3).trans ?_
  norm_num

end

end TF.Props
