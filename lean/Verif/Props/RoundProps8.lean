import Verif.Lemmas.Near
import Verif.Model.RoundEdges
import Verif.Props.RoundProps2

set_option linter.unusedSimpArgs false

/-!
# Equal-width bin edges in floating point (C129)
-/

namespace TF.Props

open Classical Spec

noncomputable section

/-- one inner edge -/
theorem edge_err {ρ : ℝ → Fl} {u l M : ℝ} (A : Accurate ρ u l M) {lo hi : ℝ} {n : ℕ} (hlo : Representable ρ lo)
    (hn : 0 < n) (hlt : lo < hi) (hw : 4 * l * n ≤ hi - lo)
    (hM : 8 * (|lo| + |hi|) ≤ M) (i : ℕ) (hi' : i < n) :
    ∃ step, ((((Fl.fin hi - Fl.fin lo).rd ρ) / Fl.fin ((n + 1 : ℕ) - 1 : ℝ)).rd ρ) = .fin step ∧ 0 < step ∧
    ∃ e, (((Fl.fin (i : ℝ) * Fl.fin step).rd ρ) + Fl.fin lo).rd ρ = .fin e ∧
      |e - (lo + i * ((hi - lo) / n))| ≤ u * (|lo + i * ((hi - lo) / n)| + 7 * (i * ((hi - lo) / n))) ∧ (i = 0 → e = lo) := by
  have hu0 := A.u0
  have hu1 := A.u1
  have hl0 := A.lo0
  have hnR : (0:ℝ) < n := by exact_mod_cast hn
  have hw0 : 0 < hi - lo := by linarith
  have a1 := neg_abs_le lo
  have a2 := le_abs_self hi
  have a3 := abs_nonneg lo
  have a4 := abs_nonneg hi
  -- delta
  obtain ⟨d, hd, rd, -, nd⟩ := by
    refine rd_near (x := hi - lo) A hw0.le (Or.inr ?_) (by linarith)
    have : l ≤ l * n := le_mul_of_one_le_right hl0 (by exact_mod_cast hn)
    nlinarith
  have hd2 := nd.half hu1 hw0.le (by norm_num; linarith)
  have hdn : Near u 1 (d / n) ((hi - lo) / n) := by
    have := nd.div hu1 (near_refl (u := u) (n : ℝ)) hw0.le hnR
    simpa using this
  have hwn : 0 < (hi - lo) / n := div_pos hw0 hnR
  have hwl : 4 * l ≤ (hi - lo) / n := by rw [le_div_iff₀ hnR]; exact hw
  have hwM : (hi - lo) / n ≤ hi - lo := div_le_self hw0.le (by exact_mod_cast hn)
  have hdn2 := hdn.half hu1 hwn.le (by norm_num; linarith)
  -- step
  obtain ⟨st, hst, rst, -, nst⟩ := rd_near (x := d / n) A (by linarith) (Or.inr (by linarith)) (by linarith)
  have nst2 : Near u 2 st ((hi - lo) / n) := nst.trans hu1 hdn
  have hst0 : 0 < st := nst2.pos hu1 hwn
  have hst2 := nst2.half hu1 hwn.le (by norm_num; linarith)
  refine ⟨st, ?_, hst0, ?_⟩
  · have e1 : (((n + 1 : ℕ) : ℝ) - 1) = n := by push_cast; ring
    simp only [Fl.fin_sub, rd_fin, hd, e1]
    rw [Fl.fin_div _ _ hnR.ne', rd_fin, hst]
  -- product
  have hle : (i : ℝ) * ((hi - lo) / n) ≤ hi - lo := by
    rw [mul_div_assoc', div_le_iff₀ hnR, mul_comm]
    exact mul_le_mul_of_nonneg_left (by exact_mod_cast hi'.le) hw0.le
  have hi0 : (0:ℝ) ≤ i * ((hi - lo) / n) := by positivity
  have nis : Near u 2 (i * st) (i * ((hi - lo) / n)) := by
    have := (near_refl (u := u) (i : ℝ)).mul hu1 nst2 (by positivity) hwn.le
    simpa using this
  have nis2 := nis.half hu1 hi0 (by norm_num; linarith)
  obtain ⟨m, hm, rm, -, nm⟩ := by
    refine rd_near (x := i * st) A (by positivity) ?_ (by linarith)
    rcases Nat.eq_zero_or_pos i with h | h
    · left; simp [h]
    · right
      have : st ≤ i * st := le_mul_of_one_le_left hst0.le (by exact_mod_cast h)
      linarith
  have nm3 : Near u 3 m (i * ((hi - lo) / n)) := nm.trans hu1 nis
  have hme := nm3.rel_error hu0 hu1 hi0 (by norm_num; linarith)
  have hm2 := nm3.half hu1 hi0 (by norm_num; linarith)
  norm_num at hme
  have hmlo : |m + lo| ≤ M := by
    have := abs_add_le m lo
    rw [abs_of_nonneg (show 0 ≤ m by linarith)] at this
    linarith
  obtain ⟨e, he, ee⟩ := A.add m lo rm hlo hmlo
  refine ⟨e, ?_, ?_, ?_⟩
  · simp only [Fl.fin_mul, rd_fin, hm, Fl.fin_add, he]
  · set t := (i : ℝ) * ((hi - lo) / n) with ht
    have b1 : |e - (lo + t)| ≤ |e - (m + lo)| + |m - t| := by
      have : e - (lo + t) = (e - (m + lo)) + (m - t) := by ring
      rw [this]; exact abs_add_le _ _
    have b2 : |m + lo| ≤ |lo + t| + |m - t| := by
      have : m + lo = (lo + t) + (m - t) := by ring
      rw [this]; exact abs_add_le _ _
    have b3 : u * |m + lo| ≤ u * |lo + t| + u * |m - t| := by rw [← mul_add]; exact mul_le_mul_of_nonneg_left b2 hu0
    have b4 : u * |m - t| ≤ 1 / 8 * |m - t| := mul_le_mul_of_nonneg_right hu1 (abs_nonneg _)
    have b5 : 0 ≤ u * t := mul_nonneg hu0 hi0
    rw [mul_add]
    have e6 : u * (7 * t) = 7 * (u * t) := by ring
    have e7 : 6 * u * t = 6 * (u * t) := by ring
    rw [e6]
    rw [e7] at hme
    linarith
  · intro h0
    subst h0
    simp only [Nat.cast_zero, zero_mul] at hm
    rw [A.zero] at hm
    have : m = 0 := (Fl.fin.inj hm).symm
    rw [this, zero_add] at he
    rw [hlo] at he
    exact (Fl.fin.inj he).symm

/-- **C129.** `np.linspace(lo, hi, n + 1)` computed with rounding, for representable `lo < hi`: the result is a list of `n + 1` finite
numbers; the first is `lo` and the last is `hi` exactly; edge `i` differs from the exact one `x = lo + i (hi - lo) / n` by at most
`u (|x| + 7 (x - lo))`; and if the exact bins are wider than `30 u max(|lo|, |hi|)` the edges are strictly increasing. -/
theorem C129_edges {ρ : ℝ → Fl} {u l M : ℝ} (A : Accurate ρ u l M) {lo hi : ℝ} {n : ℕ} (hlo : Representable ρ lo)
    (hn : 0 < n) (hlt : lo < hi) (hw : 4 * l * n ≤ hi - lo)
    (hM : 8 * (|lo| + |hi|) ≤ M) :
    ∃ E : List ℝ, linspaceR ρ lo hi (n + 1) = E.map Fl.fin ∧ E.length = n + 1 ∧ E[0]? = some lo ∧ E[n]? = some hi ∧
      (∀ i (h : i < E.length), |E[i] - (lo + i * ((hi - lo) / n))| ≤
        u * (|lo + i * ((hi - lo) / n)| + 7 * (i * ((hi - lo) / n)))) ∧
      (30 * u * max |lo| |hi| < (hi - lo) / n → E.Pairwise (· < ·)) := by
  have hu0 := A.u0
  have hnR : (0:ℝ) < n := by exact_mod_cast hn
  have hw0 : 0 < hi - lo := by linarith
  have hwn : 0 < (hi - lo) / n := div_pos hw0 hnR
  choose! e he using fun (i : ℕ) (h : i < n) =>
    (by
      obtain ⟨st, h1, h2, e, h3, h4, h5⟩ := edge_err A hlo hn hlt hw hM i h
      refine ⟨e, ?_, h4, h5⟩
      show (if 1 < n + 1 ∧ i + 1 = n + 1 then Fl.fin hi else
        ((if n + 1 = 1 then (Fl.fin (i : ℝ) * (Fl.fin hi - Fl.fin lo).rd ρ).rd ρ
        else if (((Fl.fin hi - Fl.fin lo).rd ρ) / Fl.fin ((n + 1 : ℕ) - 1 : ℝ)).rd ρ = 0 then
          (((Fl.fin (i : ℝ) / Fl.fin ((n + 1 : ℕ) - 1 : ℝ)).rd ρ) * (Fl.fin hi - Fl.fin lo).rd ρ).rd ρ
        else (Fl.fin (i : ℝ) * (((Fl.fin hi - Fl.fin lo).rd ρ) / Fl.fin ((n + 1 : ℕ) - 1 : ℝ)).rd ρ).rd ρ) + Fl.fin lo).rd ρ) = Fl.fin e
      rw [if_neg (by omega), if_neg (by omega), h1, if_neg, h3]
      rw [Fl.zero_def]
      exact fun h => h2.ne' (Fl.fin.inj h) :
      ∃ e : ℝ, (if 1 < n + 1 ∧ i + 1 = n + 1 then Fl.fin hi else
        ((if n + 1 = 1 then (Fl.fin (i : ℝ) * (Fl.fin hi - Fl.fin lo).rd ρ).rd ρ
        else if (((Fl.fin hi - Fl.fin lo).rd ρ) / Fl.fin ((n + 1 : ℕ) - 1 : ℝ)).rd ρ = 0 then
          (((Fl.fin (i : ℝ) / Fl.fin ((n + 1 : ℕ) - 1 : ℝ)).rd ρ) * (Fl.fin hi - Fl.fin lo).rd ρ).rd ρ
        else (Fl.fin (i : ℝ) * (((Fl.fin hi - Fl.fin lo).rd ρ) / Fl.fin ((n + 1 : ℕ) - 1 : ℝ)).rd ρ).rd ρ) + Fl.fin lo).rd ρ) = Fl.fin e ∧
        |e - (lo + i * ((hi - lo) / n))| ≤ u * (|lo + i * ((hi - lo) / n)| + 7 * (i * ((hi - lo) / n))) ∧ (i = 0 → e = lo))
  set f : ℕ → ℝ := fun i => if i = n then hi else e i with hf
  have hfn : f n = hi := by simp [hf]
  have hfe : ∀ i < n, f i = e i := fun i h => by simp [hf, h.ne]
  have hxn : lo + (n : ℝ) * ((hi - lo) / n) = hi := by field_simp; ring
  have herr : ∀ i ≤ n, |f i - (lo + i * ((hi - lo) / n))| ≤ u * (|lo + i * ((hi - lo) / n)| + 7 * (i * ((hi - lo) / n))) := by
    intro i h
    rcases h.lt_or_eq with h | rfl
    · rw [hfe i h]; exact (he i h).2.1
    · rw [hfn, hxn, sub_self, abs_zero]
      positivity
  refine ⟨(List.range (n + 1)).map f, ?_, by simp, ?_, ?_, ?_, ?_⟩
  · unfold linspaceR
    rw [List.map_map]
    apply List.map_congr_left
    intro i hi'
    rw [List.mem_range] at hi'
    simp only [Function.comp]
    rcases Nat.lt_succ_iff_lt_or_eq.mp hi' with h | rfl
    · rw [hfe i h]
      exact (he i h).1
    · rw [if_pos ⟨by omega, rfl⟩, hfn]
  · simp [hfe 0 hn, (he 0 hn).2.2 rfl]
  · simp [hfn]
  · intro i h
    simp only [List.length_map, List.length_range] at h
    simp only [List.getElem_map, List.getElem_range]
    exact herr i (by omega)
  · intro hwide
    rw [List.pairwise_map]
    refine List.Pairwise.imp_of_mem ?_ (List.pairwise_lt_range (n := n + 1))
    intro i j hi' hj hij
    rw [List.mem_range] at hi' hj
    have e1 := abs_le.mp (herr i (by omega))
    have e2 := abs_le.mp (herr j (by omega))
    set W := (hi - lo) / n with hW
    have hWW : (i : ℝ) * W + W ≤ j * W := by
      have : ((i:ℝ) + 1) ≤ j := by exact_mod_cast hij
      nlinarith
    have bnd : ∀ k ≤ n, |lo + (k:ℝ) * W| + 7 * ((k:ℝ) * W) ≤ 15 * max |lo| |hi| := by
      intro k hk
      have h0 : 0 ≤ (k:ℝ) * W := by positivity
      have h1 : (k:ℝ) * W ≤ n * W := mul_le_mul_of_nonneg_right (by exact_mod_cast hk) hwn.le
      have m1 := le_max_left |lo| |hi|
      have m2 := le_max_right |lo| |hi|
      have c1 := neg_abs_le lo
      have c2 := le_abs_self hi
      have : |lo + (k:ℝ) * W| ≤ max |lo| |hi| := by
        rw [abs_le]
        constructor <;> linarith
      linarith
    have b1 := mul_le_mul_of_nonneg_left (bnd i (by omega)) hu0
    have b2 := mul_le_mul_of_nonneg_left (bnd j (by omega)) hu0
    have e3 : u * (15 * max |lo| |hi|) = 15 * u * max |lo| |hi| := by ring
    rw [e3] at b1 b2
    have e4 : 30 * u * max |lo| |hi| = 15 * u * max |lo| |hi| + 15 * u * max |lo| |hi| := by ring
    rw [e4] at hwide
    linarith

/-- **C129, histograms.** A histogram with `n` equal-width bins between representable `lo < hi` whose exact bin width exceeds
`30 u max(|lo|, |hi|)`: its computed edges are usable (every fill with one weight per event succeeds), every number between `lo` and
`hi` belongs to a bin, `lo` to the first and `hi` to the last one, and no number below `lo` to any. -/
theorem C129_hist {ρ : ℝ → Fl} {u l M : ℝ} (A : Accurate ρ u l M) {lo hi : ℝ} {n : ℕ} (hlo : Representable ρ lo)
    (hn : 0 < n) (hlt : lo < hi) (hw : 4 * l * n ≤ hi - lo) (hM : 8 * (|lo| + |hi|) ≤ M)
    (hwide : 30 * u * max |lo| |hi| < (hi - lo) / n) (k : SeqKind) :
    ∃ E : List ℝ, linspaceR ρ lo hi (n + 1) = E.map Fl.fin ∧ Good1 (uniform1R ρ n k lo hi) E ∧
      (∀ x, lo ≤ x → x ≤ hi → ∃ i < n, InBin E i (.fin x)) ∧ InBin E 0 (.fin lo) ∧ InBin E (n - 1) (.fin hi) ∧
      ∀ x < lo, ∀ i, ¬ InBin E i (.fin x) := by
  obtain ⟨E, h1, h2, h3, h4, -, h6⟩ := C129_edges A hlo hn hlt hw hM
  have hp := h6 hwide
  have hlast : E.getLastD 0 = hi := by
    rw [List.getLastD_eq_getLast?, List.getLast?_eq_getElem?, h2]
    simp [h4]
  have hmono : ∀ (i j : ℕ) (a b : ℝ), E[i]? = some a → E[j]? = some b → i < j → a < b := by
    intro i j a b ha hb hij
    obtain ⟨hi1, rfl⟩ := List.getElem?_eq_some_iff.mp ha
    obtain ⟨hj1, rfl⟩ := List.getElem?_eq_some_iff.mp hb
    exact List.pairwise_iff_getElem.mp hp i j hi1 hj1 hij
  refine ⟨E, h1, ?_, ?_, ?_, ?_, ?_⟩
  · have e : (linspaceR ρ lo hi (n + 1)).map Fl.toReal = E := by
      rw [h1, List.map_map]
      exact List.map_id'' (fun _ => rfl) E
    constructor <;> simp [uniform1R, Hist.blank, e, NdArr.zeros, h2, hp, hn] <;> omega
  · intro x hx1 hx2
    rcases hx2.lt_or_eq with hx2 | rfl
    · -- the largest edge not above x
      have hex : ∃ i, i ≤ n ∧ ∃ a, E[i]? = some a ∧ a ≤ x := ⟨0, by omega, lo, h3, hx1⟩
      classical
      let P : ℕ → Prop := fun i => ∃ a, E[i]? = some a ∧ a ≤ x
      set m := Nat.findGreatest P n with hm
      have hPm : P m := Nat.findGreatest_spec (P := P) (n := n) (m := 0) (by omega) ⟨lo, h3, hx1⟩
      have hmn : m ≤ n := Nat.findGreatest_le n
      obtain ⟨a, ha, hax⟩ := hPm
      have hmlt : m < n := by
        rcases hmn.lt_or_eq with h | h
        · exact h
        · rw [h, h4] at ha
          obtain rfl := Option.some.inj ha
          linarith
      have hb : ∃ b, E[m + 1]? = some b := ⟨_, List.getElem?_eq_getElem (by omega)⟩
      obtain ⟨b, hb⟩ := hb
      refine ⟨m, hmlt, Or.inl ⟨a, b, ha, hb, hax, ?_⟩⟩
      by_contra hcon
      have := Nat.findGreatest_is_greatest (P := P) (n := n) (k := m + 1) (by omega) (by omega)
      exact this ⟨b, hb, not_lt.mp hcon⟩
    · exact ⟨n - 1, by omega, Or.inr ⟨by omega, by rw [← hlast]; exact ⟨le_refl _, rfl⟩⟩⟩
  · have hb : ∃ b, E[0 + 1]? = some b := ⟨_, List.getElem?_eq_getElem (by omega)⟩
    obtain ⟨b, hb⟩ := hb
    exact Or.inl ⟨lo, b, h3, hb, le_rfl, hmono 0 1 lo b h3 hb (by omega)⟩
  · refine Or.inr ⟨by omega, ?_⟩
    rw [← hlast]; exact ⟨le_refl _, rfl⟩
  · intro x hx i hin
    rcases hin with ⟨a, b, ha, hb, hax, -⟩ | ⟨-, hr, -⟩
    · rcases Nat.eq_zero_or_pos i with rfl | hi0
      · rw [h3] at ha; obtain rfl := Option.some.inj ha; linarith
      · have := hmono 0 i lo a h3 ha hi0; linarith
    · rw [hlast] at hr; linarith

/-- **C129, consistency.** Without rounding the edges are those of the exact model. -/
theorem C129_exact (lo hi : ℝ) (n : ℕ) : linspaceR Fl.fin lo hi n = (linspace lo hi n).map Fl.fin := by
  unfold linspaceR linspace
  rw [List.map_map]
  apply List.map_congr_left
  intro i hi'
  rw [List.mem_range] at hi'
  simp only [Function.comp, Fl.fin_sub, rd_fin]
  by_cases h1 : n = 1
  · subst h1
    have : i = 0 := by omega
    subst this
    simp [Fl.fin_mul, Fl.fin_add, rd_fin]
  · have hn1 : ((n:ℝ) - 1) ≠ 0 := by
      have : (n:ℝ) ≠ 1 := by exact_mod_cast h1
      exact sub_ne_zero.mpr this
    rw [Fl.fin_div _ _ hn1, rd_fin, if_neg h1]
    by_cases h2 : 1 < n ∧ i + 1 = n
    · rw [if_pos h2]
      congr 1
      have : (i:ℝ) = n - 1 := by rw [← h2.2]; push_cast; ring
      rw [this]
      field_simp
      ring
    · rw [if_neg h2]
      by_cases h3 : Fl.fin ((hi - lo) / (n - 1)) = 0
      · rw [if_pos h3, Fl.fin_div _ _ hn1]
        rw [Fl.zero_def] at h3
        have h3' := Fl.fin.inj h3
        have h4 : hi - lo = 0 := by
          rcases div_eq_zero_iff.mp h3' with h | h
          · exact h
          · exact absurd h hn1
        simp only [rd_fin, Fl.fin_mul, Fl.fin_add, h4]
        simp
      · rw [if_neg h3]
        simp only [rd_fin, Fl.fin_mul, Fl.fin_add]
        congr 1; ring

/-- **C129, double precision.** For doubles `lo < hi` of absolute value at most `2^1000`, `n ≥ 1` bins wider than `2^(-1020)` and
`2^(-48)` of the larger limit: the edges are computed with an error of at most `2^(-49)` of that limit and strictly increase from exactly
`lo` to exactly `hi`. -/
theorem C129_double {lo hi : ℝ} {n : ℕ} (hlo : Representable float64 lo) (hn : 0 < n) (hlt : lo < hi)
    (hlo2 : |lo| ≤ 2 ^ 1000) (hhi2 : |hi| ≤ 2 ^ 1000) (h1 : (2:ℝ) ^ (-1020 : ℤ) ≤ (hi - lo) / n)
    (h2 : (2:ℝ) ^ (-48 : ℤ) * max |lo| |hi| < (hi - lo) / n) :
    ∃ E : List ℝ, linspaceR float64 lo hi (n + 1) = E.map Fl.fin ∧ E.length = n + 1 ∧ E[0]? = some lo ∧ E[n]? = some hi ∧
      E.Pairwise (· < ·) ∧
      ∀ i (h : i < E.length), |E[i] - (lo + i * ((hi - lo) / n))| ≤ 2 ^ (-49 : ℤ) * max |lo| |hi| := by
  have hnR : (0:ℝ) < n := by exact_mod_cast hn
  have hw0 : 0 < hi - lo := by linarith
  have hwn : 0 < (hi - lo) / n := div_pos hw0 hnR
  have hm0 : 0 ≤ max |lo| |hi| := le_max_of_le_left (abs_nonneg _)
  obtain ⟨E, e1, e2, e3, e4, e5, e6⟩ := C129_edges float64_accurate hlo hn hlt (by
      have e : (2:ℝ) ^ (-1020 : ℤ) = 4 * 2 ^ (-1022 : ℤ) := by
        rw [show (-1020 : ℤ) = 2 + -1022 by norm_num, zpow_add₀ (by norm_num)]; norm_num
      rw [e, le_div_iff₀ hnR] at h1
      exact h1) (by
      have : (16:ℝ) * 2 ^ 1000 ≤ Fl.maxFloat := by
        unfold Fl.maxFloat
        have e : (2:ℝ) ^ 1023 = 2 ^ 23 * 2 ^ 1000 := by rw [← pow_add]
        rw [e]
        have h0 : (0:ℝ) < 2 ^ 1000 := by positivity
        generalize (2:ℝ) ^ 1000 = z at h0
        norm_num
        linarith
      generalize (2:ℝ) ^ 1000 = z at *
      linarith)
  refine ⟨E, e1, e2, e3, e4, e6 ?_, ?_⟩
  · refine lt_of_le_of_lt ?_ h2
    refine mul_le_mul_of_nonneg_right ?_ hm0
    norm_num
  · intro i h
    refine (e5 i h).trans ?_
    have hin : (i:ℝ) * ((hi - lo) / n) ≤ hi - lo := by
      rw [mul_div_assoc', div_le_iff₀ hnR, mul_comm]
      have : (i:ℝ) ≤ n := by exact_mod_cast (by omega : i ≤ n)
      exact mul_le_mul_of_nonneg_left this hw0.le
    have hi0 : 0 ≤ (i:ℝ) * ((hi - lo) / n) := by positivity
    have m1 := le_max_left |lo| |hi|
    have m2 := le_max_right |lo| |hi|
    have c1 := neg_abs_le lo
    have c2 := le_abs_self hi
    have : |lo + (i:ℝ) * ((hi - lo) / n)| ≤ max |lo| |hi| := by
      rw [abs_le]
      constructor <;> linarith
    have b : |lo + (i:ℝ) * ((hi - lo) / n)| + 7 * ((i:ℝ) * ((hi - lo) / n)) ≤ 16 * max |lo| |hi| := by linarith
    have := mul_le_mul_of_nonneg_left b (show (0:ℝ) ≤ 2 ^ (-53 : ℤ) by positivity)
    refine this.trans (le_of_eq ?_)
    have : (2:ℝ) ^ (-49 : ℤ) = 2 ^ (-53 : ℤ) * 16 := by norm_num
    rw [this]; ring

/-- non-vacuity: 100 bins between 0 and 5.5 -/
example : ∃ E : List ℝ, linspaceR float64 0 (11 / 2) 101 = E.map Fl.fin ∧ E.Pairwise (· < ·) ∧ E[0]? = some 0 ∧
    E[100]? = some (11 / 2) ∧ ∀ i (h : i < E.length), |E[i] - i * (55 / 1000)| ≤ 2 ^ (-46 : ℤ) := by
  have hm : max |(0:ℝ)| |11 / 2| = 11 / 2 := by rw [abs_zero, abs_of_pos (by norm_num)]; norm_num
  obtain ⟨E, e1, -, e3, e4, e5, e6⟩ := C129_double (lo := 0) (hi := 11 / 2) (n := 100)
    (by have := float64_int 0 (by norm_num); unfold Representable; simpa using this) (by norm_num) (by norm_num)
    (by rw [abs_zero]; positivity) (by rw [abs_of_pos (by norm_num)]; exact (by norm_num : (11 / 2 : ℝ) ≤ 2 ^ 3).trans (pow_le_pow_right₀ (by norm_num) (by norm_num)))
    (by
      refine (zpow_le_zpow_right₀ (by norm_num : (1:ℝ) ≤ 2) (by norm_num : (-1020 : ℤ) ≤ -5)).trans ?_
      norm_num)
    (by rw [hm]; norm_num)
  refine ⟨E, e1, e5, e3, e4, fun i h => ?_⟩
  have := e6 i h
  rw [hm] at this
  have e : (0:ℝ) + i * ((11 / 2 - 0) / (100:ℕ)) = i * (55 / 1000) := by norm_num
  rw [e] at this
  refine this.trans ?_
  norm_num

end

end TF.Props
