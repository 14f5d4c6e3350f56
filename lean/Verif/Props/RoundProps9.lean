import Verif.Lemmas.RoundErr
import Verif.Props.RoundProps8

set_option linter.unusedSimpArgs false

/-!
# Weighted histogram contents in floating point (C130)
-/

namespace TF.Spec

open TF Classical

/-- one call of `fill(data, weights)`: events `x` (and `y` in two dimensions) with one real weight each -/
structure WFill where
  x : Vec
  y : Vec
  arg : Weights
  ws : List ℝ
  ok : Usable arg x (ws.map Fl.fin)
  len : x.length = ws.length

/-- the weights of all events of the fills that lie in bin `i` -/
noncomputable def weightsIn (edges : List ℝ) (i : ℕ) (fs : List WFill) : List ℝ :=
  fs.flatMap fun f => ((f.x.zip f.ws).filter fun p => decide (InBin edges i p.1)).map (·.2)

/-- the weights of all events of the fills that lie in cell `(i, j)` -/
noncomputable def weightsIn2 (ex ey : List ℝ) (i j : ℕ) (fs : List WFill) : List ℝ :=
  fs.flatMap fun f => (((f.x.zip f.y).zip f.ws).filter fun p => decide (InBin ex i p.1.1 ∧ InBin ey j p.1.2)).map (·.2)

end TF.Spec

namespace TF.Props

open Classical Spec

noncomputable section

theorem sumR_foldl_from {ρ : ℝ → Fl} (l : Vec) : ∀ {l0 : Vec} {a : Fl}, SumR ρ l0 a →
    SumR ρ (l0 ++ l) (l.foldl (fun a v => (a + v).rd ρ) a) := by
  induction l with
  | nil => intro l0 a h; simpa using h
  | cons x l ih =>
    intro l0 a h
    have := ih (h.add (.one x))
    simpa using this

theorem sumR_acc (ρ : ℝ → Fl) (l : Vec) : SumR ρ l (accR ρ l) := by
  exact sumR_foldl_from (ρ := ρ) l .nil

/-- the contents of a histogram are sums, in some order, of the weights and of the rounded squares of the weights in `L` -/
def Holds (ρ : ℝ → Fl) (h : Hist) (n : ℕ) (L : ℕ → List ℝ) : Prop :=
  ∀ i < n, (∃ c, h.counts.data[i]? = some c ∧ SumR ρ ((L i).map Fl.fin) c) ∧
    ∃ q, h.errSq.data[i]? = some q ∧ SumR ρ ((L i).map fun w => ρ (w ^ 2)) q

theorem accumulateR_holds {ρ : ℝ → Fl} {h : Hist} {n : ℕ} {L : ℕ → List ℝ} (hh : Holds ρ h n L) {sh : List ℕ}
    (h1 : h.counts.shape = sh) (h2 : h.counts.data.length = n) (h3 : h.errSq.shape = sh) (h4 : h.errSq.data.length = n)
    (one : ℕ → List ℝ) :
    ∃ h', h.accumulateR ρ (.ok ⟨sh, (List.range n).map fun i => accR ρ ((one i).map Fl.fin)⟩)
        (.ok ⟨sh, (List.range n).map fun i => accR ρ ((one i).map fun w => ρ (w ^ 2))⟩) false = (.ok (), h') ∧
      Holds ρ h' n (fun i => L i ++ one i) ∧ h'.counts.shape = sh ∧ h'.counts.data.length = n ∧ h'.errSq.shape = sh ∧
      h'.errSq.data.length = n ∧ h'.edges = h.edges ∧ h'.cls = h.cls := by
  unfold Hist.accumulateR NdArr.iaddR
  simp only [h1, h2, h3, h4, List.length_map, List.length_range, and_self, if_true, Bool.false_eq_true, if_false]
  refine ⟨_, rfl, ?_, rfl, by simp [h2], rfl, by simp [h4], rfl, rfl⟩
  intro i hi
  obtain ⟨⟨c, hc, sc⟩, q, hq, sq⟩ := hh i hi
  constructor
  · refine ⟨(c + accR ρ ((one i).map Fl.fin)).rd ρ, ?_, ?_⟩
    · simp [List.getElem?_zipWith, hc, hi]
    · rw [List.map_append]; exact sc.add (sumR_acc ρ _)
  · refine ⟨(q + accR ρ ((one i).map fun w => ρ (w ^ 2))).rd ρ, ?_, ?_⟩
    · simp [List.getElem?_zipWith, hq, hi]
    · rw [List.map_append]; exact sq.add (sumR_acc ρ _)

theorem filter_zip_snd_map {α β γ : Type} (P : α → Prop) [DecidablePred P] (g : β → γ) : ∀ (xs : List α) (ys : List β),
    ((xs.zip (ys.map g)).filter fun p => decide (P p.1)).map (·.2) =
      (((xs.zip ys).filter fun p => decide (P p.1)).map (·.2)).map g := by
  intro xs
  induction xs with
  | nil => intro ys; simp
  | cons x xs ih =>
    intro ys
    cases ys with
    | nil => simp
    | cons y ys =>
      simp only [List.map_cons, List.zip_cons_cons, List.filter_cons]
      by_cases h : P x
      · simp [h, ih]
      · simp [h, ih]

theorem sq_rd_map (ρ : ℝ → Fl) (ws : List ℝ) : ((ws.map Fl.fin).map fun x => x.sq.rd ρ) = ws.map fun w => ρ (w ^ 2) := by
  rw [List.map_map]
  apply List.map_congr_left
  intro w _
  simp [Fl.sq_fin, rd_fin]

theorem fill1R_holds {ρ : ℝ → Fl} {h : Hist} {edges : List ℝ} (hg : Good1 h edges) {L : ℕ → List ℝ}
    (hh : Holds ρ h (edges.length - 1) L) (f : WFill) :
    ∃ h', h.fillR ρ f.x f.y f.arg = (.ok (), h') ∧ Good1 h' edges ∧
      Holds ρ h' (edges.length - 1) (fun i => L i ++ weightsIn edges i [f]) := by
  obtain ⟨hv, hp⟩ := usable_values f.ok
  have hval : validEdges edges := ⟨hg.two, hg.incr⟩
  have hb : ∀ (g : ℝ → Fl), binnedSumR ρ edges f.x (f.ws.map g) = .ok ⟨[edges.length - 1],
      (List.range (edges.length - 1)).map fun i => accR ρ ((weightsIn edges i [f]).map g)⟩ := by
    intro g
    unfold binnedSumR
    rw [if_neg (by simp [f.len]), if_pos hval]
    congr 2
    apply List.map_congr_left
    intro i _
    congr 1
    rw [filter_zip_snd_map (fun x => binIndex edges x = some i) g f.x f.ws]
    simp only [weightsIn, List.flatMap_cons, List.flatMap_nil, List.append_nil]
    congr 2
    apply List.filter_congr
    intro p _
    simp only [binIndex_iff hg.incr hg.two]
  obtain ⟨h', e1, e2, e3, e4, e5, e6, e7, e8⟩ := accumulateR_holds hh hg.counts_shape hg.counts_len hg.err_shape hg.err_len
    (fun i => weightsIn edges i [f])
  refine ⟨h', ?_, ⟨by rw [e8, hg.cls], by rw [e7, hg.edges_eq], hg.two, hg.incr, e3, e4, e5, e6⟩, e2⟩
  unfold Hist.fillR
  rw [hg.cls]
  simp only [Hist1d.fillR, hv, hp, good1_edges hg, sq_rd_map]
  rw [hb Fl.fin, hb fun w => ρ (w ^ 2)]
  exact e1

theorem fill2R_holds {ρ : ℝ → Fl} {h : Hist} {ex ey : List ℝ} (hg : Good2 h ex ey) {L : ℕ → List ℝ}
    (hh : Holds ρ h ((ex.length - 1) * (ey.length - 1)) L) (f : WFill) (hy : f.x.length = f.y.length) (hne : f.x ≠ []) :
    ∃ h', h.fillR ρ f.x f.y f.arg = (.ok (), h') ∧ Good2 h' ex ey ∧
      Holds ρ h' ((ex.length - 1) * (ey.length - 1))
        (fun k => L k ++ weightsIn2 ex ey (k / (ey.length - 1)) (k % (ey.length - 1)) [f]) := by
  obtain ⟨hv, hp⟩ := usable_values f.ok
  have hval : validEdges ex ∧ validEdges ey := ⟨⟨hg.xtwo, hg.xincr⟩, ⟨hg.ytwo, hg.yincr⟩⟩
  have hb : ∀ (g : ℝ → Fl), binnedSum2R ρ ex ey f.x f.y (f.ws.map g) = .ok ⟨[ex.length - 1, ey.length - 1],
      (List.range ((ex.length - 1) * (ey.length - 1))).map fun k =>
        accR ρ ((weightsIn2 ex ey (k / (ey.length - 1)) (k % (ey.length - 1)) [f]).map g)⟩ := by
    intro g
    unfold binnedSum2R
    rw [if_neg (by simp [f.len, ← hy]), if_neg (by simpa using hne), if_pos hval]
    congr 2
    apply List.map_congr_left
    intro k _
    congr 1
    rw [filter_zip_snd_map (fun q : Fl × Fl => binIndex ex q.1 = some (k / (ey.length - 1)) ∧
      binIndex ey q.2 = some (k % (ey.length - 1))) g (f.x.zip f.y) f.ws]
    simp only [weightsIn2, List.flatMap_cons, List.flatMap_nil, List.append_nil]
    congr 2
    apply List.filter_congr
    intro p _
    simp only [binIndex_iff hg.xincr hg.xtwo, binIndex_iff hg.yincr hg.ytwo]
  obtain ⟨h', e1, e2, e3, e4, e5, e6, e7, e8⟩ := accumulateR_holds hh hg.counts_shape hg.counts_len hg.err_shape hg.err_len
    (fun k => weightsIn2 ex ey (k / (ey.length - 1)) (k % (ey.length - 1)) [f])
  refine ⟨h', ?_, ⟨by rw [e8, hg.cls], by rw [e7, hg.edges_eq], hg.xtwo, hg.ytwo, hg.xincr, hg.yincr, e3, e4, e5, e6⟩, e2⟩
  obtain ⟨he1, he2⟩ := good2_edges hg
  unfold Hist.fillR
  rw [hg.cls]
  simp only [Hist2d.fillR, hv, hp, he1, he2, sq_rd_map]
  rw [hb Fl.fin, hb fun w => ρ (w ^ 2)]
  exact e1

theorem fills1R_holds {ρ : ℝ → Fl} {edges : List ℝ} (fs : List WFill) : ∀ {h : Hist} (_ : Good1 h edges) {L : ℕ → List ℝ}
    (_ : Holds ρ h (edges.length - 1) L),
    Good1 (fs.foldl (fun h f => (h.fillR ρ f.x f.y f.arg).2) h) edges ∧
    Holds ρ (fs.foldl (fun h f => (h.fillR ρ f.x f.y f.arg).2) h) (edges.length - 1) (fun i => L i ++ weightsIn edges i fs) := by
  induction fs with
  | nil => intro h hg L hh; exact ⟨hg, by simpa [weightsIn] using hh⟩
  | cons f fs ih =>
    intro h hg L hh
    obtain ⟨h', e1, e2, e3⟩ := fill1R_holds hg hh f
    obtain ⟨i1, i2⟩ := ih e2 e3
    simp only [List.foldl_cons, e1]
    refine ⟨i1, ?_⟩
    have : (fun i => L i ++ weightsIn edges i (f :: fs)) = fun i => (L i ++ weightsIn edges i [f]) ++ weightsIn edges i fs := by
      funext i; simp [weightsIn]
    rw [this]; exact i2

theorem fills2R_holds {ρ : ℝ → Fl} {ex ey : List ℝ} (fs : List WFill) (hf : ∀ f ∈ fs, f.x.length = f.y.length ∧ f.x ≠ []) :
    ∀ {h : Hist} (_ : Good2 h ex ey) {L : ℕ → List ℝ} (_ : Holds ρ h ((ex.length - 1) * (ey.length - 1)) L),
    Good2 (fs.foldl (fun h f => (h.fillR ρ f.x f.y f.arg).2) h) ex ey ∧
    Holds ρ (fs.foldl (fun h f => (h.fillR ρ f.x f.y f.arg).2) h) ((ex.length - 1) * (ey.length - 1))
      (fun k => L k ++ weightsIn2 ex ey (k / (ey.length - 1)) (k % (ey.length - 1)) fs) := by
  induction fs with
  | nil => intro h hg L hh; exact ⟨hg, by simpa [weightsIn2] using hh⟩
  | cons f fs ih =>
    intro h hg L hh
    obtain ⟨f1, f2⟩ := hf f (by simp)
    obtain ⟨h', e1, e2, e3⟩ := fill2R_holds hg hh f f1 f2
    obtain ⟨i1, i2⟩ := ih (fun g hg => hf g (by simp [hg])) e2 e3
    simp only [List.foldl_cons, e1]
    refine ⟨i1, ?_⟩
    have : (fun k => L k ++ weightsIn2 ex ey (k / (ey.length - 1)) (k % (ey.length - 1)) (f :: fs)) =
        fun k => (L k ++ weightsIn2 ex ey (k / (ey.length - 1)) (k % (ey.length - 1)) [f]) ++
          weightsIn2 ex ey (k / (ey.length - 1)) (k % (ey.length - 1)) fs := by
      funext i; simp [weightsIn2]
    rw [this]; exact i2

/-! ### the error -/

/-- content of a bin -/
theorem content_err {ρ : ℝ → Fl} {u l M : ℝ} (A : Accurate ρ u l M) {ws : List ℝ} {v : Fl} (h : SumR ρ (ws.map Fl.fin) v)
    (hr : ∀ w ∈ ws, Representable ρ w) (hlen : 2 * (ws.length : ℝ) * u ≤ 1) (hM : 2 * (ws.map fun w => |w|).sum ≤ M) :
    ∃ c, v = .fin c ∧ |c - ws.sum| ≤ 2 * ws.length * u * (ws.map fun w => |w|).sum := by
  have hu0 := A.u0
  have e1 : (ws.map Fl.fin).map Fl.toReal = ws := by rw [List.map_map]; exact List.map_id'' (fun _ => rfl) ws
  have e2 : ((ws.map Fl.fin).map fun x => |x.toReal|) = ws.map fun w => |w| := by rw [List.map_map]; rfl
  obtain ⟨s, h1, -, h3⟩ := sum_err A h (by
      intro x hx
      obtain ⟨w, hw, rfl⟩ := List.mem_map.mp hx
      exact ⟨w, rfl, hr w hw⟩) (by simpa using hlen) (by rw [e2]; exact hM)
  rw [e1, e2, List.length_map] at h3
  refine ⟨s, h1, h3.trans ?_⟩
  have hs0 : 0 ≤ (ws.map fun w => |w|).sum := List.sum_nonneg (by
    intro x hx; obtain ⟨w, -, rfl⟩ := List.mem_map.mp hx; exact abs_nonneg w)
  refine mul_le_mul_of_nonneg_right ?_ hs0
  refine le_trans ?_ (growth hu0 A.u1 hlen)
  have : (1 + u) ^ (ws.length - 1) ≤ (1 + u) ^ ws.length := pow_le_pow_right₀ (by linarith) (by omega)
  linarith

theorem near_list {u : ℝ} {k : ℕ} {α : Type} (f g : α → ℝ) : ∀ (l : List α), (∀ a ∈ l, Near u k (f a) (g a)) →
    Near u k (l.map f).sum (l.map g).sum := by
  intro l
  induction l with
  | nil => intro _; constructor <;> simp
  | cons a l ih =>
    intro h
    simp only [List.map_cons, List.sum_cons]
    exact (h a (by simp)).add (ih fun b hb => h b (by simp [hb]))

theorem near_sqrt {u : ℝ} {k : ℕ} {a b : ℝ} (hu0 : 0 ≤ u) (hu : u ≤ 1 / 8) (h : Near u k a b) (hb : 0 ≤ b) :
    Near u k (Real.sqrt a) (Real.sqrt b) := by
  have ha := h.nonneg hu hb
  have hp : 0 ≤ (1 - u) ^ k := pow_nonneg (by linarith) _
  have hp1 : (1 - u) ^ k ≤ 1 := pow_le_one₀ (by linarith) (by linarith)
  have key : ∀ x y : ℝ, 0 ≤ x → 0 ≤ y → (1 - u) ^ k * x ≤ y → (1 - u) ^ k * Real.sqrt x ≤ Real.sqrt y := by
    intro x y hx hy hxy
    apply Real.le_sqrt_of_sq_le
    rw [mul_pow, Real.sq_sqrt hx]
    refine le_trans ?_ hxy
    refine mul_le_mul_of_nonneg_right ?_ hx
    nlinarith
  exact ⟨key b a hb ha h.1, key a b ha hb h.2⟩

/-- squared error and error of a bin -/
theorem errSq_err {ρ : ℝ → Fl} {u l M : ℝ} (A : Accurate ρ u l M) {ws : List ℝ} {v : Fl} (h : SumR ρ (ws.map fun w => ρ (w ^ 2)) v)
    (hr : ∀ w ∈ ws, w = 0 ∨ 2 * l ≤ w ^ 2) (hlen : 2 * (ws.length + 1 : ℝ) * u ≤ 1) (hM : 4 * (ws.map fun w => w ^ 2).sum ≤ M) :
    ∃ q e, v = .fin q ∧ 0 ≤ q ∧ |q - (ws.map fun w => w ^ 2).sum| ≤ 2 * ws.length * u * (ws.map fun w => w ^ 2).sum ∧
      (Fl.sqrt v).rd ρ = .fin e ∧
      |e - Real.sqrt (ws.map fun w => w ^ 2).sum| ≤ 2 * (ws.length + 1) * u * Real.sqrt (ws.map fun w => w ^ 2).sum := by
  have hu0 := A.u0
  have hu1 := A.u1
  have hl0 := A.lo0
  have hl1 := A.lo1
  have hM4 := A.hi1
  have hlen1 : 2 * (ws.length : ℝ) * u ≤ 1 := by nlinarith
  have hsq : ∀ w ∈ ws, w ^ 2 ≤ (ws.map fun w => w ^ 2).sum := fun w hw =>
    List.single_le_sum (by intro x hx; obtain ⟨m, -, rfl⟩ := List.mem_map.mp hx; exact sq_nonneg m) _ (List.mem_map.mpr ⟨w, hw, rfl⟩)
  have hS0 : 0 ≤ (ws.map fun w => w ^ 2).sum := List.sum_nonneg (by
    intro x hx; obtain ⟨m, -, rfl⟩ := List.mem_map.mp hx; exact sq_nonneg m)
  have hone : ∀ w ∈ ws, ∃ r, ρ (w ^ 2) = .fin r ∧ Representable ρ r ∧ 0 ≤ r ∧ Near u 1 r (w ^ 2) := by
    intro w hw
    refine rd_near A (sq_nonneg w) ?_ ?_
    · rcases hr w hw with h | h
      · left; rw [h]; norm_num
      · right; linarith
    · have := hsq w hw; linarith
  have hnr : Near u 1 ((ws.map fun w => ρ (w ^ 2)).map Fl.toReal).sum (ws.map fun w => w ^ 2).sum := by
    rw [List.map_map]
    apply near_list
    intro w hw
    obtain ⟨r, e, -, -, hn⟩ := hone w hw
    simpa [e, Fl.toReal] using hn
  have hhalf := hnr.half hu1 hS0 (by norm_num; linarith)
  obtain ⟨q, h1, h2, h3, h4⟩ := sum_near A h (by
      intro x hx
      obtain ⟨w, hw, rfl⟩ := List.mem_map.mp hx
      obtain ⟨r, e, hr, h0, -⟩ := hone w hw
      exact ⟨r, e, h0, hr⟩) (by simpa using hlen1) (by linarith)
  rw [List.length_map] at h4
  by_cases hemp : ws = []
  · subst hemp
    simp only [List.map_nil, List.sum_nil, List.length_nil] at h4 ⊢
    have hq : q = 0 := near_zero hu1 h4
    subst hq
    refine ⟨0, 0, h1, le_rfl, by simp, ?_, by simp⟩
    rw [h1]
    simp [Fl.sqrt, A.zero]
  have hn : 1 ≤ ws.length := by
    cases ws with
    | nil => exact absurd rfl hemp
    | cons a l => simp
  have hq : Near u ws.length q (ws.map fun w => w ^ 2).sum := by
    have := h4.trans hu1 hnr
    rwa [Nat.sub_add_cancel hn] at this
  have hqh := hq.half hu1 hS0 (by linarith)
  have hsqrt := near_sqrt hu0 hu1 hq hS0
  have hrd : ∃ e, ρ (Real.sqrt q) = .fin e ∧ Near u 1 e (Real.sqrt q) := by
    have hcase : Real.sqrt q = 0 ∨ l ≤ Real.sqrt q := by
      rcases hS0.eq_or_lt with h | h
      · left
        have : q = 0 := by rw [← h] at hq; exact near_zero hu1 hq
        rw [this, Real.sqrt_zero]
      · right
        have hex : ∃ w ∈ ws, w ≠ 0 := by
          by_contra hno
          push Not at hno
          have : (ws.map fun w => w ^ 2).sum = 0 := by
            apply List.sum_eq_zero
            intro x hx
            obtain ⟨w, hw, rfl⟩ := List.mem_map.mp hx
            rw [hno w hw]; norm_num
          linarith
        obtain ⟨w, hw, hw0⟩ := hex
        have h5 := (hr w hw).resolve_left hw0
        have h6 := hsq w hw
        have h7 : l ≤ q := by linarith
        apply Real.le_sqrt_of_sq_le
        nlinarith
    have hle : Real.sqrt q ≤ M := by
      rw [Real.sqrt_le_left (by linarith)]
      nlinarith
    obtain ⟨e, a1, -, -, a4⟩ := rd_near A (Real.sqrt_nonneg q) hcase hle
    exact ⟨e, a1, a4⟩
  obtain ⟨e, he, hne⟩ := hrd
  have hfin : Near u (ws.length + 1) e (Real.sqrt (ws.map fun w => w ^ 2).sum) := by
    rw [add_comm]; exact hne.trans hu1 hsqrt
  refine ⟨q, e, h1, h3, hq.rel_error hu0 hu1 hS0 hlen1, ?_, ?_⟩
  · rw [h1]
    simp only [Fl.sqrt, if_neg (not_lt.mpr h3), rd_fin, he]
  · have := hfin.rel_error hu0 hu1 (Real.sqrt_nonneg _) (by push_cast; linarith)
    push_cast at this
    exact this

/-- **C130.** A one-dimensional histogram without entries is filled any number of times with any finite weights (with or without sign),
every operation rounded. In every bin, with `N` events of weights `w` in it: the content differs from `∑ w` by at most `2 N u ∑ |w|`, the squared error
from `∑ w²` by at most `2 N u ∑ w²`, and the bin error from `√∑ w²` by at most `2 (N + 1) u √∑ w²`. -/
theorem C130_hist1d {ρ : ℝ → Fl} {u l M : ℝ} (A : Accurate ρ u l M) (h : Hist) (edges : List ℝ) (hg : Good1 h edges)
    (hc : ∀ x ∈ h.counts.data, x = 0) (hq : ∀ x ∈ h.errSq.data, x = 0) (fs : List WFill)
    (i : ℕ) (hi : i < edges.length - 1) (hr : ∀ w ∈ weightsIn edges i fs, Representable ρ w ∧ (w = 0 ∨ 2 * l ≤ w ^ 2))
    (hN : 2 * ((weightsIn edges i fs).length + 1 : ℝ) * u ≤ 1) (hM : 2 * ((weightsIn edges i fs).map fun w => |w|).sum ≤ M)
    (hM2 : 4 * ((weightsIn edges i fs).map fun w => w ^ 2).sum ≤ M) :
    ∃ c q e, (fs.foldl (fun h f => (h.fillR ρ f.x f.y f.arg).2) h).counts.data[i]? = some (.fin c) ∧
      (fs.foldl (fun h f => (h.fillR ρ f.x f.y f.arg).2) h).errSq.data[i]? = some (.fin q) ∧
      ((fs.foldl (fun h f => (h.fillR ρ f.x f.y f.arg).2) h).binErrorsR ρ).data[i]? = some (.fin e) ∧
      |c - (weightsIn edges i fs).sum| ≤
        2 * (weightsIn edges i fs).length * u * ((weightsIn edges i fs).map fun w => |w|).sum ∧
      |q - ((weightsIn edges i fs).map fun w => w ^ 2).sum| ≤
        2 * (weightsIn edges i fs).length * u * ((weightsIn edges i fs).map fun w => w ^ 2).sum ∧
      |e - Real.sqrt ((weightsIn edges i fs).map fun w => w ^ 2).sum| ≤
        2 * ((weightsIn edges i fs).length + 1) * u * Real.sqrt ((weightsIn edges i fs).map fun w => w ^ 2).sum := by
  have h0 : Holds ρ h (edges.length - 1) (fun _ => []) := by
    intro i hi
    refine ⟨⟨0, ?_, .nil⟩, 0, ?_, .nil⟩
    · rw [List.getElem?_eq_getElem (by rw [hg.counts_len]; exact hi), hc _ (List.getElem_mem _)]
    · rw [List.getElem?_eq_getElem (by rw [hg.err_len]; exact hi), hq _ (List.getElem_mem _)]
  obtain ⟨-, h1⟩ := fills1R_holds fs hg h0
  obtain ⟨⟨c, c1, c2⟩, q, q1, q2⟩ := h1 i hi
  simp only [List.nil_append] at c2 q2
  have hu0 := A.u0
  obtain ⟨cr, rfl, hce⟩ := content_err A c2 (fun w hw => (hr w hw).1) (by nlinarith) hM
  obtain ⟨qr, e, rfl, -, hqe, he1, he2⟩ := errSq_err A q2 (fun w hw => (hr w hw).2) hN hM2
  exact ⟨cr, qr, e, c1, q1, by simp [Hist.binErrorsR, NdArr.map, q1, he1], hce, hqe, he2⟩

/-- **C130, two dimensions.** The same for cell `k` (row-major) of a two-dimensional histogram; no batch is empty. -/
theorem C130_hist2d {ρ : ℝ → Fl} {u l M : ℝ} (A : Accurate ρ u l M) (h : Hist) (ex ey : List ℝ) (hg : Good2 h ex ey)
    (hc : ∀ x ∈ h.counts.data, x = 0) (hq : ∀ x ∈ h.errSq.data, x = 0) (fs : List WFill)
    (hf : ∀ f ∈ fs, f.x.length = f.y.length ∧ f.x ≠ [])
    (i j : ℕ) (hi : i < ex.length - 1) (hj : j < ey.length - 1)
    (hr : ∀ w ∈ weightsIn2 ex ey i j fs, Representable ρ w ∧ (w = 0 ∨ 2 * l ≤ w ^ 2))
    (hN : 2 * ((weightsIn2 ex ey i j fs).length + 1 : ℝ) * u ≤ 1) (hM : 2 * ((weightsIn2 ex ey i j fs).map fun w => |w|).sum ≤ M)
    (hM2 : 4 * ((weightsIn2 ex ey i j fs).map fun w => w ^ 2).sum ≤ M) :
    ∃ c q e, (fs.foldl (fun h f => (h.fillR ρ f.x f.y f.arg).2) h).counts.data[i * (ey.length - 1) + j]? = some (.fin c) ∧
      (fs.foldl (fun h f => (h.fillR ρ f.x f.y f.arg).2) h).errSq.data[i * (ey.length - 1) + j]? = some (.fin q) ∧
      ((fs.foldl (fun h f => (h.fillR ρ f.x f.y f.arg).2) h).binErrorsR ρ).data[i * (ey.length - 1) + j]? = some (.fin e) ∧
      |c - (weightsIn2 ex ey i j fs).sum| ≤
        2 * (weightsIn2 ex ey i j fs).length * u * ((weightsIn2 ex ey i j fs).map fun w => |w|).sum ∧
      |q - ((weightsIn2 ex ey i j fs).map fun w => w ^ 2).sum| ≤
        2 * (weightsIn2 ex ey i j fs).length * u * ((weightsIn2 ex ey i j fs).map fun w => w ^ 2).sum ∧
      |e - Real.sqrt ((weightsIn2 ex ey i j fs).map fun w => w ^ 2).sum| ≤
        2 * ((weightsIn2 ex ey i j fs).length + 1) * u * Real.sqrt ((weightsIn2 ex ey i j fs).map fun w => w ^ 2).sum := by
  have hk : i * (ey.length - 1) + j < (ex.length - 1) * (ey.length - 1) := by
    have : (i + 1) * (ey.length - 1) ≤ (ex.length - 1) * (ey.length - 1) := Nat.mul_le_mul_right _ hi
    have e : (i + 1) * (ey.length - 1) = i * (ey.length - 1) + (ey.length - 1) := by ring
    omega
  have hd : (i * (ey.length - 1) + j) / (ey.length - 1) = i := by
    rw [mul_comm, Nat.mul_add_div (by omega), Nat.div_eq_of_lt hj, add_zero]
  have hm : (i * (ey.length - 1) + j) % (ey.length - 1) = j := by
    rw [mul_comm, Nat.mul_add_mod, Nat.mod_eq_of_lt hj]
  have h0 : Holds ρ h ((ex.length - 1) * (ey.length - 1)) (fun _ => []) := by
    intro i hi
    refine ⟨⟨0, ?_, .nil⟩, 0, ?_, .nil⟩
    · rw [List.getElem?_eq_getElem (by rw [hg.counts_len]; exact hi), hc _ (List.getElem_mem _)]
    · rw [List.getElem?_eq_getElem (by rw [hg.err_len]; exact hi), hq _ (List.getElem_mem _)]
  obtain ⟨-, h1⟩ := fills2R_holds fs hf hg h0
  obtain ⟨⟨c, c1, c2⟩, q, q1, q2⟩ := h1 _ hk
  simp only [List.nil_append, hd, hm] at c2 q2
  have hu0 := A.u0
  obtain ⟨cr, rfl, hce⟩ := content_err A c2 (fun w hw => (hr w hw).1) (by nlinarith) hM
  obtain ⟨qr, e, rfl, -, hqe, he1, he2⟩ := errSq_err A q2 (fun w hw => (hr w hw).2) hN hM2
  exact ⟨cr, qr, e, c1, q1, by simp [Hist.binErrorsR, NdArr.map, q1, he1], hce, hqe, he2⟩

theorem sum_le_card {l : List ℝ} {b : ℝ} (h : ∀ x ∈ l, x ≤ b) : l.sum ≤ l.length * b := by
  have := List.sum_le_card_nsmul l b h
  simpa using this

/-- **C130, double precision.** Weights that are doubles and zero or between `2^(-500)` and `2^400` in absolute value, at most `2^50` events in the bin:
the content, squared error and bin error are within `N 2^(-52)`, `N 2^(-52)` and `(N + 1) 2^(-52)` of the exact ones, relative to the sum of `|w|`, the
exact squared error and the exact bin error. -/
theorem C130_double (h : Hist) (edges : List ℝ) (hg : Good1 h edges)
    (hc : ∀ x ∈ h.counts.data, x = 0) (hq : ∀ x ∈ h.errSq.data, x = 0) (fs : List WFill)
    (hr : ∀ f ∈ fs, ∀ w ∈ f.ws, Representable float64 w ∧ (w = 0 ∨ 2 ^ (-500 : ℤ) ≤ |w|) ∧ |w| ≤ 2 ^ 400)
    (i : ℕ) (hi : i < edges.length - 1) (hN : (weightsIn edges i fs).length ≤ 2 ^ 50) :
    ∃ c q e, (fs.foldl (fun h f => (h.fillR float64 f.x f.y f.arg).2) h).counts.data[i]? = some (.fin c) ∧
      (fs.foldl (fun h f => (h.fillR float64 f.x f.y f.arg).2) h).errSq.data[i]? = some (.fin q) ∧
      ((fs.foldl (fun h f => (h.fillR float64 f.x f.y f.arg).2) h).binErrorsR float64).data[i]? = some (.fin e) ∧
      |c - (weightsIn edges i fs).sum| ≤
        (weightsIn edges i fs).length * 2 ^ (-52 : ℤ) * ((weightsIn edges i fs).map fun w => |w|).sum ∧
      |q - ((weightsIn edges i fs).map fun w => w ^ 2).sum| ≤
        (weightsIn edges i fs).length * 2 ^ (-52 : ℤ) * ((weightsIn edges i fs).map fun w => w ^ 2).sum ∧
      |e - Real.sqrt ((weightsIn edges i fs).map fun w => w ^ 2).sum| ≤
        ((weightsIn edges i fs).length + 1) * 2 ^ (-52 : ℤ) *
          Real.sqrt ((weightsIn edges i fs).map fun w => w ^ 2).sum := by
  have hr' : ∀ w ∈ weightsIn edges i fs,
      Representable float64 w ∧ (w = 0 ∨ 2 ^ (-500 : ℤ) ≤ |w|) ∧ |w| ≤ 2 ^ 400 := by
    intro w hw
    obtain ⟨f, hf, hw⟩ := List.mem_flatMap.mp hw
    obtain ⟨p, hp, rfl⟩ := List.mem_map.mp hw
    exact hr f hf _ (List.of_mem_zip (List.mem_of_mem_filter hp)).2
  have hNR : ((weightsIn edges i fs).length : ℝ) ≤ 2 ^ 50 := by exact_mod_cast hN
  have hmax : (2:ℝ) ^ 1000 ≤ Fl.maxFloat := by
    unfold Fl.maxFloat
    have e : (2:ℝ) ^ 1023 = 2 ^ 23 * 2 ^ 1000 := by rw [← pow_add]
    rw [e]
    have h0 : (0:ℝ) < 2 ^ 1000 := by positivity
    generalize (2:ℝ) ^ 1000 = z at h0
    norm_num
    linarith
  obtain ⟨c, q, e, h1, h2, h3, h4, h5, h6⟩ := C130_hist1d float64_accurate h edges hg hc hq fs i hi (by
      intro w hw
      obtain ⟨a1, a2, a3⟩ := hr' w hw
      refine ⟨a1, a2.imp_right fun a => ?_⟩
      have e : w ^ 2 = |w| * |w| := by rw [← sq, sq_abs]
      have h0 : (0:ℝ) ≤ 2 ^ (-500 : ℤ) := by positivity
      rw [e]
      refine le_trans ?_ (mul_le_mul a a h0 (abs_nonneg w))
      rw [← zpow_add₀ (by norm_num)]
      have : (2:ℝ) * 2 ^ (-1022 : ℤ) = 2 ^ (-1021 : ℤ) := by
        rw [show (-1021 : ℤ) = 1 + -1022 by norm_num, zpow_add₀ (by norm_num)]; norm_num
      rw [this]
      exact zpow_le_zpow_right₀ (by norm_num) (by norm_num))
    (by
      generalize ((weightsIn edges i fs).length : ℝ) = z at hNR
      norm_num at hNR ⊢
      linarith)
    (by
      have := sum_le_card (l := (weightsIn edges i fs).map fun w => |w|) (b := 2 ^ 400) (by
        intro x hx; obtain ⟨w, hw, rfl⟩ := List.mem_map.mp hx; exact (hr' w hw).2.2)
      rw [List.length_map] at this
      have h2 : ((weightsIn edges i fs).length : ℝ) * 2 ^ 400 ≤ 2 ^ 50 * 2 ^ 400 := mul_le_mul_of_nonneg_right hNR (by positivity)
      have h3 : (2:ℝ) * (2 ^ 50 * 2 ^ 400) ≤ 2 ^ 1000 := by
        rw [← pow_add, ← pow_succ']; exact pow_le_pow_right₀ (by norm_num) (by norm_num)
      refine le_trans ?_ (h3.trans hmax)
      exact mul_le_mul_of_nonneg_left (this.trans h2) (by norm_num))
    (by
      have := sum_le_card (l := (weightsIn edges i fs).map fun w => w ^ 2) (b := 2 ^ 800) (by
        intro x hx; obtain ⟨w, hw, rfl⟩ := List.mem_map.mp hx
        have e : (2:ℝ) ^ 800 = (2 ^ 400) ^ 2 := by rw [← pow_mul]
        show w ^ 2 ≤ _
        rw [e, ← sq_abs]
        exact pow_le_pow_left₀ (abs_nonneg _) (hr' w hw).2.2 2)
      rw [List.length_map] at this
      have h2 : ((weightsIn edges i fs).length : ℝ) * 2 ^ 800 ≤ 2 ^ 50 * 2 ^ 800 := mul_le_mul_of_nonneg_right hNR (by positivity)
      have h3 : (4:ℝ) * (2 ^ 50 * 2 ^ 800) ≤ 2 ^ 1000 := by
        rw [show (4:ℝ) = 2 ^ 2 by norm_num, ← pow_add, ← pow_add]; exact pow_le_pow_right₀ (by norm_num) (by norm_num)
      refine le_trans ?_ (h3.trans hmax)
      exact mul_le_mul_of_nonneg_left (this.trans h2) (by norm_num))
  have e52 : (2:ℝ) ^ (-52 : ℤ) = 2 * 2 ^ (-53 : ℤ) := by norm_num
  refine ⟨c, q, e, h1, h2, h3, ?_, ?_, ?_⟩
  · rw [e52]; refine h4.trans (le_of_eq ?_); ring
  · rw [e52]; refine h5.trans (le_of_eq ?_); ring
  · rw [e52]; refine h6.trans (le_of_eq ?_); ring

/-- three weighted events, one of them of negative weight, the second and third in the middle bin -/
def exFill : WFill where
  x := [.fin (1 / 2), .fin 2, .fin (5 / 2)]
  y := []
  arg := .array [.fin 1, .fin (-3), .fin 4]
  ws := [1, -3, 4]
  ok := Or.inr (Or.inr rfl)
  len := rfl

/-- non-vacuity: the events are distributed as expected -/
theorem exFill_in : weightsIn [0, 1, 3, 7] 1 [exFill, exFill] = [-3, 4, -3, 4] := by
  have h1 : ¬ InBin [0, 1, 3, 7] 1 (.fin (1 / 2)) := by
    rintro (⟨a, b, ha, hb, hab, _⟩ | ⟨h, h1, _⟩)
    · simp at ha; subst ha; norm_num at hab
    · simp at h
  have h2 : InBin [0, 1, 3, 7] 1 (.fin 2) := Or.inl ⟨1, 3, rfl, rfl, by norm_num, by norm_num⟩
  have h3 : InBin [0, 1, 3, 7] 1 (.fin (5 / 2)) := Or.inl ⟨1, 3, rfl, rfl, by norm_num, by norm_num⟩
  simp only [weightsIn, exFill, List.flatMap_cons, List.flatMap_nil, List.zip_cons_cons, List.zip_nil_right,
    List.filter_cons, List.filter_nil, h1, h2, h3, decide_true, decide_false, if_true, List.map_cons, List.map_nil, Bool.false_eq_true, if_false]
  rfl

/-- non-vacuity: two such fills leave the content 2, the squared error 50 and the error `√50` in the middle bin, up to rounding -/
example : ∃ c q e, ([exFill, exFill].foldl (fun h f => (h.fillR float64 f.x f.y f.arg).2) exHist3).counts.data[1]? = some (.fin c) ∧
    ([exFill, exFill].foldl (fun h f => (h.fillR float64 f.x f.y f.arg).2) exHist3).errSq.data[1]? = some (.fin q) ∧
    (([exFill, exFill].foldl (fun h f => (h.fillR float64 f.x f.y f.arg).2) exHist3).binErrorsR float64).data[1]? = some (.fin e) ∧ |c - 2| ≤ 4 * 2 ^ (-52 : ℤ) * 14 ∧ |q - 50| ≤ 4 * 2 ^ (-52 : ℤ) * 50 ∧
    |e - Real.sqrt 50| ≤ 5 * 2 ^ (-52 : ℤ) * Real.sqrt 50 := by
  have hsm : ∀ w : ℝ, 1 ≤ |w| → |w| ≤ 4 → (w = 0 ∨ 2 ^ (-500 : ℤ) ≤ |w|) ∧ |w| ≤ 2 ^ 400 := by
    intro w h1 h2
    refine ⟨Or.inr (le_trans ?_ h1), h2.trans ?_⟩
    · exact zpow_le_one_of_nonpos₀ (by norm_num) (by norm_num)
    · rw [show (4:ℝ) = 2 ^ 2 by norm_num]; exact pow_le_pow_right₀ (by norm_num) (by norm_num)
  obtain ⟨c, q, e, h1, h2, h3, h4, h5, h6⟩ := C130_double exHist3 _ exHist3_good (by simp [exHist3, Hist.blank, NdArr.zeros]) (by simp [exHist3, Hist.blank, NdArr.zeros])
    [exFill, exFill] (by
      intro f hf w hw
      simp only [List.mem_cons, List.not_mem_nil, or_false, or_self] at hf
      subst hf
      simp only [exFill, List.mem_cons, List.not_mem_nil, or_false] at hw
      have hrep : ∀ k : ℤ, |k| ≤ 2 ^ 53 → Representable float64 k := fun k hk => float64_int k hk
      rcases hw with rfl | rfl | rfl
      · exact ⟨by simpa using hrep 1 (by norm_num), hsm _ (by norm_num) (by norm_num)⟩
      · exact ⟨by simpa using hrep (-3) (by norm_num), hsm _ (by norm_num [abs_of_neg]) (by norm_num [abs_of_neg])⟩
      · exact ⟨by simpa using hrep 4 (by norm_num), hsm _ (by norm_num) (by norm_num)⟩)
    1 (by norm_num) (by rw [exFill_in]; norm_num)
  rw [exFill_in] at h4 h5 h6
  refine ⟨c, q, e, h1, h2, h3, ?_, ?_, ?_⟩
  · norm_num at h4 ⊢; exact h4
  · norm_num at h5 ⊢; exact h5
  · norm_num at h6 ⊢; exact h6

end

end TF.Props
