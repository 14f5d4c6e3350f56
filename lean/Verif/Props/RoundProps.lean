import Verif.Lemmas.Float64
import Verif.Props.HistProps3

set_option linter.unusedSimpArgs false

/-!
# Histogram contents in floating point (C124)
-/

namespace TF.Spec

open TF

/-- integers up to `N` are represented exactly (`N = 2^53` in double precision) -/
def ExactInts (ρ : ℝ → Fl) (N : ℤ) : Prop := ∀ n : ℤ, |n| ≤ N → ρ n = .fin n

/-- one call of `fill` with the (integer) weights of its events -/
structure IntFill where
  x : Vec
  y : Vec
  w : Weights
  ws : List ℤ
  ok : w.values x.length = ws.map fun n : ℤ => Fl.fin (n : ℝ)

/-- total absolute weight of a list of fills -/
def absWeight (fs : List IntFill) : ℤ := (fs.map fun f => (f.ws.map fun n => |n|).sum).sum

/-- total squared weight -/
def sqWeight (fs : List IntFill) : ℤ := (fs.map fun f => (f.ws.map fun n => n ^ 2).sum).sum

end TF.Spec

namespace TF.Props

open Classical Spec

noncomputable section

@[simp] theorem rd_fin (ρ : ℝ → Fl) (x : ℝ) : (Fl.fin x).rd ρ = ρ x := rfl

/-- some summation exists (from left to right) -/
theorem sumR_foldl (ρ : ℝ → Fl) (l : Vec) : ∃ v, SumR ρ l v := by
  induction l with
  | nil => exact ⟨_, .nil⟩
  | cons a l ih =>
    obtain ⟨v, hv⟩ := ih
    exact ⟨_, .add (.one a) hv⟩

/-! ### integers -/

theorem foldl_ints {ρ : ℝ → Fl} {N : ℤ} (hρ : ExactInts ρ N) : ∀ (l : List ℤ) (a : ℤ), |a| + (l.map fun n => |n|).sum ≤ N →
    (l.map fun n : ℤ => Fl.fin (n : ℝ)).foldl (fun a v => (a + v).rd ρ) (.fin a) = .fin ((a + l.sum : ℤ) : ℝ) := by
  intro l
  induction l with
  | nil => intro a _; simp
  | cons b l ih =>
    intro a h
    simp only [List.map_cons, List.sum_cons, List.foldl_cons, Fl.fin_add, rd_fin] at h ⊢
    have hs : 0 ≤ (l.map fun n => |n|).sum := List.sum_nonneg (by
      intro x hx; obtain ⟨n, -, rfl⟩ := List.mem_map.mp hx; exact abs_nonneg n)
    have h2 := abs_add_le a b
    rw [← Int.cast_add, hρ (a + b) (by omega), ih (a + b) (by omega)]
    congr 2; ring

theorem accR_ints {ρ : ℝ → Fl} {N : ℤ} (hρ : ExactInts ρ N) (l : List ℤ) (h : (l.map fun n => |n|).sum ≤ N) :
    accR ρ (l.map fun n : ℤ => Fl.fin (n : ℝ)) = (l.map fun n : ℤ => Fl.fin (n : ℝ)).sum := by
  have h1 := foldl_ints hρ l 0 (by simpa using h)
  unfold accR
  rw [show (0 : Fl) = Fl.fin ((0 : ℤ) : ℝ) by simp [Fl.zero_def], h1]
  have : (l.map fun n : ℤ => Fl.fin (n : ℝ)) = (l.map fun n : ℤ => (n : ℝ)).map Fl.fin := by rw [List.map_map]; rfl
  rw [this, Fl.list_sum_fin]
  congr 1
  push_cast
  rw [zero_add]

/-- **C124, sums.** However a list of integers of total absolute value at most `N` is added up, the result is exact. -/
theorem C124_sum {ρ : ℝ → Fl} {N : ℤ} (hρ : ExactInts ρ N) (l : List ℤ) (h : (l.map fun n => |n|).sum ≤ N) (v : Fl)
    (hv : SumR ρ (l.map fun n : ℤ => Fl.fin (n : ℝ)) v) : v = .fin ((l.sum : ℤ) : ℝ) := by
  have key : ∀ (L : Vec) (v : Fl), SumR ρ L v → ∀ l : List ℤ, L = (l.map fun n : ℤ => Fl.fin (n : ℝ)) → (l.map fun n => |n|).sum ≤ N →
      v = .fin ((l.sum : ℤ) : ℝ) := by
    intro L v hv
    induction hv with
    | nil =>
      intro l hl _
      have : l = [] := by simpa using hl.symm
      subst this
      simp [Fl.zero_def]
    | one x =>
      intro l hl _
      match l, hl with
      | [n], hl => simpa using hl
    | @add l1 l2 a b _ _ h1 h2 =>
      intro l hl hle
      obtain ⟨m1, m2, rfl, e1, e2⟩ := List.append_eq_map_iff.mp hl
      rw [List.map_append, List.sum_append] at hle
      have hs : ∀ l : List ℤ, 0 ≤ (l.map fun n => |n|).sum := fun l => List.sum_nonneg (by
        intro x hx; obtain ⟨n, -, rfl⟩ := List.mem_map.mp hx; exact abs_nonneg n)
      have habs : ∀ l : List ℤ, |l.sum| ≤ (l.map fun n => |n|).sum := by
        intro l
        induction l with
        | nil => simp
        | cons a l ih =>
          simp only [List.sum_cons, List.map_cons]
          have := abs_add_le a l.sum
          omega
      have s1 := hs m1
      have s2 := hs m2
      rw [h1 m1 e1.symm (by omega), h2 m2 e2.symm (by omega), Fl.fin_add, rd_fin, ← Int.cast_add, hρ, List.sum_append]
      have a1 := habs m1
      have a2 := habs m2
      have := abs_add_le m1.sum m2.sum
      omega
    | @perm l1 l2 a _ hp ih =>
      intro l hl hle
      subst hl
      have hmem : ∀ x ∈ l1, ∃ n : ℤ, Fl.fin (n : ℝ) = x := by
        intro x hx
        obtain ⟨n, -, e⟩ := List.mem_map.mp (hp.mem_iff.mp hx)
        exact ⟨n, e⟩
      have hex : ∀ l : Vec, (∀ x ∈ l, ∃ n : ℤ, Fl.fin (n : ℝ) = x) → ∃ m : List ℤ, m.map (fun n : ℤ => Fl.fin (n : ℝ)) = l := by
        intro l
        induction l with
        | nil => exact fun _ => ⟨[], rfl⟩
        | cons x l ih =>
          intro h
          obtain ⟨m, hm⟩ := ih fun z hz => h z (by simp [hz])
          obtain ⟨n, hn⟩ := h x (by simp)
          exact ⟨n :: m, by simp [hm, hn]⟩
      obtain ⟨m, hm⟩ := hex l1 hmem
      have hinj : Function.Injective fun n : ℤ => Fl.fin (n : ℝ) := by
        intro a b hab
        have := Fl.fin.inj hab
        exact_mod_cast this
      rw [← hm] at hp
      have hpp : m.Perm l := (List.map_perm_map_iff hinj).mp hp
      rw [ih m hm.symm (by rw [(hpp.map _).sum_eq]; exact hle), hpp.sum_eq]
  exact key _ v hv l rfl h

theorem filter_ints {α : Type} (p : α → Prop) [DecidablePred p] : ∀ (xs : List α) (zs : List ℤ),
    ∃ zs' : List ℤ, zs'.Sublist zs ∧
      (((xs.zip (zs.map fun n : ℤ => Fl.fin (n : ℝ))).filter fun q => decide (p q.1)).map (·.2)) = zs'.map fun n : ℤ => Fl.fin (n : ℝ) := by
  intro xs
  induction xs with
  | nil => intro zs; exact ⟨[], by simp, by simp⟩
  | cons x xs ih =>
    intro zs
    cases zs with
    | nil => exact ⟨[], by simp, by simp⟩
    | cons z zs =>
      obtain ⟨zs', h1, h2⟩ := ih zs
      by_cases hp : p x
      · refine ⟨z :: zs', h1.cons_cons z, ?_⟩
        simp [hp, h2]
      · refine ⟨zs', h1.cons z, ?_⟩
        simp [hp, h2]

theorem sublist_abs {l l' : List ℤ} (h : l'.Sublist l) : (l'.map fun n => |n|).sum ≤ (l.map fun n => |n|).sum := by
  induction h with
  | slnil => simp
  | cons a _ ih => simp only [List.map_cons, List.sum_cons]; have := abs_nonneg a; omega
  | cons_cons a _ ih => simp only [List.map_cons, List.sum_cons]; omega

theorem abs_sum_le (l : List ℤ) : |l.sum| ≤ (l.map fun n => |n|).sum := by
  induction l with
  | nil => simp
  | cons a l ih =>
    simp only [List.sum_cons, List.map_cons]
    have := abs_add_le a l.sum
    omega

/-- all entries are integers of absolute value at most `B` -/
def IntArr (v : Vec) (B : ℤ) : Prop := ∀ x ∈ v, ∃ n : ℤ, x = .fin (n : ℝ) ∧ |n| ≤ B

theorem sum_ints (l : List ℤ) : (l.map fun n : ℤ => Fl.fin (n : ℝ)).sum = .fin ((l.sum : ℤ) : ℝ) := by
  have : (l.map fun n : ℤ => Fl.fin (n : ℝ)) = (l.map fun n : ℤ => (n : ℝ)).map Fl.fin := by rw [List.map_map]; rfl
  rw [this, Fl.list_sum_fin]
  congr 1
  push_cast
  rfl

theorem binned_ints {ρ : ℝ → Fl} {N : ℤ} (hρ : ExactInts ρ N) (e : List ℝ) (x : Vec) (zs : List ℤ)
    (h : (zs.map fun n => |n|).sum ≤ N) :
    binnedSumR ρ e x (zs.map fun n : ℤ => Fl.fin (n : ℝ)) = binnedSum e x (zs.map fun n : ℤ => Fl.fin (n : ℝ)) ∧
    ∀ s, binnedSum e x (zs.map fun n : ℤ => Fl.fin (n : ℝ)) = .ok s → IntArr s.data ((zs.map fun n => |n|).sum) := by
  constructor
  · unfold binnedSumR binnedSum
    split
    · rfl
    split
    · congr 2
      apply List.map_congr_left
      intro i _
      obtain ⟨zs', h1, h2⟩ := filter_ints (fun q => binIndex e q = some i) x zs
      rw [h2]
      exact accR_ints hρ zs' ((sublist_abs h1).trans h)
    · rfl
  · intro s hs
    unfold binnedSum at hs
    split at hs
    · cases hs
    split at hs
    · obtain rfl := Except.ok.inj hs
      intro v hv
      obtain ⟨i, -, rfl⟩ := List.mem_map.mp hv
      obtain ⟨zs', h1, h2⟩ := filter_ints (fun q => binIndex e q = some i) x zs
      rw [h2, sum_ints]
      exact ⟨_, rfl, (abs_sum_le zs').trans (sublist_abs h1)⟩
    · cases hs

theorem binned2_ints {ρ : ℝ → Fl} {N : ℤ} (hρ : ExactInts ρ N) (ex ey : List ℝ) (x y : Vec) (zs : List ℤ)
    (h : (zs.map fun n => |n|).sum ≤ N) :
    binnedSum2R ρ ex ey x y (zs.map fun n : ℤ => Fl.fin (n : ℝ)) = binnedSum2 ex ey x y (zs.map fun n : ℤ => Fl.fin (n : ℝ)) ∧
    ∀ s, binnedSum2 ex ey x y (zs.map fun n : ℤ => Fl.fin (n : ℝ)) = .ok s → IntArr s.data ((zs.map fun n => |n|).sum) := by
  constructor
  · unfold binnedSum2R binnedSum2
    split
    · rfl
    split
    · rfl
    split
    · congr 2
      apply List.map_congr_left
      intro k _
      obtain ⟨zs', h1, h2⟩ := filter_ints (fun q : Fl × Fl => binIndex ex q.1 = some (k / (ey.length - 1)) ∧
        binIndex ey q.2 = some (k % (ey.length - 1))) (x.zip y) zs
      rw [h2]
      exact accR_ints hρ zs' ((sublist_abs h1).trans h)
    · rfl
  · intro s hs
    unfold binnedSum2 at hs
    split at hs
    · cases hs
    split at hs
    · cases hs
    split at hs
    · obtain rfl := Except.ok.inj hs
      intro v hv
      obtain ⟨k, -, rfl⟩ := List.mem_map.mp hv
      obtain ⟨zs', h1, h2⟩ := filter_ints (fun q : Fl × Fl => binIndex ex q.1 = some (k / (ey.length - 1)) ∧
        binIndex ey q.2 = some (k % (ey.length - 1))) (x.zip y) zs
      rw [h2, sum_ints]
      exact ⟨_, rfl, (abs_sum_le zs').trans (sublist_abs h1)⟩
    · cases hs

theorem zip_ints {ρ : ℝ → Fl} {N : ℤ} (hρ : ExactInts ρ N) : ∀ (a b : Vec) (A B : ℤ), IntArr a A → IntArr b B → A + B ≤ N →
    List.zipWith (fun x y => (x + y).rd ρ) a b = List.zipWith (· + ·) a b ∧ IntArr (List.zipWith (· + ·) a b) (A + B) := by
  intro a
  induction a with
  | nil => intro b A B _ _ _; simp [IntArr]
  | cons x a ih =>
    intro b A B ha hb hAB
    cases b with
    | nil => simp [IntArr]
    | cons y b =>
      obtain ⟨h1, h2⟩ := ih b A B (fun z hz => ha z (by simp [hz])) (fun z hz => hb z (by simp [hz])) hAB
      obtain ⟨n, rfl, hn⟩ := ha x (by simp)
      obtain ⟨m, rfl, hm⟩ := hb y (by simp)
      have habs := abs_add_le n m
      simp only [List.zipWith_cons_cons, h1, Fl.fin_add, rd_fin]
      rw [← Int.cast_add, hρ (n + m) (by omega)]
      refine ⟨rfl, ?_⟩
      intro z hz
      rcases List.mem_cons.mp hz with rfl | hz
      · exact ⟨n + m, rfl, by omega⟩
      · exact h2 z hz

theorem iadd_ints {ρ : ℝ → Fl} {N : ℤ} (hρ : ExactInts ρ N) (a b : NdArr) (A B : ℤ) (ha : IntArr a.data A) (hb : IntArr b.data B)
    (h : A + B ≤ N) : a.iaddR ρ b = a.iadd b ∧ ∀ c, a.iadd b = .ok c → IntArr c.data (A + B) := by
  obtain ⟨h1, h2⟩ := zip_ints hρ a.data b.data A B ha hb h
  unfold NdArr.iaddR NdArr.iadd
  rw [h1]
  refine ⟨rfl, fun c hc => ?_⟩
  split at hc
  · obtain rfl := Except.ok.inj hc; exact h2
  · cases hc

theorem IntArr.mono {v : Vec} {A B : ℤ} (h : IntArr v A) (hAB : A ≤ B) : IntArr v B := fun x hx =>
  let ⟨n, e, hn⟩ := h x hx
  ⟨n, e, hn.trans hAB⟩

theorem accumulate_ints {ρ : ℝ → Fl} {N : ℤ} (hρ : ExactInts ρ N) (h : Hist) (s s2 s' s2' : Except Err NdArr) (np : Bool)
    (A A2 B B2 : ℤ) (hA : IntArr h.counts.data A) (hA2 : IntArr h.errSq.data A2)
    (es : s' = s) (es2 : s2' = s2) (hB : ∀ v, s = .ok v → IntArr v.data B) (hB2 : ∀ v, s2 = .ok v → IntArr v.data B2)
    (hB0 : 0 ≤ B) (hB20 : 0 ≤ B2) (h1 : A + B ≤ N) (h2 : A2 + B2 ≤ N) :
    h.accumulateR ρ s' s2' np = h.accumulate s s2 np ∧ IntArr (h.accumulate s s2 np).2.counts.data (A + B) ∧
      IntArr (h.accumulate s s2 np).2.errSq.data (A2 + B2) := by
  subst es es2
  have wA := hA.mono (B := A + B) (by omega)
  have wA2 := hA2.mono (B := A2 + B2) (by omega)
  cases s' with
  | error e => exact ⟨rfl, wA, wA2⟩
  | ok s =>
    obtain ⟨i1, i2⟩ := iadd_ints hρ h.counts s A B hA (hB s rfl) h1
    unfold Hist.accumulateR Hist.accumulate
    simp only [i1]
    cases hc : h.counts.iadd s with
    | error e => exact ⟨rfl, wA, wA2⟩
    | ok c =>
      have hci := i2 c hc
      simp only
      cases np with
      | true => exact ⟨rfl, hci, wA2⟩
      | false =>
        simp only [Bool.false_eq_true, if_false]
        cases s2' with
        | error e => exact ⟨rfl, hci, wA2⟩
        | ok s2 =>
          obtain ⟨j1, j2⟩ := iadd_ints hρ h.errSq s2 A2 B2 hA2 (hB2 s2 rfl) h2
          simp only [j1]
          cases hq : h.errSq.iadd s2 with
          | error e => exact ⟨rfl, hci, wA2⟩
          | ok q => exact ⟨rfl, hci, j2 q hq⟩

theorem sq_ints {ρ : ℝ → Fl} {N : ℤ} (hρ : ExactInts ρ N) (zs : List ℤ) (h : (zs.map fun n => n ^ 2).sum ≤ N) :
    ((zs.map fun n : ℤ => Fl.fin (n : ℝ)).map fun x => x.sq.rd ρ) = (zs.map fun n => n ^ 2).map fun n : ℤ => Fl.fin (n : ℝ) := by
  rw [List.map_map, List.map_map]
  apply List.map_congr_left
  intro n hn
  simp only [Function.comp, Fl.sq_fin, rd_fin]
  rw [← Int.cast_pow, hρ]
  rw [abs_of_nonneg (sq_nonneg n)]
  refine le_trans ?_ h
  exact List.single_le_sum (by
    intro x hx; obtain ⟨m, -, rfl⟩ := List.mem_map.mp hx; exact sq_nonneg m) _ (List.mem_map.mpr ⟨n, hn, rfl⟩)

theorem fill_ints {ρ : ℝ → Fl} {N : ℤ} (hρ : ExactInts ρ N) (h : Hist) (f : IntFill) (A A2 : ℤ)
    (hA : IntArr h.counts.data A) (hA2 : IntArr h.errSq.data A2) (hA0 : 0 ≤ A) (hA20 : 0 ≤ A2)
    (h1 : A + (f.ws.map fun n => |n|).sum ≤ N) (h2 : A2 + (f.ws.map fun n => n ^ 2).sum ≤ N) :
    h.fillR ρ f.x f.y f.w = h.fill f.x f.y f.w ∧ IntArr (h.fill f.x f.y f.w).2.counts.data (A + (f.ws.map fun n => |n|).sum) ∧
      IntArr (h.fill f.x f.y f.w).2.errSq.data (A2 + (f.ws.map fun n => n ^ 2).sum) := by
  have hs0 : 0 ≤ (f.ws.map fun n => |n|).sum := List.sum_nonneg (by
    intro x hx; obtain ⟨n, -, rfl⟩ := List.mem_map.mp hx; exact abs_nonneg n)
  have hs20 : 0 ≤ (f.ws.map fun n => n ^ 2).sum := List.sum_nonneg (by
    intro x hx; obtain ⟨n, -, rfl⟩ := List.mem_map.mp hx; exact sq_nonneg n)
  have hsq := sq_ints hρ f.ws (by omega)
  have hsq' : (f.ws.map fun n : ℤ => Fl.fin (n : ℝ)).map Fl.sq = (f.ws.map fun n => n ^ 2).map fun n : ℤ => Fl.fin (n : ℝ) := by
    rw [List.map_map, List.map_map]
    apply List.map_congr_left
    intro n hn
    simp
  have hab : ((f.ws.map fun n => n ^ 2).map fun n : ℤ => |n|).sum = (f.ws.map fun n => n ^ 2).sum := by
    rw [List.map_map]
    congr 1
    apply List.map_congr_left
    intro n _
    exact abs_of_nonneg (sq_nonneg n)
  unfold Hist.fillR Hist.fill
  cases h.cls
  · unfold Hist1d.fillR Hist1d.fill
    simp only [f.ok, hsq, hsq']
    obtain ⟨a1, a2⟩ := binned_ints hρ (h.edges.getD 0 ⟨true, []⟩).vals f.x f.ws (by omega)
    obtain ⟨b1, b2⟩ := binned_ints hρ (h.edges.getD 0 ⟨true, []⟩).vals f.x (f.ws.map fun n => n ^ 2) (by omega)
    rw [hab] at b2
    exact accumulate_ints hρ h _ _ _ _ _ A A2 _ _ hA hA2 a1 b1 a2 b2 hs0 hs20 h1 h2
  · unfold Hist2d.fillR Hist2d.fill
    simp only [f.ok, hsq, hsq']
    obtain ⟨a1, a2⟩ := binned2_ints hρ (h.edges.getD 0 ⟨true, []⟩).vals (h.edges.getD 1 ⟨true, []⟩).vals f.x f.y f.ws (by omega)
    obtain ⟨b1, b2⟩ := binned2_ints hρ (h.edges.getD 0 ⟨true, []⟩).vals (h.edges.getD 1 ⟨true, []⟩).vals f.x f.y
      (f.ws.map fun n => n ^ 2) (by omega)
    rw [hab] at b2
    exact accumulate_ints hρ h _ _ _ _ _ A A2 _ _ hA hA2 a1 b1 a2 b2 hs0 hs20 h1 h2

/-- **C124, histories.** Let a histogram (of either class) hold integers and be filled any number of times with integer weights. If
the total absolute and squared weight stay within the exactly representable integers, the histogram computed with rounding is the
exact one: bin counts, squared bin errors and every exception. -/
theorem C124_fills {ρ : ℝ → Fl} {N : ℤ} (hρ : ExactInts ρ N) (fs : List IntFill) (H : Hist) (A A2 : ℤ) (hA0 : 0 ≤ A) (hA20 : 0 ≤ A2)
    (hA : ∀ x ∈ H.counts.data, ∃ n : ℤ, x = .fin (n : ℝ) ∧ |n| ≤ A) (hA2 : ∀ x ∈ H.errSq.data, ∃ n : ℤ, x = .fin (n : ℝ) ∧ |n| ≤ A2)
    (h1 : A + absWeight fs ≤ N) (h2 : A2 + sqWeight fs ≤ N) :
    (fs.foldl (fun h f => (h.fillR ρ f.x f.y f.w).2) H = fs.foldl (fun h f => (h.fill f.x f.y f.w).2) H) ∧
    (∀ f, A + absWeight (fs ++ [f]) ≤ N → A2 + sqWeight (fs ++ [f]) ≤ N →
      ((fs.foldl (fun h f => (h.fillR ρ f.x f.y f.w).2) H).fillR ρ f.x f.y f.w).1 =
        ((fs.foldl (fun h f => (h.fill f.x f.y f.w).2) H).fill f.x f.y f.w).1) := by
  induction fs generalizing H A A2 with
  | nil =>
    refine ⟨rfl, fun f g1 g2 => ?_⟩
    simp only [absWeight, sqWeight, List.nil_append, List.map_cons, List.map_nil, List.sum_cons, List.sum_nil, add_zero] at g1 g2
    exact congrArg Prod.fst (fill_ints hρ H f A A2 hA hA2 hA0 hA20 g1 g2).1
  | cons f fs ih =>
    have hs0 : 0 ≤ (f.ws.map fun n => |n|).sum := List.sum_nonneg (by
      intro x hx; obtain ⟨n, -, rfl⟩ := List.mem_map.mp hx; exact abs_nonneg n)
    have hs20 : 0 ≤ (f.ws.map fun n => n ^ 2).sum := List.sum_nonneg (by
      intro x hx; obtain ⟨n, -, rfl⟩ := List.mem_map.mp hx; exact sq_nonneg n)
    have t0 : 0 ≤ absWeight fs := List.sum_nonneg (by
      intro x hx; obtain ⟨g, -, rfl⟩ := List.mem_map.mp hx
      exact List.sum_nonneg (by intro x hx; obtain ⟨n, -, rfl⟩ := List.mem_map.mp hx; exact abs_nonneg n))
    have t20 : 0 ≤ sqWeight fs := List.sum_nonneg (by
      intro x hx; obtain ⟨g, -, rfl⟩ := List.mem_map.mp hx
      exact List.sum_nonneg (by intro x hx; obtain ⟨n, -, rfl⟩ := List.mem_map.mp hx; exact sq_nonneg n))
    have c1 : absWeight (f :: fs) = (f.ws.map fun n => |n|).sum + absWeight fs := rfl
    have c2 : sqWeight (f :: fs) = (f.ws.map fun n => n ^ 2).sum + sqWeight fs := rfl
    rw [c1] at h1
    rw [c2] at h2
    obtain ⟨e1, e2, e3⟩ := fill_ints hρ H f A A2 hA hA2 hA0 hA20 (by omega) (by omega)
    obtain ⟨i1, i2⟩ := ih (H.fill f.x f.y f.w).2 _ _ (by omega) (by omega) e2 e3 (by omega) (by omega)
    simp only [List.foldl_cons, e1]
    refine ⟨i1, fun g g1 g2 => i2 g ?_ ?_⟩
    · have : absWeight (f :: fs ++ [g]) = (f.ws.map fun n => |n|).sum + absWeight (fs ++ [g]) := rfl
      omega
    · have : sqWeight (f :: fs ++ [g]) = (f.ws.map fun n => n ^ 2).sum + sqWeight (fs ++ [g]) := rfl
      omega

/-! ### events -/

theorem weightIn_count (edges : List ℝ) (i : ℕ) (data : Vec) :
    weightIn edges i data (data.map fun _ => (1 : Fl)) = .fin ((data.countP fun x => decide (InBin edges i x) : ℕ) : ℝ) := by
  unfold weightIn
  induction data with
  | nil => simp [Fl.zero_def]
  | cons x l ih =>
    simp only [List.map_cons, List.zip_cons_cons, List.filter_cons, List.countP_cons]
    by_cases h : InBin edges i x
    · simp only [h, decide_true, if_true, List.map_cons, List.sum_cons, ih]
      rw [Fl.one_def, Fl.fin_add]
      push_cast
      rw [add_comm]
    · simp only [h, decide_false, Bool.false_eq_true, if_false, ih, add_zero]

theorem inBin_lt {edges : List ℝ} {i : ℕ} {x : Fl} (h : InBin edges i x) : i < edges.length - 1 := by
  cases x with
  | fin r =>
    rcases h with h | ⟨h, -⟩
    · obtain ⟨a, b, -, hb, -⟩ := h
      have := (List.getElem?_eq_some_iff.mp hb).1
      omega
    · omega
  | _ => exact h.elim

theorem count_total {edges : List ℝ} (hp : edges.Pairwise (· < ·)) (h2 : 2 ≤ edges.length) (data : Vec) :
    ((List.range (edges.length - 1)).map fun i => data.countP fun x => decide (InBin edges i x)).sum =
      data.countP fun x => decide (∃ i, InBin edges i x) := by
  induction data with
  | nil => simp
  | cons x l ih =>
    simp only [List.countP_cons]
    rw [List.sum_map_add, ih]
    congr 1
    by_cases h : ∃ i, InBin edges i x
    · obtain ⟨i, hi⟩ := h
      have hlt := inBin_lt hi
      rw [if_pos (by simpa using ⟨i, hi⟩)]
      have e : (List.range (edges.length - 1)).map (fun i' => if decide (InBin edges i' x) = true then 1 else 0) =
          (List.range (edges.length - 1)).map fun i' => if i' = i then 1 else 0 := by
        apply List.map_congr_left
        intro i' _
        by_cases hii : i' = i
        · subst hii; simp [hi]
        · have : ¬ InBin edges i' x := fun h' => hii (inBin_unique hp h2 h' hi)
          simp [hii, this]
      rw [e, show ((List.range (edges.length - 1)).map fun i' => if i' = i then 1 else 0).sum =
        ∑ i' ∈ Finset.range (edges.length - 1), if i' = i then 1 else 0 from rfl]
      simp [hlt]
    · rw [if_neg (by simpa using h)]
      rw [List.sum_eq_zero]
      intro y hy
      obtain ⟨i, -, rfl⟩ := List.mem_map.mp hy
      rw [if_neg]
      simpa using fun hi => h ⟨i, hi⟩

/-- **C124, events.** A `Hist1d` in double precision, filled any number of times without weights and with at most 2^53 events in
total, holds exactly the number of events of each bin and equal squared errors; however `np.sum` adds the bins up, the total is the
number of events inside the range. -/
theorem C124_events (e : Edges) (r : Option PyRange) (he : 2 ≤ e.vals.length ∧ e.vals.Pairwise (· < ·)) (batches : List Vec)
    (hN : (batches.map List.length).sum ≤ 2 ^ 53) :
    ∃ H, Hist1d.new (.edges e) r none .none = .ok H ∧
    ∀ H', H' = batches.foldl (fun h d => (h.fillR float64 d [] .none).2) H →
      H'.counts.data.length = e.vals.length - 1 ∧ H'.errSq.data = H'.counts.data ∧
      (∀ i < e.vals.length - 1,
        H'.counts.data[i]? = some (.fin ((batches.flatten.countP fun x => decide (InBin e.vals i x) : ℕ) : ℝ))) ∧
      ∀ v, SumR float64 H'.counts.data v → v = .fin ((batches.flatten.countP fun x => decide (∃ i, InBin e.vals i x) : ℕ) : ℝ) := by
  obtain ⟨H, h1, h2, h3⟩ := acc1_init (bins := .edges e) (range := r) (edges := e.vals) (.inr ⟨e, rfl, he, rfl⟩)
  refine ⟨H, by simp [Hist1d.new, h1], ?_⟩
  rintro _ rfl
  have hcls : H.cls = .h1 := h2.good.cls
  -- without rounding
  set fs : List IntFill := batches.map fun d => ⟨d, [], .none, List.replicate d.length 1, by
    simp [Weights.values, Fl.one_def]⟩ with hfs
  have hw1 : absWeight fs = ((batches.map List.length).sum : ℕ) := by
    rw [hfs]; unfold absWeight
    rw [List.map_map]
    induction batches with
    | nil => rfl
    | cons d l ih =>
      have := ih (by simp at hN; omega) rfl
      simp only [List.map_cons, List.sum_cons, this, Function.comp]
      simp
  have hw2 : sqWeight fs = ((batches.map List.length).sum : ℕ) := by
    rw [hfs]; unfold sqWeight
    rw [List.map_map]
    clear hw1 hfs
    induction batches with
    | nil => rfl
    | cons d l ih =>
      have := ih (by simp at hN; omega)
      simp only [List.map_cons, List.sum_cons, this, Function.comp]
      simp
  have hz : ∀ x ∈ H.counts.data, ∃ n : ℤ, x = .fin (n : ℝ) ∧ |n| ≤ 0 := by
    intro x hx
    obtain ⟨i, hi, rfl⟩ := List.getElem_of_mem hx
    have := h2.cnt i (by rw [← h2.good.counts_len]; exact hi)
    rw [List.getElem?_eq_getElem hi] at this
    exact ⟨0, by rw [Option.some.inj this]; simp [weightIn, Fl.zero_def], by simp⟩
  have hz2 : ∀ x ∈ H.errSq.data, ∃ n : ℤ, x = .fin (n : ℝ) ∧ |n| ≤ 0 := by
    intro x hx
    obtain ⟨i, hi, rfl⟩ := List.getElem_of_mem hx
    have := h2.err i (by rw [← h2.good.err_len]; exact hi)
    rw [List.getElem?_eq_getElem hi] at this
    exact ⟨0, by rw [Option.some.inj this]; simp [weightSqIn, Fl.zero_def], by simp⟩
  have hN' : (((batches.map List.length).sum : ℕ) : ℤ) ≤ 2 ^ 53 := by exact_mod_cast hN
  have hex : ExactInts float64 (2 ^ 53) := float64_int
  have h4 := (C124_fills hex fs H 0 0 le_rfl le_rfl hz hz2 (by rw [hw1]; omega) (by rw [hw2]; omega)).1
  rw [hfs, List.foldl_map, List.foldl_map] at h4
  simp only at h4
  have hcl : ∀ (bs : List Vec) (h : Hist), h.cls = .h1 →
      bs.foldl (fun h d => (h.fill d [] .none).2) h =
        (bs.map fun d => (⟨d, d.map fun _ => 1, .none⟩ : Batch1)).foldl (fun h b => (Hist1d.fill h b.data b.arg).2) h := by
    intro bs
    induction bs with
    | nil => intro h _; rfl
    | cons d l ih =>
      intro h hc
      have e1 : h.fill d [] .none = Hist1d.fill h d .none := by unfold Hist.fill; rw [hc]
      simp only [List.foldl_cons, List.map_cons, e1]
      refine ih _ ?_
      have : ∀ s s2 b, (h.accumulate s s2 b).2.cls = h.cls := by
        intro s s2 b
        unfold Hist.accumulate
        split
        · rfl
        split
        · rfl
        simp only
        split
        · rfl
        split
        · rfl
        split <;> rfl
      unfold Hist1d.fill
      rw [this, hc]
  rw [h4, hcl _ _ hcls]
  obtain ⟨g, -⟩ := acc1_run (batches.map fun d => (⟨d, d.map fun _ => 1, .none⟩ : Batch1)) h2 rfl (by
    intro b hb
    obtain ⟨d, -, rfl⟩ := List.mem_map.mp hb
    exact ⟨.inl ⟨rfl, rfl⟩, by simp⟩)
  set H' := (batches.map fun d => (⟨d, d.map fun _ => 1, .none⟩ : Batch1)).foldl (fun h b => (Hist1d.fill h b.data b.arg).2) H
  have hd : [] ++ ((batches.map fun d => (⟨d, d.map fun _ => 1, .none⟩ : Batch1)).map (·.data)).flatten = batches.flatten := by
    rw [List.map_map, List.nil_append]
    congr 1
    exact List.map_id' batches
  have hw : [] ++ ((batches.map fun d => (⟨d, d.map fun _ => 1, .none⟩ : Batch1)).map (·.w)).flatten =
      batches.flatten.map fun _ => (1 : Fl) := by
    rw [List.map_map, List.nil_append, List.map_flatten]
    rfl
  rw [hd, hw] at g
  have hc : ∀ i < e.vals.length - 1,
      H'.counts.data[i]? = some (.fin ((batches.flatten.countP fun x => decide (InBin e.vals i x) : ℕ) : ℝ)) := by
    intro i hi
    rw [g.cnt i hi, weightIn_count]
  refine ⟨g.good.counts_len, ?_, hc, ?_⟩
  · apply List.ext_getElem?
    intro i
    by_cases hi : i < e.vals.length - 1
    · rw [g.cnt i hi, g.err i hi, weightSqIn_ones]
    · rw [List.getElem?_eq_none (by rw [g.good.err_len]; omega), List.getElem?_eq_none (by rw [g.good.counts_len]; omega)]
  · intro v hv
    have hl : H'.counts.data = ((List.range (e.vals.length - 1)).map fun i =>
        ((batches.flatten.countP fun x => decide (InBin e.vals i x) : ℕ) : ℤ)).map fun n : ℤ => Fl.fin (n : ℝ) := by
      apply List.ext_getElem?
      intro i
      rw [List.getElem?_map, List.getElem?_map]
      by_cases hi : i < e.vals.length - 1
      · rw [hc i hi, List.getElem?_range hi, Option.map_some, Option.map_some, Int.cast_natCast]
      · rw [List.getElem?_eq_none (by rw [g.good.counts_len]; omega), List.getElem?_eq_none (by simpa using hi)]; rfl
    rw [hl] at hv
    have ht := count_total he.2 he.1 batches.flatten
    have hs : ((List.range (e.vals.length - 1)).map fun i =>
        ((batches.flatten.countP fun x => decide (InBin e.vals i x) : ℕ) : ℤ)).sum =
        ((batches.flatten.countP fun x => decide (∃ i, InBin e.vals i x) : ℕ) : ℤ) := by
      rw [← ht]
      push_cast
      rw [List.map_map]
      rfl
    have hle : batches.flatten.countP (fun x => decide (∃ i, InBin e.vals i x)) ≤ (batches.map List.length).sum := by
      refine List.countP_le_length.trans (le_of_eq ?_)
      exact List.length_flatten
    have := C124_sum hex _ (by
      rw [List.map_map]
      have : (abs ∘ fun i => ((batches.flatten.countP fun x => decide (InBin e.vals i x) : ℕ) : ℤ)) =
        fun i => ((batches.flatten.countP fun x => decide (InBin e.vals i x) : ℕ) : ℤ) := by
        funext i; exact abs_of_nonneg (Int.natCast_nonneg _)
      rw [show (fun n : ℤ => |n|) = abs from rfl, this, hs]
      omega) v hv
    rw [this, hs]
    push_cast
    rfl

/-- **C124, the limit is sharp.** In double precision a bin that holds 2^53 events stays as it is when one more event is filled. -/
theorem C124_sharp : ∃ H : Hist, H.counts.data = [.fin (2 ^ 53)] ∧ (H.fillR float64 [.fin (1 / 2)] [] .none).1 = .ok () ∧
    (H.fillR float64 [.fin (1 / 2)] [] .none).2.counts.data = [.fin (2 ^ 53)] ∧
    (H.fill [.fin (1 / 2)] [] .none).2.counts.data = [.fin (2 ^ 53 + 1)] := by
  have h01 : InBin [0, 1] 0 (.fin (1 / 2)) := Or.inl ⟨0, 1, rfl, rfl, by norm_num, by norm_num⟩
  have hp : ([0, 1] : List ℝ).Pairwise (· < ·) := by simp
  have hb := (binIndex_iff hp (by simp) (.fin (1 / 2)) 0).mpr h01
  have hv : validEdges [0, 1] := ⟨by simp, hp⟩
  have h1 : float64 (0 + 1) = .fin 1 := by
    have := float64_int 1 (by norm_num)
    simpa using this
  have h1' : float64 1 = .fin 1 := by simpa using h1
  refine ⟨⟨.h1, ⟨[1], [.fin (2 ^ 53)]⟩, ⟨[1], [.fin (2 ^ 53)]⟩, [⟨true, [0, 1]⟩], [1], [1], .d1 .tuple 0 1, false⟩, rfl, ?_, ?_, ?_⟩
  all_goals
    simp only [Hist.fillR, Hist1d.fillR, Hist.fill, Hist1d.fill, Weights.values, binnedSumR, binnedSum, hv, hb, List.getD_cons_zero,
      List.length_cons, List.length_nil, List.length_replicate, List.length_map, List.replicate_succ, List.replicate_zero,
      List.map_cons, List.map_nil, Fl.one_def, Fl.sq_fin, rd_fin, one_pow, h1', ne_eq, not_true_eq_false, if_false, if_true,
      List.zip_cons_cons, List.zip_nil_right, List.filter_cons, List.filter_nil, decide_true, accR, List.foldl_cons, List.foldl_nil,
      Fl.zero_def, Fl.fin_add, h1, Hist.accumulateR, Hist.accumulate, NdArr.iaddR, NdArr.iadd, Weights.noPow, List.range_succ,
      List.range_zero, List.nil_append, List.zipWith_cons_cons, List.zipWith_nil_left, float64_tie, and_self, Bool.false_eq_true,
      List.sum_cons, List.sum_nil, add_zero, zero_add, Nat.add_sub_cancel]

/-- non-vacuity of C124: edges 0, 1, 2; two batches with four events, one outside -/
example : ∃ H, Hist1d.new (.edges ⟨true, [0, 1, 2]⟩) none none .none = .ok H ∧
    ∀ v, SumR float64 ([[.fin (1 / 2), .fin (3 / 2)], [.fin (3 / 2), .fin 7]].foldl (fun h d => (h.fillR float64 d [] .none).2) H).counts.data v →
      v = .fin 3 := by
  obtain ⟨H, h1, h2⟩ := C124_events ⟨true, [0, 1, 2]⟩ none ⟨by simp, by simp⟩
    [[.fin (1 / 2), .fin (3 / 2)], [.fin (3 / 2), .fin 7]] (by norm_num)
  refine ⟨H, h1, fun v hv => ?_⟩
  obtain ⟨-, -, -, h3⟩ := h2 _ rfl
  rw [h3 v hv]
  have a1 : ∃ i, InBin [0, 1, 2] i (.fin (1 / 2)) := ⟨0, .inl ⟨0, 1, rfl, rfl, by norm_num, by norm_num⟩⟩
  have a2 : ∃ i, InBin [0, 1, 2] i (.fin (3 / 2)) := ⟨1, .inl ⟨1, 2, rfl, rfl, by norm_num, by norm_num⟩⟩
  have a3 : ¬ ∃ i, InBin [0, 1, 2] i (.fin 7) := by
    rintro ⟨i, hi⟩
    have hlt := inBin_lt hi
    rcases hi with ⟨a, b, h1, h2, h3, h4⟩ | ⟨-, hr⟩
    · simp only [List.length_cons, List.length_nil] at hlt
      have : i = 0 ∨ i = 1 := by omega
      rcases this with rfl | rfl
      · simp at h2; rw [← h2] at h4; norm_num at h4
      · simp at h2; rw [← h2] at h4; norm_num at h4
    · have := (C01_right_edge_tolerance [0, 1, 2] (by simp) (by simp) 7 hr 0 1 0 rfl rfl).2
      norm_num at this
  simp only [List.flatten_cons, List.flatten_nil, List.append_nil, List.cons_append, List.nil_append, List.countP_cons, List.countP_nil,
    a1, a2, a3, decide_true, decide_false, if_true, Bool.false_eq_true, if_false]
  norm_num

end

end TF.Props
