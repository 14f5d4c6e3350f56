import Verif.Props.ScaleProps
import Verif.Props.MctProps11

set_option linter.unusedSimpArgs false

/-!
# Symmetries of the likelihood (C116, C117) and unused processes (C118)
-/

namespace TF.Spec

open Classical

noncomputable section

/-- the channel with the efficiency of every process multiplied by its factor -/
def NamedChan.effTimes (D : NamedChan) (l : String → ℝ) : NamedChan := { D with eff := fun p => l p * D.eff p }

/-- the channel with its bins renumbered: bin `i` of the new one is bin `σ i` of the old one -/
def NamedChan.renumber (D : NamedChan) (σ : Equiv.Perm (Fin D.n)) : NamedChan :=
  { D with
    cnt := fun p i => D.cnt p (σ i)
    ε := fun p i => D.ε p (σ i)
    R := fun p => (D.R p).submatrix σ σ
    d := fun i => D.d (σ i) }

end

end TF.Spec

namespace TF.Props

open Classical Spec
open scoped Matrix

noncomputable section

/-- **C116.** Two models that differ only in the efficiencies: in the second all efficiencies of process `p` are `l p` times those of the
first, and a constraint on its yield is divided by `l p`. Then the likelihood of the second at the yields divided by `l` is that of the first. -/
theorem C116_efficiency (s s' : Sys) (h : s.Built) (h' : s'.Built) (hne : s.m.channels ≠ [])
    (A : Finset String) (D : String → NamedChan) (l : String → ℝ) (hl : ∀ p, l p ≠ 0)
    (hm : NamedModel s A D) (hm' : NamedModel s' A fun a => (D a).effTimes l)
    (V E : String → ℝ) (hc : ConstraintsAre s V E) (hc' : ConstraintsAre s' (fun p => V p / l p) (fun p => E p / l p))
    (hcon : s.m.constrained.Perm s'.m.constrained) (ν : String → ℝ)
    (θ : ∀ a, String → Fin (D a).n → ℝ) (hreg : ∀ a ∈ A, (D a).Regular ν (θ a)) :
    ∃ v : ℝ, (s.m.nll s.w (namedVec s D ν θ)).1 = .ok (.fin v) ∧
      (s'.m.nll s'.w (namedVec s' (fun a => (D a).effTimes l) (fun p => ν p / l p) θ)).1 = .ok (.fin v) := by
  have hne' : s'.m.channels ≠ [] := by
    intro e
    obtain ⟨x, hx⟩ := List.exists_mem_of_ne_nil _ hne
    have h1 : x.1 ∈ A := (hm.names _).mpr (List.mem_map.mpr ⟨x, hx, rfl⟩)
    have h2 := (hm'.names _).mp h1
    rw [e] at h2; simp at h2
  have hexp : ∀ a (i : Fin (D a).n), ((D a).effTimes l).expected (fun p => ν p / l p) (θ a) i = (D a).expected ν (θ a) i := by
    intro a i
    unfold NamedChan.expected NamedChan.effTimes
    refine Finset.sum_congr rfl fun p _ => ?_
    simp only
    have := hl p
    congr 1
    field_simp
  have hnll : ∀ a, ((D a).effTimes l).nll (fun p => ν p / l p) (θ a) = (D a).nll ν (θ a) := by
    intro a
    have e : ∀ i : Fin (D a).n, ((D a).effTimes l).expected (fun p => ν p / l p) (θ a) i = (D a).expected ν (θ a) i := hexp a
    unfold NamedChan.nll
    congr 1
    exact Finset.sum_congr rfl fun i _ => by rw [e i]; rfl
  have e1 := C98_by_name s h hne A D hm V E hc ν θ hreg
  have e2 := C98_by_name s' h' hne' A _ hm' _ _ hc' (fun p => ν p / l p) θ (fun a ha => ⟨(hreg a ha).data, (hreg a ha).sums, fun i => by
    have e : ((D a).effTimes l).expected (fun p => ν p / l p) (θ a) i = (D a).expected ν (θ a) i := hexp a i
    have := (hreg a ha).pos i
    rw [← e] at this
    exact this⟩)
  refine ⟨_, e1, ?_⟩
  rw [e2, (hcon.map _).sum_eq]
  congr 3
  · exact Finset.sum_congr rfl fun a _ => hnll a
  · refine congrArg List.sum (List.map_congr_left fun p hp => ?_)
    have h1 := hl p
    have h2 := (hc p (hcon.mem_iff.mpr hp)).2.2.2
    field_simp

/-- **C117.** Two models that differ only in the numbering of the bins of their channels: the likelihood is the same at the same yields, with
the nuisance parameters renumbered in the same way. -/
theorem C117_bins (s s' : Sys) (h : s.Built) (h' : s'.Built) (hne : s.m.channels ≠ [])
    (A : Finset String) (D : String → NamedChan) (σ : ∀ a, Equiv.Perm (Fin (D a).n))
    (hm : NamedModel s A D) (hm' : NamedModel s' A fun a => (D a).renumber (σ a))
    (V E : String → ℝ) (hc : ConstraintsAre s V E) (hc' : ConstraintsAre s' V E)
    (hcon : s.m.constrained.Perm s'.m.constrained) (ν : String → ℝ)
    (θ : ∀ a, String → Fin (D a).n → ℝ) (hreg : ∀ a ∈ A, (D a).Regular ν (θ a)) :
    ∃ v : ℝ, (s.m.nll s.w (namedVec s D ν θ)).1 = .ok (.fin v) ∧
      (s'.m.nll s'.w (namedVec s' (fun a => (D a).renumber (σ a)) ν (fun a p i => θ a p (σ a i)))).1 = .ok (.fin v) := by
  have hne' : s'.m.channels ≠ [] := by
    intro e
    obtain ⟨x, hx⟩ := List.exists_mem_of_ne_nil _ hne
    have h1 : x.1 ∈ A := (hm.names _).mpr (List.mem_map.mpr ⟨x, hx, rfl⟩)
    have h2 := (hm'.names _).mp h1
    rw [e] at h2; simp at h2
  have hS : ∀ a p, ∑ i : Fin (D a).n, (D a).cnt p (σ a i) * (1 + θ a p (σ a i) * (D a).ε p (σ a i)) =
      ∑ i, (D a).cnt p i * (1 + θ a p i * (D a).ε p i) := fun a p =>
    Equiv.sum_comp (σ a) fun i => (D a).cnt p i * (1 + θ a p i * (D a).ε p i)
  have hexp : ∀ a (i : Fin (D a).n), ((D a).renumber (σ a)).expected ν (fun p i => θ a p (σ a i)) i = (D a).expected ν (θ a) (σ a i) := by
    intro a i
    unfold NamedChan.expected NamedChan.renumber
    refine Finset.sum_congr rfl fun p _ => ?_
    simp only
    rw [hS a p]
  have hnll : ∀ a, ((D a).renumber (σ a)).nll ν (fun p i => θ a p (σ a i)) = (D a).nll ν (θ a) := by
    intro a
    unfold NamedChan.nll
    congr 1
    · rw [← Equiv.sum_comp (σ a) fun i => if (D a).d i = 0 then (D a).expected ν (θ a) i
        else (D a).expected ν (θ a) i - (D a).d i - (D a).d i * Real.log ((D a).expected ν (θ a) i / (D a).d i)]
      refine Finset.sum_congr rfl fun i _ => ?_
      have := hexp a i
      rw [this]; rfl
    · congr 1
      refine Finset.sum_congr rfl fun p _ => ?_
      show (fun i => θ a p (σ a i)) ⬝ᵥ (((D a).R p).submatrix (σ a) (σ a))⁻¹.mulVec (fun i => θ a p (σ a i)) = _
      rw [Matrix.inv_submatrix_equiv]
      have hmv : (((D a).R p)⁻¹.submatrix (σ a) (σ a)).mulVec (fun i => θ a p (σ a i)) =
          fun i => (((D a).R p)⁻¹.mulVec (θ a p)) (σ a i) := by
        funext i
        simp only [Matrix.mulVec, dotProduct, Matrix.submatrix_apply]
        exact Equiv.sum_comp (σ a) fun j => ((D a).R p)⁻¹ (σ a i) j * θ a p j
      rw [hmv]
      exact Equiv.sum_comp (σ a) fun i => θ a p i * (((D a).R p)⁻¹.mulVec (θ a p)) i
  have e1 := C98_by_name s h hne A D hm V E hc ν θ hreg
  have e2 := C98_by_name s' h' hne' A _ hm' V E hc' ν (fun a p i => θ a p (σ a i)) (fun a ha => ⟨fun i => (hreg a ha).data _, fun p hp => by
    have := (hreg a ha).sums p hp
    rw [← hS a p] at this
    exact this, fun i => by
    have e : ((D a).renumber (σ a)).expected ν (fun p i => θ a p (σ a i)) i = (D a).expected ν (θ a) (σ a i) := hexp a i
    have := (hreg a ha).pos (σ a i)
    rw [← e] at this
    exact this⟩)
  refine ⟨_, e1, ?_⟩
  rw [e2, (hcon.map _).sum_eq]
  congr 3
  exact Finset.sum_congr rfl fun a _ => hnll a

namespace Ex

/-! example for C116: efficiencies of `sig` doubled, of `bkg` tripled -/

/-- `ops1` with other efficiencies -/
def ops1e : List Op :=
  [.defineChannel "a" (.int 2) (.d1 .tuple 0 2), .defineChannel "b" (.int 2) (.d1 .tuple 0 2),
   .defineProcess "sig", .defineProcess "bkg",
   .addTemplate "a" "sig" 0 (.fin 1), .addTemplate "a" "bkg" 1 (.fin 3),
   .addTemplate "b" "bkg" 2 (.fin (3/4)), .addData [("a", 2), ("b", 2)]]

def chAe : Channel :=
  ⟨"a", [2], .d1 .tuple 0 2, ["sig", "bkg"], [("sig", 0), ("bkg", 1)],
   [("sig", .fin 1), ("bkg", .fin 3)], some 2, some 1, some .t1, some .h1⟩

def chBe : Channel :=
  ⟨"b", [2], .d1 .tuple 0 2, ["bkg"], [("bkg", 2)], [("bkg", .fin (3/4))], some 2, some 1, some .t1, some .h1⟩

/-- the heap after `ops0 ++ ops1e` -/
def w1e : World :=
  { w0 with
    chans := Function.update (Function.update (fun _ => dummyChan) 0 chAe) 1 chBe
    nChans := 2 }

/-- the complete example -/
def sys1e : Sys := ⟨w1e, m1⟩

theorem run1e : Sys.init.run (ops0 ++ ops1e) = sys1e := by
  rw [run_append, run0]
  have e : ∀ (x y : Channel) , (Function.update (Function.update (fun _ : ℕ => dummyChan) 0 x) 1 y) 1 = y := by
    intro x y; simp
  simp only [ops1e, Sys.run, List.foldl_cons, List.foldl_nil, Sys.step, Mct.defineChannel, Mct.defineProcess,
    Mct.addTemplate, World.addTemplate, Mct.empty, World.newChan, dictSet, dictGet, Mct.addData, World.addData,
    World.setChan]
  simp [w0, World.init, Channel.new, Channel.addTemplate, Channel.checkTemplate, Channel.procs, bt, bh,
    Hist.setBinned, Hist.blank, ChanBins.toTuple, dictSet, dictGet, Channel.addData, Channel.checkHist,
    Function.update_apply, sys1e, w1e, m1, chAe, chBe]
  funext i
  by_cases h0 : i = 0
  · subst h0; simp
  · by_cases h1 : i = 1
    · subst h1; simp
    · simp [h0, h1]

/-- the factors on the efficiencies -/
def lamE (p : String) : ℝ := if p = "sig" then 2 else 3

theorem tme_s : sys1e.w.tmpls 0 = bt "s" 0 ![4, 6] ![2, 3] := by simp [sys1e, w1e, w0]
theorem tme_b : sys1e.w.tmpls 1 = bt "b" 1 ![5, 5] ![1, 1] := by simp [sys1e, w1e, w0]
theorem tme_c : sys1e.w.tmpls 2 = bt "c" 1 ![5, 5] ![1, 1] := by simp [sys1e, w1e, w0]

theorem named1e : NamedModel sys1e {"a", "b"} fun a => (D1 a).effTimes lamE := by
  refine ⟨by intro a; simp [sys1e, m1], ?_⟩
  intro a c hc
  have hc : (a = "a" ∧ c = 0) ∨ (a = "b" ∧ c = 1) := by simpa [sys1e, m1] using hc
  rcases hc with ⟨rfl, rfl⟩ | ⟨rfl, rfl⟩
  · refine ⟨Nat.two_pos, ⟨"sig", by simp [D1, DA, DB, NamedChan.effTimes]⟩, ?_, ?_, ?_, 2, ?_, ?_⟩
    · intro p; simp [D1, DA, DB, NamedChan.effTimes, sys1e, w1e, chAe, Channel.procs]
    · intro p e hm
      simp [sys1e, w1e, chAe] at hm
      rcases hm with ⟨rfl, rfl⟩ | ⟨rfl, rfl⟩ <;> simp [D1, DA, NamedChan.effTimes, lamE]
    · intro p t hm
      have hm : (p = "sig" ∧ t = 0) ∨ (p = "bkg" ∧ t = 1) := by simpa [sys1e, w1e, chAe] using hm
      rcases hm with ⟨rfl, rfl⟩ | ⟨rfl, rfl⟩
      · refine ⟨?_, Matrix.PosDef.one, ?_, ?_⟩
        · rw [tme_s]; exact bt_shape "s" 0 ![4, 6] ![2, 3] (by intro i; fin_cases i <;> simp) (by intro i; fin_cases i <;> simp)
        · rw [tme_s]; exact one_real
        · show IsReal _ (1 : Matrix (Fin 2) (Fin 2) ℝ)⁻¹
          rw [inv_one]
          rw [tme_s]; exact one_real
      · refine ⟨?_, Matrix.PosDef.one, ?_, ?_⟩
        · rw [tme_b]; exact bt_shape "b" 1 ![5, 5] ![1, 1] (by intro i; fin_cases i <;> simp) (by intro i; fin_cases i <;> simp)
        · rw [tme_b]; exact one_real
        · show IsReal _ (1 : Matrix (Fin 2) (Fin 2) ℝ)⁻¹
          rw [inv_one]
          rw [tme_b]; exact one_real
    · simp [sys1e, w1e, chAe]
    · show _ = vec (![10, 5] : Fin 2 → ℝ)
      simp [sys1e, w1e, w0, bh, Hist.setBinned]
  · refine ⟨Nat.two_pos, ⟨"bkg", by simp [D1, DA, DB, NamedChan.effTimes]⟩, ?_, ?_, ?_, 2, ?_, ?_⟩
    · intro p; simp [D1, DA, DB, NamedChan.effTimes, sys1e, w1e, chBe, Channel.procs]
    · intro p e hm
      simp [sys1e, w1e, chBe] at hm
      obtain ⟨rfl, rfl⟩ := hm
      simp [D1, DB, NamedChan.effTimes, lamE]; norm_num
    · intro p t hm
      have hm : (p = "bkg" ∧ t = 2) := by simpa [sys1e, w1e, chBe] using hm
      obtain ⟨rfl, rfl⟩ := hm
      refine ⟨?_, Matrix.PosDef.one, ?_, ?_⟩
      · rw [tme_c]; exact bt_shape "c" 1 ![5, 5] ![1, 1] (by intro i; fin_cases i <;> simp) (by intro i; fin_cases i <;> simp)
      · rw [tme_c]; exact one_real
      · show IsReal _ (1 : Matrix (Fin 2) (Fin 2) ℝ)⁻¹
        rw [inv_one]
        rw [tme_c]; exact one_real
    · simp [sys1e, w1e, chBe]
    · show _ = vec (![10, 5] : Fin 2 → ℝ)
      simp [sys1e, w1e, w0, bh, Hist.setBinned]

theorem built1e : sys1e.Built := by
  refine ⟨ops0 ++ ops1e, setupFirst_noEval ?_, run1e⟩
  intro o ho
  simp only [ops0, ops1e, List.mem_append, List.mem_cons, List.not_mem_nil, or_false] at ho
  rcases ho with (rfl | rfl | rfl | rfl | rfl | rfl) | (rfl | rfl | rfl | rfl | rfl | rfl | rfl | rfl) <;> exact id

/-! example for C117: the two bins exchanged -/

/-- the program `ops0` with the two bins exchanged -/
def ops0p : List Op :=
  [.binned1 ⟨[2], vec ![6, 4]⟩ ⟨true, [0, 1, 2]⟩ (some ⟨[2], vec ![3, 2]⟩),
   .binned1 ⟨[2], vec ![5, 5]⟩ ⟨true, [0, 1, 2]⟩ (some ⟨[2], vec ![1, 1]⟩),
   .binned1 ⟨[2], vec ![5, 10]⟩ ⟨true, [0, 1, 2]⟩ (some ⟨[2], vec ![2, 3]⟩),
   .newTmpl1 "s" 0, .newTmpl1 "b" 1, .newTmpl1 "c" 1]

/-- the heap after `ops0p` -/
def w0p : World :=
  { World.init with
    hists := Function.update (Function.update (Function.update (fun _ => dummyHist) 0 (bh ![6, 4] ![3, 2]))
      1 (bh ![5, 5] ![1, 1])) 2 (bh ![5, 10] ![2, 3])
    nHists := 3
    tmpls := Function.update (Function.update (Function.update (fun _ => dummyTmpl) 0
      (bt "s" 0 ![6, 4] ![3, 2])) 1 (bt "b" 1 ![5, 5] ![1, 1])) 2 (bt "c" 1 ![5, 5] ![1, 1])
    nTmpls := 3 }

theorem run0p : Sys.init.run ops0p = ⟨w0p, Mct.empty⟩ := by
  have hb := fun (n : String) (i : ℕ) (c e : Fin 2 → ℝ) => bt_eq n i c e
  simp only [ops0p, Sys.run, List.foldl_cons, List.foldl_nil, Sys.step, bh_eq, Sys.allocHist, World.newHist,
    Sys.init, World.init, Sys.allocTmpl, World.newTmpl]
  simp [bt_eq, Sys.allocTmpl, World.newTmpl, Function.update_apply]
  rfl

/-- the heap after `ops0p ++ ops1` -/
def w1p : World :=
  { w0p with
    chans := Function.update (Function.update (fun _ => dummyChan) 0 chA) 1 chB
    nChans := 2 }

/-- the complete example -/
def sys1p : Sys := ⟨w1p, m1⟩

theorem run1p : Sys.init.run (ops0p ++ ops1) = sys1p := by
  rw [run_append, run0p]
  have e : ∀ (x y : Channel) , (Function.update (Function.update (fun _ : ℕ => dummyChan) 0 x) 1 y) 1 = y := by
    intro x y; simp
  simp only [ops1, Sys.run, List.foldl_cons, List.foldl_nil, Sys.step, Mct.defineChannel, Mct.defineProcess,
    Mct.addTemplate, World.addTemplate, Mct.empty, World.newChan, dictSet, dictGet, Mct.addData, World.addData,
    World.setChan]
  simp [w0p, World.init, Channel.new, Channel.addTemplate, Channel.checkTemplate, Channel.procs, bt, bh,
    Hist.setBinned, Hist.blank, ChanBins.toTuple, dictSet, dictGet, Channel.addData, Channel.checkHist,
    Function.update_apply, sys1p, w1p, m1, chA, chB]
  funext i
  by_cases h0 : i = 0
  · subst h0; simp
  · by_cases h1 : i = 1
    · subst h1; simp
    · simp [h0, h1]

theorem tmp_s : sys1p.w.tmpls 0 = bt "s" 0 ![6, 4] ![3, 2] := by simp [sys1p, w1p, w0p]
theorem tmp_b : sys1p.w.tmpls 1 = bt "b" 1 ![5, 5] ![1, 1] := by simp [sys1p, w1p, w0p]
theorem tmp_c : sys1p.w.tmpls 2 = bt "c" 1 ![5, 5] ![1, 1] := by simp [sys1p, w1p, w0p]

/-- read the bins backwards: with two bins, exchange them -/
def swap2 (a : String) : Equiv.Perm (Fin (D1 a).n) := Fin.revPerm

theorem rev_one : (1 : Matrix (Fin 2) (Fin 2) ℝ).submatrix (Fin.revPerm : Equiv.Perm (Fin 2)) (Fin.revPerm : Equiv.Perm (Fin 2)) = 1 :=
  Matrix.submatrix_one_equiv _

theorem rev_vec (x y : ℝ) : (fun i : Fin 2 => (![x, y] : Fin 2 → ℝ) (Fin.revPerm i)) = ![y, x] := by
  funext i; fin_cases i <;> rfl

theorem rev_div (x y u v : ℝ) : (fun i : Fin 2 => (![x, y] : Fin 2 → ℝ) (Fin.revPerm i) / (![u, v] : Fin 2 → ℝ) (Fin.revPerm i)) =
    fun i : Fin 2 => (![y, x] : Fin 2 → ℝ) i / (![v, u] : Fin 2 → ℝ) i := by
  funext i; fin_cases i <;> rfl

theorem named1p : NamedModel sys1p {"a", "b"} fun a => (D1 a).renumber (swap2 a) := by
  refine ⟨by intro a; simp [sys1p, m1], ?_⟩
  intro a c hc
  have hc : (a = "a" ∧ c = 0) ∨ (a = "b" ∧ c = 1) := by simpa [sys1p, m1] using hc
  have hpd : (((1 : Matrix (Fin 2) (Fin 2) ℝ)).submatrix (Fin.revPerm : Equiv.Perm (Fin 2)) (Fin.revPerm : Equiv.Perm (Fin 2))).PosDef := by
    rw [rev_one]; exact Matrix.PosDef.one
  have hinv : (((1 : Matrix (Fin 2) (Fin 2) ℝ)).submatrix (Fin.revPerm : Equiv.Perm (Fin 2)) (Fin.revPerm : Equiv.Perm (Fin 2)))⁻¹ = 1 := by
    rw [rev_one, inv_one]
  rcases hc with ⟨rfl, rfl⟩ | ⟨rfl, rfl⟩
  · refine ⟨Nat.two_pos, ⟨"sig", by simp [D1, DA, DB, NamedChan.renumber]⟩, ?_, ?_, ?_, 2, ?_, ?_⟩
    · intro p; simp [D1, DA, DB, NamedChan.renumber, sys1p, w1p, chA, Channel.procs]
    · intro p e hm
      simp [sys1p, w1p, chA] at hm
      rcases hm with ⟨rfl, rfl⟩ | ⟨rfl, rfl⟩ <;> simp [D1, DA, NamedChan.renumber]
    · intro p t hm
      have hm : (p = "sig" ∧ t = 0) ∨ (p = "bkg" ∧ t = 1) := by simpa [sys1p, w1p, chA] using hm
      rcases hm with ⟨rfl, rfl⟩ | ⟨rfl, rfl⟩
      · refine ⟨?_, hpd, ?_, ?_⟩
        · rw [tmp_s]
          exact shape_congr (bt_shape "s" 0 ![6, 4] ![3, 2] (by intro i; fin_cases i <;> simp)
            (by intro i; fin_cases i <;> simp)) (rev_vec 4 6).symm (rev_div 2 3 4 6).symm
        · show IsReal _ ((1 : Matrix (Fin 2) (Fin 2) ℝ).submatrix _ _)
          rw [tmp_s]; erw [rev_one]; exact one_real
        · show IsReal _ ((1 : Matrix (Fin 2) (Fin 2) ℝ).submatrix _ _)⁻¹
          rw [tmp_s]; erw [hinv]; exact one_real
      · refine ⟨?_, hpd, ?_, ?_⟩
        · rw [tmp_b]
          exact shape_congr (bt_shape "b" 1 ![5, 5] ![1, 1] (by intro i; fin_cases i <;> simp)
            (by intro i; fin_cases i <;> simp)) (rev_vec 5 5).symm (rev_div 1 1 5 5).symm
        · show IsReal _ ((1 : Matrix (Fin 2) (Fin 2) ℝ).submatrix _ _)
          rw [tmp_b]; erw [rev_one]; exact one_real
        · show IsReal _ ((1 : Matrix (Fin 2) (Fin 2) ℝ).submatrix _ _)⁻¹
          rw [tmp_b]; erw [hinv]; exact one_real
    · simp [sys1p, w1p, chA]
    · show _ = vec (fun i : Fin 2 => (![10, 5] : Fin 2 → ℝ) (Fin.revPerm i))
      rw [rev_vec]
      simp [sys1p, w1p, w0p, bh, Hist.setBinned]
  · refine ⟨Nat.two_pos, ⟨"bkg", by simp [D1, DA, DB, NamedChan.renumber]⟩, ?_, ?_, ?_, 2, ?_, ?_⟩
    · intro p; simp [D1, DA, DB, NamedChan.renumber, sys1p, w1p, chB, Channel.procs]
    · intro p e hm
      simp [sys1p, w1p, chB] at hm
      obtain ⟨rfl, rfl⟩ := hm
      simp [D1, DB, NamedChan.renumber]
    · intro p t hm
      have hm : (p = "bkg" ∧ t = 2) := by simpa [sys1p, w1p, chB] using hm
      obtain ⟨rfl, rfl⟩ := hm
      refine ⟨?_, hpd, ?_, ?_⟩
      · rw [tmp_c]
        exact shape_congr (bt_shape "c" 1 ![5, 5] ![1, 1] (by intro i; fin_cases i <;> simp)
            (by intro i; fin_cases i <;> simp)) (rev_vec 5 5).symm (rev_div 1 1 5 5).symm
      · show IsReal _ ((1 : Matrix (Fin 2) (Fin 2) ℝ).submatrix _ _)
        rw [tmp_c]; erw [rev_one]; exact one_real
      · show IsReal _ ((1 : Matrix (Fin 2) (Fin 2) ℝ).submatrix _ _)⁻¹
        rw [tmp_c]; erw [hinv]; exact one_real
    · simp [sys1p, w1p, chB]
    · show _ = vec (fun i : Fin 2 => (![10, 5] : Fin 2 → ℝ) (Fin.revPerm i))
      rw [rev_vec]
      simp [sys1p, w1p, w0p, bh, Hist.setBinned]

theorem built1p : sys1p.Built := by
  refine ⟨ops0p ++ ops1, setupFirst_noEval ?_, run1p⟩
  intro o ho
  simp only [ops0p, ops1, List.mem_append, List.mem_cons, List.not_mem_nil, or_false] at ho
  rcases ho with (rfl | rfl | rfl | rfl | rfl | rfl) | (rfl | rfl | rfl | rfl | rfl | rfl | rfl | rfl) <;> exact id

end Ex

/-- non-vacuity of `C116_efficiency` -/
example : ∃ v : ℝ, (Ex.sys1.m.nll Ex.sys1.w (namedVec Ex.sys1 Ex.D1 (fun _ => 10) (fun _ _ => 0))).1 = .ok (.fin v) ∧
    (Ex.sys1e.m.nll Ex.sys1e.w (namedVec Ex.sys1e (fun a => (Ex.D1 a).effTimes Ex.lamE)
      (fun p => 10 / Ex.lamE p) (fun _ _ => 0))).1 = .ok (.fin v) :=
  C116_efficiency Ex.sys1 Ex.sys1e Ex.built1 Ex.built1e (by simp [Ex.sys1, Ex.m1]) {"a", "b"} Ex.D1 Ex.lamE
    (by intro p; unfold Ex.lamE; split <;> norm_num) Ex.named1 Ex.named1e (fun _ => 0) (fun _ => 1)
    (by intro p hp; simp [Ex.sys1, Ex.m1] at hp) (by intro p hp; simp [Ex.sys1e, Ex.m1] at hp) (List.Perm.refl _)
    (fun _ => 10) (fun _ _ => 0) Ex.regular1

/-- non-vacuity of `C117_bins` -/
example : ∃ v : ℝ, (Ex.sys1.m.nll Ex.sys1.w (namedVec Ex.sys1 Ex.D1 (fun _ => 10) (fun _ _ => 0))).1 = .ok (.fin v) ∧
    (Ex.sys1p.m.nll Ex.sys1p.w (namedVec Ex.sys1p (fun a => (Ex.D1 a).renumber (Ex.swap2 a))
      (fun _ => 10) (fun _ _ _ => 0))).1 = .ok (.fin v) :=
  C117_bins Ex.sys1 Ex.sys1p Ex.built1 Ex.built1p (by simp [Ex.sys1, Ex.m1]) {"a", "b"} Ex.D1 Ex.swap2
    Ex.named1 Ex.named1p (fun _ => 0) (fun _ => 1)
    (by intro p hp; simp [Ex.sys1, Ex.m1] at hp) (by intro p hp; simp [Ex.sys1p, Ex.m1] at hp) (List.Perm.refl _)
    (fun _ => 10) (fun _ _ => 0) Ex.regular1

/-! ### C118 -/

theorem takeIdx_agree (x y : Vec) : ∀ (idx : List ℕ), (∀ k ∈ idx, x[k]? = y[k]?) → takeIdx x idx = takeIdx y idx := by
  intro idx
  induction idx with
  | nil => intro _; rfl
  | cons k idx ih =>
    intro h
    unfold takeIdx
    rw [h k (by simp), ih fun k hk => h k (by simp [hk])]

theorem computeIndices_mem (procs outer : List String) : ∀ {l : List ℕ}, computeIndices procs outer = .ok l →
    ∀ k ∈ l, ∃ p ∈ procs, p ∈ outer ∧ k = outer.idxOf p := by
  induction procs with
  | nil => intro l h; obtain rfl := Except.ok.inj h; simp
  | cons p ps ih =>
    intro l h
    unfold computeIndices at h
    split at h
    · rename_i hp
      cases hr : computeIndices ps outer with
      | error e => rw [hr] at h; cases h
      | ok l' =>
        rw [hr] at h
        obtain rfl := Except.ok.inj h
        intro k hk
        rcases List.mem_cons.mp hk with rfl | hk
        · exact ⟨p, by simp, by simpa using hp, rfl⟩
        · obtain ⟨q, h1, h2⟩ := ih hr k hk
          exact ⟨q, by simp [h1], h2⟩
    · cases h

theorem yieldsPure_agree (w : World) (procs : List String) (x y : Vec) (cs : List ℕ)
    (h : ∀ c ∈ cs, ∀ p ∈ (w.chans c).procs, p ∈ procs → x[procs.idxOf p]? = y[procs.idxOf p]?) :
    yieldsPure w procs x cs = yieldsPure w procs y cs := by
  induction cs with
  | nil => rfl
  | cons c cs ih =>
    unfold yieldsPure
    cases hr : computeIndices (w.chans c).procs procs with
    | error e => rfl
    | ok idx =>
      simp only
      rw [takeIdx_agree x y idx fun k hk => by
        obtain ⟨p, h1, h2, rfl⟩ := computeIndices_mem _ _ hr k hk
        exact h c (by simp) p h1 h2, ih fun c hc => h c (by simp [hc])]

theorem constraintSum_agree (m : Mct) (x y : Vec) (ps : List String)
    (h : ∀ p ∈ ps, x[m.processes.idxOf p]? = y[m.processes.idxOf p]?) : m.constraintSum x ps = m.constraintSum y ps := by
  induction ps with
  | nil => rfl
  | cons p ps ih =>
    unfold Mct.constraintSum
    rw [h p (by simp), ih fun p hp => h p (by simp [hp])]

/-- **C118.** The yield of a process that has a template in no channel and no constraint does not matter: the likelihood is the same (the same
number, or the same exception) at any two parameter vectors that differ only there. -/
theorem C118_unused (s : Sys) (h : s.Built) (p : String) (hp : p ∈ s.m.processes)
    (hun : ∀ c ∈ s.m.chanIds, p ∉ (s.w.chans c).procs) (hcon : p ∉ s.m.constrained) (x : Vec) (v : Fl) :
    objective s.w s.m (x.set (s.m.processes.idxOf p) v) = objective s.w s.m x := by
  have hw := reachable_wf h.reachable
  have hobj : ∀ x, objective s.w s.m x = nllPure s.w s.m x := fun x => (nll_coh h.coherent s.m hw.lt x).1
  have hi : s.m.processes.idxOf p < s.m.processes.length := List.idxOf_lt_length_of_mem hp
  have hne : ∀ q, q ∈ s.m.processes → q ≠ p → s.m.processes.idxOf p ≠ s.m.processes.idxOf q := by
    intro q hq hqp e
    apply hqp
    have h1 := List.getElem_idxOf (List.idxOf_lt_length_of_mem hq)
    have h2 := List.getElem_idxOf hi
    rw [← h1, ← h2]
    congr 1
    exact e.symm
  rw [hobj, hobj]
  have hper : perChannelPure s.w s.m (x.set (s.m.processes.idxOf p) v) = perChannelPure s.w s.m x := by
    unfold perChannelPure
    have e1 : yieldsPure s.w s.m.processes ((x.set (s.m.processes.idxOf p) v).take s.m.numProcesses) s.m.chanIds =
        yieldsPure s.w s.m.processes (x.take s.m.numProcesses) s.m.chanIds := by
      refine yieldsPure_agree _ _ _ _ _ fun c hc q hq hq' => ?_
      have : q ≠ p := fun e => hun c hc (e ▸ hq)
      simp [List.getElem?_take, List.getElem?_set, hne q hq' this]
    have e2 : ((x.set (s.m.processes.idxOf p) v).take (s.m.numNui s.w + s.m.numProcesses)).drop s.m.numProcesses =
        (x.take (s.m.numNui s.w + s.m.numProcesses)).drop s.m.numProcesses := by
      apply List.ext_getElem?
      intro k
      have : s.m.processes.idxOf p ≠ s.m.numProcesses + k := by unfold Mct.numProcesses; omega
      simp [List.getElem?_drop, List.getElem?_take, List.getElem?_set, this]
    rw [e1, e2]
  unfold nllPure
  rw [hper, constraintSum_agree s.m (x.set (s.m.processes.idxOf p) v) x s.m.constrained fun q hq => by
    have hqp : q ≠ p := fun e => hcon (e ▸ hq)
    simp [List.getElem?_set, hne q (hw.cons q hq).1 hqp]]

/-- non-vacuity of `C118_unused`: a process `other` defined after the example and never used; the likelihood is the number of `sys1`. -/
example : ∃ s : Sys, s.Built ∧ "other" ∈ s.m.processes ∧ (∀ c ∈ s.m.chanIds, "other" ∉ (s.w.chans c).procs) ∧
    "other" ∉ s.m.constrained ∧ s.m.chanIds ≠ [] := by
  refine ⟨Ex.sys1.step (.defineProcess "other"), ?_, ?_, ?_, ?_, ?_⟩
  · refine ⟨(Ex.ops0 ++ Ex.ops1) ++ [.defineProcess "other"], setupFirst_noEval ?_, ?_⟩
    · intro o ho
      simp only [Ex.ops0, Ex.ops1, List.mem_append, List.mem_cons, List.not_mem_nil, or_false] at ho
      rcases ho with ((rfl | rfl | rfl | rfl | rfl | rfl) | (rfl | rfl | rfl | rfl | rfl | rfl | rfl | rfl)) | rfl <;> exact id
    · rw [run_append, Ex.run1]; rfl
  all_goals simp [Sys.step, Mct.defineProcess, Ex.sys1, Ex.m1, Ex.w1, Mct.chanIds, Channel.procs, Ex.chA, Ex.chB]

end

end TF.Props
