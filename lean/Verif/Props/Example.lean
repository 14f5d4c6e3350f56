import Verif.Lemmas.ParamOnly
import Verif.Lemmas.ChanLemmas
import Verif.Props.TemplateProps2

set_option linter.unusedSimpArgs false

/-!
# A concrete two-channel model used to show that theorem hypotheses are satisfiable

Channel `a` (2 bins, range (0, 2)): processes `sig` (efficiency 1/2) and `bkg` (efficiency 1);
channel `b`: process `bkg` (efficiency 1/4); data in both channels.
-/

namespace TF.Props.Ex

open Classical Spec TF

noncomputable section

/-- a two-bin histogram with contents `c` and errors `e` made by `from_binned_data` -/
def bh (c e : Fin 2 → ℝ) : Hist :=
  (Hist.blank .h1 [⟨true, [0, 1, 2]⟩] [2] (.d1 .tuple 0 2)).setBinned ⟨[2], vec c⟩ (some ⟨[2], vec e⟩)

theorem bh_eq (c e : Fin 2 → ℝ) :
    Hist1d.fromBinned ⟨[2], vec c⟩ ⟨true, [0, 1, 2]⟩ (some ⟨[2], vec e⟩) = .ok (bh c e) := rfl

theorem bh_is (c e : Fin 2 → ℝ) : HistIs (bh c e) c (fun i => e i ^ 2) :=
  ⟨rfl, by
    show (vec e).map Fl.sq = _
    exact map_vec _ _ _ (fun i => Fl.sq_fin _), fun i => sq_nonneg _, by simp [bh, Hist.setBinned, Hist.blank],
   by simp [bh, Hist.setBinned, Hist.blank], Or.inl (by simp [bh, Hist.setBinned, Hist.blank])⟩

/-- the template made from such a histogram -/
def bt (name : String) (hid : ℕ) (c e : Fin 2 → ℝ) : Template :=
  { cls := .t1, name := name, hist := hid
    flatCounts := vec c, flatErrSq := (vec e).map Fl.sq
    bins := [2], numBins := 2, range := .d1 .tuple 0 2
    params := initParams 2 (bh c e)
    cov := Mat.diagOf (statErrSq ((vec e).map Fl.sq))
    covMats := [Mat.diagOf (statErrSq ((vec e).map Fl.sq))]
    corr := Mat.diagOf (List.replicate 2 1), invCorr := Mat.diagOf (List.replicate 2 1)
    relErr := relErrs (Mat.diagOf (statErrSq ((vec e).map Fl.sq))) (vec c) }

theorem bt_eq (name : String) (hid : ℕ) (c e : Fin 2 → ℝ) :
    Template1d.new name hid (bh c e) = .ok (bt name hid c e) := by
  unfold Template1d.new
  show Template.build .t1 name hid (bh c e) 2 = _
  unfold Template.build
  rw [if_pos ⟨by simp [bh, Hist.setBinned, vec_length], by
    simp [bh, Hist.setBinned, NdArr.map, vec_length]⟩]
  rfl

/-- the user program -/
def ops0 : List Op :=
  [.binned1 ⟨[2], vec ![4, 6]⟩ ⟨true, [0, 1, 2]⟩ (some ⟨[2], vec ![2, 3]⟩),
   .binned1 ⟨[2], vec ![5, 5]⟩ ⟨true, [0, 1, 2]⟩ (some ⟨[2], vec ![1, 1]⟩),
   .binned1 ⟨[2], vec ![10, 5]⟩ ⟨true, [0, 1, 2]⟩ (some ⟨[2], vec ![3, 2]⟩),
   .newTmpl1 "s" 0, .newTmpl1 "b" 1, .newTmpl1 "c" 1]

/-- the heap after `ops0` -/
def w0 : World :=
  { World.init with
    hists := Function.update (Function.update (Function.update (fun _ => dummyHist) 0 (bh ![4, 6] ![2, 3]))
      1 (bh ![5, 5] ![1, 1])) 2 (bh ![10, 5] ![3, 2])
    nHists := 3
    tmpls := Function.update (Function.update (Function.update (fun _ => dummyTmpl) 0
      (bt "s" 0 ![4, 6] ![2, 3])) 1 (bt "b" 1 ![5, 5] ![1, 1])) 2 (bt "c" 1 ![5, 5] ![1, 1])
    nTmpls := 3 }

theorem run0 : Sys.init.run ops0 = ⟨w0, Mct.empty⟩ := by
  have hb := fun (n : String) (i : ℕ) (c e : Fin 2 → ℝ) => bt_eq n i c e
  simp only [ops0, Sys.run, List.foldl_cons, List.foldl_nil, Sys.step, bh_eq, Sys.allocHist, World.newHist,
    Sys.init, World.init, Sys.allocTmpl, World.newTmpl]
  simp [bt_eq, Sys.allocTmpl, World.newTmpl, Function.update_apply]
  rfl

/-- the model definition -/
def ops1 : List Op :=
  [.defineChannel "a" (.int 2) (.d1 .tuple 0 2), .defineChannel "b" (.int 2) (.d1 .tuple 0 2),
   .defineProcess "sig", .defineProcess "bkg",
   .addTemplate "a" "sig" 0 (.fin (1/2)), .addTemplate "a" "bkg" 1 (.fin 1),
   .addTemplate "b" "bkg" 2 (.fin (1/4)), .addData [("a", 2), ("b", 2)]]

def chA : Channel :=
  ⟨"a", [2], .d1 .tuple 0 2, ["sig", "bkg"], [("sig", 0), ("bkg", 1)],
   [("sig", .fin (1/2)), ("bkg", .fin 1)], some 2, some 1, some .t1, some .h1⟩

def chB : Channel :=
  ⟨"b", [2], .d1 .tuple 0 2, ["bkg"], [("bkg", 2)], [("bkg", .fin (1/4))], some 2, some 1, some .t1, some .h1⟩

/-- the heap after `ops0 ++ ops1` -/
def w1 : World :=
  { w0 with
    chans := Function.update (Function.update (fun _ => dummyChan) 0 chA) 1 chB
    nChans := 2 }

def m1 : Mct := ⟨[("a", 0), ("b", 1)], ["sig", "bkg"], [], [], []⟩

/-- the complete example -/
def sys1 : Sys := ⟨w1, m1⟩

theorem run1 : Sys.init.run (ops0 ++ ops1) = sys1 := by
  rw [run_append, run0]
  have e : ∀ (x y : Channel) , (Function.update (Function.update (fun _ : ℕ => dummyChan) 0 x) 1 y) 1 = y := by
    intro x y; simp
  simp only [ops1, Sys.run, List.foldl_cons, List.foldl_nil, Sys.step, Mct.defineChannel, Mct.defineProcess,
    Mct.addTemplate, World.addTemplate, Mct.empty, World.newChan, dictSet, dictGet, Mct.addData, World.addData,
    World.setChan]
  simp [w0, World.init, Channel.new, Channel.addTemplate, Channel.checkTemplate, Channel.procs, bt, bh,
    Hist.setBinned, Hist.blank, ChanBins.toTuple, dictSet, dictGet, Channel.addData, Channel.checkHist,
    Function.update_apply, sys1, w1, m1, chA, chB]
  funext i
  by_cases h0 : i = 0
  · subst h0; simp
  · by_cases h1 : i = 1
    · subst h1; simp
    · simp [h0, h1]

theorem sys1_reachable : sys1.Reachable := ⟨_, run1⟩

theorem bt_shape (name : String) (hid : ℕ) (c e : Fin 2 → ℝ) (hc : ∀ i, c i ≠ 0) (he : ∀ i, 0 < e i) :
    HasShape (bt name hid c e) c (fun i => e i / c i) := by
  refine ⟨rfl, rfl, ?_, rfl⟩
  show relErrs (Mat.diagOf (statErrSq ((vec e).map Fl.sq))) (vec c) = _
  rw [map_vec e Fl.sq (fun i => e i ^ 2) (fun i => Fl.sq_fin _), statErrSq_vec,
    relErrs_vec (isReal_diagOf _) (fun i => by
      rw [Matrix.diagonal_apply_eq]; exact (statVar_pos (sq_nonneg _)).le)]
  congr 1
  funext i
  have h0 : e i ^ 2 ≠ 0 := pow_ne_zero 2 (he i).ne'
  rw [Matrix.diagonal_apply_eq]
  simp only [relOf, statVar, if_neg (hc i), if_neg h0, Real.sqrt_sq (he i).le]

theorem one_real : IsReal (Mat.diagOf (List.replicate 2 1)) (1 : Matrix (Fin 2) (Fin 2) ℝ) := by
  have := isReal_diagOf (fun _ : Fin 2 => (1:ℝ))
  rw [← replicate_one_vec, Matrix.diagonal_one] at this
  exact this

/-- nominal contents of the two templates of channel `a` -/
def cntA : Fin 2 → Fin 2 → ℝ := ![![4, 6], ![5, 5]]

/-- their relative errors -/
def epsA : Fin 2 → Fin 2 → ℝ := ![fun i => (![2, 3] : Fin 2 → ℝ) i / (![4, 6] : Fin 2 → ℝ) i,
  fun i => (![1, 1] : Fin 2 → ℝ) i / (![5, 5] : Fin 2 → ℝ) i]

/-- channel `a` of the example satisfies the specification `ChanIs` -/
theorem chanA : ChanIs w1 0 cntA epsA ![1/2, 1] (fun _ => 1) := by
  refine ⟨by simp [w1], by simp [w1, chA, Channel.numTemplates], ?_, ?_⟩
  · simp [w1, chA, vec, List.ofFn_succ]
  · refine ⟨![bt "s" 0 ![4, 6] ![2, 3], bt "b" 1 ![5, 5] ![1, 1]], ?_, ?_⟩
    · simp [World.chanTmpls, w1, chA, w0, List.ofFn_succ]
    · intro k
      rw [inv_one]
      fin_cases k
      · exact ⟨bt_shape _ _ _ _ (by intro i; fin_cases i <;> simp) (by intro i; fin_cases i <;> simp),
          one_real, one_real⟩
      · exact ⟨bt_shape _ _ _ _ (by intro i; fin_cases i <;> simp) (by intro i; fin_cases i <;> simp),
          one_real, one_real⟩

theorem w1_coherent : Coherent w1 := NoCache.coherent ⟨rfl, rfl, rfl⟩

theorem dataA : (w1.chans 0).hdata = some 2 ∧ (w1.hists 2).counts.data = vec ![10, 5] := by
  simp [w1, w0, chA, bh, Hist.setBinned]

end

end TF.Props.Ex
