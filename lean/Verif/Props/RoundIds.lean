import Verif.Model.RoundMct

set_option linter.unusedSimpArgs false

/-!
# Without rounding the definitions with rounding are those of the exact model (C124-C128)
-/

namespace TF.Props

open Classical

noncomputable section

theorem rd_id (x : Fl) : x.rd Fl.fin = x := by cases x <;> rfl

theorem accR_id (l : Vec) : accR Fl.fin l = l.sum := by
  unfold accR
  simp only [rd_id]
  rw [List.sum_eq_foldl]

/-- without rounding, `SumR` is the sum -/
theorem sumR_id {l : Vec} {v : Fl} (h : SumR Fl.fin l v) : v = npSum l := by
  induction h with
  | nil => rfl
  | one x => simp [npSum]
  | add _ _ h1 h2 => rw [rd_id, h1, h2]; simp [npSum]
  | perm _ hp ih => rw [ih]; exact hp.sum_eq

theorem iaddR_id (a b : NdArr) : a.iaddR Fl.fin b = a.iadd b := by
  unfold NdArr.iaddR NdArr.iadd
  simp only [rd_id]

/-- **C124, consistency.** Without rounding, the fill with rounding is the fill of the exact model. -/
theorem C124_exact (h : Hist) (x y : Vec) (w : Weights) : h.fillR Fl.fin x y w = h.fill x y w := by
  unfold Hist.fillR Hist.fill
  have e1 : ∀ ed d v, binnedSumR Fl.fin ed d v = binnedSum ed d v := by
    intro ed d v; unfold binnedSumR binnedSum; simp only [accR_id]
  have e2 : ∀ ex ey x y v, binnedSum2R Fl.fin ex ey x y v = binnedSum2 ex ey x y v := by
    intro ex ey x y v; unfold binnedSum2R binnedSum2; simp only [accR_id]
  have e3 : ∀ (h : Hist) s s2 b, h.accumulateR Fl.fin s s2 b = h.accumulate s s2 b := by
    intro h s s2 b; unfold Hist.accumulateR Hist.accumulate; simp only [iaddR_id]; rfl
  cases h.cls
  · simp only [Hist1d.fillR, Hist1d.fill, e1, e3, rd_id]
  · simp only [Hist2d.fillR, Hist2d.fill, e2, e3, rd_id]

theorem fractionsR_id (t : Template) (nui : Vec) : t.fractionsR Fl.fin npSum nui = t.fractions nui := by
  unfold Template.fractionsR Template.fractions binFractionsR binFractions
  simp only [rd_id]

/-- **C125, consistency.** Without rounding, the template values with rounding are those of the exact model. -/
theorem C125_exact (t : Template) : t.valuesR Fl.fin npSum = t.values := by
  unfold Template.valuesR Template.values
  simp only [fractionsR_id, rd_id]

theorem fractionRowsR_id : ∀ (ts : List Template) (ps : List Vec), fractionRowsR Fl.fin npSum ts ps = fractionRows ts ps
  | [], ps => by cases ps <;> rfl
  | t :: ts, [] => rfl
  | t :: ts, p :: ps => by
    simp only [fractionRowsR, fractionRows, fractionsR_id, fractionRowsR_id ts ps]
    rfl

/-- the exact dot product -/
def dotExact (l : List (Fl × Fl)) : Fl := (l.map fun p => p.1 * p.2).sum

theorem vecMatR_id (v : Vec) (A : Mat) : vecMatR dotExact v A = vecMat v A := by
  unfold vecMatR vecMat
  split_ifs
  · congr 2
    funext j
    unfold dotExact
    rw [List.map_map, Finset.sum_range, ← List.sum_ofFn]
    congr 1
    apply List.ext_getElem
    · simp
    · intro i h1 h2
      simp
  · rfl

/-- **C126, consistency.** Without rounding, the expected events with rounding are those of the exact model. -/
theorem C126_exact (w : World) (c : ℕ) (y n : Vec) :
    w.expectedEvtsR Fl.fin npSum dotExact c y n = w.expectedEvts c y n := by
  unfold World.expectedEvtsR World.expectedEvts World.chanFractionsR World.chanFractions
  simp only [rd_id, fractionRowsR_id, vecMatR_id]
  rfl

theorem xlogyxR_id (x y : Fl) : xlogyxR Fl.fin Fl.log1p x y = xlogyx x y := by
  unfold xlogyxR xlogyx
  simp only [rd_id]

theorem poissonTermR_id (d e : Vec) : poissonTermR Fl.fin Fl.log1p npSum d e = poissonTerm d e := by
  unfold poissonTermR poissonTerm
  simp only [rd_id]
  have : xlogyxR Fl.fin Fl.log1p = xlogyx := by funext x y; exact xlogyxR_id x y
  rw [this]

theorem gaussTermR_id (w : World) (c : ℕ) (n : Vec) : w.gaussTermR Fl.fin dotExact c n = w.gaussTerm c n := by
  unfold World.gaussTermR World.gaussTerm
  generalize w.invCorrBlock c = r
  obtain ⟨r1, w1⟩ := r
  cases r1 with
  | error e => rfl
  | ok B =>
    simp only [vecMatR_id]
    cases vecMat n B with
    | error e => rfl
    | ok v =>
      simp only [rd_id]
      unfold dot dotExact
      split_ifs
      · simp only [List.map_zip_eq_zipWith]
        rfl
      · rfl

/-- **C127, consistency.** Without rounding, the likelihood with rounding is that of the exact model. -/
theorem C127_exact (w : World) (c : ℕ) (y n : Vec) :
    w.nllContributionR Fl.fin Fl.log1p npSum dotExact c y n = w.nllContribution c y n := by
  unfold World.nllContributionR World.nllContribution
  simp only [C126_exact, poissonTermR_id, gaussTermR_id, rd_id]
  rfl

theorem nllChannelsR_id (cs : List ℕ) : ∀ (w : World) (acc : Fl) (ys ns : List Vec),
    w.nllChannelsR Fl.fin Fl.log1p npSum dotExact acc cs ys ns =
      ((w.nllChannels cs ys ns).1.map (acc + ·), (w.nllChannels cs ys ns).2) := by
  induction cs with
  | nil => intro w acc ys ns; simp [World.nllChannelsR, World.nllChannels, Except.map]
  | cons c cs ih =>
    intro w acc ys ns
    cases ys with
    | nil => simp [World.nllChannelsR, World.nllChannels, Except.map]
    | cons y ys =>
      cases ns with
      | nil => simp [World.nllChannelsR, World.nllChannels, Except.map]
      | cons n ns =>
        unfold World.nllChannelsR World.nllChannels
        rw [C127_exact]
        generalize w.nllContribution c y n = r
        obtain ⟨r1, w1⟩ := r
        cases r1 with
        | error e => rfl
        | ok v =>
          simp only [rd_id, ih]
          generalize w1.nllChannels cs ys ns = r
          obtain ⟨r1, w2⟩ := r
          cases r1 with
          | error e => rfl
          | ok t => simp [Except.map, add_assoc]

theorem constraintSumR_id (m : Mct) (x : Vec) (ps : List String) : ∀ acc : Fl,
    m.constraintSumR Fl.fin Fl.sq x acc ps = (m.constraintSum x ps).map (acc + ·) := by
  induction ps with
  | nil => intro acc; simp [Mct.constraintSumR, Mct.constraintSum, Except.map]
  | cons p ps ih =>
    intro acc
    unfold Mct.constraintSumR Mct.constraintSum
    by_cases hp : p ∈ m.processes
    · rw [if_neg (by simpa using hp), if_neg (by simpa using hp)]
      cases x[m.processes.idxOf p]? with
      | none => rfl
      | some xp =>
        cases dictGet m.cvals p with
        | none => rfl
        | some v =>
          cases dictGet m.cerrs p with
          | none => rfl
          | some e =>
            simp only [ih, rd_id, constraintTermR]
            cases m.constraintSum x ps with
            | error e => rfl
            | ok t => simp [Except.map, add_assoc, constraintTerm]
    · rw [if_pos hp, if_pos hp]
      rfl

/-- **C128, consistency.** Without rounding, the likelihood of the whole model with rounding is that of the exact model: the same value,
the same exception and the same state afterwards. -/
theorem C128_exact (w : World) (m : Mct) (x : Vec) : m.nllR Fl.fin Fl.log1p Fl.sq npSum dotExact w x = m.nll w x := by
  unfold Mct.nllR Mct.nll
  generalize m.perChannel w x = r
  obtain ⟨r1, w1⟩ := r
  cases r1 with
  | error e => rfl
  | ok q =>
    obtain ⟨ys, ns⟩ := q
    simp only [nllChannelsR_id]
    generalize w1.nllChannels m.chanIds ys ns = r
    obtain ⟨r1, w2⟩ := r
    cases r1 with
    | error e => rfl
    | ok v =>
      simp only [Except.map, constraintSumR_id]
      cases m.constraintSum x m.constrained with
      | error e => rfl
      | ok t => simp [Except.map]

end

end TF.Props
