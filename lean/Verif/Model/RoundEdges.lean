import Verif.Model.Round

/-!
# Rounding in equal-width bin edges
-/

namespace TF

open Classical

noncomputable section

/-- `np.linspace(lo, hi, num)` with rounding, as called in hist1d.py:30, hist1d.py:34 and hist2d.py:30-33. numpy computes
`step = (hi - lo) / (num - 1)`, the points `i * step + lo` (`i / (num - 1) * (hi - lo) + lo` if the step is zero) and overwrites the
last one with `hi`. -/
def linspaceR (ρ : ℝ → Fl) (lo hi : ℝ) (num : ℕ) : Vec :=
  let delta := (Fl.fin hi - Fl.fin lo).rd ρ
  let div := Fl.fin (num - 1 : ℝ)
  let step := (delta / div).rd ρ
  (List.range num).map fun i : ℕ =>
    if 1 < num ∧ i + 1 = num then Fl.fin hi
    else
      let y :=
        if num = 1 then (Fl.fin (i : ℝ) * delta).rd ρ
        else if step = 0 then (((Fl.fin (i : ℝ) / div).rd ρ) * delta).rd ρ
        else (Fl.fin (i : ℝ) * step).rd ρ
      (y + Fl.fin lo).rd ρ

/-- hist1d.py:28-36, equal-width branch with rounding: a histogram whose edges come from `np.linspace`. Simplified: only called with
edges that are finite numbers. -/
def uniform1R (ρ : ℝ → Fl) (n : ℕ) (k : SeqKind) (lo hi : ℝ) : Hist :=
  Hist.blank .h1 [⟨true, (linspaceR ρ lo hi (n + 1)).map Fl.toReal⟩] [n] (.d1 k lo hi)

/-- abstract_hist.py:30-32 `bin_errors`, the square root rounded -/
def Hist.binErrorsR (ρ : ℝ → Fl) (h : Hist) : NdArr := h.errSq.map fun x => (Fl.sqrt x).rd ρ

end

end TF
