import Verif.Model.Round
import Verif.Model.Stats

/-!
# Rounding in the goodness-of-fit statistics

`templatefitter/stats.py` with every arithmetic operation rounded by `ρ`. The order of the additions in `np.sum` is the parameter
`sum`, the library function behind `np.log` the parameter `lg`, the numerical integration the parameter `pval`.
-/

namespace TF

open Classical

noncomputable section

/-- the returned triple `(chi_sq, chi_sq / dof, pval)`, the quotient rounded; stats.py:14-15, 55-56, 95-96 -/
def chi2ResultR (ρ : ℝ → Fl) (pval : Fl → Fl → Fl) (chiSq dof : Fl) : Fl × Fl × Fl :=
  (chiSq, (chiSq / dof).rd ρ, pval chiSq dof)

/-- stats.py:12-15 `default_chi2_test` with rounding -/
def defaultChi2TestR (ρ : ℝ → Fl) (sum : Vec → Fl) (pval : Fl → Fl → Fl) (data expectation uncertainty : Vec) (dof : Fl) :
    Except Err (Fl × Fl × Fl) := do
  let d ← bop (fun a b => (a - b).rd ρ) data expectation
  let t ← bop (fun a b => (a / b).rd ρ) (d.map fun x => x.sq.rd ρ) (uncertainty.map fun x => x.sq.rd ρ)
  return chi2ResultR ρ pval (sum t) dof

/-- stats.py:18-56 `pearson_chi2_test` with rounding -/
def pearsonChi2TestR (ρ : ℝ → Fl) (sum : Vec → Fl) (pval : Fl → Fl → Fl) (data expectation : Vec) (dof : Fl) :
    Except Err (Fl × Fl × Fl) := do
  let d ← bop (fun a b => (a - b).rd ρ) data expectation
  let t ← bop (fun a b => (a / b).rd ρ) (d.map fun x => x.sq.rd ρ) expectation
  return chi2ResultR ρ pval (sum t) dof

/-- stats.py:59-96 `cowan_binned_likelihood_gof` with rounding -/
def cowanGofR (ρ : ℝ → Fl) (lg : Fl → Fl) (sum : Vec → Fl) (pval : Fl → Fl → Fl) (data expectation : Vec) (dof : Fl) :
    Except Err (Fl × Fl × Fl) := do
  let q ← bop (fun a b => (a / b).rd ρ) data expectation
  let l ← bop (fun a b => (a * b).rd ρ) data (q.map lg)
  let s ← bop (fun a b => (a + b).rd ρ) l expectation
  let t ← bop (fun a b => (a - b).rd ρ) s data
  return chi2ResultR ρ pval ((Fl.fin 2 * sum t).rd ρ) dof

end

end TF
