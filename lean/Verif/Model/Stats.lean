import Verif.Model.Np

/-!
# templatefitter/stats.py

The p-value `quad(chi2.pdf, chi_sq, np.inf, args=(dof,))[0]` is an external numerical
integration; it is the parameter `pval` (a function of statistic and dof).
-/

namespace TF

open Classical

noncomputable section

/-- the returned triple `(chi_sq, chi_sq / dof, pval)`; stats.py:14-15, 55-56, 95-96 -/
def chi2Result (pval : Fl → Fl → Fl) (chiSq dof : Fl) : Fl × Fl × Fl :=
  (chiSq, chiSq / dof, pval chiSq dof)

/-- stats.py:12-15 `default_chi2_test` -/
def defaultChi2Test (pval : Fl → Fl → Fl) (data expectation uncertainty : Vec) (dof : Fl) :
    Except Err (Fl × Fl × Fl) := do
  let d ← bop (· - ·) data expectation
  let t ← bop (· / ·) (d.map Fl.sq) (uncertainty.map Fl.sq)
  return chi2Result pval (npSum t) dof

/-- stats.py:18-56 `pearson_chi2_test` -/
def pearsonChi2Test (pval : Fl → Fl → Fl) (data expectation : Vec) (dof : Fl) :
    Except Err (Fl × Fl × Fl) := do
  let d ← bop (· - ·) data expectation
  let t ← bop (· / ·) (d.map Fl.sq) expectation
  return chi2Result pval (npSum t) dof

/-- stats.py:59-96 `cowan_binned_likelihood_gof` -/
def cowanGof (pval : Fl → Fl → Fl) (data expectation : Vec) (dof : Fl) :
    Except Err (Fl × Fl × Fl) := do
  let q ← bop (· / ·) data expectation
  let l ← bop (· * ·) data (q.map Fl.log)
  let s ← bop (· + ·) l expectation
  let t ← bop (· - ·) s data
  return chi2Result pval (Fl.fin 2 * npSum t) dof

end

end TF
