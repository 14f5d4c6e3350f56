import Verif.Model.RoundChannel
import Verif.Model.Mct

/-!
# Rounding in the likelihood of the whole model

`NegLogLikelihood.__call__` with every operation rounded (`Model/Round.lean`, `Model/RoundChannel.lean`).
-/

namespace TF

open Classical

noncomputable section

/-- multi_channel_template.py:389-393 with rounding: `nll_value += channel.nll_contribution(…)`, starting with `acc` -/
def World.nllChannelsR (ρ : ℝ → Fl) (lg : Fl → Fl) (sum : Vec → Fl) (dot : List (Fl × Fl) → Fl) (w : World) (acc : Fl) :
    List ℕ → List Vec → List Vec → Except Err Fl × World
  | c :: cs, y :: ys, n :: ns =>
    match w.nllContributionR ρ lg sum dot c y n with
    | (.error e, w1) => (.error e, w1)
    | (.ok v, w1) => w1.nllChannelsR ρ lg sum dot ((acc + v).rd ρ) cs ys ns
  | _, _, _ => (.ok acc, w)

/-- one constraint term `0.5 * (x - v) ** 2 / e ** 2` with rounding, multi_channel_template.py:400-405; `sqr` is the library's `** 2` -/
def constraintTermR (ρ : ℝ → Fl) (sqr : Fl → Fl) (x v e : Fl) : Fl :=
  ((Fl.fin (1 / 2) * sqr ((x - v).rd ρ)).rd ρ / sqr e).rd ρ

/-- multi_channel_template.py:395-405 with rounding: the constraint terms are added to `acc` one after the other -/
def Mct.constraintSumR (ρ : ℝ → Fl) (sqr : Fl → Fl) (m : Mct) (x : Vec) (acc : Fl) : List String → Except Err Fl
  | [] => .ok acc
  | p :: ps =>
    if p ∉ m.processes then .error .valueError
    else match x[m.processes.idxOf p]?, dictGet m.cvals p, dictGet m.cerrs p with
      | some xp, some v, some e => m.constraintSumR ρ sqr x ((acc + constraintTermR ρ sqr xp v e).rd ρ) ps
      | none, _, _ => .error .indexError
      | _, _, _ => .error .keyError

/-- multi_channel_template.py:385-407 `NegLogLikelihood.__call__` with rounding -/
def Mct.nllR (ρ : ℝ → Fl) (lg sqr : Fl → Fl) (sum : Vec → Fl) (dot : List (Fl × Fl) → Fl) (w : World) (m : Mct) (x : Vec) :
    Except Err Fl × World :=
  match m.perChannel w x with
  | (.error e, w1) => (.error e, w1)
  | (.ok (ys, ns), w1) =>
    match w1.nllChannelsR ρ lg sum dot 0 m.chanIds ys ns with
    | (.error e, w2) => (.error e, w2)
    | (.ok s, w2) => (m.constraintSumR ρ sqr x s m.constrained, w2)

end

end TF
