import Verif.Injection.WeightModel
import Mathlib.Analysis.SpecialFunctions.Log.Basic

set_option autoImplicit false

/-!
# Probabilities computed from an interaction depth

Models the functions of injection/public/SIREN/injection/Weighter.tcc:41-208 from the point where the interaction depths and the
interaction density have been obtained from the detector model (those are the subject of C21 and C22).
-/

namespace Siren.Injection

open Real

/-- `one_minus_exp_of_negative` (Weighter.tcc:41-47). -/
noncomputable def oneMinusExpOfNegative (x : ℝ) : ℝ :=
  if x < 1 / 10 then exp (log x - x / 2 + x * x / 24 - x * x * x * x / 2880) else 1 - exp (-x)

/-- `log_one_minus_exp_of_negative` (Weighter.tcc:49-63). -/
noncomputable def logOneMinusExpOfNegative (x : ℝ) : ℝ :=
  if x < 1 / 10 then log x - x / 2 + x * x / 24 - x * x * x * x / 2880
  else if x > 3 then (
    let ex := exp (-x)
    let ex2 := ex * ex
    let ex3 := ex2 * ex
    let ex4 := ex3 * ex
    let ex5 := ex4 * ex
    let ex6 := ex5 * ex;
    -(ex + ex2 / 2 + ex3 / 3 + ex4 / 4 + ex5 / 5 + ex6 / 6))
  else log (1 - exp (-x))

/-- The last step of `InteractionProbability` (Weighter.tcc:136-142). The depth may be infinite (decay length 0): the comparison
with `1e-6` is false and `1 - exp(-inf)` is 1. -/
noncomputable def interactionProbability : Flt → Flt
  | .fin x => .fin (if x < 1 / 1000000 then x else oneMinusExpOfNegative x)
  | .inf => .fin 1
  | .nan => .nan

/-- `SurvivalProbability` (Weighter.tcc:146-152). -/
noncomputable def survivalProbability (depth : Flt) : Flt :=
  match interactionProbability depth with
  | .fin p =>
    let survival := 1 - p
    let survival := if survival < 0 then 0 else survival
    let survival := if survival > 1 then 1 else survival
    .fin survival
  | .inf => .fin 0
  | .nan => .nan

/-- The last step of `NormalizedPositionProbability` (Weighter.tcc:198-207), for a finite positive total depth. -/
noncomputable def positionProbability (totalDepth traversedDepth interactionDensity : ℝ) : ℝ :=
  if totalDepth < 1 / 1000000 then interactionDensity / totalDepth
  else interactionDensity * exp (-logOneMinusExpOfNegative totalDepth - traversedDepth)

end Siren.Injection
