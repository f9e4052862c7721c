import Mathlib.Algebra.Order.ToIntervalMod
import Mathlib.Analysis.SpecialFunctions.Log.Basic
import Verif.Spec.Geometry

/-!
# Specifications for nodes and robust costs
-/

namespace Spec

/-- The representative of an angle in `[-π, π)` (Mathlib's reduction modulo a period). -/
noncomputable def principal (a : ℝ) : ℝ := toIcoMod Real.two_pi_pos (-Real.pi) a

/-- Huber cost with threshold one. -/
noncomputable def huberCost (u : ℝ) : ℝ := if u < 1 then u ^ 2 / 2 else u - 1 / 2
/-- Cauchy cost. -/
noncomputable def cauchyCost (u : ℝ) : ℝ := Real.log (1 + u ^ 2) / 2
/-- Geman-McClure cost. -/
noncomputable def gemanMcClureCost (u : ℝ) : ℝ := u ^ 2 / (1 + u ^ 2) / 2
/-- Quadratic cost. -/
noncomputable def quadraticCost (u : ℝ) : ℝ := u ^ 2 / 2

/-- The points of the plane `n·x + d = 0`. -/
def planePoints (n : Fin 3 → ℝ) (d : ℝ) : Set (Fin 3 → ℝ) := {x | n ⬝ᵥ x + d = 0}

end Spec
