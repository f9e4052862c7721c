import Verif.Spec.LeastSquares

/-!
# Damped least squares

Levenberg and Marquardt add a multiple of the squared length of the increment to the cost of the linearised problem.
-/

open Matrix

namespace Spec

variable {C : Type} [Fintype C]

/-- Cost of the linearised problem with damping `l`. -/
noncomputable def dampedCost (ts : List (Term C)) (l : ℝ) (δ : C → ℝ) : ℝ := linearCost ts δ + l * (δ ⬝ᵥ δ) / 2

/-- The decrease the damped model promises for the increment `δ`. -/
noncomputable def promised (ts : List (Term C)) (l : ℝ) (δ : C → ℝ) : ℝ := dampedCost ts l 0 - dampedCost ts l δ

end Spec
