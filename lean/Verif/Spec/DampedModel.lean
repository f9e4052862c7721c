import Verif.Model.Optimizer

/-!
# The damped quadratic model of a cost

Written without reference to the matrices of the solver.
-/

open Matrix

namespace Mrob.Spec

variable {N : ℕ}

/-- The penalty on large increments: none, spherical, or in the metric of the diagonal of the Hessian. -/
noncomputable def penalty (method : OptMethod) (l : ℝ) (H : Matrix (Fin N) (Fin N) ℝ) (δ : Fin N → ℝ) : ℝ :=
  match method with
  | .newtonRaphson => 0
  | .lmSpher => l / 2 * ∑ i, δ i ^ 2
  | .lmEllip => l / 2 * ∑ i, H i i * δ i ^ 2

/-- The change of the cost which the quadratic model with gradient `g` and Hessian `H` expects from the increment `δ`, with
the penalty. -/
noncomputable def expected (method : OptMethod) (l : ℝ) (H : Matrix (Fin N) (Fin N) ℝ) (g δ : Fin N → ℝ) : ℝ :=
  ∑ i, g i * δ i + (∑ i, ∑ j, δ i * H i j * δ j) / 2 + penalty method l H δ

end Mrob.Spec
