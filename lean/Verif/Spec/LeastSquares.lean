import Mathlib.LinearAlgebra.Matrix.PosDef

/-!
# Weighted least squares

A problem is a list of measurement terms over a common set `C` of scalar unknowns.
-/

open Matrix

namespace Spec

/-- One measurement: residual `r` at the linearisation point, Jacobian `J` and weight `W`. -/
structure Term (C : Type) where
  /-- number of scalar residuals -/
  m : ℕ
  /-- residual -/
  r : Fin m → ℝ
  /-- Jacobian -/
  J : Matrix (Fin m) C ℝ
  /-- weight -/
  W : Matrix (Fin m) (Fin m) ℝ

variable {C : Type} [Fintype C]

/-- Information matrix `∑ Jᵀ W J`. -/
def infoMatrix (ts : List (Term C)) : Matrix C C ℝ := (ts.map fun t => t.Jᵀ * t.W * t.J).sum

/-- Right-hand side `∑ Jᵀ W r`. -/
def infoVector (ts : List (Term C)) : C → ℝ := (ts.map fun t => (t.Jᵀ * t.W) *ᵥ t.r).sum

/-- Cost of the linearised problem at the increment `δ`: `∑ ½ (r + J δ)ᵀ W (r + J δ)`. -/
noncomputable def linearCost (ts : List (Term C)) (δ : C → ℝ) : ℝ :=
  (ts.map fun t => (t.r + t.J *ᵥ δ) ⬝ᵥ (t.W *ᵥ (t.r + t.J *ᵥ δ)) / 2).sum

end Spec
