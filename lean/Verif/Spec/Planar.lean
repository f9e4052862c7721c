import Mathlib.Analysis.SpecialFunctions.Trigonometric.Basic
import Mathlib.LinearAlgebra.Matrix.Notation
import Mathlib.Data.Matrix.Basic

/-!
# Specification of planar motions
-/

open Matrix

namespace Spec

/-- The homogeneous matrix of the planar pose `(x, y, θ)`. -/
noncomputable def planar (p : Fin 3 → ℝ) : Matrix (Fin 3) (Fin 3) ℝ :=
  !![Real.cos (p 2), -Real.sin (p 2), p 0;
     Real.sin (p 2), Real.cos (p 2), p 1;
     0, 0, 1]

/-- The image of a point of the plane under a planar pose. -/
noncomputable def planarPoint (p : Fin 3 → ℝ) (l : Fin 2 → ℝ) : Fin 2 → ℝ :=
  ![Real.cos (p 2) * l 0 - Real.sin (p 2) * l 1 + p 0, Real.sin (p 2) * l 0 + Real.cos (p 2) * l 1 + p 1]

end Spec
