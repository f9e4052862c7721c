import Mathlib.LinearAlgebra.Matrix.PosDef
import Mathlib.LinearAlgebra.Matrix.Notation
import Mathlib.Algebra.Order.Star.Real

/-!
# Specifications for planes and point clouds

Independent of the model: a plane is a 4-vector `(n, d)`, a pose a 4x4 matrix in homogeneous coordinates.
-/

open Matrix

namespace Spec

/-- `n · p + d` for the plane `(n, d)`: the signed distance of `p` when `n` is a unit vector. -/
def planeEval (pl : Fin 3 ⊕ Unit → ℝ) (p : Fin 3 → ℝ) : ℝ := ∑ i, pl (Sum.inl i) * p i + pl (Sum.inr ())

/-- The point `p` moved by the homogeneous transformation `T` (last row `(0,0,0,1)`). -/
def movePoint (T : Matrix (Fin 3 ⊕ Unit) (Fin 3 ⊕ Unit) ℝ) (p : Fin 3 → ℝ) : Fin 3 → ℝ :=
  fun i => ∑ j, T (Sum.inl i) (Sum.inl j) * p j + T (Sum.inl i) (Sum.inr ())

/-- Sum of the squared values of the plane at the points of a cloud moved by `T`. -/
def cloudCost (pl : Fin 3 ⊕ Unit → ℝ) (T : Matrix (Fin 3 ⊕ Unit) (Fin 3 ⊕ Unit) ℝ) (cloud : List (Fin 3 → ℝ)) : ℝ :=
  (cloud.map fun p => planeEval pl (movePoint T p) ^ 2).sum

/-- The cost of a plane seen from several poses: the sum over the poses. -/
def planeCost (pl : Fin 3 ⊕ Unit → ℝ) (poses : List (Matrix (Fin 3 ⊕ Unit) (Fin 3 ⊕ Unit) ℝ))
    (clouds : List (List (Fin 3 → ℝ))) : ℝ :=
  (List.zipWith (cloudCost pl) poses clouds).sum

/-- The plane is at distance zero of the moved point iff the moved point satisfies its equation. -/
def OnPlane (pl : Fin 3 ⊕ Unit → ℝ) (p : Fin 3 → ℝ) : Prop := planeEval pl p = 0

/-- Unit length of the 4-vector. -/
def Unit4 (pl : Fin 3 ⊕ Unit → ℝ) : Prop := pl ⬝ᵥ pl = 1

end Spec
