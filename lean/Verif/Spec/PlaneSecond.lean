import Verif.Spec.Plane

/-! # Second derivatives of the cost of a plane: specification

Nothing here refers to the model of the code. -/

namespace Spec

/-- What an ordered product of the generators of a twist (rotation `w`, translation `v`) does to the point `q`: every pair of
axes is applied in the fixed order, the lower one last. -/
def overcount (w v q : Fin 3 → ℝ) : Fin 3 → ℝ :=
  ![-(w 1 ^ 2 + w 2 ^ 2) * q 0 + 2 * (w 1 * v 2 - w 2 * v 1),
    2 * w 0 * w 1 * q 0 - (w 0 ^ 2 + w 2 ^ 2) * q 1 + 2 * (w 2 * v 0 - w 0 * v 2),
    2 * w 0 * w 2 * q 0 + 2 * w 1 * w 2 * q 1 - (w 0 ^ 2 + w 1 ^ 2) * q 2 + 2 * (w 0 * v 1 - w 1 * v 0)]

/-- Sum over the points of a cloud moved by `T` of the value of the plane at the point times the component of `overcount` in
the direction of the normal. -/
def cloudExcess (pl : Fin 3 ⊕ Unit → ℝ) (T : Matrix (Fin 3 ⊕ Unit) (Fin 3 ⊕ Unit) ℝ) (cloud : List (Fin 3 → ℝ))
    (w v : Fin 3 → ℝ) : ℝ :=
  (cloud.map fun p => planeEval pl (movePoint T p) *
    ∑ i, pl (Sum.inl i) * overcount w v (movePoint T p) i).sum

end Spec
