import Verif.Spec.Plane
import Verif.Spec.Geometry

/-! # Specifications for the registration of point clouds -/

open Matrix

namespace Spec

/-- Sum of the squared distances between the points `y` and the points `x` moved by `T`, over the correspondences `(x, y)`. -/
def alignCost (T : Matrix (Fin 3 ⊕ Unit) (Fin 3 ⊕ Unit) ℝ) (pairs : List ((Fin 3 → ℝ) × (Fin 3 → ℝ))) : ℝ :=
  (pairs.map fun p => dist2 p.2 (movePoint T p.1)).sum

/-- The weighted sum `Σ (y - T x)ᵀ L (y - T x)` over `(L, x, y)`. -/
def weightedAlignCost (T : Matrix (Fin 3 ⊕ Unit) (Fin 3 ⊕ Unit) ℝ)
    (terms : List (Matrix (Fin 3) (Fin 3) ℝ × (Fin 3 → ℝ) × (Fin 3 → ℝ))) : ℝ :=
  (terms.map fun p => (p.2.2 - movePoint T p.2.1) ⬝ᵥ (p.1 *ᵥ (p.2.2 - movePoint T p.2.1))).sum

/-- All points on a line. -/
def Collinear3 (X : List (Fin 3 → ℝ)) : Prop := ∃ a u : Fin 3 → ℝ, ∀ x ∈ X, ∃ s : ℝ, x = a + s • u

/-- Sum of the squared values of the plane `(n, d)` at the points. -/
def planeFit (n : Fin 3 → ℝ) (d : ℝ) (X : List (Fin 3 → ℝ)) : ℝ := (X.map fun x => (n ⬝ᵥ x + d) ^ 2).sum

/-- Mean of a list of points. -/
noncomputable def meanPoint (X : List (Fin 3 → ℝ)) : Fin 3 → ℝ := (X.length : ℝ)⁻¹ • X.sum

/-- Scatter matrix of a cloud around its mean. -/
noncomputable def scatter (X : List (Fin 3 → ℝ)) : Matrix (Fin 3) (Fin 3) ℝ :=
  (X.map fun x => Matrix.vecMulVec (x - meanPoint X) (x - meanPoint X)).sum

/-- `M` is the only rigid motion of least cost for the correspondences. -/
def UniqueBest (M : Matrix (Fin 3 ⊕ Unit) (Fin 3 ⊕ Unit) ℝ) (pairs : List ((Fin 3 → ℝ) × (Fin 3 → ℝ))) : Prop :=
  IsRigid M ∧ ∀ M', IsRigid M' → alignCost M' pairs ≤ alignCost M pairs → M' = M

/-- Velocity of the point `q` under the screw motion with angular part `w` and linear part `v`. -/
def screwVelocity (w v q : Fin 3 → ℝ) : Fin 3 → ℝ := crossProduct w q + v

/-- The cost of the correspondences when the points `q` (already moved) are displaced to first order by a screw motion:
`Σ (y - q - velocity)ᵀ L (y - q - velocity)` over `(L, q, y)`. -/
def linearizedCost (w v : Fin 3 → ℝ) (terms : List (Matrix (Fin 3) (Fin 3) ℝ × (Fin 3 → ℝ) × (Fin 3 → ℝ))) : ℝ :=
  (terms.map fun p => (p.2.2 - p.2.1 - screwVelocity w v p.2.1) ⬝ᵥ (p.1 *ᵥ (p.2.2 - p.2.1 - screwVelocity w v p.2.1))).sum

/-- Root of the mean of the squares. -/
noncomputable def rms (l : List ℝ) : ℝ := Real.sqrt ((l.map (· ^ 2)).sum / l.length)

end Spec
