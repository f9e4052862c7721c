import Verif.Model.FactorClass
import Verif.Spec.Geometry

/-!
# Specification: the mirror image of a planar graph
-/

open Matrix

namespace Spec

open Mrob

/-- The value `v'` is the mirror image of the value `v`: left and right of the x axis are exchanged, headings up to full
turns. -/
def Mirrored : NodeVal → NodeVal → Prop
  | ⟨.pose2d, x⟩, ⟨.pose2d, x'⟩ => x' 0 = x 0 ∧ x' 1 = -x 1 ∧ SameAngle (x' 2) (-x 2)
  | ⟨.landmark2d, l⟩, ⟨.landmark2d, l'⟩ => l' 0 = l 0 ∧ l' 1 = -l 1
  | _, _ => False

/-- The signs of the errors of a pose. -/
def flip3 : Matrix (Fin 3) (Fin 3) ℝ := Matrix.diagonal ![1, -1, -1]

/-- The signs of the errors of range and bearing. -/
def flip2 : Matrix (Fin 2) (Fin 2) ℝ := Matrix.diagonal ![1, -1]

/-- Corresponding factors: what is measured to the left is measured to the right, with the information of the mirrored error. -/
inductive FactorMirrored : FactorVirt → FactorVirt → Prop
  | prior2d (obs obs' W W' ty) : obs' 0 = obs 0 → obs' 1 = -obs 1 → SameAngle (obs' 2) (-obs 2) → W = flip3ᵀ * W' * flip3 →
      FactorMirrored (.prior2d obs W ty) (.prior2d obs' W' ty)
  | rel2d (obs obs' W W' ty) : obs' 0 = obs 0 → obs' 1 = -obs 1 → SameAngle (obs' 2) (-obs 2) → W = flip3ᵀ * W' * flip3 →
      FactorMirrored (.rel2d obs W ty) (.rel2d obs' W' ty)
  | odom (obs obs' W W' ty) : SameAngle (obs' 0) (-obs 0) → obs' 1 = obs 1 → SameAngle (obs' 2) (-obs 2) →
      W = flip3ᵀ * W' * flip3 → FactorMirrored (.odom obs W ty) (.odom obs' W' ty)
  | land2d (obs obs' W W' rev ty) : obs' 0 = obs 0 → SameAngle (obs' 1) (-obs 1) → W = flip2ᵀ * W' * flip2 →
      FactorMirrored (.land2d obs W rev ty) (.land2d obs' W' rev ty)

/-- The error of the angle, the last entry of the error, is not exactly a half turn. -/
def NotOpposite (v : FactorVirt) (vals : List NodeVal) : Prop :=
  ∀ i : Fin v.dim, (i : ℕ) + 1 = v.dim → v.res vals i ≠ -Real.pi

end Spec
