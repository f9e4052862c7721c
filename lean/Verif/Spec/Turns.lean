import Verif.Spec.WorldFrame
import Verif.Spec.Geometry

/-!
# Specification: headings and bearings up to full turns
-/

namespace Spec

open Mrob

/-- The same value, with the heading of a planar pose given up to full turns. -/
def Turned : NodeVal → NodeVal → Prop
  | ⟨.pose2d, x⟩, ⟨.pose2d, x'⟩ => x' 0 = x 0 ∧ x' 1 = x 1 ∧ SameAngle (x' 2) (x 2)
  | ⟨.landmark2d, l⟩, ⟨.landmark2d, l'⟩ => l' = l
  | ⟨.pose3d, X⟩, ⟨.pose3d, X'⟩ => X' = X
  | ⟨.landmark3d, l⟩, ⟨.landmark3d, l'⟩ => l' = l
  | ⟨.plane4d, p⟩, ⟨.plane4d, p'⟩ => p' = p
  | _, _ => False

/-- The same factor, with measured headings, turns and bearings given up to full turns. -/
inductive FactorTurned : FactorVirt → FactorVirt → Prop
  | prior2d (obs obs' W ty) : obs' 0 = obs 0 → obs' 1 = obs 1 → SameAngle (obs' 2) (obs 2) →
      FactorTurned (.prior2d obs W ty) (.prior2d obs' W ty)
  | rel2d (obs obs' W ty) : obs' 0 = obs 0 → obs' 1 = obs 1 → SameAngle (obs' 2) (obs 2) →
      FactorTurned (.rel2d obs W ty) (.rel2d obs' W ty)
  /-- the observation is a turn, a distance, and a turn -/
  | odom (obs obs' W ty) : SameAngle (obs' 0) (obs 0) → obs' 1 = obs 1 → SameAngle (obs' 2) (obs 2) →
      FactorTurned (.odom obs W ty) (.odom obs' W ty)
  /-- the observation is a range and a bearing -/
  | land2d (obs obs' W rev ty) : obs' 0 = obs 0 → SameAngle (obs' 1) (obs 1) →
      FactorTurned (.land2d obs W rev ty) (.land2d obs' W rev ty)
  /-- factors without planar poses are the same -/
  | other (v) : NodeKind.pose2d ∉ v.kinds → FactorTurned v v

end Spec
