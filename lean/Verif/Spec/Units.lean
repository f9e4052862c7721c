import Verif.Spec.WorldFrame

/-!
# Specification: the same problem in another unit of length
-/

open Matrix

namespace Spec

open Mrob

/-- The value `v'` is the value `v` in another unit of length; `s` is the length of the old unit in new units.  Positions,
points and distances of planes are lengths, directions are not. -/
def Rescaled (s : ℝ) : NodeVal → NodeVal → Prop
  | ⟨.pose2d, x⟩, ⟨.pose2d, x'⟩ => x' 0 = s * x 0 ∧ x' 1 = s * x 1 ∧ x' 2 = x 2
  | ⟨.landmark2d, l⟩, ⟨.landmark2d, l'⟩ => l' = s • l
  | ⟨.pose3d, X⟩, ⟨.pose3d, X'⟩ => ∃ R t, X.T = homog R t 1 ∧ X'.T = homog R (s • t) 1
  | ⟨.landmark3d, l⟩, ⟨.landmark3d, l'⟩ => l' = s • l
  | ⟨.plane4d, p⟩, ⟨.plane4d, p'⟩ => (∀ i, p' (Sum.inl i) = p (Sum.inl i)) ∧ p' (Sum.inr ()) = s * p (Sum.inr ())
  | _, _ => False

/-- Corresponding factors: the measured lengths in the new unit, and the information per new unit.  Errors are lengths or
angles: `(x, y, θ)`, `(rotation, translation)`, `(range, bearing)`, `(normal, distance)`. -/
inductive FactorRescaled (s : ℝ) : FactorVirt → FactorVirt → Prop
  | prior2d (obs W W' ty) : W = diagonal ![s, s, 1] * W' * diagonal ![s, s, 1] →
      FactorRescaled s (.prior2d obs W ty) (.prior2d ![s * obs 0, s * obs 1, obs 2] W' ty)
  | rel2d (obs W W' ty) : W = diagonal ![s, s, 1] * W' * diagonal ![s, s, 1] →
      FactorRescaled s (.rel2d obs W ty) (.rel2d ![s * obs 0, s * obs 1, obs 2] W' ty)
  /-- the observation is a turn, a distance, and a turn -/
  | odom (obs W W' ty) : W = diagonal ![s, s, 1] * W' * diagonal ![s, s, 1] →
      FactorRescaled s (.odom obs W ty) (.odom ![obs 0, s * obs 1, obs 2] W' ty)
  | prior3d (R t W W' ty) : W = diagonal ![1, 1, 1, s, s, s] * W' * diagonal ![1, 1, 1, s, s, s] →
      FactorRescaled s (.prior3d (.ofRt R t) W ty) (.prior3d (.ofRt R (s • t)) W' ty)
  | rel3d (R t W W' ty) : W = diagonal ![1, 1, 1, s, s, s] * W' * diagonal ![1, 1, 1, s, s, s] →
      FactorRescaled s (.rel3d (.ofRt R t) W ty) (.rel3d (.ofRt R (s • t)) W' ty)
  | land2d (obs W W' rev ty) : W = diagonal ![s, 1] * W' * diagonal ![s, 1] →
      FactorRescaled s (.land2d obs W rev ty) (.land2d ![s * obs 0, obs 1] W' rev ty)
  | land3d (obs W W' rev ty) : W = s ^ 2 • W' → FactorRescaled s (.land3d obs W rev ty) (.land3d (s • obs) W' rev ty)
  | plane4d (n d W W' rev ty) : W = diagonal ![1, 1, 1, s] * W' * diagonal ![1, 1, 1, s] →
      FactorRescaled s (.plane4d (Sum.elim n fun _ => d) W rev ty) (.plane4d (Sum.elim n fun _ => s * d) W' rev ty)
  | p2plane (px py ny W W' ty) : W = s ^ 2 • W' →
      FactorRescaled s (.p2plane px py ny W ty) (.p2plane (s • px) (s • py) ny W' ty)

end Spec
