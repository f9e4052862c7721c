import Verif.Model.PlaneReg
import Verif.Spec.Plane
import Verif.Spec.Geometry

/-!
# Registering planes in another frame of the sensor

The frame in which the sensor reports its points is a convention: the calibration of the sensor with respect to the vehicle.
With all points moved by the same rigid transformation `G`, the poses of the moved sensor relative to its first pose are
`G T G⁻¹`.
-/

open Matrix

namespace Spec

open Mrob

/-- The same registration problem with the points expressed in another frame of the sensor: the points are moved by `G`, and
the poses are those of the moved sensor. -/
structure Reframed (G : Mat4) (s s' : PlaneReg) : Prop where
  poses : s'.numberPoses = s.numberPoses
  alpha : s'.alpha = s.alpha
  traj : s'.traj.map SE3.T = s.traj.map fun T => G * T.T * G⁻¹
  planes : List.Forall₂ (fun q q' : ℕ × Plane => q'.1 = q.1 ∧ q'.2.points = q.2.points.map (List.map (movePoint G)))
    s.planes s'.planes

/-- A unit 4-vector of least cost. -/
def BestPlane (poses : List Mat4) (clouds : List (List Vec3)) (pl : Vec4) : Prop :=
  Unit4 pl ∧ ∀ x, Unit4 x → planeCost pl poses clouds ≤ planeCost x poses clouds

/-- All planes have a single best plane, up to the sign of its 4-vector. -/
def UniquePlanes (s : PlaneReg) : Prop :=
  ∀ q ∈ s.planes, ∀ pl pl', BestPlane (s.traj.map SE3.T) q.2.points pl → BestPlane (s.traj.map SE3.T) q.2.points pl' →
    pl' = pl ∨ pl' = -pl

end Spec
