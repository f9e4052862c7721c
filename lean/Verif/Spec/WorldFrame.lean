import Verif.Model.FactorClass
import Verif.Spec.Planar
import Verif.Spec.Plane
import Verif.Lemmas.Proper

/-!
# Specification: the same problem in another world frame
-/

open Matrix

namespace Spec

open Mrob

/-- The nodes a history is about: those it adds, and the neighbours of the factors it adds. -/
def Involved (ops : List GraphOp) (w₀ : World) (n : NRef) : Prop :=
  n ∈ addedNodes ops ∨ ∃ f ∈ addedFactors ops, n ∈ (w₀.fh f).nbrs

/-- The objects of `w₀'` are those of `w₀` seen from another frame: `R` relates the values of nodes, `F` the factors. -/
structure Restated (R : NodeVal → NodeVal → Prop) (F : FactorVirt → FactorVirt → Prop) (ops : List GraphOp)
    (w₀ w₀' : World) : Prop where
  /-- the nodes are estimated or held fixed alike -/
  mode : ∀ n, Involved ops w₀ n → (w₀'.nh n).mode = (w₀.nh n).mode
  /-- values -/
  val : ∀ n, Involved ops w₀ n → R (w₀.nh n).val (w₀'.nh n).val
  /-- neighbours -/
  nbrs : ∀ f ∈ addedFactors ops, (w₀'.fh f).nbrs = (w₀.fh f).nbrs
  /-- factors -/
  virt : ∀ f ∈ addedFactors ops, F (w₀.fh f).virt (w₀'.fh f).virt

/-- The value `v'` is the value `v` moved by the planar motion `g`: poses as elements of the group, landmarks as points. -/
def PlanarMoved (g : Fin 3 → ℝ) : NodeVal → NodeVal → Prop
  | ⟨.pose2d, x⟩, ⟨.pose2d, x'⟩ => planar x' = planar g * planar x
  | ⟨.landmark2d, l⟩, ⟨.landmark2d, l'⟩ => l' = planarPoint g l
  | _, _ => False

/-- The value `v'` is the value `v` moved by the rigid motion `G`: poses as elements of the group, points as points, planes
as the coefficients of their equations. -/
def SpatialMoved (G : Mat4) : NodeVal → NodeVal → Prop
  | ⟨.pose3d, X⟩, ⟨.pose3d, X'⟩ => X'.T = G * X.T
  | ⟨.landmark3d, l⟩, ⟨.landmark3d, l'⟩ => l' = movePoint G l
  | ⟨.plane4d, p⟩, ⟨.plane4d, p'⟩ => Gᵀ *ᵥ p' = p
  | _, _ => False

/-- The rotation of the motion on vectors of a pose: position and heading. -/
noncomputable def turn (g : Fin 3 → ℝ) : Matrix (Fin 3) (Fin 3) ℝ :=
  !![Real.cos (g 2), -Real.sin (g 2), 0; Real.sin (g 2), Real.cos (g 2), 0; 0, 0, 1]

/-- Corresponding factors.  Measurements relative to a node are the same; the information of a measurement whose error is
expressed in the world frame (prior, odometry) is expressed in the moved frame, and so is the measured pose of a prior. -/
inductive FactorMoved (g : Fin 3 → ℝ) : FactorVirt → FactorVirt → Prop
  | rel2d (obs W ty) : FactorMoved g (.rel2d obs W ty) (.rel2d obs W ty)
  | land2d (obs W rev ty) : FactorMoved g (.land2d obs W rev ty) (.land2d obs W rev ty)
  | prior2d (obs obs' W W' ty) : planar obs' = planar g * planar obs → W = (turn g)ᵀ * W' * turn g →
      FactorMoved g (.prior2d obs W ty) (.prior2d obs' W' ty)
  | odom (obs W W' ty) : W = (turn g)ᵀ * W' * turn g → FactorMoved g (.odom obs W ty) (.odom obs W' ty)

/-- No landmark among the values is closer than 1e-3 to a pose. -/
def FarLandmarks (vals : List NodeVal) : Prop :=
  ∀ x l, (⟨.pose2d, x⟩ : NodeVal) ∈ vals → (⟨.landmark2d, l⟩ : NodeVal) ∈ vals →
    1e-6 ≤ (l 0 - x 0) * (l 0 - x 0) + (l 1 - x 1) * (l 1 - x 1)

end Spec
