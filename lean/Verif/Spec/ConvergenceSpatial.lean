import Verif.Spec.Convergence

/-!
# Specification: convergence of repeated calls, spatial graphs
-/

open Matrix

namespace Spec

open Mrob

/-- The value `v'` of a spatial node is within `ρ` of `v` in every entry. -/
def NearSpatial (ρ : ℝ) : NodeVal → NodeVal → Prop
  | ⟨.pose3d, A⟩, ⟨.pose3d, P⟩ => ∀ i j, |P.T i j - A.T i j| ≤ ρ
  | ⟨.landmark3d, l⟩, ⟨.landmark3d, l'⟩ => ∀ i, |l' i - l i| ≤ ρ
  | _, _ => False

/-- Rotations which logarithm and exponential of the code keep: the identity, and angles above 5e-3 that are not short of a half
turn by less than 6e-8; from a right angle on the axis must not bisect the first two coordinate axes. -/
def SafeTurn (A : Matrix (Fin 3) (Fin 3) ℝ) : Prop :=
  IsRotation A ∧ (A = 1 ∨ (5e-3 < angle A ∧ (angle A < Real.pi - 6e-8 ∨ angle A = Real.pi) ∧ (angle A < Real.pi / 2 ∨ ¬ FixesDiagonal A)))

/-- States of the nodes to be estimated. -/
def SafeState : NodeVal → Prop
  | ⟨.pose3d, A⟩ => IsRigid A.T ∧ SafeTurn A.T.toBlocks₁₁
  | ⟨.landmark3d, _⟩ => True
  | _ => False

/-- Poses that are not turned by exactly half a turn. -/
def NoHalfTurn : NodeVal → Prop
  | ⟨.pose3d, A⟩ => angle A.T.toBlocks₁₁ ≠ Real.pi
  | _ => True

/-- States to start from. -/
def RigidState : NodeVal → Prop
  | ⟨.pose3d, P⟩ => IsRigid P.T
  | _ => True

/-- The objects of `w₀'` are those of `w₀` except that the states to be estimated are off by at most `ρ`; poses are rigid. -/
structure DisplacedSpatial (ρ : ℝ) (ops : List GraphOp) (w₀ w₀' : World) : Prop where
  /-- same factors, same modes, states not too far -/
  near : Restated (NearSpatial ρ) (fun v v' => v' = v) ops w₀ w₀'
  /-- rigid poses -/
  rigid : ∀ n, Involved ops w₀ n → RigidState (w₀'.nh n).val
  /-- anchors are where they should be -/
  anchors : ∀ n, Involved ops w₀ n → (w₀.nh n).mode ≠ .standard → (w₀'.nh n).val = (w₀.nh n).val

/-- The measurements of a factor are exactly those of the states: the measured pose, the measured pose of the second node in the
frame of the first, the landmark in the frame of the pose, the point on the plane. -/
inductive AgreesSpatial (val : NRef → NodeVal) : FactorVirt → List NRef → Prop
  | prior3d {A : SE3} {W ty n} (hn : val n = ⟨.pose3d, A⟩) (hA : IsRigid A.T) : AgreesSpatial val (.prior3d A W ty) [n]
  | rel3d {O A B : SE3} {W ty n m} (hn : val n = ⟨.pose3d, A⟩) (hm : val m = ⟨.pose3d, B⟩) (hA : IsRigid A.T) (hB : IsRigid B.T)
      (h : B.T = A.T * O.T) : AgreesSpatial val (.rel3d O W ty) [n, m]
  | land3d {obs l : Vec3} {A : SE3} {W ty n m} (hn : val n = ⟨.pose3d, A⟩) (hm : val m = ⟨.landmark3d, l⟩) (hA : IsRigid A.T)
      (h : l = A.R *ᵥ obs + A.t) : AgreesSpatial val (.land3d obs W false ty) [n, m]
  | land3dRev {obs l : Vec3} {A : SE3} {W ty n m} (hn : val n = ⟨.pose3d, A⟩) (hm : val m = ⟨.landmark3d, l⟩) (hA : IsRigid A.T)
      (h : l = A.R *ᵥ obs + A.t) : AgreesSpatial val (.land3d obs W true ty) [m, n]
  | p2plane {px py ny : Vec3} {A : SE3} {W ty n} (hn : val n = ⟨.pose3d, A⟩) (hA : IsRigid A.T)
      (h : ny ⬝ᵥ (A.R *ᵥ px + A.t - py) = 0) : AgreesSpatial val (.p2plane px py ny W ty) [n]

end Spec
