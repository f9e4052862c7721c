import Verif.Spec.WorldFrame

/-!
# Specification: the same spatial problem in another world frame
-/

open Matrix

namespace Spec

open Mrob

/-- How twists, the angular part first, change under the rigid motion `G`. -/
def adjoint (G : Mat4) : Matrix (Fin 3 ⊕ Fin 3) (Fin 3 ⊕ Fin 3) ℝ :=
  fromBlocks G.toBlocks₁₁ 0 (crossMat (fun i => G (Sum.inl i) (Sum.inr ())) * G.toBlocks₁₁) G.toBlocks₁₁

/-- The same with the coordinates of twists numbered. -/
def adjoint6 (G : Mat4) : Matrix (Fin 6) (Fin 6) ℝ := (adjoint G).submatrix at6 at6

/-- Corresponding factors.  What is measured in the frame of a pose is the same; points and normals given in the world frame
are moved, and so is the measured pose of a prior; the information of a measurement whose error is expressed in the world frame
(prior, relative pose) is expressed in the moved frame. -/
inductive SpatialFactorMoved (G : Mat4) : FactorVirt → FactorVirt → Prop
  | land3d (obs W rev ty) : SpatialFactorMoved G (.land3d obs W rev ty) (.land3d obs W rev ty)
  | plane4d (obs W rev ty) : SpatialFactorMoved G (.plane4d obs W rev ty) (.plane4d obs W rev ty)
  | p2plane (px py ny W ty) :
      SpatialFactorMoved G (.p2plane px py ny W ty) (.p2plane px (movePoint G py) (G.toBlocks₁₁ *ᵥ ny) W ty)
  | prior3d (obs obs' W W' ty) : IsRigid obs.T → obs'.T = G * obs.T → W = (adjoint6 G)ᵀ * W' * adjoint6 G →
      SpatialFactorMoved G (.prior3d obs W ty) (.prior3d obs' W' ty)
  | rel3d (obs W W' ty) : IsRigid obs.T → W = (adjoint6 G)ᵀ * W' * adjoint6 G →
      SpatialFactorMoved G (.rel3d obs W ty) (.rel3d obs W' ty)

/-- Below a right angle and outside the interval in which logarithm and exponential are approximated. -/
def Mild (R : Mat3) : Prop := (angle R = 0 ∨ 5e-3 < angle R) ∧ angle R < Real.pi / 2

/-- Rotations of which `exp` undoes `ln`, see C13. -/
def Plain (R : Mat3) : Prop := (angle R = 0 ∨ 5e-3 < angle R) ∧ (angle R ≤ Real.pi - 6e-8 ∨ angle R = Real.pi) ∧
  (angle R < Real.pi / 2 ∨ ¬ FixesDiagonal R)

/-- The poses are rigid, and the rotation between a measured pose and the predicted one is mild. -/
def MildErrors (v : FactorVirt) (vals : List NodeVal) : Prop :=
  (∀ X, (⟨.pose3d, X⟩ : NodeVal) ∈ vals → IsRigid X.T) ∧
  (∀ obs W ty X, v = .prior3d obs W ty → vals = [⟨.pose3d, X⟩] → Mild (X.T * obs.T⁻¹).toBlocks₁₁) ∧
  ∀ obs W ty X Y, v = .rel3d obs W ty → vals = [⟨.pose3d, X⟩, ⟨.pose3d, Y⟩] → Mild (X.T * obs.T * Y.T⁻¹).toBlocks₁₁

/-- If the value is a spatial pose: it is rigid, the angular part of the increment is zero or longer than 1e-3, and the pose
displaced by the increment has a plain rotation in both frames. -/
def MildStep (G : Mat4) (v : NodeVal) (δ : ℕ → ℝ) : Prop :=
  ∀ X : SE3, v = ⟨.pose3d, X⟩ → IsRigid X.T ∧ ((∀ i : Fin 3, δ i = 0) ∨ 1e-3 < len fun i : Fin 3 => δ i) ∧
    Plain (NormedSpace.exp (twist (fun i => δ i) fun i => δ (3 + i)) * X.T).toBlocks₁₁ ∧
    Plain (G * (NormedSpace.exp (twist (fun i => δ i) fun i => δ (3 + i)) * X.T)).toBlocks₁₁

end Spec
