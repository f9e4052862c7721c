import Verif.Spec.WorldFrame3d

/-!
# Specification: another frame fixed to the vehicle
-/

open Matrix

namespace Spec

open Mrob

/-- The same state when the poses are those of another frame of the vehicle: `G` is the pose of the new frame in the old one.
What is in the world stays. -/
def BodyMoved (G : Mat4) : NodeVal → NodeVal → Prop
  | ⟨.pose3d, X⟩, ⟨.pose3d, X'⟩ => X'.T = X.T * G
  | ⟨.landmark3d, l⟩, ⟨.landmark3d, l'⟩ => l' = l
  | ⟨.plane4d, p⟩, ⟨.plane4d, p'⟩ => p' = p
  | _, _ => False

open Classical in
/-- Planes are observed with a nonnegative last coordinate. -/
noncomputable def nonnegOffset (p : Vec4) : Vec4 := if p (Sum.inr ()) < 0 then -p else p

/-- The same measurements, expressed in the new frame of the vehicle.  The information of measured poses stays as it is: their
errors are expressed in the world frame. -/
inductive BodyFactorMoved (G : Mat4) : FactorVirt → FactorVirt → Prop
  | prior3d (obs obs' W ty) : IsRigid obs.T → obs'.T = obs.T * G →
      BodyFactorMoved G (.prior3d obs W ty) (.prior3d obs' W ty)
  | rel3d (obs obs' W ty) : G * obs'.T = obs.T * G → BodyFactorMoved G (.rel3d obs W ty) (.rel3d obs' W ty)
  | land3d (obs obs' W W' rev ty) : obs = movePoint G obs' → W = G.toBlocks₁₁ * W' * G.toBlocks₁₁ᵀ →
      BodyFactorMoved G (.land3d obs W rev ty) (.land3d obs' W' rev ty)
  | plane4d (obs obs' W W' rev ty) : len (fun i => obs (Sum.inl i)) = 1 → obs' = nonnegOffset (Gᵀ *ᵥ obs) →
      W = G.submatrix at4 at4 * W' * Gᵀ.submatrix at4 at4 →
      BodyFactorMoved G (.plane4d obs W rev ty) (.plane4d obs' W' rev ty)
  | p2plane (px px' py ny W ty) : px = movePoint G px' → BodyFactorMoved G (.p2plane px py ny W ty) (.p2plane px' py ny W ty)

/-- The poses are rigid; and for observed planes: the origins of the two frames of the vehicle are separated by the predicted
plane exactly if they are separated by the observed one. -/
def SameSide (G : Mat4) (v : FactorVirt) (vals : List NodeVal) : Prop :=
  (∀ X, (⟨.pose3d, X⟩ : NodeVal) ∈ vals → IsRigid X.T) ∧
  ∀ obs W rev ty X p, v = .plane4d obs W rev ty → (⟨.pose3d, X⟩ : NodeVal) ∈ vals → (⟨.plane4d, p⟩ : NodeVal) ∈ vals →
    (((X.Tᵀ *ᵥ p) (Sum.inr ()) < 0 ↔ ((X.T * G)ᵀ *ᵥ p) (Sum.inr ()) < 0) ↔ 0 ≤ (Gᵀ *ᵥ obs) (Sum.inr ()))

/-- If the value is a spatial pose: it is rigid, the angular part of the increment is zero or longer than 1e-3, and the pose
displaced by the increment has a plain rotation, whichever frame of the vehicle is used. -/
def BodyStep (G : Mat4) (v : NodeVal) (δ : ℕ → ℝ) : Prop :=
  ∀ X : SE3, v = ⟨.pose3d, X⟩ → IsRigid X.T ∧ ((∀ i : Fin 3, δ i = 0) ∨ 1e-3 < len fun i : Fin 3 => δ i) ∧
    Plain (NormedSpace.exp (twist (fun i => δ i) fun i => δ (3 + i)) * X.T).toBlocks₁₁ ∧
    Plain (NormedSpace.exp (twist (fun i => δ i) fun i => δ (3 + i)) * X.T * G).toBlocks₁₁

end Spec
