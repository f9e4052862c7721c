import Mathlib.Analysis.Normed.Algebra.MatrixExponential
import Mathlib.LinearAlgebra.Matrix.Notation
import Mathlib.LinearAlgebra.CrossProduct
import Mathlib.LinearAlgebra.Matrix.Determinant.Basic
import Mathlib.LinearAlgebra.Matrix.PosDef
import Mathlib.LinearAlgebra.UnitaryGroup
import Mathlib.Analysis.SpecialFunctions.Trigonometric.Basic

/-!
# Specifications for rotations and rigid motions

Independent of the model: only Mathlib notions.
-/

open Matrix

namespace Spec

/-- A rotation of 3-space: orthogonal with determinant one. -/
def IsRotation (R : Matrix (Fin 3) (Fin 3) ℝ) : Prop := R * Rᵀ = 1 ∧ R.det = 1

/-- `IsRotation` is membership in Mathlib's special orthogonal group. -/
theorem isRotation_iff_mem (R : Matrix (Fin 3) (Fin 3) ℝ) :
    IsRotation R ↔ R ∈ Matrix.specialOrthogonalGroup (Fin 3) ℝ := by
  rw [IsRotation, Matrix.mem_specialOrthogonalGroup_iff, Matrix.mem_orthogonalGroup_iff]

/-- A rigid motion in homogeneous coordinates: rotation block, last row `(0,0,0,1)`. -/
def IsRigid (T : Matrix (Fin 3 ⊕ Unit) (Fin 3 ⊕ Unit) ℝ) : Prop :=
  IsRotation T.toBlocks₁₁ ∧ T.toBlocks₂₁ = 0 ∧ T.toBlocks₂₂ = 1

/-- The matrix of the linear map `v ↦ w × v`. -/
def crossMat (w : Fin 3 → ℝ) : Matrix (Fin 3) (Fin 3) ℝ := LinearMap.toMatrix' (crossProduct w)

/-- The generator of the screw motion with angular part `w` and linear part `v`. -/
def twist (w v : Fin 3 → ℝ) : Matrix (Fin 3 ⊕ Unit) (Fin 3 ⊕ Unit) ℝ :=
  Matrix.fromBlocks (crossMat w) (Matrix.of fun i _ => v i) 0 0

/-- Euclidean length. -/
noncomputable def len {ι : Type*} [Fintype ι] (w : ι → ℝ) : ℝ := Real.sqrt (w ⬝ᵥ w)

/-- The angle of a rotation, in `[0, π]`. -/
noncomputable def angle (R : Matrix (Fin 3) (Fin 3) ℝ) : ℝ := Real.arccos ((R.trace - 1) / 2)

/-- Elementary rotation about the `x` axis. -/
noncomputable def rotX (a : ℝ) : Matrix (Fin 3) (Fin 3) ℝ :=
  !![1, 0, 0; 0, Real.cos a, -Real.sin a; 0, Real.sin a, Real.cos a]

/-- Elementary rotation about the `y` axis. -/
noncomputable def rotY (a : ℝ) : Matrix (Fin 3) (Fin 3) ℝ :=
  !![Real.cos a, 0, Real.sin a; 0, 1, 0; -Real.sin a, 0, Real.cos a]

/-- Elementary rotation about the `z` axis. -/
noncomputable def rotZ (a : ℝ) : Matrix (Fin 3) (Fin 3) ℝ :=
  !![Real.cos a, -Real.sin a, 0; Real.sin a, Real.cos a, 0; 0, 0, 1]

/-- The rotation leaves one of the horizontal diagonals `(1,1,0)`, `(1,-1,0)` fixed. -/
def FixesDiagonal (R : Matrix (Fin 3) (Fin 3) ℝ) : Prop :=
  R *ᵥ ![1, 1, 0] = ![1, 1, 0] ∨ R *ᵥ ![1, -1, 0] = ![1, -1, 0]

/-- `R` preserves squared lengths up to the relative error `δ`, and so does its transpose. -/
def NearOrthogonal (δ : ℝ) (R : Matrix (Fin 3) (Fin 3) ℝ) : Prop :=
  ∀ x : Fin 3 → ℝ, |(R *ᵥ x) ⬝ᵥ (R *ᵥ x) - x ⬝ᵥ x| ≤ δ * (x ⬝ᵥ x) ∧
    |(Rᵀ *ᵥ x) ⬝ᵥ (Rᵀ *ᵥ x) - x ⬝ᵥ x| ≤ δ * (x ⬝ᵥ x)

/-- Euclidean distance of 3-space points (squared). -/
def dist2 (p q : Fin 3 → ℝ) : ℝ := ∑ i, (p i - q i) ^ 2

/-- The adjoint action `y ↦ [x, y]` of the Lie algebra of rigid motions on twists `(angular, linear)`. -/
def adTwist (w v : Fin 3 → ℝ) : Matrix (Fin 3 ⊕ Fin 3) (Fin 3 ⊕ Fin 3) ℝ :=
  Matrix.fromBlocks (crossMat w) 0 (crossMat v) (crossMat w)

/-- `ad` of the `i`-th basis twist. -/
def adBasis (i : Fin 3 ⊕ Fin 3) : Matrix (Fin 3 ⊕ Fin 3) (Fin 3 ⊕ Fin 3) ℝ :=
  adTwist (fun k => if i = Sum.inl k then 1 else 0) (fun k => if i = Sum.inr k then 1 else 0)

/-- `E[ad(x) ad(x)]` for a random twist `x` with second moments `s`. -/
def momentAdAd (s : Matrix (Fin 3 ⊕ Fin 3) (Fin 3 ⊕ Fin 3) ℝ) : Matrix (Fin 3 ⊕ Fin 3) (Fin 3 ⊕ Fin 3) ℝ :=
  ∑ i, ∑ j, s i j • (adBasis i * adBasis j)

/-- `E[ad(x) P ad(x)ᵀ]` for a random twist `x` with second moments `s`. -/
def momentAdPAd (s P : Matrix (Fin 3 ⊕ Fin 3) (Fin 3 ⊕ Fin 3) ℝ) :
    Matrix (Fin 3 ⊕ Fin 3) (Fin 3 ⊕ Fin 3) ℝ :=
  ∑ i, ∑ j, s i j • (adBasis i * P * (adBasis j)ᵀ)

/-- Two angles are the same direction: they differ by a whole number of turns. -/
def SameAngle (a b : ℝ) : Prop := ∃ k : ℤ, a = b + k * (2 * Real.pi)

end Spec
