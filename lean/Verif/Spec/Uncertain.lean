import Verif.Spec.Geometry

/-!
# Uncertain poses

A random pose is described by finitely many outcomes with weights.  Convention of the library (SE3cov.hpp and the
referenced paper): the true pose is `exp(δ) T` with a random twist `δ` of mean zero.
-/

open Matrix NormedSpace

namespace Spec

/-- The exponential of the twist `δ`, angular part first. -/
noncomputable def expTwist (δ : Fin 3 ⊕ Fin 3 → ℝ) : Matrix (Fin 3 ⊕ Unit) (Fin 3 ⊕ Unit) ℝ :=
  exp (twist (fun i => δ (Sum.inl i)) fun i => δ (Sum.inr i))

/-- The mean of a random twist with outcomes `δ` of weight `p`. -/
def twistMean {ι : Type} [Fintype ι] (p : ι → ℝ) (δ : ι → Fin 3 ⊕ Fin 3 → ℝ) : Fin 3 ⊕ Fin 3 → ℝ := ∑ i, p i • δ i

/-- Its second moments. -/
def twistCov {ι : Type} [Fintype ι] (p : ι → ℝ) (δ : ι → Fin 3 ⊕ Fin 3 → ℝ) : Matrix (Fin 3 ⊕ Fin 3) (Fin 3 ⊕ Fin 3) ℝ :=
  ∑ i, p i • vecMulVec (δ i) (δ i)

/-- The pose `T` with covariance `S` describes the random pose with outcomes `M i` of weight `p i`: the outcomes are
`exp(δ i) T` where the twists have mean zero and covariance `S`. -/
def Describes (T : Matrix (Fin 3 ⊕ Unit) (Fin 3 ⊕ Unit) ℝ) (S : Matrix (Fin 3 ⊕ Fin 3) (Fin 3 ⊕ Fin 3) ℝ) {ι : Type}
    [Fintype ι] (p : ι → ℝ) (M : ι → Matrix (Fin 3 ⊕ Unit) (Fin 3 ⊕ Unit) ℝ) : Prop :=
  ∃ δ : ι → Fin 3 ⊕ Fin 3 → ℝ, (∀ i, M i = expTwist (δ i) * T) ∧ twistMean p δ = 0 ∧ twistCov p δ = S

end Spec
