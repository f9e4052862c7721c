import Verif.Spec.Geometry
import Mathlib.Analysis.SpecialFunctions.Complex.Arg

/-!
# Measurement errors

What the measurements of the factor graph mean: the difference between the measurement predicted from the states and the
observation.  Angles are compared modulo a full turn by `wrap`.
-/

open Matrix

namespace Spec

/-- Half of the squared Mahalanobis norm. -/
noncomputable def halfSq {n : ℕ} (W : Matrix (Fin n) (Fin n) ℝ) (r : Fin n → ℝ) : ℝ := (∑ i, ∑ j, r i * W i j * r j) / 2

/-- Error of an absolute measurement of a planar pose. -/
noncomputable def absErr2 (wrap : ℝ → ℝ) (obs x : Fin 3 → ℝ) : Fin 3 → ℝ := ![x 0 - obs 0, x 1 - obs 1, wrap (x 2 - obs 2)]

/-- Error of a measurement of the planar pose `y` in the frame of `x`. -/
noncomputable def relErr2 (wrap : ℝ → ℝ) (obs x y : Fin 3 → ℝ) : Fin 3 → ℝ :=
  ![Real.cos (x 2) * (y 0 - x 0) + Real.sin (x 2) * (y 1 - x 1) - obs 0,
    -Real.sin (x 2) * (y 0 - x 0) + Real.cos (x 2) * (y 1 - x 1) - obs 1, wrap (y 2 - x 2 - obs 2)]

/-- Error of an odometry measurement (turn, advance, turn) from `x` to `y`. -/
noncomputable def odomErr2 (wrap : ℝ → ℝ) (obs x y : Fin 3 → ℝ) : Fin 3 → ℝ :=
  ![x 0 + obs 1 * Real.cos (x 2 + obs 0) - y 0, x 1 + obs 1 * Real.sin (x 2 + obs 0) - y 1,
    wrap (x 2 + obs 0 + obs 2 - y 2)]

/-- Error of a measurement of range and bearing of the point `l` from the planar pose `x`. -/
noncomputable def rangeBearingErr (wrap : ℝ → ℝ) (obs : Fin 2 → ℝ) (x : Fin 3 → ℝ) (l : Fin 2 → ℝ) : Fin 2 → ℝ :=
  ![Real.sqrt ((l 0 - x 0) ^ 2 + (l 1 - x 1) ^ 2) - obs 0,
    wrap (Complex.arg ⟨l 0 - x 0, l 1 - x 1⟩ - x 2 - obs 1)]

/-- Error of a measurement of the point `l` in the frame `(R, t)`. -/
def pointErr (obs : Fin 3 → ℝ) (R : Matrix (Fin 3) (Fin 3) ℝ) (t l : Fin 3 → ℝ) : Fin 3 → ℝ := Rᵀ *ᵥ (l - t) - obs

/-- Error of a measurement of the plane `π` (normal and offset) in the frame with homogeneous matrix `T`, where the
predicted plane `Tᵀ π` is oriented such that its offset is not negative. -/
noncomputable def planeErr (obs : Fin 3 ⊕ Unit → ℝ) (T : Matrix (Fin 3 ⊕ Unit) (Fin 3 ⊕ Unit) ℝ) (π : Fin 3 ⊕ Unit → ℝ) :
    Fin 3 ⊕ Unit → ℝ :=
  if 0 ≤ (Tᵀ *ᵥ π) (Sum.inr ()) then Tᵀ *ᵥ π - obs else -(Tᵀ *ᵥ π) - obs

/-- Distance of the image of `p` under `(R, t)` from the plane through `q` with normal `n`. -/
def pointPlaneErr (p q n : Fin 3 → ℝ) (R : Matrix (Fin 3) (Fin 3) ℝ) (t : Fin 3 → ℝ) : ℝ := n ⬝ᵥ (R *ᵥ p + t - q)

end Spec
