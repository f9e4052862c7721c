import Mathlib.Data.Matrix.Block
import Mathlib.Data.Matrix.Mul
import Mathlib.LinearAlgebra.Matrix.Notation
import Mathlib.LinearAlgebra.Matrix.Trace
import Mathlib.LinearAlgebra.Matrix.Determinant.Basic
import Mathlib.Analysis.SpecialFunctions.Sqrt
import Mathlib.Analysis.SpecialFunctions.Trigonometric.Inverse

/-!
# Fixed-size vectors and matrices

`src/common/mrob/matrix_base.hpp` fixes `double` as scalar and Eigen fixed-size matrices.
Simplification: `double` is modelled by `ℝ` (no rounding, no infinities, NaN only where the code
tests for it).  `Mat4` and `Mat6` are indexed by sums so that Eigen's `topLeftCorner` etc. are the
block projections of Mathlib.
-/

open Matrix

namespace Mrob

/-- `Mat31` (`matrix_base.hpp`). -/
abbrev Vec3 := Fin 3 → ℝ
/-- `Mat3`. -/
abbrev Mat3 := Matrix (Fin 3) (Fin 3) ℝ
/-- Index type of `Mat4`: rows `0..2` are `Sum.inl`, row `3` is `Sum.inr ()`. -/
abbrev I4 := Fin 3 ⊕ Unit
/-- `Mat4`. -/
abbrev Mat4 := Matrix I4 I4 ℝ
/-- `Mat41`. -/
abbrev Vec4 := I4 → ℝ
/-- Index type of `Mat61`/`Mat6`: `head<3>` is `Sum.inl`, `tail<3>` is `Sum.inr`. -/
abbrev I6 := Fin 3 ⊕ Fin 3
/-- `Mat61`: `[w; v]`, rotation first (`SE3.hpp`). -/
abbrev Vec6 := I6 → ℝ
/-- `Mat6`. -/
abbrev Mat6 := Matrix I6 I6 ℝ

variable {ι κ : Type*} [Fintype ι] [Fintype κ]

/-- Eigen's `squaredNorm()` of a vector. -/
def sqNorm (v : ι → ℝ) : ℝ := ∑ i, v i * v i

/-- Eigen's `norm()` of a vector. -/
noncomputable def vnorm (v : ι → ℝ) : ℝ := Real.sqrt (sqNorm v)

/-- Eigen's `norm()` of a matrix (Frobenius). -/
noncomputable def mnorm (M : Matrix ι κ ℝ) : ℝ := Real.sqrt (∑ i, ∑ j, M i j * M i j)

/-- Eigen's `head<3>()` of a 6-vector. -/
def head3 (x : Vec6) : Vec3 := fun i => x (Sum.inl i)
/-- Eigen's `tail<3>()` of a 6-vector. -/
def tail3 (x : Vec6) : Vec3 := fun i => x (Sum.inr i)
/-- `xi << w, v`. -/
def vec6 (w v : Vec3) : Vec6 := Sum.elim w v

/-- `std::acos` on doubles: NaN (`none`) outside `[-1,1]`. -/
noncomputable def cacos (x : ℝ) : Option ℝ :=
  if -1 ≤ x ∧ x ≤ 1 then some (Real.arccos x) else none

end Mrob
