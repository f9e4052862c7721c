import Verif.Model.SO3

/-! # Model of src/geometry/SO3.cpp, conversion of a rotation matrix to a quaternion -/

namespace Mrob

/-- Eigen's conversion of a matrix to a quaternion (`Quaternion(MatrixBase)`, external library, transcribed
from its documented algorithm after Shoemake), coefficients in the order `(x,y,z,w)`; `i`, `j`, `k` are the index of
the largest diagonal entry and its two cyclic successors. -/
noncomputable def rotToQuatLarge (m : Mat3) (i j k : Fin 3) : Fin 4 → ℝ :=
  let t := Real.sqrt (m i i - m j j - m k k + 1)
  let s := (1 / 2) / t
  let q : Fin 4 → ℝ := fun _ => (m k j - m j k) * s
  let q := Function.update q i.castSucc ((1 / 2) * t)
  let q := Function.update q j.castSucc ((m j i + m i j) * s)
  Function.update q k.castSucc ((m k i + m i k) * s)

/-- `mrob::so3_to_quat`, SO3.cpp 301-307, with Eigen's conversion: the branch of a positive trace and the branch of
the largest diagonal entry. -/
noncomputable def so3ToQuat (m : Mat3) : Fin 4 → ℝ :=
  let tr := m 0 0 + m 1 1 + m 2 2
  if tr > 0 then
    let t := Real.sqrt (tr + 1)
    let s := (1 / 2) / t
    ![(m 2 1 - m 1 2) * s, (m 0 2 - m 2 0) * s, (m 1 0 - m 0 1) * s, (1 / 2) * t]
  else
    let i : Fin 3 := if m 1 1 > m 0 0 then 1 else 0
    let i : Fin 3 := if m 2 2 > m i i then 2 else i
    rotToQuatLarge m i (i + 1) (i + 2)

end Mrob
