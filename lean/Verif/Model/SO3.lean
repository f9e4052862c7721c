import Verif.Model.Eigen

/-!
# Model of `src/geometry/SO3.cpp`
-/

open Matrix

namespace Mrob

/-- `mrob::vee3`, SO3.cpp 90-95.  Only the upper triangle is read. -/
def vee3 (W : Mat3) : Vec3 := ![-W 1 2, W 0 2, -W 0 1]

/-- `mrob::hat3`, SO3.cpp 97-104. -/
def hat3 (w : Vec3) : Mat3 :=
  !![0, -w 2, w 1;
     w 2, 0, -w 0;
     -w 1, w 0, 0]

/-- Coefficient `c1` of `SO3::exp`, SO3.cpp 113-125 (argument: `o` and `o2`). -/
noncomputable def expC1 (o o2 : ℝ) : ℝ := if o < 1e-5 then 1 - o2 / 6 else Real.sin o / o

/-- Coefficient `c2` of `SO3::exp`, SO3.cpp 113-125. -/
noncomputable def expC2 (o o2 : ℝ) : ℝ :=
  if o < 1e-5 then 0.5 - o2 / 24 else (1 - Real.cos o) / o2

/-- Matrix assigned to `R_` by `SO3::exp(w_hat)`, SO3.cpp 107-127. -/
noncomputable def so3ExpHat (W : Mat3) : Mat3 :=
  let w := vee3 W
  let o := vnorm w
  let o2 := sqNorm w
  1 + expC1 o o2 • W + (expC2 o o2 • W) * W

/-- An `SO3` object: its single data member `R_` (SO3.hpp). Any matrix can be stored: the matrix
constructor (SO3.cpp 34-37) does not validate its argument. -/
@[ext] structure SO3 where
  /-- `R_` -/
  R : Mat3

namespace SO3

/-- Default constructor: identity (SO3.hpp, default argument). -/
def default : SO3 := ⟨1⟩

/-- `SO3::SO3(const Mat31 &w)`, SO3.cpp 39-44. -/
noncomputable def ofVec (w : Vec3) : SO3 := ⟨so3ExpHat (hat3 w)⟩

/-- `SO3::operator*`, `SO3::mul`, SO3.cpp 67-76. -/
def mul (a b : SO3) : SO3 := ⟨a.R * b.R⟩

/-- `SO3::update_lhs`, SO3.cpp 78-82. -/
noncomputable def updateLhs (a : SO3) (dw : Vec3) : SO3 := ⟨(ofVec dw).R * a.R⟩

/-- `SO3::update_rhs`, SO3.cpp 84-88. -/
noncomputable def updateRhs (a : SO3) (dw : Vec3) : SO3 := ⟨a.R * (ofVec dw).R⟩

/-- `SO3::inv`, SO3.cpp 242-245. -/
def inv (a : SO3) : SO3 := ⟨a.Rᵀ⟩

/-- `SO3::adj`, SO3.cpp 247-250. -/
def adj (a : SO3) : Mat3 := a.R

end SO3

/-- First branch of `SO3::ln` (`tr > -1.0 + 1e0`), SO3.cpp 136-160; `o?` is the result of `acos`,
`none` being NaN. Returns `res` and the final `o`. -/
noncomputable def lnSmall (R : Mat3) (o? : Option ℝ) : Mat3 × ℝ :=
  match o? with
  | none => ((0 : ℝ) • (R - Rᵀ), 0)
  | some o =>
    if o < 1e-5 then ((0.5 + o * o / 12) • (R - Rᵀ), o)
    else ((0.5 * o / Real.sin o) • (R - Rᵀ), o)

/-- Column selection in the second branch of `SO3::ln`, SO3.cpp 189-210. -/
def lnColumn (R : Mat3) (d : ℝ) [Decidable (R 0 0 > R 1 1 ∧ R 0 0 > R 2 2)]
    [Decidable (R 1 1 > R 0 0 ∧ R 1 1 > R 2 2)] : Vec3 :=
  if R 0 0 > R 1 1 ∧ R 0 0 > R 2 2 then
    ![R 0 0 - d, 0.5 * (R 0 1 + R 1 0), 0.5 * (R 0 2 + R 2 0)]
  else if R 1 1 > R 0 0 ∧ R 1 1 > R 2 2 then
    ![0.5 * (R 1 0 + R 0 1), R 1 1 - d, 0.5 * (R 1 2 + R 2 1)]
  else
    ![0.5 * (R 2 0 + R 0 2), 0.5 * (R 2 1 + R 1 2), R 2 2 - d]

/-- Normalisation to length `o`, SO3.cpp 211-220. -/
noncomputable def lnNormalize (w : Vec3) (o : ℝ) : Vec3 :=
  if vnorm w > 0 then (o / vnorm w) • w else 0

/-- Sign recovery, SO3.cpp 223-230. -/
noncomputable def lnSign (R res : Mat3) : Mat3 :=
  if mnorm (1 + res - R) > mnorm (1 - res - R) then (-1 : ℝ) • res else res

/-- The angle used in the second branch, SO3.cpp 163-177. -/
noncomputable def lnLargeAngle (o? : Option ℝ) : ℝ :=
  match o? with
  | none => Real.pi
  | some o => if Real.pi - o < 6e-8 then Real.pi else o

open Classical in
/-- Second branch of `SO3::ln`, SO3.cpp 161-231. -/
noncomputable def lnLarge (R : Mat3) (o? : Option ℝ) : Mat3 × ℝ :=
  let o := lnLargeAngle o?
  let w := lnNormalize (lnColumn R (Real.cos o)) o
  (lnSign R (hat3 w), o)

/-- `SO3::ln(double *ro)`, SO3.cpp 129-234: the returned matrix and the value stored in `*ro`. -/
noncomputable def so3Ln (R : Mat3) : Mat3 × ℝ :=
  let tr := (R.trace - 1) * 0.5
  let o? := cacos tr
  if tr > -1 + 1 then lnSmall R o? else lnLarge R o?

namespace SO3

/-- `SO3::ln`. -/
noncomputable def ln (a : SO3) : Mat3 := (so3Ln a.R).1

/-- `SO3::ln_vee`, SO3.cpp 236-240. -/
noncomputable def lnVee (a : SO3) : Vec3 := vee3 a.ln

/-- `SO3::distance`, SO3.cpp 262-265. -/
noncomputable def distance (a b : SO3) : ℝ := vnorm (mul a (inv b)).lnVee

end SO3

open Classical in
/-- `mrob::isSO3`, SO3.cpp 280-289. -/
noncomputable def isSO3 (R : Mat3) : Bool :=
  if R.det < 0 then false
  else if |R.det - 1| > 1e-6 then false
  else true

/-- Eigen's `Quaternion::toRotationMatrix()` (external library, transcribed from its documented
formula), for coefficients `(x,y,z,w)`. -/
def quatToRot (x y z w : ℝ) : Mat3 :=
  let tx := 2 * x
  let ty := 2 * y
  let tz := 2 * z
  let twx := tx * w
  let twy := ty * w
  let twz := tz * w
  let txx := tx * x
  let txy := ty * x
  let txz := tz * x
  let tyy := ty * y
  let tyz := tz * y
  let tzz := tz * z
  !![1 - (tyy + tzz), txy - twz, txz + twy;
     txy + twz, 1 - (txx + tzz), tyz - twx;
     txz - twy, tyz + twx, 1 - (txx + tyy)]

/-- `mrob::quat_to_so3`, SO3.cpp 292-298: `q.normalized().toRotationMatrix()`; Eigen's `normalized()`
divides by the norm when the squared norm is positive and returns the vector itself otherwise. -/
noncomputable def quatToSo3 (v : Fin 4 → ℝ) : Mat3 :=
  let n := vnorm v
  if sqNorm v > 0 then quatToRot (v 0 / n) (v 1 / n) (v 2 / n) (v 3 / n)
  else quatToRot (v 0) (v 1) (v 2) (v 3)

/-- `mrob::rpy_to_so3`, SO3.cpp 309-316. Eigen multiplies two `AngleAxis` as quaternions
(`QuaternionType(*this) * QuaternionType(other)`) and the result is converted to a matrix; an
`AngleAxis(a, u)` is the quaternion `(sin(a/2) u, cos(a/2))`. -/
noncomputable def rpyToSo3 (v : Vec3) : Mat3 :=
  let qx : Fin 4 → ℝ := ![Real.sin (v 0 / 2), 0, 0, Real.cos (v 0 / 2)]
  let qy : Fin 4 → ℝ := ![0, Real.sin (v 1 / 2), 0, Real.cos (v 1 / 2)]
  let qz : Fin 4 → ℝ := ![0, 0, Real.sin (v 2 / 2), Real.cos (v 2 / 2)]
  let m (a b : Fin 4 → ℝ) : Fin 4 → ℝ :=
    ![a 3 * b 0 + a 0 * b 3 + a 1 * b 2 - a 2 * b 1,
      a 3 * b 1 + a 1 * b 3 + a 2 * b 0 - a 0 * b 2,
      a 3 * b 2 + a 2 * b 3 + a 0 * b 1 - a 1 * b 0,
      a 3 * b 3 - a 0 * b 0 - a 1 * b 1 - a 2 * b 2]
  let q := m (m qx qy) qz
  quatToRot (q 0) (q 1) (q 2) (q 3)

end Mrob
