import Verif.Model.SO3

/-!
# Model of `src/geometry/SE3.cpp`

`Mat4` is indexed by `Fin 3 ⊕ Unit`; `T << A, b, 0,0,0,1` is `fromBlocks A (col b) 0 1`.
-/

open Matrix

namespace Mrob

/-- The 4x4 matrix `<< A, b, r` with last row `(0,0,0,c)` (comma initialisers in SE3.cpp). -/
def homog (A : Mat3) (b : Vec3) (c : ℝ) : Mat4 :=
  Matrix.fromBlocks A (Matrix.of fun i _ => b i) 0 (Matrix.of fun _ _ => c)

/-- `mrob::vee6`, SE3.cpp 96-102. -/
def vee6 (X : Mat4) : Vec6 :=
  vec6 ![-X (Sum.inl 1) (Sum.inl 2), X (Sum.inl 0) (Sum.inl 2), -X (Sum.inl 0) (Sum.inl 1)]
    ![X (Sum.inl 0) (Sum.inr ()), X (Sum.inl 1) (Sum.inr ()), X (Sum.inl 2) (Sum.inr ())]

/-- `mrob::hat6`, SE3.cpp 104-112. -/
def hat6 (xi : Vec6) : Mat4 :=
  homog !![0, -xi (Sum.inl 2), xi (Sum.inl 1);
           xi (Sum.inl 2), 0, -xi (Sum.inl 0);
           -xi (Sum.inl 1), xi (Sum.inl 0), 0]
    ![xi (Sum.inr 0), xi (Sum.inr 1), xi (Sum.inr 2)] 0

/-- `topLeftCorner<3,3>()`. -/
def tl3 (T : Mat4) : Mat3 := T.toBlocks₁₁
/-- `topRightCorner<3,1>()`. -/
def tr3 (T : Mat4) : Vec3 := fun i => T (Sum.inl i) (Sum.inr ())

/-- Coefficient `c2` of `V` in `SE3::exp`, SE3.cpp 127-141. -/
noncomputable def vC2 (o o2 : ℝ) : ℝ := if o > 1e-3 then (1 - Real.cos o) / o2 else 0.5 - o2 / 24

/-- Coefficient `c3` of `V` in `SE3::exp`, SE3.cpp 127-141. -/
noncomputable def vC3 (o o2 : ℝ) : ℝ :=
  if o > 1e-3 then (o - Real.sin o) / o2 / o else 1 / 6 - o2 / 120

/-- Matrix assigned to `T_` by `SE3::exp(xi_hat)`, SE3.cpp 114-152. -/
noncomputable def se3ExpHat (X : Mat4) : Mat4 :=
  let xi := vee6 X
  let w := head3 xi
  let v := tail3 xi
  let W := tl3 X
  let o := vnorm w
  let o2 := sqNorm w
  let V : Mat3 := 1 + (vC2 o o2 • W + (vC3 o o2 • W) * W)
  homog (SO3.ofVec w).R (V *ᵥ v) 1

/-- Coefficient `k1` of `SE3::ln`, SE3.cpp 165-179. -/
noncomputable def lnK1 (o : ℝ) : ℝ :=
  if o > 5e-3 then
    1 / o / o * (1 - 0.5 * Real.sin o / ((1 - Real.cos o) / o))
  else 1 / 12 + o * o / 720

/-- `SE3::ln`, SE3.cpp 154-190. -/
noncomputable def se3Ln (T : Mat4) : Mat4 :=
  let r := so3Ln (tl3 T)
  let W := r.1
  let o := r.2
  let Vinv : Mat3 := 1 + (-(0.5 : ℝ) • W + (lnK1 o • W) * W)
  homog W (Vinv *ᵥ tr3 T) 0

/-- An `SE3` object: its data member `T_` (SE3.hpp); the matrix constructor (SE3.cpp 32-35) accepts
any 4x4 matrix. -/
@[ext] structure SE3 where
  /-- `T_` -/
  T : Mat4

namespace SE3

/-- Default constructor: identity. -/
def default : SE3 := ⟨1⟩

/-- `SE3::SE3(const Mat61&)`, SE3.cpp 37-41. -/
noncomputable def ofVec (xi : Vec6) : SE3 := ⟨se3ExpHat (hat6 xi)⟩

/-- `SE3::SE3(const SO3&, Mat31)` and `SE3::SE3(const Mat3&, Mat31)`, SE3.cpp 46-56. -/
def ofRt (R : Mat3) (t : Vec3) : SE3 := ⟨homog R t 1⟩

/-- `SE3::R()`, SE3.cpp 247-250. -/
def R (a : SE3) : Mat3 := tl3 a.T

/-- `SE3::t()`, SE3.cpp 252-255. -/
def t (a : SE3) : Vec3 := tr3 a.T

/-- `SE3::operator*`, `SE3::mul`, SE3.cpp 73-83. -/
def mul (a b : SE3) : SE3 := ⟨a.T * b.T⟩

/-- `SE3::update_lhs`, SE3.cpp 85-89. -/
noncomputable def updateLhs (a : SE3) (dxi : Vec6) : SE3 := ⟨(ofVec dxi).T * a.T⟩

/-- `SE3::update_rhs`, SE3.cpp 90-94. -/
noncomputable def updateRhs (a : SE3) (dxi : Vec6) : SE3 := ⟨a.T * (ofVec dxi).T⟩

/-- `SE3::ln`. -/
noncomputable def ln (a : SE3) : Mat4 := se3Ln a.T

/-- `SE3::ln_vee`, SE3.cpp 192-196. -/
noncomputable def lnVee (a : SE3) : Vec6 := vee6 a.ln

/-- `SE3::transform`, SE3.cpp 198-201. -/
def transform (a : SE3) (p : Vec3) : Vec3 := a.R *ᵥ p + a.t

/-- `SE3::transform_array`, SE3.cpp 204-212: an `N×3` array is a list of rows; the assert on the number
of columns is discharged by the type. -/
def transformArray (a : SE3) (P : List Vec3) : List Vec3 := P.map a.transform

/-- `SE3::inv`, SE3.cpp 215-224. -/
def inv (a : SE3) : SE3 := ⟨homog a.Rᵀ ((-a.Rᵀ) *ᵥ a.t) 1⟩

/-- `SE3::adj`, SE3.cpp 226-234. -/
def adj (a : SE3) : Mat6 := Matrix.fromBlocks a.R 0 (hat3 a.t * a.R) a.R

/-- `SE3::distance`, SE3.cpp 257-260. -/
noncomputable def distance (a b : SE3) : ℝ := vnorm (mul a (inv b)).lnVee

/-- `SE3::distance_rotation`, SE3.cpp 262-266. -/
noncomputable def distanceRotation (a b : SE3) : ℝ := vnorm (SO3.mk (a.R * b.Rᵀ)).lnVee

/-- `SE3::distance_trans`, SE3.cpp 268-271. -/
noncomputable def distanceTrans (a b : SE3) : ℝ := vnorm (a.t - b.t)

/-- `SE3::regenerate`, SE3.cpp 284-288. -/
noncomputable def regenerate (a : SE3) : SE3 := ⟨se3ExpHat a.ln⟩

end SE3

open Classical in
/-- `mrob::isSE3`, SE3.cpp 290-299: signed sum of the deviation of the last row. -/
noncomputable def isSE3 (T : Mat4) : Bool :=
  if isSO3 (tl3 T) = false then false
  else if T (Sum.inr ()) (Sum.inl 0) + T (Sum.inr ()) (Sum.inl 1) + T (Sum.inr ()) (Sum.inl 2)
      + (T (Sum.inr ()) (Sum.inr ()) - 1) > 1e-6 then false
  else true

end Mrob
