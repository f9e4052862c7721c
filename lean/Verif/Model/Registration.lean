import Verif.Model.Plane
import Mathlib.LinearAlgebra.Matrix.NonsingularInverse

/-!
# Model of `arun.cpp`, `gicp.cpp`, `weight_point.cpp` and `estimate_plane.cpp`

An `N×3` matrix of points is the list of its rows.  The asserts on the number of rows vanish in the Release build; a
mismatch which makes Eigen read out of range is undefined behaviour.
-/

open Matrix

namespace Mrob

/-- Result of `JacobiSVD<Matrix3d>` with full `U` and `V`. -/
structure SVD3 where
  /-- `matrixU()` -/
  U : Mat3
  /-- `singularValues()` -/
  sv : Fin 3 → ℝ
  /-- `matrixV()` -/
  V : Mat3

/-- What Eigen's documentation promises: orthogonal factors, singular values nonnegative and in decreasing order. -/
def SVD3.Decomposes (d : SVD3) (H : Mat3) : Prop :=
  d.Uᵀ * d.U = 1 ∧ d.Vᵀ * d.V = 1 ∧ Antitone d.sv ∧ 0 ≤ d.sv 2 ∧ H = d.U * Matrix.diagonal d.sv * d.Vᵀ

/-- `X.colwise().sum()` divided by the number of rows, arun.cpp 56-59, estimate_plane.cpp 46-47, 84-85. -/
noncomputable def rowMean (X : List Vec3) : Vec3 := (X.length : ℝ)⁻¹ • X.sum

/-- `X.rowwise() - c`. -/
def centred (X : List Vec3) (c : Vec3) : List Vec3 := X.map (· - c)

/-- `A.transpose() * B` for two matrices of points. -/
def crossMoment (A B : List Vec3) : Mat3 := (List.zipWith (fun a b => Matrix.vecMulVec a b) A B).sum

/-- The sign change of the last column of `V`, arun.cpp 100-102. -/
def flipLast (V : Mat3) : Mat3 := Matrix.of fun i j => if j = 2 then -V i j else V i j

open Classical in
/-- The rotation of arun.cpp 91-104. -/
noncomputable def arunRotation (d : SVD3) : Mat3 :=
  let R := d.V * d.Uᵀ
  if R.det < 0 then flipLast d.V * d.Uᵀ else R

open Classical in
/-- `PCRegistration::arun`, arun.cpp 34-115: return value and final value of the argument `T`.  No rows: the means
`0/0` are not used, the singular values of the zero matrix are equal. -/
noncomputable def arun (svd : Mat3 → SVD3) (X Y : List Vec3) (T : SE3) : Out (Bool × SE3) :=
  if Y.length ≠ X.length then .ub
  else if X.length = 0 then .ok (false, T)
  else
    let cx := rowMean X
    let cy := rowMean Y
    let d := svd (crossMoment (centred X cx) (centred Y cy))
    if |d.sv 1 - d.sv 0| < 1e-6 then .ok (false, T)
    else if |d.sv 2 - d.sv 1| < 1e-6 then .ok (false, T)
    else
      let R := arunRotation d
      .ok (true, ⟨homog R (cy - R *ᵥ cx) 1⟩)

/-! ## Iterative registration -/

/-- `Jr << hat3(Txi) , -Mat3::Identity()`, gicp.cpp 61-62, weight_point.cpp 59-60. -/
def regJr (q : Vec3) : Matrix (Fin 3) I6 ℝ :=
  Matrix.of fun i j => match j with
    | .inl j => hat3 q i j
    | .inr j => -(1 : Mat3) i j

/-- The contribution of one correspondence to `J` and `H`: `Ji = r' Li Jr`, `Hi = Jr' Li Jr`, gicp.cpp 56-68; weight_point.cpp
55-66 with `Li = weight(i) I`. -/
def regTerm (L : Mat3) (q y : Vec3) : Vec6 × Mat6 :=
  ((y - q) ᵥ* (L * regJr q), (regJr q)ᵀ * L * regJr q)

/-- The loop over the correspondences, gicp.cpp 53-69, weight_point.cpp 52-67.  `W T i` is the weight matrix of
correspondence `i`. -/
def regSystem (W : SE3 → ℕ → Out Mat3) (X Y : List Vec3) (T : SE3) : Out (Vec6 × Mat6) :=
  Out.traverse (fun i => Out.index X i >>= fun x => Out.index Y i >>= fun y => W T i >>= fun L =>
    .ok (regTerm L (T.transform x) y)) (List.range X.length) >>= fun ts => .ok ts.sum

open Classical in
/-- `dxi = -H.inverse()*J`, gicp.cpp 71, weight_point.cpp 69; the inverse of a singular matrix is not a number. -/
noncomputable def regStep (W : SE3 → ℕ → Out Mat3) (X Y : List Vec3) (T : SE3) : Out Vec6 :=
  regSystem W X Y T >>= fun (J, H) => if IsUnit H.det then .ok (-(H⁻¹ *ᵥ J)) else .nan

open Classical in
/-- The do-while loop, gicp.cpp 46-76, weight_point.cpp 45-74, entered with the given value of `iters`. -/
noncomputable def regLoop (step : SE3 → Out Vec6) (tol : ℝ) (iters : ℕ) (T : SE3) : Out (ℕ × SE3) :=
  step T >>= fun dxi =>
    if vnorm dxi > tol ∧ iters + 1 < 20 then regLoop step tol (iters + 1) (T.updateLhs dxi)
    else .ok (iters + 1, T.updateLhs dxi)
termination_by 20 - iters

open Classical in
/-- The matrix `Li`, gicp.cpp 58. -/
noncomputable def gicpWeight (covX covY : List Mat3) (T : SE3) (i : ℕ) : Out Mat3 :=
  Out.index covY i >>= fun sy => Out.index covX i >>= fun sx =>
    if IsUnit (sy + T.R * sx * T.Rᵀ).det then .ok (sy + T.R * sx * T.Rᵀ)⁻¹ else .nan

/-- The factor `weight(i)`, weight_point.cpp 61, 65. -/
def pointWeight (w : List ℝ) (_ : SE3) (i : ℕ) : Out Mat3 := Out.index w i >>= fun w => .ok (w • 1)

/-- `PCRegistration::gicp`, gicp.cpp 32-79. -/
noncomputable def gicp (X Y : List Vec3) (covX covY : List Mat3) (tol : ℝ) (T : SE3) : Out (ℕ × SE3) :=
  regLoop (regStep (gicpWeight covX covY) X Y) tol 0 T

/-- `PCRegistration::weighted_point`, weight_point.cpp 33-77. -/
noncomputable def weightedPoint (X Y : List Vec3) (w : List ℝ) (tol : ℝ) (T : SE3) : Out (ℕ × SE3) :=
  regLoop (regStep (pointWeight w) X Y) tol 0 T

/-! ## Plane, normal and centroid of a cloud -/

/-- `estimate_plane`, `estimate_plane_centered`, estimate_plane.cpp 31-66. -/
noncomputable def estimatePlane (e : EigSolver) (X : List Vec3) : Out Vec4 :=
  if X.length = 0 then .nan
  else
    let c := rowMean X
    let q := centred X c
    let d := e.eig3 (crossMoment q q)
    let normal : Vec3 := fun i => d.vec i 0
    .ok (Sum.elim normal fun _ => -(c ⬝ᵥ normal))

/-- `estimate_normal`, estimate_plane.cpp 70-74. -/
noncomputable def estimateNormal (e : EigSolver) (X : List Vec3) : Out Vec3 :=
  estimatePlane e X >>= fun p => .ok fun i => p (.inl i)

/-- `estimate_centroid`, estimate_plane.cpp 77-87. -/
noncomputable def estimateCentroid (X : List Vec3) : Out Vec3 := if X.length = 0 then .nan else .ok (rowMean X)

end Mrob
