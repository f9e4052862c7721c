import Verif.Model.Registration

/-!
# The registration functions of the Python module and the storage of the covariances

`mrobpy/PCRegistrationPy.cpp`, `src/PCRegistration/gicp.cpp`.  Not modelled: the conversion of numpy arrays by pybind11.
-/

open Matrix

namespace Mrob

/-- `arun_solve`, PCRegistrationPy.cpp 44-49: the return value of `arun` is dropped. -/
noncomputable def arunPy (svd : Mat3 → SVD3) (X Y : List Vec3) : Out SE3 :=
  arun svd X Y SE3.default >>= fun r => .ok r.2

/-- `gicp_solve`, PCRegistrationPy.cpp 52-58, with the default tolerance of pc_registration.hpp 77. -/
noncomputable def gicpPy (X Y : List Vec3) (covX covY : List Mat3) : Out SE3 :=
  gicp X Y covX covY 1e-4 SE3.default >>= fun r => .ok r.2

/-- `weighted_solve`, PCRegistrationPy.cpp 60-66, with the default tolerance of pc_registration.hpp 96. -/
noncomputable def weightedPy (X Y : List Vec3) (w : List ℝ) : Out SE3 :=
  weightedPoint X Y w 1e-4 SE3.default >>= fun r => .ok r.2

/-- A `MatX`: numbers of rows and columns and the coefficients column by column (Eigen's default order). -/
structure MatX where
  rows : ℕ
  cols : ℕ
  data : List ℝ

/-- `m(r, c)` without range checks: the coefficient at offset `r + c * rows` of the storage; a read behind the storage is
undefined. -/
def MatX.coeff (m : MatX) (r c : ℕ) : Out ℝ := Out.index m.data (r + c * m.rows)

/-- `m.block<3,3>(r, c)`. -/
def MatX.block3 (m : MatX) (r c : ℕ) : Out Mat3 :=
  m.coeff r c >>= fun a00 => m.coeff (r + 1) c >>= fun a10 => m.coeff (r + 2) c >>= fun a20 =>
  m.coeff r (c + 1) >>= fun a01 => m.coeff (r + 1) (c + 1) >>= fun a11 => m.coeff (r + 2) (c + 1) >>= fun a21 =>
  m.coeff r (c + 2) >>= fun a02 => m.coeff (r + 1) (c + 2) >>= fun a12 => m.coeff (r + 2) (c + 2) >>= fun a22 =>
  .ok !![a00, a01, a02; a10, a11, a12; a20, a21, a22]

open Classical in
/-- The matrix `Li`, gicp.cpp 58, with the covariances as the arguments hold them. -/
noncomputable def gicpWeightX (covX covY : MatX) (T : SE3) (i : ℕ) : Out Mat3 :=
  covY.block3 (3 * i) 0 >>= fun sy => covX.block3 (3 * i) 0 >>= fun sx =>
    if IsUnit (sy + T.R * sx * T.Rᵀ).det then .ok (sy + T.R * sx * T.Rᵀ)⁻¹ else .nan

/-- `PCRegistration::gicp`, gicp.cpp 32-79, with the covariances as the arguments hold them. -/
noncomputable def gicpX (X Y : List Vec3) (covX covY : MatX) (tol : ℝ) (T : SE3) : Out (ℕ × SE3) :=
  regLoop (regStep (gicpWeightX covX covY) X Y) tol 0 T

end Mrob
