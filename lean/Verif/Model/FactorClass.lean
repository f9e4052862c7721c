import Verif.Model.Solve

/-!
# The factor classes as objects

The virtual methods of the factor classes of `src/FGraph/factors` and `src/PCRegistration/factors`, assembled from the
residuals and Jacobians of `Model/Factor.lean`, and their constructors.  States of a wrong class (excluded by
`FactorCell.wellTyped`) are mapped to arbitrary values.
-/

open Matrix

namespace Mrob

/-- Position of a coordinate in a twist: `head(3)` is the rotation, `tail(3)` the translation. -/
def at6 (i : Fin 6) : I6 := if h : (i : ℕ) < 3 then Sum.inl ⟨i, h⟩ else Sum.inr ⟨i - 3, by omega⟩
/-- Position of a coordinate in a plane or homogeneous vector. -/
def at4 (i : Fin 4) : I4 := if h : (i : ℕ) < 3 then Sum.inl ⟨i, h⟩ else Sum.inr ()

/-- Coefficients of a block. -/
def blk {m n : ℕ} (M : Matrix (Fin m) (Fin n) ℝ) (l : Fin m) (c : ℕ) : ℝ := if h : c < n then M l ⟨c, h⟩ else 0

/-- Coefficients of two blocks side by side: `topLeftCorner`, `topRightCorner`. -/
def blk2 {m n k : ℕ} (M : Matrix (Fin m) (Fin n) ℝ) (K : Matrix (Fin m) (Fin k) ℝ) (l : Fin m) (c : ℕ) : ℝ :=
  if c < n then blk M l c else blk K l (c - n)

namespace FactorVirt

/-- `Factor1Pose2d`, factor1Pose2d.{hpp,cpp}. -/
noncomputable def prior2d (obs : Vec3) (W : Mat3) (ty : Robust) : FactorVirt where
  dim := 3
  kinds := [.pose2d]
  res := fun | [⟨.pose2d, x⟩] => prior2dRes obs x | _ => 0
  jac := fun _ => blk prior2dJac
  W := W
  robust := ty

/-- `Factor2Poses2d`, factor2Poses2d.{hpp,cpp}; the states are those of the first and of the second neighbour. -/
noncomputable def rel2d (obs : Vec3) (W : Mat3) (ty : Robust) : FactorVirt where
  dim := 3
  kinds := [.pose2d, .pose2d]
  res := fun | [⟨.pose2d, x⟩, ⟨.pose2d, y⟩] => rel2dRes obs x y | _ => 0
  jac := fun | [⟨.pose2d, x⟩, ⟨.pose2d, y⟩] => blk2 (rel2dJac x y).1 (rel2dJac x y).2 | _ => 0
  W := W
  robust := ty

/-- `Factor2Poses2dOdom`, factor2Poses2d.{hpp,cpp}. -/
noncomputable def odom (obs : Vec3) (W : Mat3) (ty : Robust) : FactorVirt where
  dim := 3
  kinds := [.pose2d, .pose2d]
  res := fun | [⟨.pose2d, x⟩, ⟨.pose2d, y⟩] => odomRes obs x y | _ => 0
  jac := fun | [⟨.pose2d, x⟩, ⟨.pose2d, _⟩] => blk2 (odomJac obs x).1 (odomJac obs x).2 | _ => 0
  W := W
  robust := ty

/-- `Factor1Pose3d`, factor1Pose3d.{hpp,cpp}. -/
noncomputable def prior3d (Tobs : SE3) (W : Matrix (Fin 6) (Fin 6) ℝ) (ty : Robust) : FactorVirt where
  dim := 6
  kinds := [.pose3d]
  res := fun | [⟨.pose3d, X⟩] => fun i => prior3dRes Tobs X (at6 i) | _ => 0
  jac := fun _ => blk (prior3dJac.submatrix at6 at6)
  W := W
  robust := ty

/-- `Factor2Poses3d`, factor2Poses3d.{hpp,cpp}. -/
noncomputable def rel3d (Tobs : SE3) (W : Matrix (Fin 6) (Fin 6) ℝ) (ty : Robust) : FactorVirt where
  dim := 6
  kinds := [.pose3d, .pose3d]
  res := fun | [⟨.pose3d, X⟩, ⟨.pose3d, Y⟩] => fun i => rel3dRes Tobs X Y (at6 i) | _ => 0
  jac := fun
    | [⟨.pose3d, X⟩, ⟨.pose3d, Y⟩] =>
      blk2 ((rel3dJac Tobs X Y).1.submatrix at6 at6) ((rel3dJac Tobs X Y).2.submatrix at6 at6)
    | _ => 0
  W := W
  robust := ty

/-- `Factor1Pose1Landmark2d`, factor1Pose1Landmark2d.{hpp,cpp}; `rev` is `reversedNodeOrder_`. -/
noncomputable def land2d (obs : Vec2) (W : Matrix (Fin 2) (Fin 2) ℝ) (rev : Bool) (ty : Robust) : FactorVirt where
  dim := 2
  kinds := if rev then [.landmark2d, .pose2d] else [.pose2d, .landmark2d]
  res := fun
    | [⟨.pose2d, x⟩, ⟨.landmark2d, y⟩] => land2dRes obs x y
    | [⟨.landmark2d, y⟩, ⟨.pose2d, x⟩] => land2dRes obs x y
    | _ => 0
  jac := fun
    | [⟨.pose2d, x⟩, ⟨.landmark2d, y⟩] => blk2 (land2dJac x y).1 (land2dJac x y).2
    | [⟨.landmark2d, y⟩, ⟨.pose2d, x⟩] => blk2 (land2dJac x y).2 (land2dJac x y).1
    | _ => 0
  W := W
  robust := ty

/-- `Factor1Pose1Landmark3d`, factor1Pose1Landmark3d.{hpp,cpp}. -/
noncomputable def land3d (obs : Vec3) (W : Mat3) (rev : Bool) (ty : Robust) : FactorVirt where
  dim := 3
  kinds := if rev then [.landmark3d, .pose3d] else [.pose3d, .landmark3d]
  res := fun
    | [⟨.pose3d, X⟩, ⟨.landmark3d, y⟩] => land3dRes obs X y
    | [⟨.landmark3d, y⟩, ⟨.pose3d, X⟩] => land3dRes obs X y
    | _ => 0
  jac := fun
    | [⟨.pose3d, X⟩, ⟨.landmark3d, y⟩] => blk2 ((land3dJac X y).1.submatrix id at6) (land3dJac X y).2
    | [⟨.landmark3d, y⟩, ⟨.pose3d, X⟩] => blk2 (land3dJac X y).2 ((land3dJac X y).1.submatrix id at6)
    | _ => 0
  W := W
  robust := ty

/-- `Factor1Pose1Plane4d`, factor1Pose1Plane4d.{hpp,cpp}; the constructor normalises the observation. -/
noncomputable def plane4d (obs : Vec4) (W : Matrix (Fin 4) (Fin 4) ℝ) (rev : Bool) (ty : Robust) : FactorVirt where
  dim := 4
  kinds := if rev then [.plane4d, .pose3d] else [.pose3d, .plane4d]
  res := fun
    | [⟨.pose3d, X⟩, ⟨.plane4d, p⟩] => fun i => planeRes (planeObs obs) X p (at4 i)
    | [⟨.plane4d, p⟩, ⟨.pose3d, X⟩] => fun i => planeRes (planeObs obs) X p (at4 i)
    | _ => 0
  jac := fun
    | [⟨.pose3d, X⟩, ⟨.plane4d, p⟩] =>
      blk2 ((planeJac X p).1.submatrix at4 at6) ((planeJac X p).2.submatrix at4 at4)
    | [⟨.plane4d, p⟩, ⟨.pose3d, X⟩] =>
      blk2 ((planeJac X p).2.submatrix at4 at4) ((planeJac X p).1.submatrix at4 at6)
    | _ => 0
  W := W
  robust := ty

/-- `Factor1PosePoint2Plane`, factor1PosePoint2Plane.{hpp,cpp}. -/
noncomputable def p2plane (px py ny : Vec3) (W : Matrix (Fin 1) (Fin 1) ℝ) (ty : Robust) : FactorVirt where
  dim := 1
  kinds := [.pose3d]
  res := fun | [⟨.pose3d, X⟩] => fun _ => p2planeRes px py ny X | _ => 0
  jac := fun | [⟨.pose3d, X⟩] => blk (Matrix.of fun _ j => p2planeJac px ny X (at6 j)) | _ => 0
  W := W
  robust := ty

end FactorVirt

/-! ### Constructors

The neighbour nodes are ordered by the ids the nodes have when the factor is constructed.  Arguments `r0`, `J0`: contents of
the members `r_`, `J_` before the first evaluation. -/

namespace FactorCell

/-- factor1Pose2d.cpp 28-36. -/
noncomputable def newPrior2d (obs : Vec3) (n : NRef) (W : Mat3) (ty : Robust) (r0 : Fin 3 → ℝ) (J0 : Fin 3 → ℕ → ℝ) :
    FactorCell := .new (.prior2d obs W ty) [n] r0 J0

/-- factor2Poses2d.cpp 31-49. -/
noncomputable def newRel2d (nh : NRef → NodeCell) (obs : Vec3) (o t : NRef) (W : Mat3) (ty : Robust)
    (r0 : Fin 3 → ℝ) (J0 : Fin 3 → ℕ → ℝ) : FactorCell :=
  let f := Rel2d.new obs (nh o).id (nh t).id
  .new (.rel2d f.obs W ty) (if f.swapped then [t, o] else [o, t]) r0 J0

/-- factor2Poses2d.cpp 107-119 with the constructor of the base class. -/
noncomputable def newOdom (nh : NRef → NodeCell) (obs : Vec3) (o t : NRef) (W : Mat3) (ty : Robust)
    (r0 : Fin 3 → ℝ) (J0 : Fin 3 → ℕ → ℝ) : FactorCell :=
  let f := Rel2d.new obs (nh o).id (nh t).id
  .new (.odom f.obs W ty) (if f.swapped then [t, o] else [o, t]) r0 J0

/-- factor1Pose3d.cpp 30-46. -/
noncomputable def newPrior3d (Tobs : SE3) (n : NRef) (W : Matrix (Fin 6) (Fin 6) ℝ) (ty : Robust) (r0 : Fin 6 → ℝ)
    (J0 : Fin 6 → ℕ → ℝ) : FactorCell := .new (.prior3d Tobs W ty) [n] r0 J0

/-- factor2Poses3d.cpp 32-49, 59-76. -/
noncomputable def newRel3d (nh : NRef → NodeCell) (Tobs : SE3) (o t : NRef) (W : Matrix (Fin 6) (Fin 6) ℝ) (ty : Robust)
    (r0 : Fin 6 → ℝ) (J0 : Fin 6 → ℕ → ℝ) : FactorCell :=
  let f := Rel3d.new Tobs (nh o).id (nh t).id
  .new (.rel3d f.Tobs W ty) (if f.swapped then [t, o] else [o, t]) r0 J0

/-- factor1Pose1Landmark2d.cpp 32-51. -/
noncomputable def newLand2d (nh : NRef → NodeCell) (obs : Vec2) (p l : NRef) (W : Matrix (Fin 2) (Fin 2) ℝ) (ty : Robust)
    (r0 : Fin 2 → ℝ) (J0 : Fin 2 → ℕ → ℝ) : FactorCell :=
  if (nh p).id < (nh l).id then .new (.land2d obs W false ty) [p, l] r0 J0
  else .new (.land2d obs W true ty) [l, p] r0 J0

/-- factor1Pose1Landmark3d.cpp 31-49. -/
noncomputable def newLand3d (nh : NRef → NodeCell) (obs : Vec3) (p l : NRef) (W : Mat3) (ty : Robust)
    (r0 : Fin 3 → ℝ) (J0 : Fin 3 → ℕ → ℝ) : FactorCell :=
  if (nh p).id < (nh l).id then .new (.land3d obs W false ty) [p, l] r0 J0
  else .new (.land3d obs W true ty) [l, p] r0 J0

/-- factor1Pose1Plane4d.cpp 30-51. -/
noncomputable def newPlane4d (nh : NRef → NodeCell) (obs : Vec4) (p l : NRef) (W : Matrix (Fin 4) (Fin 4) ℝ) (ty : Robust)
    (r0 : Fin 4 → ℝ) (J0 : Fin 4 → ℕ → ℝ) : FactorCell :=
  if (nh p).id < (nh l).id then .new (.plane4d obs W false ty) [p, l] r0 J0
  else .new (.plane4d obs W true ty) [l, p] r0 J0

/-- factor1PosePoint2Plane.cpp 31-36. -/
noncomputable def newP2Plane (px py ny : Vec3) (n : NRef) (W : Matrix (Fin 1) (Fin 1) ℝ) (ty : Robust) (r0 : Fin 1 → ℝ)
    (J0 : Fin 1 → ℕ → ℝ) : FactorCell := .new (.p2plane px py ny W ty) [n] r0 J0

end FactorCell

end Mrob
