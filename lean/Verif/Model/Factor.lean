import Verif.Model.Node
import Mathlib.Analysis.SpecialFunctions.Complex.Arg
import Mathlib.Data.Matrix.ColumnRowPartitioned

/-!
# Model of the residuals and Jacobians of the factors

`src/FGraph/factors/factor*.cpp` and `src/PCRegistration/factors/*.cpp`.  A residual is a function of the
observation and of the states of the neighbour nodes; a Jacobian is returned as one block per neighbour node.
Simplification: the members that cache intermediate results of `evaluate_residuals` (`Tr_`, `Tinv_`, `q_`, …) are
recomputed in the Jacobian; the graph always calls `evaluate_residuals` immediately before `evaluate_jacobians`
(factor_graph_solve.cpp 249-251).
-/

open Matrix

namespace Mrob

/-- `chi2_ = 0.5 * r_.dot(W_ * r_)`: factor1Pose2d.cpp 51, factor2Poses2d.cpp 94, factor1Pose3d.cpp 68,
factor2Poses3d.cpp 109, factor1Pose1Landmark2d.cpp 123, factor1Pose1Landmark3d.cpp 96, factor1Pose1Plane4d.cpp 105. -/
def factorChi2 {ι : Type*} [Fintype ι] (W : Matrix ι ι ℝ) (r : ι → ℝ) : ℝ := 0.5 * (r ⬝ᵥ (W *ᵥ r))

/-! ### Factor1Pose2d -/

/-- `Factor1Pose2d::evaluate_residuals`, factor1Pose2d.cpp 43-47. -/
noncomputable def prior2dRes (obs x : Vec3) : Vec3 := wrap2 (x - obs)

/-- `Factor1Pose2d::evaluate_jacobians`, factor1Pose2d.cpp 37-41. -/
def prior2dJac : Mat3 := 1

/-! ### Factor2Poses2d -/

/-- `Factor2Poses2d::evaluate_residuals`, factor2Poses2d.cpp 58-73; `xo`, `xt` are the states of the first and second
neighbour node. -/
noncomputable def rel2dRes (obs xo xt : Vec3) : Vec3 :=
  let h := xt - xo
  let c1 := Real.cos (xo 2)
  let s1 := Real.sin (xo 2)
  wrap2 (![c1 * h 0 + s1 * h 1, -s1 * h 0 + c1 * h 1, h 2] - obs)

/-- `Factor2Poses2d::evaluate_jacobians`, factor2Poses2d.cpp 75-90. -/
noncomputable def rel2dJac (xo xt : Vec3) : Mat3 × Mat3 :=
  let c1 := Real.cos (xo 2)
  let s1 := Real.sin (xo 2)
  let dx := xt 0 - xo 0
  let dy := xt 1 - xo 1
  (!![-c1, -s1, -s1 * dx + c1 * dy;
      s1, -c1, -c1 * dx - s1 * dy;
      0, 0, -1],
   !![c1, s1, 0;
      -s1, c1, 0;
      0, 0, 1])

/-- A relative 2D factor as left by its constructor, factor2Poses2d.cpp 31-49: the stored observation and whether the
neighbour nodes were exchanged. -/
structure Rel2d where
  /-- `obs_` -/
  obs : Vec3
  /-- the target is the first neighbour -/
  swapped : Bool

/-- Constructor of `Factor2Poses2d` without the initialisation of the target, factor2Poses2d.cpp 31-49. -/
def Rel2d.new (observation : Vec3) (idOrigin idTarget : ℕ) : Rel2d :=
  if idOrigin < idTarget then ⟨observation, false⟩ else ⟨-observation, true⟩

/-- Residual evaluated when the node passed as origin is at `xo` and the one passed as target at `xt`. -/
noncomputable def Rel2d.res (f : Rel2d) (xo xt : Vec3) : Vec3 :=
  if f.swapped then rel2dRes f.obs xt xo else rel2dRes f.obs xo xt

/-- State of the target after `updateNodeTarget`, factor2Poses2d.cpp 50-54. -/
noncomputable def Rel2d.initTarget (f : Rel2d) (xo xt : Vec3) : Vec3 :=
  NodeKind.upd .pose2d xt (xo + f.obs - xt)

/-! ### Factor2Poses2dOdom -/

/-- `Factor2Poses2dOdom::get_odometry_prediction`, factor2Poses2d.cpp 146-153. -/
noncomputable def odomPredict (state motion : Vec3) : Vec3 :=
  let th := state 2 + motion 0
  ![state 0 + motion 1 * Real.cos th, state 1 + motion 1 * Real.sin th, th + motion 2]

/-- `Factor2Poses2dOdom::evaluate_residuals`, factor2Poses2d.cpp 121-131. -/
noncomputable def odomRes (obs xo xt : Vec3) : Vec3 := wrap2 (odomPredict xo obs - xt)

/-- `Factor2Poses2dOdom::evaluate_jacobians`, factor2Poses2d.cpp 132-143. -/
noncomputable def odomJac (obs xo : Vec3) : Mat3 × Mat3 :=
  let s := -obs 1 * Real.sin (xo 2)
  let c := obs 1 * Real.cos (xo 2)
  (!![1, 0, s;
      0, 1, c;
      0, 0, 1],
   !![-1, 0, 0;
      0, -1, 0;
      0, 0, -1])

/-- Residual of an odometry factor constructed for the given ids: the base class constructor exchanges the nodes, and
the assert of factor2Poses2d.cpp 113 is compiled out in Release builds. -/
noncomputable def odomNewRes (observation : Vec3) (idOrigin idTarget : ℕ) (xo xt : Vec3) : Vec3 :=
  let f := Rel2d.new observation idOrigin idTarget
  if f.swapped then odomRes f.obs xt xo else odomRes f.obs xo xt

/-- State of the target after `updateNodeTarget`, factor2Poses2d.cpp 114-118. -/
noncomputable def odomInitTarget (observation : Vec3) (idOrigin idTarget : ℕ) (xo xt : Vec3) : Vec3 :=
  NodeKind.upd .pose2d xt (odomPredict xo (Rel2d.new observation idOrigin idTarget).obs - xt)

/-! ### Factor1Pose3d -/

/-- `Tr_` of `Factor1Pose3d`, factor1Pose3d.cpp 53-54. -/
def prior3dTr (Tobs X : SE3) : SE3 := X.mul Tobs.inv

/-- `Factor1Pose3d::evaluate_residuals`, factor1Pose3d.cpp 48-56. -/
noncomputable def prior3dRes (Tobs X : SE3) : Vec6 := (prior3dTr Tobs X).lnVee

/-- `Factor1Pose3d::evaluate_jacobians`, factor1Pose3d.cpp 58-64. -/
def prior3dJac : Mat6 := 1

/-! ### Factor2Poses3d -/

/-- `Tr_` of `Factor2Poses3d`, factor2Poses3d.cpp 94-96. -/
def rel3dTr (Tobs Xo Xt : SE3) : SE3 := (Xo.mul Tobs).mul Xt.inv

/-- `Factor2Poses3d::evaluate_residuals`, factor2Poses3d.cpp 87-99. -/
noncomputable def rel3dRes (Tobs Xo Xt : SE3) : Vec6 := (rel3dTr Tobs Xo Xt).lnVee

/-- `Factor2Poses3d::evaluate_jacobians`, factor2Poses3d.cpp 100-105. -/
def rel3dJac (Tobs Xo Xt : SE3) : Mat6 × Mat6 := (1, -(rel3dTr Tobs Xo Xt).adj)

/-- A relative 3D factor as left by its constructor, factor2Poses3d.cpp 32-49 and 59-76. -/
structure Rel3d where
  /-- `Tobs_` -/
  Tobs : SE3
  /-- the target is the first neighbour -/
  swapped : Bool

/-- Constructor of `Factor2Poses3d`: in the second branch `Tobs_.inv()` returns a new object which is discarded
(lines 48 and 75; `SE3::inv` is a const member function), so `Tobs_` keeps the observation. -/
def Rel3d.new (observation : SE3) (idOrigin idTarget : ℕ) : Rel3d :=
  if idOrigin < idTarget then ⟨observation, false⟩ else ⟨observation, true⟩

/-- Residual evaluated when the node passed as origin is at `Xo` and the one passed as target at `Xt`. -/
noncomputable def Rel3d.res (f : Rel3d) (Xo Xt : SE3) : Vec6 :=
  if f.swapped then rel3dRes f.Tobs Xt Xo else rel3dRes f.Tobs Xo Xt

/-- State of the target after `updateNodeTarget`, factor2Poses3d.cpp 50-56 and 77-83. -/
noncomputable def Rel3d.initTarget (f : Rel3d) (Xo : SE3) : SE3 := NodeKind.store .pose3d (Xo.mul f.Tobs)

/-! ### Factor1Pose1Landmark2d -/

/-- `std::atan2(y, x)`; the sign of a zero is not modelled. -/
noncomputable def catan2 (y x : ℝ) : ℝ := Complex.arg ⟨x, y⟩

open Classical in
/-- `Factor1Pose1Landmark2d::evaluate_residuals`, factor1Pose1Landmark2d.cpp 65-92. -/
noncomputable def land2dRes (obs : Vec2) (x : Vec3) (l : Vec2) : Vec2 :=
  let dx := l 0 - x 0
  let dy := l 1 - x 1
  let q := dx * dx + dy * dy
  if q < 1e-6 then 0
  else ![Real.sqrt q - obs 0, wrapAngle (catan2 dy dx - x 2 - obs 1)]

open Classical in
/-- `Factor1Pose1Landmark2d::evaluate_jacobians`, factor1Pose1Landmark2d.cpp 93-119: blocks `Jx` and `Jl`; they are
stored in the order of the neighbour nodes. -/
noncomputable def land2dJac (x : Vec3) (l : Vec2) : Matrix (Fin 2) (Fin 3) ℝ × Matrix (Fin 2) (Fin 2) ℝ :=
  let dx := l 0 - x 0
  let dy := l 1 - x 1
  let q := dx * dx + dy * dy
  if q < 1e-6 then (!![1, 0, 0; 0, 1, 0], 1)
  else
    (!![-dx / Real.sqrt q, -dy / Real.sqrt q, 0;
        dy / q, -dx / q, -1],
     !![dx / Real.sqrt q, dy / Real.sqrt q;
        -dy / q, dx / q])

/-- Landmark state after `initializeLandmark`, factor1Pose1Landmark2d.cpp 54-61. -/
noncomputable def land2dInit (obs : Vec2) (x : Vec3) : Vec2 :=
  NodeKind.store .landmark2d
    ![x 0 + obs 0 * Real.cos (obs 1 + x 2), x 1 + obs 0 * Real.sin (obs 1 + x 2)]

/-! ### Factor1Pose1Landmark3d -/

/-- `Factor1Pose1Landmark3d::evaluate_residuals`, factor1Pose1Landmark3d.cpp 59-74. -/
def land3dRes (obs : Vec3) (X : SE3) (l : Vec3) : Vec3 := X.inv.transform l - obs

/-- `Jr` of factor1Pose1Landmark3d.cpp 79-81, a 4×6 matrix with zero last row. -/
def land3dJr (l : Vec3) : Matrix I4 I6 ℝ := Matrix.fromBlocks (hat3 l) (-1) 0 0

/-- `Factor1Pose1Landmark3d::evaluate_jacobians`, factor1Pose1Landmark3d.cpp 75-92: blocks for the pose and for the
landmark. -/
def land3dJac (X : SE3) (l : Vec3) : Matrix (Fin 3) I6 ℝ × Mat3 :=
  (Matrix.of fun i j => (X.inv.T * land3dJr l) (Sum.inl i) j, X.inv.R)

/-- Landmark state after the constructor with `initializeLandmark`: unchanged, the branch is a TODO,
factor1Pose1Landmark3d.cpp 51-54. -/
def land3dInit (_obs : Vec3) (_X : SE3) (l : Vec3) : Vec3 := l

/-! ### Factor1Pose1Plane4d -/

/-- Observation stored by the constructor, factor1Pose1Plane4d.cpp 34-37. -/
noncomputable def planeObs (observation : Vec4) : Vec4 := normalizeHead observation

/-- `pi_local`, factor1Pose1Plane4d.cpp 72-74. -/
def planeLocal (X : SE3) (pl : Vec4) : Vec4 := X.Tᵀ *ᵥ pl

open Classical in
/-- `Factor1Pose1Plane4d::evaluate_residuals`, factor1Pose1Plane4d.cpp 53-85. -/
noncomputable def planeRes (obs : Vec4) (X : SE3) (pl : Vec4) : Vec4 :=
  if planeLocal X pl (Sum.inr ()) < 0 then planeLocal X pl + obs else planeLocal X pl - obs

/-- `Jx` before the multiplication, factor1Pose1Plane4d.cpp 88-91. -/
def planeJr (n : Vec3) : Matrix I4 I6 ℝ := Matrix.fromBlocks (hat3 n) 0 0 (Matrix.of fun _ j => n j)

/-- `Factor1Pose1Plane4d::evaluate_jacobians`, factor1Pose1Plane4d.cpp 86-102: blocks for the pose and for the plane. -/
def planeJac (X : SE3) (pl : Vec4) : Matrix I4 I6 ℝ × Mat4 :=
  (X.Tᵀ * planeJr fun i => pl (Sum.inl i), X.Tᵀ)

/-! ### Point registration factors -/

/-- `Factor1PosePoint2Plane::evaluate_residuals`, factor1PosePoint2Plane.cpp 43-50. -/
def p2planeRes (px py ny : Vec3) (X : SE3) : ℝ := ny ⬝ᵥ (X.transform px - py)

/-- `[-hat3(Tx), I]`, factor1PosePoint2Plane.cpp 55-56 and factor1PosePoint2Point.cpp 56. -/
def pointJr (q : Vec3) : Matrix (Fin 3) I6 ℝ := Matrix.fromCols (-hat3 q) 1

/-- `Factor1PosePoint2Plane::evaluate_jacobians`, factor1PosePoint2Plane.cpp 52-58. -/
def p2planeJac (px ny : Vec3) (X : SE3) : Vec6 := ny ᵥ* pointJr (X.transform px)

/-- A point-to-point factor: `z_point_y_` is the data member. -/
structure P2Point where
  /-- `z_point_x_` -/
  px : Vec3
  /-- `z_point_y_` -/
  py : Vec3

/-- Constructor, factor1PosePoint2Point.cpp 31-36.  The initialiser is `z_point_y_(z_point_y_)`: the member is copied
onto itself and the parameter `z_point_y` is not used.  `mem` stands for the indeterminate content of the memory. -/
def P2Point.new (mem : Vec3) (z_point_x _z_point_y : Vec3) : P2Point := ⟨z_point_x, mem⟩

/-- `Factor1PosePoint2Point::evaluate_residuals`, factor1PosePoint2Point.cpp 44-51. -/
def P2Point.res (f : P2Point) (X : SE3) : Vec3 := X.transform f.px - f.py

/-- `Factor1PosePoint2Point::evaluate_jacobians`, factor1PosePoint2Point.cpp 53-57. -/
def P2Point.jac (f : P2Point) (X : SE3) : Matrix (Fin 3) I6 ℝ := pointJr (X.transform f.px)

end Mrob
