import Verif.Model.PlaneReg
import Mathlib.Data.Int.Log

/-!
# Model of `src/PCRegistration/create_points.cpp`

The values drawn from the random number generators are arguments (`Draws`).  The conversion of a point index to a plane index
is done by the code in single precision; this is the only place of the library where rounding is modelled.
-/

open Matrix

namespace Mrob

/-- Rounding to the nearest integer, ties to even. -/
noncomputable def roundEven (x : ℝ) : ℤ :=
  if Int.fract x < 1 / 2 then ⌊x⌋
  else if 1 / 2 < Int.fract x then ⌊x⌋ + 1
  else if Even ⌊x⌋ then ⌊x⌋ else ⌊x⌋ + 1

/-- Rounding to IEEE single precision: 24 significant bits, to nearest.  Overflow, underflow and signed zeros do not occur in
the range where this is used (0 or between `2^-32` and `2^65`). -/
noncomputable def fl32 (x : ℝ) : ℝ :=
  let ulp : ℝ := 2 ^ (Int.log 2 |x| - 23)
  roundEven (x / ulp) * ulp

/-- `std::floor((float)i * (float)numberPlanes_/ (float)numberPoints_)`, create_points.cpp 182, without excess precision; the
conversion of a value from `2^32` on to `uint_t` is undefined, the value is then no valid index either. -/
noncomputable def planeId (numberPoints numberPlanes i : ℕ) : ℕ :=
  ⌊fl32 (fl32 (fl32 i * fl32 numberPlanes) / fl32 numberPoints)⌋₊

/-- The numbers drawn by the constructor of `CreatePoints`, create_points.cpp 57-68, 94-103. -/
structure Draws where
  /-- the six coordinates of `samplePlanes_.samplePose()` for plane `i` -/
  planeXi : ℕ → Vec6
  /-- the six coordinates of `samplePoses_.samplePose()` -/
  finalXi : Vec6
  /-- `xBias_`, `yBias_` at time `t` -/
  bias : ℕ → ℝ × ℝ
  /-- the values of `x_`, `y_`, `z_` for point `i` at time `t` -/
  point : ℕ → ℕ → Vec3

/-- `SamplePlanarSurface::samplePoint`, create_points.cpp 100-103. -/
def Draws.sample (d : Draws) (t i : ℕ) : Vec3 :=
  ![d.point t i 0 + (d.bias t).1, d.point t i 1 + (d.bias t).2, d.point t i 2]

/-- A `CreatePoints` object, create_points.hpp 114-138 (parameters of the generators and unused members left out). -/
structure Scene where
  /-- `numberPoints_` -/
  numberPoints : ℕ
  /-- `numberPlanes_` -/
  numberPlanes : ℕ
  /-- `numberPoses_` -/
  numberPoses : ℕ
  /-- `X_` -/
  X : List (List Vec3)
  /-- `pointId_` -/
  pointId : List (List ℕ)
  /-- `goundTruthTrajectory_` -/
  gt : List SE3
  /-- `planePoses_` -/
  planePoses : List SE3
  /-- `planes_` -/
  planes : List (ℕ × Plane)

/-- A loop over the elements of a list which changes a state. -/
def Out.loop {α σ : Type} (f : α → σ → Out σ) : List α → σ → Out σ
  | [], s => .ok s
  | a :: l, s => f a s >>= fun s => Out.loop f l s

namespace Scene

/-- The pose at time `t`, create_points.cpp 151-170. -/
noncomputable def truePose (d : Draws) (n t : ℕ) : SE3 :=
  let dxi := ((SE3.ofVec d.finalXi).mul SE3.default.inv).lnVee
  let k : ℝ := if n = 1 then 0 else t / (n - 1)
  (SE3.ofVec (k • dxi)).mul SE3.default

/-- The parts 0, 1 and 2 of the constructor, create_points.cpp 124-171. -/
noncomputable def start (d : Draws) (numberPoints numberPlanes numberPoses : ℕ) : Scene where
  numberPoints := numberPoints
  numberPlanes := numberPlanes
  numberPoses := numberPoses
  X := List.replicate numberPoses []
  pointId := List.replicate numberPoses []
  gt := (List.range numberPoses).map (truePose d numberPoses)
  planePoses := (List.range numberPlanes).map fun i => SE3.ofVec (d.planeXi i)
  planes := (List.range numberPlanes).map fun i => (i, Plane.new numberPoses)

/-- The body of the inner loop, create_points.cpp 181-188. -/
noncomputable def addPoint (d : Draws) (t i : ℕ) (s : Scene) : Out Scene :=
  let id := planeId s.numberPoints s.numberPlanes i
  Out.index s.gt t >>= fun T => Out.index s.planePoses id >>= fun P =>
    let point := T.inv.transform (P.transform (d.sample t i))
    Out.index s.X t >>= fun x => Out.index s.pointId t >>= fun ids => Out.index s.planes id >>= fun q =>
      q.2.push point t >>= fun p =>
        .ok { s with
          X := s.X.set t (x ++ [point])
          pointId := s.pointId.set t (ids ++ [id])
          planes := s.planes.set id (q.1, p) }

/-- `CreatePoints::CreatePoints`, create_points.cpp 105-191. -/
noncomputable def create (d : Draws) (numberPoints numberPlanes numberPoses : ℕ) : Out Scene :=
  Out.loop (fun t s => Out.loop (fun i s => addPoint d t i s) (List.range numberPoints) s) (List.range numberPoses)
    (start d numberPoints numberPlanes numberPoses)

/-- `CreatePoints::create_plane_registration`, create_points.cpp 198-206.  The planes stay shared with the scene. -/
def toRegistration (s : Scene) (r : PlaneReg) : PlaneReg :=
  s.planes.foldl (fun r q => r.addPlane q.1 q.2.reset) (r.setNumbers s.numberPlanes s.numberPoses)

/-- `CreatePoints::get_ground_truth_pose`, create_points.cpp 220-226. -/
def truth (i : ℕ) (s : Scene) : Out SE3 := if i < s.numberPoses then Out.atT s.gt i else .ok SE3.default

/-- `CreatePoints::get_ground_truth_last_pose`, create_points.hpp 105. -/
def lastTruth (s : Scene) : Out SE3 :=
  match s.gt.getLast? with
  | some T => .ok T
  | none => .ub

end Scene

end Mrob
