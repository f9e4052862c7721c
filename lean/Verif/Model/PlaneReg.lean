import Verif.Model.Optimizer
import Verif.Model.Registration
import Mathlib.Logic.Equiv.Fin.Basic

/-!
# Model of `src/PCRegistration/plane_registration.cpp`

The trajectory is shared with the planes, which read it during their estimation.  `planes_` is a list of pairs in the order
of iteration of the `unordered_map` (taken to be the order of insertion).  Planes added with `add_plane` are shared with the
caller; what the caller does with them is the operation `external` of `PlaneReg.Op`.  Time profiling and printing are left
out.
-/

open Matrix

namespace Mrob

/-- Runs `f` on the elements of a list from left to right, passing a state along. -/
def Out.mapAccum {α β σ : Type} (f : α → σ → Out (β × σ)) : List α → σ → Out (List β × σ)
  | [], s => .ok ([], s)
  | a :: l, s => f a s >>= fun (b, s) => Out.mapAccum f l s >>= fun (bs, s) => .ok (b :: bs, s)

/-- `PlaneRegistration::SolveMode`, plane_registration.hpp 53-60. -/
inductive SolveMode
  | initialize | gradient | gradientBengiosNag | gradientAllPoses | gnHessian | gnClampedHessian | lmSpher | lmEllip
deriving DecidableEq

/-- The data members of a `PlaneRegistration` object, plane_registration.hpp 175-206, which the code reads, without those of
`OptimizerDense`. -/
structure PlaneReg where
  /-- `numberPlanes_` -/
  numberPlanes : ℕ
  /-- `numberPoses_`, below `2^32` -/
  numberPoses : ℕ
  /-- `planes_` -/
  planes : List (ℕ × Plane)
  /-- `*trajectory_` -/
  traj : List SE3
  /-- `bookept_trajectory_` -/
  booked : SE3
  /-- `solveIters_` -/
  solveIters : ℕ
  /-- `solveMode_` -/
  mode : SolveMode
  /-- `previousState_` -/
  prev : List Vec6
  /-- `alpha_` -/
  alpha : ℝ
  /-- `beta_` -/
  beta : ℝ
  /-- `initial_error_` -/
  initialError : ℝ

namespace PlaneReg

/-- `PlaneRegistration::PlaneRegistration`, plane_registration.cpp 36-44. -/
noncomputable def new : PlaneReg :=
  ⟨0, 0, [], List.replicate 8 SE3.default, SE3.default, 0, .gradient, [], 0.75, 0.1, 0⟩

/-- `PlaneRegistration::set_number_planes_and_poses`, plane_registration.cpp 53-67; the arguments are 32-bit integers. -/
def setNumbers (numberPlanes numberPoses : ℕ) (s : PlaneReg) : PlaneReg :=
  let n := numberPoses % 2 ^ 32
  { s with
    numberPlanes := numberPlanes % 2 ^ 32
    numberPoses := n
    planes := []
    traj := List.replicate n SE3.default
    prev := List.replicate n 0 }

/-- `PlaneRegistration::reset_solution`, plane_registration.cpp 70-77. -/
def resetSolution (s : PlaneReg) : PlaneReg :=
  { s with traj := List.replicate s.numberPoses SE3.default, prev := List.replicate s.numberPoses 0 }

/-- `numberPoses_-1` in 32-bit arithmetic. -/
def lastIdx (s : PlaneReg) : ℕ := (s.numberPoses + (2 ^ 32 - 1)) % 2 ^ 32

/-- `tau = 1.0 / (double)(numberPoses_-1)`, plane_registration.cpp 155, 318, 488, 509, 527.  For one pose the code has an
infinite value here, which it does not use. -/
noncomputable def tau (s : PlaneReg) : ℝ := 1 / (s.lastIdx : ℝ)

/-- The times `1 ≤ t < numberPoses_`. -/
def times (s : PlaneReg) : List ℕ := List.range' 1 (s.numberPoses - 1)

/-- The times `1 ≤ t < numberPoses_-1`. -/
def innerTimes (s : PlaneReg) : List ℕ := List.range' 1 (s.lastIdx - 1)

/-- The loops `trajectory_->at(t) = SE3(tau*t*xiFinal)`, plane_registration.cpp 188-192, 320-324, 511-515, 529-533. -/
noncomputable def interpolate (tau : ℝ) (xi : Vec6) : List ℕ → List SE3 → Out (List SE3)
  | [], traj => .ok traj
  | t :: ts, traj =>
    if t < traj.length then interpolate tau xi ts (traj.set t (SE3.ofVec ((tau * t) • xi))) else .throw

/-- `trajectory_->back()`. -/
def lastPose (s : PlaneReg) : Out SE3 :=
  match s.traj.getLast? with
  | some T => .ok T
  | none => .ub

/-- Assigns the last pose and interpolates, plane_registration.cpp 186-192, 507-515, 525-533. -/
noncomputable def placeLast (T : SE3) (s : PlaneReg) : Out PlaneReg :=
  interpolate s.tau T.lnVee s.innerTimes (s.traj.set (s.traj.length - 1) T) >>= fun traj => .ok { s with traj := traj }

/-- `trajectory_->back().update_lhs(dxi)` and interpolation, plane_registration.cpp 186-192, 507-515. -/
noncomputable def moveLast (dxi : Vec6) (s : PlaneReg) : Out PlaneReg :=
  s.lastPose >>= fun T => s.placeLast (T.updateLhs dxi)

/-- `PlaneRegistration::set_last_pose`, plane_registration.cpp 315-325. -/
noncomputable def setLastPose (last : SE3) (s : PlaneReg) : Out PlaneReg :=
  interpolate s.tau last.lnVee s.times s.traj >>= fun traj => .ok { s with traj := traj }

/-- Calls a function on every plane in turn. -/
def eachPlane {β : Type} (f : Plane → Out (β × Plane)) (s : PlaneReg) : Out (List β × PlaneReg) :=
  Out.traverse (fun p => f p.2 >>= fun r => .ok (r.1, (p.1, r.2))) s.planes >>= fun l =>
    .ok (l.map (·.1), { s with planes := l.map (·.2) })

/-- `PlaneRegistration::get_current_error`, plane_registration.cpp 307-313; `calculate_error`, 476-479; lines 140-144. -/
noncomputable def error (e : EigSolver) (s : PlaneReg) : Out (ℝ × PlaneReg) :=
  s.eachPlane (fun p => p.estimate e s.traj) >>= fun (l, s) => .ok (l.sum, s)

/-- The sums of the gradients and of the numbers of points at time `t`, plane_registration.cpp 158-164, 219-225. -/
def gradAt (t : ℕ) (s : PlaneReg) : Out ((Vec6 × ℕ) × PlaneReg) :=
  s.eachPlane (fun p => p.gradient t >>= fun (g, p) => p.getNumberPoints t >>= fun k => .ok ((g, k), p)) >>=
    fun (l, s) => .ok (((l.map (·.1)).sum, (l.map (·.2)).sum), s)

/-- The accumulation of lines 152-169; dividing by the number of points at a time without points gives NaN. -/
noncomputable def accGradient (s : PlaneReg) : Out (Vec6 × PlaneReg) :=
  Out.mapAccum (fun t s => gradAt t s >>= fun ((g, k), s) =>
    if k = 0 then .nan else .ok ((s.tau * t / k / s.numberPoses) • g, s)) s.times s >>= fun (l, s) => .ok (l.sum, s)

/-- The choice of the increment, plane_registration.cpp 170-185; in other modes `dxi` is used without a value. -/
noncomputable def increment (acc : Vec6) (s : PlaneReg) : Out (Vec6 × PlaneReg) :=
  match s.mode with
  | .gradient => .ok (-(s.alpha • acc), s)
  | .gradientBengiosNag =>
    match s.prev.getLast? with
    | none => .ub
    | some v => .ok ((s.beta * s.beta) • v - ((1 + s.beta) * s.alpha) • acc,
        { s with prev := s.prev.set (s.prev.length - 1) (s.beta • v - s.alpha • acc) })
  | _ => .ub

/-- The body of the loop of `solve_interpolate_gradient`, plane_registration.cpp 138-193; returns the error. -/
noncomputable def gradStep (e : EigSolver) (s : PlaneReg) : Out (ℝ × PlaneReg) :=
  s.error e >>= fun (err, s) => s.accGradient >>= fun (acc, s) => s.increment acc >>= fun (dxi, s) =>
    s.moveLast dxi >>= fun s => .ok (err, s)

/-- The increments of `solve_gradient_all_poses`, plane_registration.cpp 230-234. -/
noncomputable def updatePoses (c : ℝ) : List (ℕ × Vec6) → List SE3 → Out (List SE3)
  | [], traj => .ok traj
  | (t, g) :: l, traj => Out.atT traj t >>= fun T => updatePoses c l (traj.set t (T.updateLhs (-(c • g))))

/-- The body of the loop of `solve_gradient_all_poses`, plane_registration.cpp 207-235.  The number of points of the last
time is the one used; without points the factor is infinite. -/
noncomputable def allPosesStep (e : EigSolver) (s : PlaneReg) : Out (ℝ × PlaneReg) :=
  s.error e >>= fun (err, s) =>
    Out.mapAccum gradAt s.times s >>= fun (l, s) =>
      match l.getLast? with
      | none => .ok (err, s)
      | some (_, k) =>
        if k = 0 then .nan
        else updatePoses (s.alpha / k / s.numberPoses) (s.times.zip (l.map (·.1))) s.traj >>= fun traj =>
          .ok (err, { s with traj := traj })

open Classical in
/-- The do-while loops of `solve_interpolate_gradient` and `solve_gradient_all_poses`, plane_registration.cpp 135-195,
204-237, entered with the given `solveIters_` and `previousError`. -/
noncomputable def gradLoop (step : PlaneReg → Out (ℝ × PlaneReg)) (single : Bool) (iters : ℕ) (prevErr : ℝ) (s : PlaneReg) :
    Out PlaneReg :=
  step s >>= fun (err, s) =>
    if |prevErr - err| > 1e-4 ∧ single = false ∧ iters + 1 < 10000 then
      gradLoop step single (iters + 1) err { s with solveIters := iters + 1 }
    else .ok { s with solveIters := iters + 1 }
termination_by 10000 - iters

/-- `PlaneRegistration::solve_interpolate_gradient`, plane_registration.cpp 131-197 (the returned value is `solveIters_`). -/
noncomputable def interpolateGradient (e : EigSolver) (single : Bool) (s : PlaneReg) : Out PlaneReg :=
  gradLoop (gradStep e) single 0 1e20 { s with solveIters := 0 }

/-- `PlaneRegistration::solve_gradient_all_poses`, plane_registration.cpp 199-239. -/
noncomputable def gradientAllPoses (e : EigSolver) (single : Bool) (s : PlaneReg) : Out PlaneReg :=
  gradLoop (allPosesStep e) single 0 1e20 { s with solveIters := 0 }

/-! ## Initialisation -/

/-- Lines 258-263 of plane_registration.cpp: the mean of the points at time 0 of a plane that has any. -/
noncomputable def firstMean (p : Plane) : Out (Option Vec3 × Plane) :=
  p.calcS false >>= fun p => p.getNumberPoints 0 >>= fun k =>
    if k > 0 then p.meanPoint 0 >>= fun m => .ok (some m, p) else .ok (none, p)

/-- Lines 278-287 of plane_registration.cpp: the rows of `X` and `Y` for time `t`; `Y_points_all[cont]` is read with the
position of the plane among all planes. -/
noncomputable def rowsAt (yAll : List Vec3) (t : ℕ) (s : PlaneReg) : Out (List (Vec3 × Vec3)) :=
  Out.traverse (fun (p, cont) => Plane.getNumberPoints t p.2 >>= fun k =>
    if k > 0 then Plane.meanPoint t p.2 >>= fun x => Out.index yAll cont >>= fun y => .ok (some (x, y))
    else .ok none) s.planes.zipIdx >>= fun l => .ok (l.filterMap id)

/-- The loop over the times, plane_registration.cpp 272-300; returns the return value and the trajectory. -/
noncomputable def initLoop (svd : Mat3 → SVD3) (yAll : List Vec3) (s : PlaneReg) : List ℕ → List SE3 → Out (ℕ × List SE3)
  | [], traj => .ok (1, traj)
  | t :: ts, traj =>
    s.rowsAt yAll t >>= fun rows => arun svd (rows.map (·.1)) (rows.map (·.2)) SE3.default >>= fun (b, T) =>
      if b then (if t < traj.length then initLoop svd yAll s ts (traj.set t T) else .throw) else .ok (0, traj)

/-- `PlaneRegistration::solve_initialize`, plane_registration.cpp 251-305. -/
noncomputable def solveInitialize (svd : Mat3 → SVD3) (s : PlaneReg) : Out (ℕ × PlaneReg) :=
  s.eachPlane firstMean >>= fun (l, s) =>
    initLoop svd (l.filterMap id) s s.times s.traj >>= fun (b, traj) => .ok (b, { s with traj := traj })

/-! ## The functions called by `Optimizer` -/

/-- `hessian.selfadjointView<Eigen::Upper>()`. -/
def symUpper (H : Mat6) : Mat6 := Matrix.of fun i j => if pos6 i ≤ pos6 j then H i j else H j i

/-- The sums of gradients and Hessians at time `t`, plane_registration.cpp 491-497. -/
noncomputable def gradHessAt (t : ℕ) (s : PlaneReg) : Out ((Vec6 × Mat6) × PlaneReg) :=
  s.eachPlane (fun p => p.gradient t >>= fun (g, p) => p.hessian t >>= fun H => .ok ((g, H), p)) >>=
    fun (l, s) => .ok (((l.map (·.1)).sum, (l.map (·.2)).sum), s)

/-- `PlaneRegistration::calculate_gradient_hessian`, plane_registration.cpp 481-502, before the conversion to dynamic
size. -/
noncomputable def gradHess6 (e : EigSolver) (s : PlaneReg) : Out ((Vec6 × Mat6) × PlaneReg) :=
  s.error e >>= fun (_, s) =>
    Out.mapAccum (fun t s => gradHessAt t s >>= fun ((g, H), s) =>
      .ok (((s.tau * t) • g, (s.tau * t) • symUpper H), s)) s.times s >>= fun (l, s) =>
        .ok (((l.map (·.1)).sum, (l.map (·.2)).sum), s)

/-- The entries of a `Mat61` as a vector of dynamic size. -/
def dyn6 (g : Vec6) : Fin 6 → ℝ := fun k => g (finSumFinEquiv.symm k)

/-- A vector of dynamic size assigned to a `Mat61`. -/
def stat6 (g : Fin 6 → ℝ) : Vec6 := fun i => g (finSumFinEquiv i)

/-- `PlaneRegistration::bookkeep_state`, plane_registration.cpp 518-521. -/
def bookkeep (s : PlaneReg) : Out PlaneReg := s.lastPose >>= fun T => .ok { s with booked := T }

/-- `PlaneRegistration::update_state_from_bookkeep`, plane_registration.cpp 523-536. -/
noncomputable def restore (e : EigSolver) (s : PlaneReg) : Out PlaneReg :=
  s.lastPose >>= fun _ => s.placeLast s.booked >>= fun s => s.error e >>= fun (_, s) => .ok s

/-- `PlaneRegistration` as a derived class of `OptimizerDense`, plane_registration.cpp 474-536. -/
noncomputable def problem (e : EigSolver) : DenseProblem PlaneReg where
  error s := s.error e
  gradHess s := s.gradHess6 e >>= fun ((g, H), s) =>
    .ok (⟨6, Matrix.of fun i j => H (finSumFinEquiv.symm i) (finSumFinEquiv.symm j), dyn6 g⟩, s)
  update N dx s := if h : N = 6 then s.moveLast (stat6 fun k => dx (Fin.cast h.symm k)) else .ub
  bookkeep s := s.bookkeep
  restore s := s.restore e

/-- Runs a function of `PlaneRegistration` which does not use the members of `OptimizerDense`. -/
def lift (f : PlaneReg → Out PlaneReg) (s : OptDense PlaneReg) : Out (OptDense PlaneReg) :=
  f s.obj >>= fun o => .ok { s with obj := o }

/-- Stores the result of `Optimizer::solve` in `solveIters_`. -/
def storeIters (r : ℕ × OptDense PlaneReg) : OptDense PlaneReg := { r.2 with obj := { r.2.obj with solveIters := r.1 } }

/-- `PlaneRegistration::solve`, plane_registration.cpp 80-127: return value and object. -/
noncomputable def solve (e : EigSolver) (svd : Mat3 → SVD3) (mode : SolveMode) (single : Bool) (s : OptDense PlaneReg) :
    Out (ℕ × OptDense PlaneReg) :=
  PlaneReg.error e { s.obj with mode := mode } >>= fun (err, o) =>
    let s := { s with obj := { o with initialError := err } }
    match mode with
    | .initialize => s.obj.solveInitialize svd >>= fun (b, o) => .ok (b, { s with obj := o })
    | .gradientAllPoses => lift (gradientAllPoses e false) s >>= fun s => .ok (0, s)
    | .gradientBengiosNag => lift (interpolateGradient e single) s >>= fun s => .ok (0, s)
    | .gnHessian => s.solve (problem e) .newtonRaphson 100 1e-5 >>= fun r => .ok (0, storeIters r)
    | .gnClampedHessian => .ok (0, s)
    | .lmSpher => s.solve (problem e) .lmSpher 100 1e-2 >>= fun r => .ok (0, storeIters r)
    | .lmEllip => s.solve (problem e) .lmEllip 100 1e-2 >>= fun r => .ok (0, storeIters r)
    | .gradient => .ok (0, s)

/-! ## Data -/

/-- `planes_.emplace(id, plane)`: an existing entry is kept. -/
def emplace (id : ℕ) (p : Plane) (s : PlaneReg) : PlaneReg :=
  if (s.planes.map (·.1)).contains id then s else { s with planes := s.planes ++ [(id, p)] }

/-- `PlaneRegistration::add_plane`, plane_registration.cpp 327-331. -/
def addPlane (id : ℕ) (p : Plane) (s : PlaneReg) : PlaneReg := s.emplace id p

/-- `PlaneRegistration::add_new_plane`, plane_registration.cpp 333-338. -/
def addNewPlane (id : ℕ) (s : PlaneReg) : PlaneReg := s.emplace id (Plane.new s.numberPoses)

/-- Replaces the plane with the given identifier. -/
def replacePlane (id : ℕ) (p : Plane) (s : PlaneReg) : PlaneReg :=
  { s with planes := s.planes.map fun q => if q.1 = id then (id, p) else q }

/-- `PlaneRegistration::plane_push_back_point`, plane_registration.cpp 340-343. -/
def pushPoint (id t : ℕ) (x : Vec3) (s : PlaneReg) : Out PlaneReg :=
  match s.planes.find? (·.1 = id) with
  | none => .throw
  | some q => q.2.push x t >>= fun p => .ok (s.replacePlane id p)

/-- `PlaneRegistration::calculate_total_number_points`, plane_registration.cpp 345-351. -/
def totalPoints (s : PlaneReg) : ℕ := (s.planes.map fun q => q.2.numberPoints).sum

/-- `PlaneRegistration::calculate_poses_rmse`, plane_registration.cpp 354-367; the assert on the sizes vanishes. -/
noncomputable def posesRmse (groundTruth : List SE3) (s : PlaneReg) : Out ℝ :=
  Out.traverse (fun (pose, t) => Out.atT s.traj t >>= fun T =>
    let dxi := (T.mul pose.inv).lnVee
    if s.numberPoses = 0 then .nan else .ok (dxi ⬝ᵥ dxi / s.numberPoses)) groundTruth.zipIdx >>= fun l => .ok (Real.sqrt l.sum)

/-- `PlaneRegistration::get_point_cloud`, plane_registration.cpp 370-380. -/
def pointCloud (t : ℕ) (s : PlaneReg) : Out (List Vec3) :=
  Out.traverse (fun q => Plane.getPoints t q.2) s.planes >>= fun l => .ok l.flatten

/-- `PlaneRegistration::get_trajectory`, plane_registration.cpp 382-388. -/
def getTrajectory (t : ℕ) (s : PlaneReg) : Out SE3 := if t < s.numberPoses then Out.atT s.traj t else .ok SE3.default

/-- The entries 0, 1, 2, 3, 5, 6 of the result of `PlaneRegistration::print_evaluate`, plane_registration.cpp 405-472 (the
eigenvalues of the last Hessian and the time are left out).  A row is written into a matrix of `numberPlanes_` rows for
every plane. -/
noncomputable def evaluate (e : EigSolver) (s : PlaneReg) : Out (List ℝ × PlaneReg) :=
  s.error e >>= fun (err, s) =>
    if s.planes.length > s.numberPlanes then .ub
    else .ok ([(s.numberPlanes : ℝ), s.numberPoses, s.totalPoints, s.solveIters, s.initialError, err], s)

/-- The public functions which change the object. -/
inductive Op
  | setNumbers (numberPlanes numberPoses : ℕ)
  | resetSolution
  | addPlane (id : ℕ) (p : Plane)
  | addNewPlane (id : ℕ)
  | pushPoint (id t : ℕ) (x : Vec3)
  | setLastPose (T : SE3)
  | setAlpha (a : ℝ)
  | setBeta (b : ℝ)
  | solve (mode : SolveMode) (single : Bool)
  | solveInitialize
  | interpolateGradient (single : Bool)
  | gradientAllPoses (single : Bool)
  | currentError
  | evaluate
  /-- the caller changes a plane it shares with the object -/
  | external (id : ℕ) (p : Plane)

/-- Effect of a call. -/
noncomputable def Op.run (e : EigSolver) (svd : Mat3 → SVD3) : Op → OptDense PlaneReg → Out (OptDense PlaneReg)
  | setNumbers a b, s => lift (fun o => .ok (o.setNumbers a b)) s
  | resetSolution, s => lift (fun o => .ok o.resetSolution) s
  | addPlane id p, s => lift (fun o => .ok (o.addPlane id p)) s
  | addNewPlane id, s => lift (fun o => .ok (o.addNewPlane id)) s
  | pushPoint id t x, s => lift (PlaneReg.pushPoint id t x) s
  | setLastPose T, s => lift (PlaneReg.setLastPose T) s
  | setAlpha a, s => lift (fun o => .ok { o with alpha := a }) s
  | setBeta b, s => lift (fun o => .ok { o with beta := b }) s
  | solve mode single, s => PlaneReg.solve e svd mode single s >>= fun r => .ok r.2
  | solveInitialize, s => lift (fun o => o.solveInitialize svd >>= fun r => .ok r.2) s
  | interpolateGradient single, s => lift (PlaneReg.interpolateGradient e single) s
  | gradientAllPoses single, s => lift (PlaneReg.gradientAllPoses e single) s
  | currentError, s => lift (fun o => o.error e >>= fun r => .ok r.2) s
  | evaluate, s => lift (fun o => o.evaluate e >>= fun r => .ok r.2) s
  | external id p, s => lift (fun o => .ok (o.replacePlane id p)) s

/-- A sequence of calls on a `PlaneRegistration` object. -/
noncomputable def run (e : EigSolver) (svd : Mat3 → SVD3) : List Op → OptDense PlaneReg → Out (OptDense PlaneReg)
  | [], s => .ok s
  | op :: ops, s => op.run e svd s >>= fun s => run e svd ops s

end PlaneReg

end Mrob
