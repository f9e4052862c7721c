import Verif.Model.PlaneReg

/-!
# Model of the Python class `PlaneRegistration`, mrobpy/PCPlanesPy.cpp 77-109

pybind11 converts the arguments of type `uint_t`; numbers outside of `[0, 2^32)` raise a `TypeError` before the call.  The
planes of a `CreatePoints` object, which `create_plane_registration` shares with the registration, are not covered here.
-/

open Matrix

namespace Mrob

/-- A `PlaneRegistration` object seen from Python. -/
structure PlanePy where
  /-- the object without the member below -/
  opt : OptDense PlaneReg
  /-- `hessian__`, plane_registration.hpp 199; `none` while it has no value -/
  hess : Option Mat6

namespace PlanePy

/-- The constructor, PCPlanesPy.cpp 78-79, plane_registration.cpp 36-44. -/
noncomputable def new : PlanePy := ⟨OptDense.new PlaneReg.new, none⟩

/-- `hessian__` after the switch of plane_registration.cpp 424-441. -/
def lastHessian (s : PlanePy) : Out (Option Mat6) :=
  match s.opt.obj.mode with
  | .gradient | .gradientBengiosNag | .gradientAllPoses => .ok (some 0)
  | .gnHessian | .lmSpher | .lmEllip =>
    if h : 6 = s.opt.sys.N then .ok (some (Matrix.of fun i j => s.opt.sys.L (Fin.cast h (finSumFinEquiv i)) (Fin.cast h (finSumFinEquiv j))))
    else .ub
  | .initialize | .gnClampedHessian => .ok s.hess

/-- `PlaneRegistration::print_evaluate`, plane_registration.cpp 405-472: the returned values without the time, and the object.
`eig6` is the eigenvalue solver of line 463; a Hessian without a value gives values without meaning. -/
noncomputable def evaluate (e : EigSolver) (eig6 : Mat6 → EigDec I6 6) (s : PlanePy) : Out (List ℝ × PlanePy) :=
  s.opt.obj.evaluate e >>= fun (l, o) => s.lastHessian >>= fun h =>
    match h with
    | none => .nan
    | some H => .ok (l ++ List.ofFn (eig6 H).val, ⟨{ s.opt with obj := o }, some H⟩)

/-- The methods offered to Python, PCPlanesPy.cpp 77-109 (`print` is left out). -/
inductive Call
  | setNumbers (numberPlanes numberPoses : ℕ)
  | resetSolution
  | solve (mode : SolveMode) (single : Bool)
  | evaluate
  | pointCloud (t : ℕ)
  | trajectory (t : ℕ)
  | lastPose
  | addPlane (id : ℕ)
  | pushPoint (id t : ℕ) (x : Vec3)
  | error
  | setLastPose (T : SE3)

/-- Runs a function which does not use `hessian__`. -/
def lift (f : OptDense PlaneReg → Out (OptDense PlaneReg)) (s : PlanePy) : Out PlanePy :=
  f s.opt >>= fun o => .ok { s with opt := o }

/-- Effect of a call; what it returns is dropped. -/
noncomputable def Call.run (e : EigSolver) (eig6 : Mat6 → EigDec I6 6) (svd : Mat3 → SVD3) : Call → PlanePy → Out PlanePy
  | setNumbers a b, s => lift ((PlaneReg.Op.setNumbers a b).run e svd) s
  | resetSolution, s => lift (PlaneReg.Op.resetSolution.run e svd) s
  | solve mode single, s => lift ((PlaneReg.Op.solve mode single).run e svd) s
  | evaluate, s => s.evaluate e eig6 >>= fun r => .ok r.2
  | pointCloud t, s => s.opt.obj.pointCloud t >>= fun _ => .ok s
  | trajectory t, s => s.opt.obj.getTrajectory t >>= fun _ => .ok s
  | lastPose, s => s.opt.obj.lastPose >>= fun _ => .ok s
  | addPlane id, s => lift ((PlaneReg.Op.addNewPlane id).run e svd) s
  | pushPoint id t x, s => lift ((PlaneReg.Op.pushPoint id t x).run e svd) s
  | error, s => lift (PlaneReg.Op.currentError.run e svd) s
  | setLastPose T, s => lift ((PlaneReg.Op.setLastPose T).run e svd) s

/-- A sequence of calls. -/
noncomputable def run (e : EigSolver) (eig6 : Mat6 → EigDec I6 6) (svd : Mat3 → SVD3) : List Call → PlanePy → Out PlanePy
  | [], s => .ok s
  | c :: cs, s => c.run e eig6 svd s >>= fun s => run e eig6 svd cs s

end PlanePy

end Mrob
