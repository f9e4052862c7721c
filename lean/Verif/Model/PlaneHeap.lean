import Verif.Model.CreatePoints

/-!
# Registrations that share planes

`Model/PlaneReg` treats the planes of a registration as part of the object.  In the code they are objects of their own,
referred to by `shared_ptr`: every plane holds a pointer to a trajectory (plane.hpp 145), which `add_plane` and
`add_new_plane` redirect to the registration (plane_registration.cpp 327-338), and `CreatePoints` hands out the same planes to
every registration (create_points.cpp 198-206).  Here several registrations and planes live in one heap, and the functions of
`Model/PlaneReg` that go through the planes are written for it.
-/

namespace Mrob

/-- Reference to a `Plane`. -/
abbrev PRef := ℕ
/-- Reference to a `PlaneRegistration`. -/
abbrev RRef := ℕ

/-- A `PlaneRegistration` object. -/
structure RegCell where
  /-- `planes_`, in the order of iteration -/
  refs : List (ℕ × PRef)
  /-- the other members; its `planes` is not used -/
  base : PlaneReg
  /-- the members of `OptimizerDense` -/
  opt : OptDense Unit

/-- The members of `OptimizerDense` with other data members of the derived class. -/
def OptDense.withObj {σ τ : Type} (x : τ) (s : OptDense σ) : OptDense τ := ⟨x, s.method, s.tol, s.maxIters, s.lambda, s.sys⟩

/-- The heap. -/
structure PlaneHeap where
  /-- the planes, without `trajectory_` -/
  plane : PRef → Plane
  /-- `Plane::trajectory_`: the registration whose `*trajectory_` it is; `none` is the null pointer -/
  traj : PRef → Option RRef
  /-- the registrations -/
  reg : RRef → RegCell

namespace PlaneHeap

/-- Overwrites a plane. -/
def setPlane (p : PRef) (x : Plane) (h : PlaneHeap) : PlaneHeap := { h with plane := Function.update h.plane p x }
/-- Overwrites a registration. -/
def setReg (r : RRef) (c : RegCell) (h : PlaneHeap) : PlaneHeap := { h with reg := Function.update h.reg r c }
/-- Applies a function that does not use the planes. -/
def setBase (r : RRef) (b : PlaneReg) (h : PlaneHeap) : PlaneHeap := h.setReg r { h.reg r with base := b }
/-- Overwrites the members of `OptimizerDense`. -/
def setOpt (r : RRef) (o : OptDense Unit) (h : PlaneHeap) : PlaneHeap := h.setReg r { h.reg r with opt := o }

/-- The registration with copies of the planes it refers to: what is seen by functions that change no plane. -/
def view (h : PlaneHeap) (r : RRef) : PlaneReg :=
  { (h.reg r).base with planes := (h.reg r).refs.map fun q => (q.1, h.plane q.2) }

/-- Calls a function that does not change planes. -/
def members {β : Type} (r : RRef) (f : PlaneReg → Out (β × PlaneReg)) (h : PlaneHeap) : Out (β × PlaneHeap) :=
  f (h.view r) >>= fun x => .ok (x.1, h.setBase r x.2)

/-- Calls a function on planes in turn. -/
def each {β : Type} (f : PRef → PlaneHeap → Out (β × Plane)) : List (ℕ × PRef) → PlaneHeap → Out (List β × PlaneHeap)
  | [], h => .ok ([], h)
  | q :: qs, h => f q.2 h >>= fun x => each f qs (h.setPlane q.2 x.2) >>= fun y => .ok (x.1 :: y.1, y.2)

/-- `Plane::estimate_plane`, plane.cpp 123-146: reads the trajectory the plane points to (202), through a null pointer this is
undefined. -/
noncomputable def estimate (e : EigSolver) (p : PRef) (h : PlaneHeap) : Out (ℝ × Plane) :=
  match h.traj p with
  | none => .ub
  | some r => (h.plane p).estimate e (h.reg r).base.traj

/-- `PlaneRegistration::get_current_error`, plane_registration.cpp 307-313; `calculate_error`, 476-479; lines 140-144. -/
noncomputable def error (e : EigSolver) (r : RRef) (h : PlaneHeap) : Out (ℝ × PlaneHeap) :=
  each (estimate e) (h.reg r).refs h >>= fun x => .ok (x.1.sum, x.2)

/-- `PlaneRegistration::set_number_planes_and_poses`, plane_registration.cpp 53-67. -/
def setNumbers (r : RRef) (numberPlanes numberPoses : ℕ) (h : PlaneHeap) : PlaneHeap :=
  h.setReg r { h.reg r with refs := [], base := (h.reg r).base.setNumbers numberPlanes numberPoses }

/-- `PlaneRegistration::add_plane`, plane_registration.cpp 327-331: the plane is redirected even when the identifier is
taken. -/
def addPlane (r : RRef) (id : ℕ) (p : PRef) (h : PlaneHeap) : PlaneHeap :=
  let h := { h with traj := Function.update h.traj p (some r) }
  if ((h.reg r).refs.map (·.1)).contains id then h
  else h.setReg r { h.reg r with refs := (h.reg r).refs ++ [(id, p)] }

/-- `PlaneRegistration::add_new_plane`, plane_registration.cpp 333-338; `p` is the new object. -/
def addNewPlane (r : RRef) (id : ℕ) (p : PRef) (h : PlaneHeap) : PlaneHeap :=
  (h.setPlane p (Plane.new (h.reg r).base.numberPoses)).addPlane r id p

/-- `CreatePoints::create_plane_registration`, create_points.cpp 198-206, for a scene with the given numbers and planes. -/
def fromScene (r : RRef) (numberPlanes numberPoses : ℕ) (planes : List (ℕ × PRef)) (h : PlaneHeap) : PlaneHeap :=
  planes.foldl (fun h q => (h.setPlane q.2 (h.plane q.2).reset).addPlane r q.1 q.2) (h.setNumbers r numberPlanes numberPoses)

/-- `PlaneRegistration::plane_push_back_point`, plane_registration.cpp 340-343. -/
def pushPoint (r : RRef) (id t : ℕ) (x : Vec3) (h : PlaneHeap) : Out PlaneHeap :=
  match (h.reg r).refs.find? (·.1 = id) with
  | none => .throw
  | some q => (h.plane q.2).push x t >>= fun p => .ok (h.setPlane q.2 p)

/-! ## Solving -/

/-- The sums of the gradients and of the numbers of points at time `t`, plane_registration.cpp 158-164, 219-225. -/
def gradAt (r : RRef) (t : ℕ) (h : PlaneHeap) : Out ((Vec6 × ℕ) × PlaneHeap) :=
  each (fun p h => (h.plane p).gradient t >>= fun (g, p) => p.getNumberPoints t >>= fun k => .ok ((g, k), p)) (h.reg r).refs h >>=
    fun (l, h) => .ok (((l.map (·.1)).sum, (l.map (·.2)).sum), h)

/-- The accumulation of plane_registration.cpp 152-169. -/
noncomputable def accGradient (r : RRef) (h : PlaneHeap) : Out (Vec6 × PlaneHeap) :=
  Out.mapAccum (fun t h => gradAt r t h >>= fun ((g, k), h) =>
    if k = 0 then .nan else .ok (((h.reg r).base.tau * t / k / (h.reg r).base.numberPoses) • g, h)) (h.reg r).base.times h >>=
      fun (l, h) => .ok (l.sum, h)

/-- `trajectory_->back().update_lhs(dxi)` and interpolation, plane_registration.cpp 186-192, 507-515. -/
noncomputable def moveLast (r : RRef) (dxi : Vec6) (h : PlaneHeap) : Out PlaneHeap :=
  h.members r (fun s => s.moveLast dxi >>= fun s => .ok ((), s)) >>= fun x => .ok x.2

/-- The body of the loop of `solve_interpolate_gradient`, plane_registration.cpp 138-193; returns the error. -/
noncomputable def gradStep (e : EigSolver) (r : RRef) (h : PlaneHeap) : Out (ℝ × PlaneHeap) :=
  h.error e r >>= fun (err, h) => h.accGradient r >>= fun (acc, h) => h.members r (PlaneReg.increment acc) >>= fun (dxi, h) =>
    h.moveLast r dxi >>= fun h => .ok (err, h)

/-- The body of the loop of `solve_gradient_all_poses`, plane_registration.cpp 207-235. -/
noncomputable def allPosesStep (e : EigSolver) (r : RRef) (h : PlaneHeap) : Out (ℝ × PlaneHeap) :=
  h.error e r >>= fun (err, h) =>
    Out.mapAccum (gradAt r) (h.reg r).base.times h >>= fun (l, h) =>
      match l.getLast? with
      | none => .ok (err, h)
      | some (_, k) =>
        if k = 0 then .nan
        else h.members r (fun s => PlaneReg.updatePoses (s.alpha / k / s.numberPoses) (s.times.zip (l.map (·.1))) s.traj >>=
          fun traj => .ok (err, { s with traj := traj }))

open Classical in
/-- The do-while loops of `solve_interpolate_gradient` and `solve_gradient_all_poses`, plane_registration.cpp 135-195,
204-237, entered with the given `solveIters_` and `previousError`. -/
noncomputable def gradLoop (r : RRef) (step : PlaneHeap → Out (ℝ × PlaneHeap)) (single : Bool) (iters : ℕ) (prevErr : ℝ)
    (h : PlaneHeap) : Out PlaneHeap :=
  step h >>= fun (err, h) =>
    let h := h.setBase r { (h.reg r).base with solveIters := iters + 1 }
    if |prevErr - err| > 1e-4 ∧ single = false ∧ iters + 1 < 10000 then gradLoop r step single (iters + 1) err h else .ok h
termination_by 10000 - iters

/-- `PlaneRegistration::solve_interpolate_gradient`, plane_registration.cpp 131-197. -/
noncomputable def interpolateGradient (e : EigSolver) (r : RRef) (single : Bool) (h : PlaneHeap) : Out PlaneHeap :=
  gradLoop r (gradStep e r) single 0 1e20 (h.setBase r { (h.reg r).base with solveIters := 0 })

/-- `PlaneRegistration::solve_gradient_all_poses`, plane_registration.cpp 199-239. -/
noncomputable def gradientAllPoses (e : EigSolver) (r : RRef) (single : Bool) (h : PlaneHeap) : Out PlaneHeap :=
  gradLoop r (allPosesStep e r) single 0 1e20 (h.setBase r { (h.reg r).base with solveIters := 0 })

/-- `PlaneRegistration::solve_initialize`, plane_registration.cpp 251-305. -/
noncomputable def solveInitialize (svd : Mat3 → SVD3) (r : RRef) (h : PlaneHeap) : Out (ℕ × PlaneHeap) :=
  each (fun p h => PlaneReg.firstMean (h.plane p)) (h.reg r).refs h >>= fun (l, h) =>
    h.members r fun s => PlaneReg.initLoop svd (l.filterMap id) s s.times s.traj >>= fun (b, traj) =>
      .ok (b, { s with traj := traj })

/-- The sums of gradients and Hessians at time `t`, plane_registration.cpp 491-497. -/
noncomputable def gradHessAt (r : RRef) (t : ℕ) (h : PlaneHeap) : Out ((Vec6 × Mat6) × PlaneHeap) :=
  each (fun p h => (h.plane p).gradient t >>= fun (g, p) => p.hessian t >>= fun H => .ok ((g, H), p)) (h.reg r).refs h >>=
    fun (l, h) => .ok (((l.map (·.1)).sum, (l.map (·.2)).sum), h)

/-- `PlaneRegistration::calculate_gradient_hessian`, plane_registration.cpp 481-502, before the conversion to dynamic
size. -/
noncomputable def gradHess6 (e : EigSolver) (r : RRef) (h : PlaneHeap) : Out ((Vec6 × Mat6) × PlaneHeap) :=
  h.error e r >>= fun (_, h) =>
    Out.mapAccum (fun t h => gradHessAt r t h >>= fun ((g, H), h) =>
      .ok ((((h.reg r).base.tau * t) • g, ((h.reg r).base.tau * t) • PlaneReg.symUpper H), h)) (h.reg r).base.times h >>=
        fun (l, h) => .ok (((l.map (·.1)).sum, (l.map (·.2)).sum), h)

/-- `PlaneRegistration::update_state_from_bookkeep`, plane_registration.cpp 523-536. -/
noncomputable def restore (e : EigSolver) (r : RRef) (h : PlaneHeap) : Out PlaneHeap :=
  h.members r (fun s => s.lastPose >>= fun _ => s.placeLast s.booked >>= fun s => .ok ((), s)) >>= fun (_, h) =>
    h.error e r >>= fun (_, h) => .ok h

/-- A registration in the heap as a derived class of `OptimizerDense`, plane_registration.cpp 474-536. -/
noncomputable def problem (e : EigSolver) (r : RRef) : DenseProblem PlaneHeap where
  error h := h.error e r
  gradHess h := h.gradHess6 e r >>= fun ((g, H), h) =>
    .ok (⟨6, Matrix.of fun i j => H (finSumFinEquiv.symm i) (finSumFinEquiv.symm j), PlaneReg.dyn6 g⟩, h)
  update N dx h := if hN : N = 6 then h.moveLast r (PlaneReg.stat6 fun k => dx (Fin.cast hN.symm k)) else .ub
  bookkeep h := h.members r (fun s => s.bookkeep >>= fun s => .ok ((), s)) >>= fun x => .ok x.2
  restore h := h.restore e r

/-- Runs `Optimizer::solve` for a registration and stores the result in `solveIters_`. -/
noncomputable def optimize (e : EigSolver) (r : RRef) (method : OptMethod) (maxIters : ℕ) (lambda : ℝ) (h : PlaneHeap) :
    Out PlaneHeap :=
  ((h.reg r).opt.withObj h).solve (problem e r) method maxIters lambda >>= fun (k, s) =>
    let h := s.obj.setOpt r (s.withObj ())
    .ok (h.setBase r { (h.reg r).base with solveIters := k })

/-- `PlaneRegistration::solve`, plane_registration.cpp 80-127: return value and heap. -/
noncomputable def solve (e : EigSolver) (svd : Mat3 → SVD3) (r : RRef) (mode : SolveMode) (single : Bool) (h : PlaneHeap) :
    Out (ℕ × PlaneHeap) :=
  let h := h.setBase r { (h.reg r).base with mode := mode }
  h.error e r >>= fun (err, h) =>
    let h := h.setBase r { (h.reg r).base with initialError := err }
    match mode with
    | .initialize => h.solveInitialize svd r
    | .gradientAllPoses => h.gradientAllPoses e r false >>= fun h => .ok (0, h)
    | .gradientBengiosNag => h.interpolateGradient e r single >>= fun h => .ok (0, h)
    | .gnHessian => h.optimize e r .newtonRaphson 100 1e-5 >>= fun h => .ok (0, h)
    | .gnClampedHessian => .ok (0, h)
    | .lmSpher => h.optimize e r .lmSpher 100 1e-2 >>= fun h => .ok (0, h)
    | .lmEllip => h.optimize e r .lmEllip 100 1e-2 >>= fun h => .ok (0, h)
    | .gradient => .ok (0, h)

/-- The part of `PlaneRegistration::print_evaluate` that concerns the objects, see `PlaneReg.evaluate`. -/
noncomputable def evaluate (e : EigSolver) (r : RRef) (h : PlaneHeap) : Out PlaneHeap :=
  h.error e r >>= fun (_, h) => if (h.reg r).refs.length > (h.reg r).base.numberPlanes then .ub else .ok h

/-- The calls. -/
inductive Op
  | setNumbers (r : RRef) (numberPlanes numberPoses : ℕ)
  | resetSolution (r : RRef)
  | setLastPose (r : RRef) (T : SE3)
  | setAlpha (r : RRef) (a : ℝ)
  | setBeta (r : RRef) (b : ℝ)
  | addPlane (r : RRef) (id : ℕ) (p : PRef)
  | addNewPlane (r : RRef) (id : ℕ) (p : PRef)
  | fromScene (r : RRef) (numberPlanes numberPoses : ℕ) (planes : List (ℕ × PRef))
  | pushPoint (r : RRef) (id t : ℕ) (x : Vec3)
  | error (r : RRef)
  | solve (r : RRef) (mode : SolveMode) (single : Bool)
  | solveInitialize (r : RRef)
  | interpolateGradient (r : RRef) (single : Bool)
  | gradientAllPoses (r : RRef) (single : Bool)
  | evaluate (r : RRef)

/-- Effect of a call. -/
noncomputable def Op.run (e : EigSolver) (svd : Mat3 → SVD3) : Op → PlaneHeap → Out PlaneHeap
  | .setNumbers r a b, h => .ok (h.setNumbers r a b)
  | .resetSolution r, h => .ok (h.setBase r (h.reg r).base.resetSolution)
  | .setLastPose r T, h => (h.reg r).base.setLastPose T >>= fun b => .ok (h.setBase r b)
  | .setAlpha r a, h => .ok (h.setBase r { (h.reg r).base with alpha := a })
  | .setBeta r b, h => .ok (h.setBase r { (h.reg r).base with beta := b })
  | .addPlane r id p, h => .ok (h.addPlane r id p)
  | .addNewPlane r id p, h => .ok (h.addNewPlane r id p)
  | .fromScene r a b l, h => .ok (h.fromScene r a b l)
  | .pushPoint r id t x, h => h.pushPoint r id t x
  | .error r, h => h.error e r >>= fun y => .ok y.2
  | .solve r mode single, h => h.solve e svd r mode single >>= fun y => .ok y.2
  | .solveInitialize r, h => h.solveInitialize svd r >>= fun y => .ok y.2
  | .interpolateGradient r single, h => h.interpolateGradient e r single
  | .gradientAllPoses r single, h => h.gradientAllPoses e r single
  | .evaluate r, h => h.evaluate e r

/-- A sequence of calls. -/
noncomputable def run (e : EigSolver) (svd : Mat3 → SVD3) : List Op → PlaneHeap → Out PlaneHeap
  | [], h => .ok h
  | op :: ops, h => op.run e svd h >>= fun h => run e svd ops h

end PlaneHeap

end Mrob
