import Verif.Model.Solve
import Mathlib.LinearAlgebra.Matrix.NonsingularInverse

/-!
# Model of `src/common/optimizer.cpp`

The classes `Optimizer` and `OptimizerDense` are generic over the virtual functions implemented by the derived classes
(`FGraphSolveDense`, `PlaneRegistration`).  `σ` is the type of the data members of the derived class.
-/

open Matrix

namespace Mrob

/-- `gradient_` and `hessian_` as computed by `calculate_gradient_hessian`. -/
structure NormalEq where
  /-- dimension -/
  N : ℕ
  /-- `hessian_` -/
  H : Matrix (Fin N) (Fin N) ℝ
  /-- `gradient_` -/
  grad : Fin N → ℝ

/-- The virtual functions of `Optimizer`, optimizer.hpp 75-104. -/
structure DenseProblem (σ : Type) where
  /-- `calculate_error` -/
  error : σ → Out (ℝ × σ)
  /-- `calculate_gradient_hessian` -/
  gradHess : σ → Out (NormalEq × σ)
  /-- `update_state`, reading `dx_` -/
  update : (N : ℕ) → (Fin N → ℝ) → σ → Out σ
  /-- `bookkeep_state` -/
  bookkeep : σ → Out σ
  /-- `update_state_from_bookkeep` -/
  restore : σ → Out σ

/-- `Optimizer::optimMethod`. -/
inductive OptMethod
  | newtonRaphson | lmSpher | lmEllip
deriving DecidableEq

/-- An object of a class derived from `OptimizerDense`. -/
structure OptDense (σ : Type) where
  /-- data members of the derived class -/
  obj : σ
  /-- `optimization_method_` -/
  method : OptMethod
  /-- `solutionTolerance_` -/
  tol : ℝ
  /-- `max_iters_` -/
  maxIters : ℕ
  /-- `lambda_` -/
  lambda : ℝ
  /-- `hessian_`, `gradient_` (field `b`), `dx_` -/
  sys : LinSys

namespace OptDense

variable {σ : Type}

/-- The constructors with default arguments, optimizer.cpp 30-34 and 170-174: tolerance `1e-4`, `max_iters_` 100, `lambda_` `1e-5`. -/
def new (obj : σ) : OptDense σ := ⟨obj, .newtonRaphson, 1e-4, 100, 1e-5, ⟨0, 0, 0, 0⟩⟩

/-- The damping of the Hessian, optimizer.cpp 63-75. -/
noncomputable def damp (method : OptMethod) (lambda : ℝ) {N : ℕ} (H : Matrix (Fin N) (Fin N) ℝ) :
    Matrix (Fin N) (Fin N) ℝ :=
  match method with
  | .newtonRaphson => H
  | .lmSpher => Matrix.of fun i j => if i = j then H i j + lambda else H i j
  | .lmEllip => Matrix.of fun i j => if i = j then H i j * (1 + lambda) else H i j

open Classical in
/-- `OptimizerDense::optimize_newton_raphson_one_iteration`, optimizer.cpp 59-83.  The inverse of a singular matrix has
infinite or NaN entries. -/
noncomputable def oneIteration (P : DenseProblem σ) (useLambda : Bool) (s : OptDense σ) : Out (OptDense σ) := do
  let (e, o) ← P.gradHess s.obj
  let H := if useLambda then damp s.method s.lambda e.H else e.H
  if IsUnit H.det then
    let dx := -(H⁻¹ *ᵥ e.grad)
    let o ← P.update e.N dx o
    pure { s with obj := o, sys := ⟨e.N, H, e.grad, dx⟩ }
  else .nan

/-- Calls `calculate_error()`. -/
noncomputable def error (P : DenseProblem σ) (s : OptDense σ) : Out (ℝ × OptDense σ) := do
  let (e, o) ← P.error s.obj
  pure (e, { s with obj := o })

/-- One pass through the body of the loop of `optimize_newton_raphson`, optimizer.cpp 92-96; returns `current_error`. -/
noncomputable def nrStep (P : DenseProblem σ) (s : OptDense σ) : Out (ℝ × OptDense σ) :=
  s.oneIteration P false >>= fun s => s.error P

open Classical in
/-- The loop of `Optimizer::optimize_newton_raphson`, optimizer.cpp 90-98, entered with the given `iters` and
`previous_error`; `maxIters` is the value of `max_iters_`, which does not change during the call. -/
noncomputable def nrLoop (P : DenseProblem σ) (maxIters iters : ℕ) (prev : ℝ) (s : OptDense σ) : Out (ℕ × OptDense σ) :=
  s.nrStep P >>= fun (cur, s) =>
    if |prev - cur| > s.tol ∧ iters + 1 < maxIters then nrLoop P maxIters (iters + 1) cur s
    else .ok (iters + 1, s)
termination_by maxIters - iters

/-- `Optimizer::optimize_newton_raphson`, optimizer.cpp 85-102. -/
noncomputable def newtonRaphson (P : DenseProblem σ) (s : OptDense σ) : Out (ℕ × OptDense σ) :=
  s.error P >>= fun (prev, s) => nrLoop P s.maxIters 0 prev s

/-- Lines 117-119 of the loop of `optimize_levenberg_marquardt`: book-keeping, damped step, evaluation; returns
`current_error`. -/
noncomputable def lmStep (P : DenseProblem σ) (s : OptDense σ) : Out (ℝ × OptDense σ) :=
  P.bookkeep s.obj >>= fun o => oneIteration P true { s with obj := o } >>= fun s => s.error P

/-- A step that did not improve, optimizer.cpp 125-132. -/
noncomputable def reject (P : DenseProblem σ) (s : OptDense σ) : Out (OptDense σ) :=
  P.restore s.obj >>= fun o => .ok { s with lambda := s.lambda * 2, obj := o }

/-- Adaptation of `lambda_`, optimizer.cpp 145-152, with the denominator of `calculate_model_fidelity`, 180-184. -/
noncomputable def adapt (diff : ℝ) (s : OptDense σ) : OptDense σ :=
  let den := -(s.sys.dx ⬝ᵥ s.sys.b) - 0.5 * (s.sys.dx ⬝ᵥ (s.sys.L *ᵥ s.sys.dx))
  { s with lambda := FGraphSolve.nextLambda s.lambda diff den }

/-- The end of `optimize_levenberg_marquardt`, optimizer.cpp 156-167. -/
noncomputable def finish (P : DenseProblem σ) (improvement : Bool) (iters : ℕ) (s : OptDense σ) : Out (ℕ × OptDense σ) :=
  (if improvement then .ok s.obj else P.restore s.obj) >>= fun o =>
    error P { s with obj := o } >>= fun (_, s) => .ok (iters, s)

open Classical in
/-- The loop of `Optimizer::optimize_levenberg_marquardt`, optimizer.cpp 113-154, entered with the given `iters` and
`previous_error`. -/
noncomputable def lmLoop (P : DenseProblem σ) (maxIters iters : ℕ) (prev : ℝ) (s : OptDense σ) : Out (ℕ × OptDense σ) :=
  s.lmStep P >>= fun (cur, s) =>
    if prev - cur < 0 then
      s.reject P >>= fun s =>
        if iters + 1 < maxIters then lmLoop P maxIters (iters + 1) prev s else s.finish P false (iters + 1)
    else if prev - cur < s.tol then .ok (iters + 1, s)
    else if iters + 1 < maxIters then lmLoop P maxIters (iters + 1) cur (s.adapt (prev - cur))
    else (s.adapt (prev - cur)).finish P true (iters + 1)
termination_by maxIters - iters

/-- `Optimizer::optimize_levenberg_marquardt`, optimizer.cpp 104-168. -/
noncomputable def levenbergMarquardt (P : DenseProblem σ) (s : OptDense σ) : Out (ℕ × OptDense σ) :=
  s.error P >>= fun (prev, s) => lmLoop P s.maxIters 0 prev s

/-- `Optimizer::solve`, optimizer.cpp 42-56. -/
noncomputable def solve (P : DenseProblem σ) (method : OptMethod) (maxIters : ℕ) (lambda : ℝ) (s : OptDense σ) :
    Out (ℕ × OptDense σ) :=
  let s := { s with method := method, maxIters := maxIters }
  match method with
  | .newtonRaphson => s.newtonRaphson P
  | .lmSpher => levenbergMarquardt P { s with lambda := lambda }
  | .lmEllip => levenbergMarquardt P { s with lambda := lambda }

end OptDense

end Mrob
