import Verif.Model.Graph

/-!
# Model of the sparse solver

`src/FGraph/factor_graph_solve.cpp`.  Time profiling and console output are not modelled; neither are Eigen's sparse
data structures: a sparse matrix is the partial map of its stored entries, `insert` on an entry that is already stored or
outside the bounds is undefined behaviour (Eigen documents both as preconditions and only checks them with asserts).
The sparse Cholesky factorisation is an oracle.
-/

open Matrix

namespace Mrob

/-- What the program takes from outside the modelled code. -/
structure Env where
  /-- `SimplicialLDLT::compute(L)` followed by `solve(b)`, factor_graph_solve.cpp 132-135; `none` when the
  factorisation fails, in which case `dx_` is indeterminate. -/
  chol : (N : ℕ) → Matrix (Fin N) (Fin N) ℝ → (Fin N → ℝ) → Option (Fin N → ℝ)
  /-- contents of the entries of `r_` that are never written after `resize` -/
  junk : ℕ → ℝ

/-- A sparse matrix (`SMatRow`/`SMatCol`): dimensions and stored entries. -/
structure SMat where
  /-- `rows()` -/
  rows : ℕ
  /-- `cols()` -/
  cols : ℕ
  /-- stored entries -/
  get : ℕ → ℕ → Option ℝ

namespace SMat

/-- `resize(rows, cols)` discards the entries. -/
def empty (rows cols : ℕ) : SMat := ⟨rows, cols, fun _ _ => none⟩

/-- `A.insert(e.1, e.2.1) = e.2.2`. -/
def insert (A : SMat) (e : ℕ × ℕ × ℝ) : Out SMat :=
  if e.1 < A.rows ∧ e.2.1 < A.cols ∧ A.get e.1 e.2.1 = none then
    .ok { A with get := fun i j => if i = e.1 ∧ j = e.2.1 then some e.2.2 else A.get i j }
  else .ub

/-- A sequence of insertions. -/
def insertAll (A : SMat) : List (ℕ × ℕ × ℝ) → Out SMat
  | [] => .ok A
  | e :: es => A.insert e >>= fun A => A.insertAll es

/-- The matrix of an `m × n` sparse matrix, absent entries are zero. -/
def toMatrix (A : SMat) (m n : ℕ) : Matrix (Fin m) (Fin n) ℝ := Matrix.of fun i j => (A.get i j).getD 0

end SMat

/-- `selfadjointView<Eigen::Upper>()`: the symmetric matrix with the given upper triangle. -/
def symUpper {m : ℕ} (W : Matrix (Fin m) (Fin m) ℝ) : Matrix (Fin m) (Fin m) ℝ :=
  Matrix.of fun i j => if i ≤ j then W i j else W j i

namespace NodeKind

/-- The increment a node class reads from a dynamic vector of its dimension. -/
def ofFlat : (k : NodeKind) → (ℕ → ℝ) → k.Dx
  | pose2d, v => fun i => v i
  | pose3d, v => Sum.elim (fun i => v i) (fun i => v (3 + i))
  | landmark2d, v => fun i => v i
  | landmark3d, v => fun i => v i
  | plane4d, v => Sum.elim (fun i => v i) (fun _ => v 3)

end NodeKind

/-- `node->update(dx)`. -/
noncomputable def NodeCell.update (c : NodeCell) (v : ℕ → ℝ) : NodeCell :=
  { c with obj := c.obj.update (c.kind.ofFlat v) }
/-- `n->set_auxiliary_state(n->get_state())`. -/
noncomputable def NodeCell.bookkeep (c : NodeCell) : NodeCell := { c with obj := c.obj.bookkeep }
/-- `n->set_state(n->get_auxiliary_state())`. -/
noncomputable def NodeCell.restore (c : NodeCell) : NodeCell := { c with obj := c.obj.restore }

namespace FactorCell

/-- The states of the neighbours of a factor, as read by `evaluate_residuals`. -/
def vals (c : FactorCell) (nh : NRef → NodeCell) : List NodeVal := c.nbrs.map fun n => (nh n).val

/-- The neighbours are of the classes the factor expects. -/
def wellTyped (c : FactorCell) (nh : NRef → NodeCell) : Prop := c.nbrs.map (fun n => (nh n).kind) = c.virt.kinds

/-- The object after `evaluate_residuals(); evaluate_jacobians(); evaluate_chi2();`. -/
noncomputable def full (c : FactorCell) (nh : NRef → NodeCell) : FactorCell :=
  { c with
    r := c.virt.res (c.vals nh)
    J := c.virt.jac (c.vals nh)
    chi2 := factorChi2 c.virt.W (c.virt.res (c.vals nh)) }

/-- The object after `evaluate_residuals(); evaluate_chi2();`. -/
noncomputable def resd (c : FactorCell) (nh : NRef → NodeCell) : FactorCell :=
  { c with
    r := c.virt.res (c.vals nh)
    chi2 := factorChi2 c.virt.W (c.virt.res (c.vals nh)) }

/-- `evaluate_robust_weight(std::sqrt(get_chi2()))` returns a number: the square root of a negative number is NaN;
QUADRATIC and RANSAC do not use it. -/
def weightable (c : FactorCell) : Prop :=
  ¬(c.chi2 < 0 ∧ c.virt.robust ≠ .quadratic ∧ c.virt.robust ≠ .ransac)

/-- The object after `evaluate_robust_weight(std::sqrt(get_chi2()))`. -/
noncomputable def weighted (c : FactorCell) : FactorCell :=
  { c with weight := robustWeight c.virt.robust c.weight (Real.sqrt c.chi2) }

end FactorCell

namespace World

open Classical in
/-- factor_graph_solve.cpp 251-254.  A neighbour of another class than expected makes Eigen read outside a matrix. -/
noncomputable def evalFull (w : World) (f : FRef) : Out World :=
  if (w.fh f).wellTyped w.nh then .ok (w.setF f ((w.fh f).full w.nh)) else .ub

open Classical in
/-- factor_graph_solve.cpp 350-355. -/
noncomputable def evalRes (w : World) (f : FRef) : Out World :=
  if (w.fh f).wellTyped w.nh then .ok (w.setF f ((w.fh f).resd w.nh)) else .ub

/-- Runs an action for each element of a list. -/
def forAll {α : Type} (act : World → α → Out World) : List α → World → Out World
  | [], w => .ok w
  | a :: as, w => act w a >>= fun w => forAll act as w

open Classical in
/-- `f->evaluate_robust_weight(std::sqrt(f->get_chi2()))`, factor_graph_solve.cpp 322.  Simplification: called once per
factor instead of once per entry of the information matrix; the value of the calls is the same. -/
noncomputable def evalWeight (w : World) (f : FRef) : Out World :=
  if (w.fh f).weightable then .ok (w.setF f (w.fh f).weighted) else .nan

/-- The map `indNodesMatrix`, factor_graph_solve.cpp 226-238, as the list of the emplaced pairs `(id, N_)`. -/
def colPairs (nh : NRef → NodeCell) : ℕ → List NRef → List (ℕ × ℕ)
  | _, [] => []
  | off, n :: ns => ((nh n).id, off) :: colPairs nh (off + (nh n).dim) ns

/-- `indNodesMatrix[id]`: the first emplaced value of the key; `operator[]` of a missing key creates it with value 0. -/
def colOf (ps : List (ℕ × ℕ)) (id : ℕ) : ℕ := (ps.lookup id).getD 0

/-- The insertions into one row of `A_`, factor_graph_solve.cpp 286-308; `tk` is `totalK`. -/
def rowIns (nh : NRef → NodeCell) (ps : List (ℕ × ℕ)) (row : ℕ) (Jl : ℕ → ℝ) : ℕ → List NRef → List (ℕ × ℕ × ℝ)
  | _, [] => []
  | tk, n :: ns =>
    if (nh n).mode = .anchor then rowIns nh ps row Jl (tk + (nh n).dim) ns
    else ((List.range (nh n).dim).map fun k => (row, colOf ps (nh n).id + k, Jl (k + tk))) ++
      rowIns nh ps row Jl (tk + (nh n).dim) ns

/-- The insertions into `A_` for a factor whose first row is `row`, factor_graph_solve.cpp 284-309. -/
def factorIns (nh : NRef → NodeCell) (ps : List (ℕ × ℕ)) (row : ℕ) (c : FactorCell) : List (ℕ × ℕ × ℝ) :=
  (List.finRange c.virt.dim).flatMap fun (l : Fin c.virt.dim) => rowIns nh ps (row + l) (c.J l) 0 c.nbrs

/-- All insertions into `A_`; the first row of a factor is the sum of the dimensions of the factors before it
(`indFactorsMatrix`, factor_graph_solve.cpp 264-265). -/
def aIns (w : World) (ps : List (ℕ × ℕ)) : ℕ → List FRef → List (ℕ × ℕ × ℝ)
  | _, [] => []
  | row, f :: fs => factorIns w.nh ps row (w.fh f) ++ w.aIns ps (row + (w.fh f).virt.dim) fs

/-- The insertions into `W_` for one factor, factor_graph_solve.cpp 315-325. -/
def weightIns (row : ℕ) (c : FactorCell) : List (ℕ × ℕ × ℝ) :=
  (List.finRange c.virt.dim).flatMap fun (l : Fin c.virt.dim) =>
    ((List.finRange c.virt.dim).filter (l ≤ ·)).map fun (k : Fin c.virt.dim) =>
      (row + (l : ℕ), row + (k : ℕ), c.weight * c.virt.W l k)

/-- All insertions into `W_`. -/
def wIns (w : World) : ℕ → List FRef → List (ℕ × ℕ × ℝ)
  | _, [] => []
  | row, f :: fs => weightIns row (w.fh f) ++ w.wIns (row + (w.fh f).virt.dim) fs

/-- The vector `r_`, factor_graph_solve.cpp 278; entries that are not written keep the contents of the memory. -/
def rVec (w : World) (junk : ℕ → ℝ) : ℕ → List FRef → ℕ → ℝ
  | _, [], i => junk i
  | row, f :: fs, i =>
    if h : row ≤ i ∧ i - row < (w.fh f).virt.dim then (w.fh f).r ⟨i - row, h.2⟩
    else w.rVec junk (row + (w.fh f).virt.dim) fs i

end World

/-- The matrices built by `build_adjacency`: `A_`, `W_`, `r_`. -/
structure Assembly where
  /-- rows (`obsDim_`) -/
  M : ℕ
  /-- columns (`stateDim_`) -/
  N : ℕ
  /-- `A_` -/
  A : Matrix (Fin M) (Fin N) ℝ
  /-- `W_`, upper triangle -/
  W : Matrix (Fin M) (Fin M) ℝ
  /-- `r_` -/
  r : Fin M → ℝ

/-- `FGraphSolve::build_adjacency`, factor_graph_solve.cpp 213-329. -/
noncomputable def World.buildAdjacency (env : Env) (w : World) : Out (World × Assembly) := do
  let w ← World.forAll World.evalFull w.g.factors w
  let A ← (SMat.empty w.g.obsDim w.g.stateDim).insertAll (w.aIns (World.colPairs w.nh 0 w.g.active) 0 w.g.factors)
  let w ← World.forAll World.evalWeight w.g.factors w
  let W ← (SMat.empty w.g.obsDim w.g.obsDim).insertAll (w.wIns 0 w.g.factors)
  pure (w, ⟨w.g.obsDim, w.g.stateDim, A.toMatrix _ _, W.toMatrix _ _, fun i => w.rVec env.junk 0 w.g.factors i⟩)

namespace Assembly

/-- `L_`, factor_graph_solve.cpp 341. -/
def L (a : Assembly) : Matrix (Fin a.N) (Fin a.N) ℝ := a.Aᵀ * symUpper a.W * a.A
/-- `b_`, factor_graph_solve.cpp 342. -/
def b (a : Assembly) : Fin a.N → ℝ := (a.Aᵀ * symUpper a.W) *ᵥ a.r

end Assembly

/-- The linear system kept by the solver: `L_`, `b_`, `dx_`. -/
structure LinSys where
  /-- `N_` -/
  N : ℕ
  /-- `L_` -/
  L : Matrix (Fin N) (Fin N) ℝ
  /-- `b_` -/
  b : Fin N → ℝ
  /-- `dx_` -/
  dx : Fin N → ℝ

/-- An object of class `FGraphSolve` with the heaps it lives in. -/
structure FGraphSolve where
  /-- heaps and base class -/
  w : World
  /-- `lambda_` -/
  lambda : ℝ
  /-- `solutionTolerance_` -/
  tol : ℝ
  /-- `L_`, `b_`, `dx_` -/
  sys : LinSys
  /-- `A_`, `W_`, `r_` -/
  mats : Assembly

/-- `FGraphSolve::FGraphSolve`, factor_graph_solve.cpp 40-45. -/
def FGraphSolve.new (nh : NRef → NodeCell) (fh : FRef → FactorCell) : FGraphSolve :=
  ⟨⟨nh, fh, World.emptyGraph⟩, 1e-6, 1e-2, ⟨0, 0, 0, 0⟩, ⟨0, 0, 0, 0, 0⟩⟩

namespace World

/-- One block of `dx_`. -/
def dxBlock {N : ℕ} (dx : Fin N → ℝ) (start : ℕ) (k : ℕ) : ℝ := if h : start + k < N then dx ⟨start + k, h⟩ else 0

/-- `FGraphSolve::update_nodes`, factor_graph_solve.cpp 361-374; a block outside `dx_` is undefined behaviour. -/
noncomputable def updateNodes {N : ℕ} (dx : Fin N → ℝ) : ℕ → List NRef → World → Out World
  | _, [], w => .ok w
  | acc, n :: ns, w =>
    if acc + (w.nh n).dim ≤ N then
      updateNodes dx (acc + (w.nh n).dim) ns
        (w.setN n ((w.nh n).update fun k => -dxBlock dx acc k))
    else .ub

/-- `FGraphSolve::synchronize_nodes_auxiliary_state`, factor_graph_solve.cpp 376-380. -/
noncomputable def syncAux (w : World) : World := w.g.active.foldl (fun w n => w.setN n (w.nh n).bookkeep) w
/-- `FGraphSolve::synchronize_nodes_state`, factor_graph_solve.cpp 383-387. -/
noncomputable def syncState (w : World) : World := w.g.active.foldl (fun w n => w.setN n (w.nh n).restore) w

/-- `FGraphSolve::chi2(false)`, factor_graph_solve.cpp 345-359. -/
def chi2Stored (w : World) : ℝ := (w.g.factors.map fun f => (w.fh f).chi2).foldl (· + ·) 0
/-- `FGraphSolve::chi2(true)`; the evaluation of each factor is immediately followed by the addition of its `chi2_`. -/
noncomputable def chi2Eval (w : World) : Out (ℝ × World) :=
  forAll evalRes w.g.factors w >>= fun w => .ok (w.chi2Stored, w)

/-- `FGraphSolve::get_estimated_state`, factor_graph_solve.cpp 390-403. -/
def estimatedState (w : World) : List NodeVal := w.g.nodes.map fun n => (w.nh n).val
/-- `FGraphSolve::get_chi2_array`, factor_graph_solve.cpp 405-416. -/
def chi2Array (w : World) : List ℝ := w.g.factors.map fun f => (w.fh f).chi2

end World

namespace FGraphSolve

open Classical in
/-- `FGraphSolve::optimize_gauss_newton(useLambda)`, factor_graph_solve.cpp 117-138, with `build_problem` 88-115
(method `ADJ`).  The loop `n < N_` covers the whole diagonal because `N_ = stateDim_` (theorem `C44_state_dim`). -/
noncomputable def gaussNewton (env : Env) (useLambda : Bool) (s : FGraphSolve) : Out FGraphSolve := do
  let (w, a) ← s.w.buildAdjacency env
  let L := if useLambda then a.L - Matrix.diagonal a.L.diag + Matrix.diagonal (fun n => s.lambda + a.L n n) else a.L
  match env.chol a.N L a.b with
  | some dx => pure { s with w := w, sys := ⟨a.N, L, a.b, dx⟩, mats := a }
  | none => .nan

/-- `update_nodes()`. -/
noncomputable def update (s : FGraphSolve) : Out FGraphSolve := do
  let w ← World.updateNodes s.sys.dx 0 s.w.g.active s.w
  pure { s with w := w }

open Classical in
/-- Update of `lambda_` by the model fidelity, factor_graph_solve.cpp 192-199, with `sigma1 = 0.25`, `sigma2 = 0.8`,
`beta1 = 2`, `beta2 = 0.25`; `den` is the denominator.  Division of a positive number by zero gives infinity (> sigma2),
zero by zero gives NaN (no branch is taken); the sign of a zero is not modelled. -/
noncomputable def nextLambda (lambda delta den : ℝ) : ℝ :=
  if den = 0 then (if delta = 0 then lambda else lambda * 0.25)
  else if delta / den < 0.25 then lambda * 2
  else if delta / den > 0.8 then lambda * 0.25
  else lambda

/-- Result of the optimisation: return value, number of iterations performed, and the object. -/
structure LMResult where
  /-- return value -/
  ret : ℕ
  /-- value of the local variable `iter` at the end -/
  iters : ℕ
  /-- the object afterwards -/
  s : FGraphSolve

/-- Lines 159-171 of the loop of `FGraphSolve::optimize_levenberg_marquardt`: damped step, book-keeping, update and
re-evaluation; returns `deltaChi2`. -/
noncomputable def trial (env : Env) (s : FGraphSolve) : Out (ℝ × FGraphSolve) := do
  let s ← s.gaussNewton env true
  let current := s.w.chi2Stored
  let s := { s with w := s.w.syncAux }
  let s ← s.update
  let (new, w) ← s.w.chi2Eval
  pure (current - new, { s with w := w })

/-- A step that did not improve, factor_graph_solve.cpp 172-178: `lambda_ *= beta1` and the states are restored. -/
noncomputable def reject (s : FGraphSolve) : FGraphSolve := { s with lambda := s.lambda * 2, w := s.w.syncState }

/-- Adaptation of `lambda_` after an accepted step, factor_graph_solve.cpp 188-199. -/
noncomputable def adapt (delta : ℝ) (s : FGraphSolve) : FGraphSolve :=
  let den := s.sys.dx ⬝ᵥ s.sys.b - 0.5 * (s.sys.dx ⬝ᵥ (s.sys.L *ᵥ s.sys.dx))
  { s with lambda := nextLambda s.lambda delta den }

open Classical in
/-- The loop of `FGraphSolve::optimize_levenberg_marquardt`, factor_graph_solve.cpp 157-209, entered with the given value
of `iter`.  `continue` in a do-while loop jumps to the test of the condition. -/
noncomputable def lmLoop (env : Env) (maxIters : ℕ) (iter : ℕ) (s : FGraphSolve) : Out LMResult :=
  s.trial env >>= fun (delta, s) =>
    if delta < 0 then
      if iter + 1 < maxIters then lmLoop env maxIters (iter + 1) s.reject else .ok ⟨0, iter + 1, s.reject⟩
    else if delta < s.tol then .ok ⟨iter + 1, iter + 1, s⟩
    else if iter + 1 < maxIters then lmLoop env maxIters (iter + 1) (s.adapt delta)
    else .ok ⟨0, iter + 1, s.adapt delta⟩
termination_by maxIters - iter

/-- `FGraphSolve::optimize_levenberg_marquardt`, factor_graph_solve.cpp 140-211: `lambda_ = 1e-5` first. -/
noncomputable def levenbergMarquardt (env : Env) (maxIters : ℕ) (s : FGraphSolve) : Out LMResult :=
  lmLoop env maxIters 0 { s with lambda := 1e-5 }

/-- `optimMethod`, factor_graph_solve.hpp. -/
inductive Method
  | GN | LM
deriving DecidableEq, Repr

/-- `FGraphSolve::solve`, factor_graph_solve.cpp 50-86. -/
noncomputable def solve (env : Env) (method : Method) (maxIters : ℕ) (lambda tol : ℝ) (s : FGraphSolve) :
    Out FGraphSolve :=
  let s := { s with lambda := lambda, tol := tol }
  match method with
  | .GN => s.gaussNewton env false >>= fun s => s.update
  | .LM => s.levenbergMarquardt env maxIters >>= fun r => .ok r.s

/-- Calls on the solver object that change the graph or the states. -/
inductive Op
  | graph (op : GraphOp)
  | solve (env : Env) (method : Method) (maxIters : ℕ) (lambda tol : ℝ)
  | chi2

/-- Effect of a call; `chi2` is `chi2(true)`. -/
noncomputable def Op.run : Op → FGraphSolve → Out FGraphSolve
  | .graph op, s => .ok { s with w := op.run s.w }
  | .solve env m k l t, s => s.solve env m k l t
  | .chi2, s => s.w.chi2Eval >>= fun r => .ok { s with w := r.2 }

/-- Effect of a history of calls. -/
noncomputable def run : List Op → FGraphSolve → Out FGraphSolve
  | [], s => .ok s
  | op :: ops, s => op.run s >>= fun s => run ops s

end FGraphSolve

end Mrob
