import Verif.Model.Optimizer

/-!
# Model of the dense solver

`src/FGraph/factor_graph_solve_dense.cpp`: the class `FGraphSolveDense`, derived from `FGraph` and `OptimizerDense`.
Blocks outside the bounds of a matrix are undefined behaviour (Eigen only checks them with asserts).
-/

open Matrix

namespace Mrob

/-- `hessian_` and `gradient_` while they are being filled. -/
structure DenseAcc where
  /-- `hessian_` -/
  H : ℕ → ℕ → ℝ
  /-- `gradient_` -/
  grad : ℕ → ℝ

/-- Coefficient `(i, j)` of `J.transpose() * W * J` with the stored Jacobian of a factor. -/
noncomputable def FactorCell.jtwj (c : FactorCell) (i j : ℕ) : ℝ := ∑ l, c.J l i * ∑ k, c.virt.W l k * c.J k j
/-- Coefficient `i` of `J.transpose() * W * r` with the stored Jacobian and residual of a factor. -/
noncomputable def FactorCell.jtwr (c : FactorCell) (i : ℕ) : ℝ := ∑ l, c.J l i * ∑ k, c.virt.W l k * c.r k

namespace World

/-- The search for the block of the node with the given id, factor_graph_solve_dense.cpp 108-118: first column of the block
in `J`; `mi` is `matrix_index`. -/
def findBlock (nh : NRef → NodeCell) (id : ℕ) : ℕ → List NRef → Option ℕ
  | _, [] => none
  | mi, m :: ms => if (nh m).id = id then some mi else findBlock nh id (mi + (nh m).dim) ms

/-- Lines 129-137: adds the block of a factor for the node whose rows are `rn … rn + dn` (its columns in `J` begin at `mi`)
and the connected node whose columns are `cm … cm + dm` (its columns in `J` begin at `mj`). -/
noncomputable def denseBlock (N : ℕ) (c : FactorCell) (rn dn mi mj cm dm : ℕ) (a : DenseAcc) : Out DenseAcc :=
  if rn + dn ≤ N ∧ cm + dm ≤ N then
    .ok ⟨fun i j => a.H i j + if (rn ≤ i ∧ i < rn + dn) ∧ (cm ≤ j ∧ j < cm + dm) then
          c.jtwj (mi + (i - rn)) (mj + (j - cm)) else 0,
      fun i => a.grad i + if rn ≤ i ∧ i < rn + dn then c.jtwr (mi + (i - rn)) else 0⟩
  else .ub

/-- The loop over the connected nodes, factor_graph_solve_dense.cpp 121-138.  `ps` holds the pairs of `indNodeId` and
`indNodesMatrix`; when the id is not found the code reads past the end of `indNodesMatrix`. -/
noncomputable def denseInner (N : ℕ) (nh : NRef → NodeCell) (ps : List (ℕ × ℕ)) (c : FactorCell) (rn dn mi : ℕ) :
    ℕ → List NRef → DenseAcc → Out DenseAcc
  | _, [], a => .ok a
  | mj, m :: ms, a =>
    match ps.lookup (nh m).id with
    | none => .ub
    | some cm => denseBlock N c rn dn mi mj cm (nh m).dim a >>= denseInner N nh ps c rn dn mi (mj + (nh m).dim) ms

/-- Lines 102-138 for one neighbour factor of the node `n`.  Without a block for `n`, or with one outside the columns of the
Jacobian, the products have wrong dimensions. -/
noncomputable def denseFactor (N : ℕ) (nh : NRef → NodeCell) (ps : List (ℕ × ℕ)) (n : NRef) (rn : ℕ) (c : FactorCell)
    (a : DenseAcc) : Out DenseAcc :=
  match findBlock nh (nh n).id 0 c.nbrs with
  | some mi =>
    if mi + (nh n).dim ≤ (c.nbrs.map fun m => (nh m).dim).sum then denseInner N nh ps c rn (nh n).dim mi 0 c.nbrs a else .ub
  | none => if c.nbrs = [] then .ok a else .ub

/-- Lines 100-139: the loop over the neighbour factors of a node. -/
noncomputable def denseFactors (N : ℕ) (w : World) (ps : List (ℕ × ℕ)) (n : NRef) (rn : ℕ) :
    List FRef → DenseAcc → Out DenseAcc
  | [], a => .ok a
  | f :: fs, a => denseFactor N w.nh ps n rn (w.fh f) a >>= denseFactors N w ps n rn fs

/-- Lines 94-140: the loop over the nodes; `rn` is `indNodesMatrix[n]`. -/
noncomputable def denseRows (N : ℕ) (w : World) (ps : List (ℕ × ℕ)) : ℕ → List NRef → DenseAcc → Out DenseAcc
  | _, [], a => .ok a
  | rn, n :: ns, a => denseFactors N w ps n rn (w.nh n).nbrs a >>= denseRows N w ps (rn + (w.nh n).dim) ns

/-- `FGraphSolveDense::calculate_gradient_hessian`, factor_graph_solve_dense.cpp 58-143; the assert of line 90 is compiled
out. -/
noncomputable def denseGradHess (w : World) : Out (NormalEq × World) := do
  let w ← forAll evalFull w.g.factors w
  let a ← w.denseRows w.g.stateDim (colPairs w.nh 0 w.g.nodes) 0 w.g.nodes ⟨fun _ _ => 0, fun _ => 0⟩
  pure (⟨w.g.stateDim, Matrix.of fun i j => a.H i j, fun i => a.grad i⟩, w)

/-- `FGraphSolveDense::update_state`, factor_graph_solve_dense.cpp 145-158: the loop of `FGraphSolve::update_nodes` over
all nodes and with the other sign. -/
noncomputable def denseUpdate (N : ℕ) (dx : Fin N → ℝ) (w : World) : Out World := updateNodes (fun i => -dx i) 0 w.g.nodes w

/-- `FGraphSolveDense::bookkeep_state`, factor_graph_solve_dense.cpp 159-163. -/
noncomputable def denseBookkeep (w : World) : World := w.g.nodes.foldl (fun w n => w.setN n (w.nh n).bookkeep) w
/-- `FGraphSolveDense::update_state_from_bookkeep`, factor_graph_solve_dense.cpp 164-168. -/
noncomputable def denseRestore (w : World) : World := w.g.nodes.foldl (fun w n => w.setN n (w.nh n).restore) w

end World

/-- The functions `FGraphSolveDense` gives to `Optimizer`; `calculate_error` (46-57) is the computation of
`FGraphSolve::chi2(true)`. -/
noncomputable def denseGraph : DenseProblem World where
  error := World.chi2Eval
  gradHess := World.denseGradHess
  update := World.denseUpdate
  bookkeep w := .ok w.denseBookkeep
  restore w := .ok w.denseRestore

end Mrob
