import Verif.Model.FactorClass

/-!
# Model of the Python interface of the factor graph

`mrobpy/FGraphPy.cpp`: class `FGraphPy`, a solver whose nodes and factors are created by the calls themselves and named by
their ids.  Not modelled: the conversion of Python objects to Eigen matrices (wrong shapes and negative ids raise a Python
exception before the call), `print`, and the getters of the matrices of the last linear system.

Every call of an `add_…` method allocates one object, which only the graph keeps; the reference of the new object is the
number of nodes (factors) in the graph, which is the number of objects allocated before.
-/

open Matrix

namespace Mrob

/-- An object of class `FGraphPy`, FGraphPy.cpp 58-203. -/
structure FGraphPy where
  /-- base class -/
  s : FGraphSolve
  /-- `robust_type_` -/
  robust : Robust
  /-- contents of the memory in which the next factors are allocated -/
  mem : FRef → (d : ℕ) → (Fin d → ℝ) × (Fin d → ℕ → ℝ)

/-- The methods `add_factor_*`, with the ids of the nodes. -/
inductive PyFactor
  | prior2d (obs : Vec3) (n : ℕ) (W : Mat3)
  | rel2d (obs : Vec3) (o t : ℕ) (W : Mat3) (updateNodeTarget : Bool)
  | odom (obs : Vec3) (o t : ℕ) (W : Mat3)
  | prior3d (obs : SE3) (n : ℕ) (W : Matrix (Fin 6) (Fin 6) ℝ)
  | rel3d (obs : SE3) (o t : ℕ) (W : Matrix (Fin 6) (Fin 6) ℝ) (updateNodeTarget : Bool)
  | land3d (obs : Vec3) (p l : ℕ) (W : Mat3) (initializeLandmark : Bool)
  | land2d (obs : Vec2) (p l : ℕ) (W : Matrix (Fin 2) (Fin 2) ℝ) (initializeLandmark : Bool)
  | plane4d (obs : Vec4) (p l : ℕ) (W : Matrix (Fin 4) (Fin 4) ℝ)
  | p2plane (px py ny : Vec3) (n : ℕ) (W : Matrix (Fin 1) (Fin 1) ℝ)

/-- `get_state()` read into a `Mat31` for a 2D pose. -/
def NodeCell.pose2d? (c : NodeCell) : Option Vec3 :=
  match c.val with
  | ⟨.pose2d, x⟩ => some x
  | _ => none

/-- `get_state()` read into a `Mat4` for a 3D pose. -/
def NodeCell.pose3d? (c : NodeCell) : Option SE3 :=
  match c.val with
  | ⟨.pose3d, X⟩ => some X
  | _ => none

/-- `set_state(x)` through the base class; a value of another shape makes Eigen read outside a matrix. -/
noncomputable def NodeCell.setVal (c : NodeCell) (v : NodeVal) : Out NodeCell :=
  if h : v.1 = c.kind then .ok { c with obj := c.obj.setState (h ▸ v.2) } else .ub

/-- The components of a vector, as a dynamic vector. -/
def flat {n : ℕ} (v : Fin n → ℝ) (i : ℕ) : ℝ := if h : i < n then v ⟨i, h⟩ else 0

namespace World

/-- `updateNodeTarget` of `Factor2Poses2d`, factor2Poses2d.cpp 50-54; `obs` is `obs_`, the observation after the possible
change of sign. -/
noncomputable def initRel2d (w : World) (obs : Vec3) (o t : NRef) : Out World :=
  match (w.nh o).pose2d?, (w.nh t).pose2d? with
  | some xo, some xt => .ok (w.setN t ((w.nh t).update (flat (xo + obs - xt))))
  | _, _ => .ub

/-- `updateNodeTarget` of `Factor2Poses2dOdom`, factor2Poses2d.cpp 114-118. -/
noncomputable def initOdom (w : World) (obs : Vec3) (o t : NRef) : Out World :=
  match (w.nh o).pose2d?, (w.nh t).pose2d? with
  | some xo, some xt => .ok (w.setN t ((w.nh t).update (flat (odomPredict xo obs - xt))))
  | _, _ => .ub

/-- `updateNodeTarget` of `Factor2Poses3d`, factor2Poses3d.cpp 77-83. -/
noncomputable def initRel3d (w : World) (Tobs : SE3) (o t : NRef) : Out World :=
  match (w.nh o).pose3d? with
  | some X => (w.nh t).setVal ⟨.pose3d, X.mul Tobs⟩ >>= fun c => .ok (w.setN t c)
  | none => .ub

/-- `initializeLandmark` of `Factor1Pose1Landmark2d`, factor1Pose1Landmark2d.cpp 53-60. -/
noncomputable def initLand2d (w : World) (obs : Vec2) (p l : NRef) : Out World :=
  match (w.nh p).pose2d? with
  | some x => (w.nh l).setVal ⟨.landmark2d, land2dInit obs x⟩ >>= fun c => .ok (w.setN l c)
  | none => .ub

end World

namespace FGraphPy

/-- Constructor, FGraphPy.cpp 72-73.  `nh`, `fh`: contents of the memory before any object is created. -/
def new (robust : Robust) (nh : NRef → NodeCell) (fh : FRef → FactorCell)
    (mem : FRef → (d : ℕ) → (Fin d → ℝ) × (Fin d → ℕ → ℝ)) : FGraphPy := ⟨FGraphSolve.new nh fh, robust, mem⟩

/-- `add_node_pose_2d`, FGraphPy.cpp 74-79, `add_node_pose_3d` 111-116, `add_node_landmark_3d` 137-142,
`add_node_landmark_2d` 156-161, `add_node_plane_4d` 177-182: allocates the node, adds it, returns `n->get_id()`. -/
noncomputable def addNode (p : FGraphPy) (k : NodeKind) (x : k.State) (m : Mode) : ℕ × FGraphPy :=
  let n := p.s.w.g.nodes.length
  let w := (p.s.w.setN n (NodeCell.new k x m)).addNode n
  ((w.2.nh n).id, { p with s := { p.s with w := w.2 } })

/-- The constructor call in an `add_factor_*` method: the object, and the nodes as modified by the constructor. -/
noncomputable def construct (p : FGraphPy) (f : FRef) (w : World) : PyFactor → Out (FactorCell × World)
  | .prior2d obs n W => do
    let n ← w.getNode n
    pure (.newPrior2d obs n W p.robust (p.mem f 3).1 (p.mem f 3).2, w)
  | .rel2d obs o t W upd => do
    let o ← w.getNode o
    let t ← w.getNode t
    let c := FactorCell.newRel2d w.nh obs o t W p.robust (p.mem f 3).1 (p.mem f 3).2
    let w ← if upd then w.initRel2d (Rel2d.new obs (w.nh o).id (w.nh t).id).obs o t else pure w
    pure (c, w)
  | .odom obs o t W => do
    let o ← w.getNode o
    let t ← w.getNode t
    let c := FactorCell.newOdom w.nh obs o t W p.robust (p.mem f 3).1 (p.mem f 3).2
    let w ← w.initOdom (Rel2d.new obs (w.nh o).id (w.nh t).id).obs o t
    pure (c, w)
  | .prior3d obs n W => do
    let n ← w.getNode n
    pure (.newPrior3d obs n W p.robust (p.mem f 6).1 (p.mem f 6).2, w)
  | .rel3d obs o t W upd => do
    let o ← w.getNode o
    let t ← w.getNode t
    let c := FactorCell.newRel3d w.nh obs o t W p.robust (p.mem f 6).1 (p.mem f 6).2
    let w ← if upd then w.initRel3d (Rel3d.new obs (w.nh o).id (w.nh t).id).Tobs o t else pure w
    pure (c, w)
  | .land3d obs n l W _ => do
    let n ← w.getNode n
    let l ← w.getNode l
    pure (.newLand3d w.nh obs n l W p.robust (p.mem f 3).1 (p.mem f 3).2, w)
  | .land2d obs n l W ini => do
    let n ← w.getNode n
    let l ← w.getNode l
    let c := FactorCell.newLand2d w.nh obs n l W p.robust (p.mem f 2).1 (p.mem f 2).2
    let w ← if ini then w.initLand2d obs n l else pure w
    pure (c, w)
  | .plane4d obs n l W => do
    let n ← w.getNode n
    let l ← w.getNode l
    pure (.newPlane4d w.nh obs n l W p.robust (p.mem f 4).1 (p.mem f 4).2, w)
  | .p2plane px py ny n W => do
    let n ← w.getNode n
    pure (.newP2Plane px py ny n W p.robust (p.mem f 1).1 (p.mem f 1).2, w)

/-- The methods `add_factor_*`, FGraphPy.cpp 80-103, 117-133, 143-152, 162-171, 183-191, 196-203.  Simplification: the three
methods for 2D poses return nothing, here the id as well. -/
noncomputable def addFactor (p : FGraphPy) (c : PyFactor) : Out (ℕ × FGraphPy) := do
  let f := p.s.w.g.factors.length
  let (cell, w) ← p.construct f p.s.w c
  let w := (w.setF f cell).addFactor f
  pure ((w.2.fh f).id, { p with s := { p.s with w := w.2 } })

/-- The calls of the interface. -/
inductive Call
  | node (k : NodeKind) (x : k.State) (m : Mode)
  | factor (c : PyFactor)
  | solve (env : Env) (method : FGraphSolve.Method) (maxIters : ℕ) (lambda tol : ℝ)
  | chi2

/-- Effect of a call and the id it returns, if it is an `add_…` method. -/
noncomputable def step (p : FGraphPy) : Call → Out (Option ℕ × FGraphPy)
  | .node k x m => .ok (some (p.addNode k x m).1, (p.addNode k x m).2)
  | .factor c => p.addFactor c >>= fun r => .ok (some r.1, r.2)
  | .solve env m k l t => p.s.solve env m k l t >>= fun s => .ok (none, { p with s := s })
  | .chi2 => p.s.w.chi2Eval >>= fun r => .ok (none, { p with s := { p.s with w := r.2 } })

/-- A history of calls: the ids returned, in order, and the object. -/
noncomputable def run : List Call → FGraphPy → Out (List (Option ℕ) × FGraphPy)
  | [], p => .ok ([], p)
  | c :: cs, p => p.step c >>= fun r => run cs r.2 >>= fun q => .ok (r.1 :: q.1, q.2)

end FGraphPy

end Mrob
