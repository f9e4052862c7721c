import Verif.Model.Factor

/-!
# Model of the factor graph container

`src/FGraph/node.{hpp,cpp}`, `src/FGraph/factor.{hpp,cpp}`, `src/FGraph/factor_graph.{hpp,cpp}`.

Nodes and factors are heap objects shared between the user, the graph and each other through `std::shared_ptr`.
They are modelled by two heaps indexed by references (natural numbers); every reference is valid and two references are
equal iff they denote the same object.  The virtual methods of a factor class are a record `FactorVirt`.
Undefined behaviour is the outcome `Out.ub`.  Release builds are modelled: the CMake default defines `NDEBUG` and removes
all asserts, so what an assert would have stopped either continues or is undefined behaviour, as in the C++ code.
-/

open Matrix

namespace Mrob

/-- Result of running a piece of the program. -/
inductive Out (α : Type*)
  /-- normal return -/
  | ok (a : α)
  /-- NaN or indeterminate values have entered the numbers -/
  | nan
  /-- undefined behaviour -/
  | ub
  /-- a C++ exception leaves the function (`std::out_of_range` thrown by `at`) -/
  | throw

namespace Out

/-- Sequential composition. -/
def bind {α β : Type*} : Out α → (α → Out β) → Out β
  | ok a, f => f a
  | nan, _ => nan
  | ub, _ => ub
  | throw, _ => throw

instance : Monad Out where
  pure := Out.ok
  bind := Out.bind

@[simp] theorem pure_eq {α : Type _} (a : α) : (pure a : Out α) = ok a := rfl
@[simp] theorem ok_bind {α β : Type _} (a : α) (f : α → Out β) : (ok a >>= f) = f a := rfl
@[simp] theorem nan_bind {α β : Type _} (f : α → Out β) : ((nan : Out α) >>= f) = nan := rfl
@[simp] theorem ub_bind {α β : Type _} (f : α → Out β) : ((ub : Out α) >>= f) = ub := rfl
@[simp] theorem throw_bind {α β : Type _} (f : α → Out β) : ((throw : Out α) >>= f) = throw := rfl

theorem bind_eq_ok {α β : Type _} {x : Out α} {f : α → Out β} {b : β} :
    (x >>= f) = ok b ↔ ∃ a, x = ok a ∧ f a = ok b := by
  cases x <;> simp

end Out

/-- `Node::nodeMode`, node.hpp 63. -/
inductive Mode
  | standard | anchor | schur
deriving DecidableEq, Repr

/-- Reference to a node object (`std::shared_ptr<Node>`). -/
abbrev NRef := ℕ
/-- Reference to a factor object (`std::shared_ptr<Factor>`). -/
abbrev FRef := ℕ

/-- What `get_state()` returns: a value whose shape depends on the class of the node. -/
abbrev NodeVal := (k : NodeKind) × k.State

/-- A node object: node.hpp 130-135 and the state members of the derived class. -/
structure NodeCell where
  /-- class of the node -/
  kind : NodeKind
  /-- `state_` and `auxiliaryState_` -/
  obj : NodeObj kind
  /-- `id_` -/
  id : ℕ
  /-- `node_mode_` -/
  mode : Mode
  /-- `neighbourFactors_` -/
  nbrs : List FRef

namespace NodeCell

/-- `get_dim()`. -/
def dim (n : NodeCell) : ℕ := n.kind.dim
/-- `get_state()`. -/
def val (n : NodeCell) : NodeVal := ⟨n.kind, n.obj.state⟩
/-- Constructor, node.cpp 28-31 and those of the derived classes. -/
noncomputable def new (k : NodeKind) (x : k.State) (m : Mode) : NodeCell := ⟨k, NodeObj.new x, 0, m, []⟩

end NodeCell

/-- The class of a factor together with the constant data set by its constructor.  `kinds` are the node classes whose
states the class reads, in the order of `neighbourNodes_`; `res` and `jac` are `evaluate_residuals` and
`evaluate_jacobians` as functions of the states of the neighbours, `jac v l c` being the coefficient of `get_jacobian()` in
row `l` and column `c`. -/
structure FactorVirt where
  /-- `dim_` -/
  dim : ℕ
  /-- classes of the neighbour nodes -/
  kinds : List NodeKind
  /-- `evaluate_residuals` -/
  res : List NodeVal → Fin dim → ℝ
  /-- `evaluate_jacobians` -/
  jac : List NodeVal → Fin dim → ℕ → ℝ
  /-- `W_` -/
  W : Matrix (Fin dim) (Fin dim) ℝ
  /-- `robust_type_` -/
  robust : Robust

/-- A factor object, factor.hpp 158-171 and the members of the derived class. -/
structure FactorCell where
  /-- class and constant data -/
  virt : FactorVirt
  /-- `neighbourNodes_` -/
  nbrs : List NRef
  /-- `id_` -/
  id : ℕ
  /-- `r_` -/
  r : Fin virt.dim → ℝ
  /-- `J_` -/
  J : Fin virt.dim → ℕ → ℝ
  /-- `chi2_` -/
  chi2 : ℝ
  /-- `robust_weight_` -/
  weight : ℝ

/-- Constructor, factor.cpp 29-34: `chi2_(0)`, `robust_weight_(0.0)`.  `r0`, `J0` are the contents of `r_`, `J_` before the
first evaluation (several classes do not initialise them). -/
def FactorCell.new (f : FactorVirt) (nbrs : List NRef) (r0 : Fin f.dim → ℝ) (J0 : Fin f.dim → ℕ → ℝ) : FactorCell :=
  ⟨f, nbrs, 0, r0, J0, 0, robustWeightInit⟩

/-- The data members of `FGraph`, factor_graph.hpp 122-137. -/
structure Graph where
  /-- `nodes_` -/
  nodes : List NRef
  /-- `active_nodes_` -/
  active : List NRef
  /-- `factors_` -/
  factors : List FRef
  /-- `eigen_factors_` -/
  eigenFactors : List FRef
  /-- `stateDim_` -/
  stateDim : ℕ
  /-- `obsDim_` -/
  obsDim : ℕ

/-- The heaps and one graph. -/
structure World where
  /-- heap of node objects -/
  nh : NRef → NodeCell
  /-- heap of factor objects -/
  fh : FRef → FactorCell
  /-- the graph -/
  g : Graph

namespace World

/-- `FGraph::FGraph`, factor_graph.cpp 30-33. -/
def emptyGraph : Graph := ⟨[], [], [], [], 0, 0⟩

/-- Overwrites a node object. -/
def setN (w : World) (n : NRef) (c : NodeCell) : World := { w with nh := Function.update w.nh n c }
/-- Overwrites a factor object. -/
def setF (w : World) (f : FRef) (c : FactorCell) : World := { w with fh := Function.update w.fh f c }

/-- `Node::add_factor`, node.cpp 37-41. -/
def nodeAddFactor (w : World) (n : NRef) (f : FRef) : World :=
  w.setN n { w.nh n with nbrs := (w.nh n).nbrs ++ [f] }

/-- `Node::rm_factor`, node.cpp 43-57: `erase` of the first occurrence; `erase(end())` is undefined behaviour. -/
def nodeRmFactor (w : World) (n : NRef) (f : FRef) : Out (Bool × World) :=
  if f ∈ (w.nh n).nbrs then .ok (true, w.setN n { w.nh n with nbrs := (w.nh n).nbrs.erase f }) else .ub

/-- `Node::set_node_mode`, node.hpp 126. -/
def setMode (w : World) (n : NRef) (m : Mode) : World := w.setN n { w.nh n with mode := m }

/-- `FGraph::add_factor`, factor_graph.cpp 44-55. -/
def addFactor (w : World) (f : FRef) : ℕ × World :=
  let id := w.g.factors.length
  let w := w.setF f { w.fh f with id := id }
  let w := { w with g := { w.g with factors := w.g.factors ++ [f] } }
  let w := (w.fh f).nbrs.foldl (fun w n => w.nodeAddFactor n f) w
  let w := { w with g := { w.g with obsDim := w.g.obsDim + (w.fh f).virt.dim } }
  ((w.fh f).id, w)

/-- `FGraph::add_eigen_factor`, factor_graph.cpp 57-68. -/
def addEigenFactor (w : World) (f : FRef) : ℕ × World :=
  let id := w.g.eigenFactors.length
  let w := w.setF f { w.fh f with id := id }
  let w := { w with g := { w.g with eigenFactors := w.g.eigenFactors ++ [f] } }
  let w := (w.fh f).nbrs.foldl (fun w n => w.nodeAddFactor n f) w
  let w := { w with g := { w.g with obsDim := w.g.obsDim + (w.fh f).virt.dim } }
  ((w.fh f).id, w)

/-- `FGraph::add_node`, factor_graph.cpp 71-88; in the `SCHUR_MARGI` case the assert is compiled out. -/
def addNode (w : World) (n : NRef) : ℕ × World :=
  let id := w.g.nodes.length
  let w := w.setN n { w.nh n with id := id }
  let w := { w with g := { w.g with nodes := w.g.nodes ++ [n] } }
  let w := match (w.nh n).mode with
    | .standard =>
      { w with g := { w.g with active := w.g.active ++ [n], stateDim := w.g.stateDim + (w.nh n).dim } }
    | .anchor => w
    | .schur => w
  ((w.nh n).id, w)

/-- `FGraph::get_node`, factor_graph.cpp 90-95: `operator[]` of a deque outside its range is undefined behaviour. -/
def getNode (w : World) (key : ℕ) : Out NRef :=
  match w.g.nodes[key]? with
  | some n => .ok n
  | none => .ub

/-- `FGraph::get_factor`, factor_graph.cpp 97-102. -/
def getFactor (w : World) (key : ℕ) : Out FRef :=
  match w.g.factors[key]? with
  | some f => .ok f
  | none => .ub

/-- `number_nodes()`, factor_graph.hpp 102. -/
def numberNodes (w : World) : ℕ := w.g.nodes.length
/-- `number_factors()`, factor_graph.hpp 103. -/
def numberFactors (w : World) : ℕ := w.g.factors.length
/-- `get_dimension_state()`, factor_graph.hpp 104. -/
def dimensionState (w : World) : ℕ := w.g.stateDim
/-- `get_dimension_obs()`, factor_graph.hpp 105. -/
def dimensionObs (w : World) : ℕ := w.g.obsDim

/-- `FGraph::~FGraph`, factor_graph.cpp 34-42: clears the neighbour lists of the nodes of the graph. -/
def destroy (w : World) : World :=
  { w with
    nh := fun n => if n ∈ w.g.nodes then { w.nh n with nbrs := [] } else w.nh n
    g := emptyGraph }

end World

/-- The calls of the graph API that change the structure. -/
inductive GraphOp
  | addNode (n : NRef)
  | addFactor (f : FRef)
  | addEigenFactor (f : FRef)
  | setMode (n : NRef) (m : Mode)

/-- Effect of a call. -/
def GraphOp.run : GraphOp → World → World
  | .addNode n, w => (w.addNode n).2
  | .addFactor f, w => (w.addFactor f).2
  | .addEigenFactor f, w => (w.addEigenFactor f).2
  | .setMode n m, w => w.setMode n m

/-- Effect of a history of calls. -/
def World.run (ops : List GraphOp) (w : World) : World := ops.foldl (fun w op => op.run w) w

end Mrob
