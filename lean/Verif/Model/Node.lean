import Verif.Model.SE3
import Mathlib.Algebra.Order.Floor.Ring

/-!
# Model of the graph nodes

`src/FGraph/node.cpp` (`wrap_angle`) and `src/FGraph/factors/node*.cpp`.  A node object is reduced here to its two
data members `state_` and `auxiliaryState_`; ids, modes and neighbour lists are in `Model/Graph.lean`.
The dimension asserts of the constructors are discharged by the types.  The assert `isSE3(initial_x)` of
`NodePose3d` vanishes in Release builds, so any matrix can be stored.
-/

open Matrix

namespace Mrob

/-- `Mat21`. -/
abbrev Vec2 := Fin 2 → ℝ

open Classical in
/-- First loop of `wrap_angle`, node.cpp 64: `while (angle < -M_PI) angle += pi2;`.  Simplification: `M_PI` is
the real number π. -/
noncomputable def wrapUp (a : ℝ) : ℝ :=
  if a < -Real.pi then wrapUp (a + 2 * Real.pi) else a
termination_by ⌈(-Real.pi - a) / (2 * Real.pi)⌉₊
decreasing_by
  have hp := Real.pi_pos
  rename_i h
  have h1 : (-Real.pi - (a + 2 * Real.pi)) / (2 * Real.pi) = (-Real.pi - a) / (2 * Real.pi) - 1 := by
    field_simp; ring
  have h0 : 0 < (-Real.pi - a) / (2 * Real.pi) := by apply div_pos <;> linarith
  rw [h1]
  have h2 : 0 < ⌈(-Real.pi - a) / (2 * Real.pi)⌉₊ := Nat.ceil_pos.mpr h0
  have h3 : ⌈(-Real.pi - a) / (2 * Real.pi) - 1⌉₊ ≤ ⌈(-Real.pi - a) / (2 * Real.pi)⌉₊ - 1 := by
    rw [Nat.ceil_le, Nat.cast_sub h2, Nat.cast_one]
    linarith [Nat.le_ceil ((-Real.pi - a) / (2 * Real.pi))]
  omega

open Classical in
/-- Second loop of `wrap_angle`, node.cpp 65: `while (angle >= M_PI) angle -= pi2;`. -/
noncomputable def wrapDown (a : ℝ) : ℝ :=
  if a ≥ Real.pi then wrapDown (a - 2 * Real.pi) else a
termination_by ⌊(a + Real.pi) / (2 * Real.pi)⌋₊
decreasing_by
  have hp := Real.pi_pos
  rename_i h
  have h1 : (a - 2 * Real.pi + Real.pi) / (2 * Real.pi) = (a + Real.pi) / (2 * Real.pi) - 1 := by
    field_simp; ring
  have h0 : 1 ≤ (a + Real.pi) / (2 * Real.pi) := by rw [le_div_iff₀ (by linarith)]; linarith
  rw [h1, Nat.floor_sub_one]
  have : 1 ≤ ⌊(a + Real.pi) / (2 * Real.pi)⌋₊ := Nat.le_floor (by exact_mod_cast h0)
  omega

/-- `mrob::wrap_angle`, node.cpp 60-68. -/
noncomputable def wrapAngle (a : ℝ) : ℝ := wrapDown (wrapUp a)

/-- `x(2) = wrap_angle(x(2))`. -/
noncomputable def wrap2 (x : Vec3) : Vec3 := ![x 0, x 1, wrapAngle (x 2)]

open Classical in
/-- `x.head(3).normalize()` on a 4-vector.  Eigen's `normalize()` divides by `sqrt(squaredNorm())` only when the
squared norm is positive. -/
noncomputable def normalizeHead (x : Vec4) : Vec4 :=
  let n : Vec3 := fun i => x (Sum.inl i)
  if sqNorm n > 0 then Sum.elim (fun i => n i / Real.sqrt (sqNorm n)) (fun u => x (Sum.inr u)) else x

/-- The five node classes of `src/FGraph/factors`. -/
inductive NodeKind
  | pose2d | pose3d | landmark2d | landmark3d | plane4d
deriving DecidableEq, Repr

namespace NodeKind

/-- `Node::dim_` as set by the constructors (nodePose2d.cpp 29, nodePose3d.cpp 32, nodeLandmark2d.cpp 33,
nodeLandmark3d.cpp 32, nodePlane4d.cpp 32). -/
def dim : NodeKind → ℕ
  | pose2d => 3 | pose3d => 6 | landmark2d => 2 | landmark3d => 3 | plane4d => 4

/-- Type of the data member `state_`. -/
abbrev State : NodeKind → Type
  | pose2d => Vec3 | pose3d => SE3 | landmark2d => Vec2 | landmark3d => Vec3 | plane4d => Vec4

/-- Type of the increment `dx` accepted by `update`. -/
abbrev Dx : NodeKind → Type
  | pose2d => Vec3 | pose3d => Vec6 | landmark2d => Vec2 | landmark3d => Vec3 | plane4d => Vec4

/-- What `update` makes of the old `state_`: nodePose2d.cpp 35-40, nodePose3d.cpp 47-56, nodeLandmark2d.cpp 40-43,
nodeLandmark3d.cpp 39-43, nodePlane4d.cpp 43-47. -/
noncomputable def upd : (k : NodeKind) → State k → Dx k → State k
  | pose2d, x, dx => wrap2 (x + dx)
  | pose3d, x, dx => (x.updateLhs dx).regenerate
  | landmark2d, x, dx => x + dx
  | landmark3d, x, dx => x + dx
  | plane4d, x, dx => normalizeHead (x + dx)

/-- What `update_from_auxiliary` makes of `auxiliaryState_`: nodePose2d.cpp 42-47, nodePose3d.cpp 58-63,
nodeLandmark2d.cpp 45-48, nodeLandmark3d.cpp 45-49, nodePlane4d.cpp 49-53. -/
noncomputable def updAux : (k : NodeKind) → State k → Dx k → State k
  | pose2d, x, dx => wrap2 (x + dx)
  | pose3d, x, dx => x.updateLhs dx
  | landmark2d, x, dx => x + dx
  | landmark3d, x, dx => x + dx
  | plane4d, x, dx => normalizeHead (x + dx)

/-- Value stored by `set_state` and by `set_auxiliary_state`: nodePose2d.cpp 50-60, nodePose3d.cpp 65-76,
nodeLandmark2d.cpp 50-58, nodeLandmark3d.cpp 51-60, nodePlane4d.hpp 55-56. -/
noncomputable def store : (k : NodeKind) → State k → State k
  | pose2d, x => wrap2 x
  | pose3d, x => x
  | landmark2d, x => x
  | landmark3d, x => x
  | plane4d, x => x

/-- Value stored by the constructor in both members: nodePose2d.cpp 29-33 (no wrapping), nodePose3d.cpp 31-44,
nodeLandmark2d.cpp 32-37, nodeLandmark3d.cpp 31-36, nodePlane4d.cpp 31-39 (normalised). -/
noncomputable def construct : (k : NodeKind) → State k → State k
  | pose2d, x => x
  | pose3d, x => x
  | landmark2d, x => x
  | landmark3d, x => x
  | plane4d, x => normalizeHead x

end NodeKind

/-- The data members of a node. -/
@[ext] structure NodeObj (k : NodeKind) where
  /-- `state_` -/
  state : k.State
  /-- `auxiliaryState_` -/
  aux : k.State

namespace NodeObj

variable {k : NodeKind}

/-- Constructors. -/
noncomputable def new (x : k.State) : NodeObj k := ⟨k.construct x, k.construct x⟩
/-- `update(dx)`. -/
noncomputable def update (n : NodeObj k) (dx : k.Dx) : NodeObj k := { n with state := k.upd n.state dx }
/-- `update_from_auxiliary(dx)`. -/
noncomputable def updateFromAux (n : NodeObj k) (dx : k.Dx) : NodeObj k :=
  { n with state := k.updAux n.aux dx }
/-- `set_state(x)`. -/
noncomputable def setState (n : NodeObj k) (x : k.State) : NodeObj k := { n with state := k.store x }
/-- `set_auxiliary_state(x)`. -/
noncomputable def setAux (n : NodeObj k) (x : k.State) : NodeObj k := { n with aux := k.store x }
/-- `n->set_auxiliary_state(n->get_state())`, factor_graph_solve.cpp 376-380. -/
noncomputable def bookkeep (n : NodeObj k) : NodeObj k := n.setAux n.state
/-- `n->set_state(n->get_auxiliary_state())`, factor_graph_solve.cpp 383-387. -/
noncomputable def restore (n : NodeObj k) : NodeObj k := n.setState n.aux

end NodeObj

/-- Calls on a node. -/
inductive NodeOp (k : NodeKind)
  | update (dx : k.Dx)
  | updateFromAux (dx : k.Dx)
  | setState (x : k.State)
  | setAux (x : k.State)
  | bookkeep
  | restore

/-- Effect of a call. -/
noncomputable def NodeOp.run {k : NodeKind} : NodeOp k → NodeObj k → NodeObj k
  | .update dx, n => n.update dx
  | .updateFromAux dx, n => n.updateFromAux dx
  | .setState x, n => n.setState x
  | .setAux x, n => n.setAux x
  | .bookkeep, n => n.bookkeep
  | .restore, n => n.restore

/-- Effect of a history of calls. -/
noncomputable def runOps {k : NodeKind} (ops : List (NodeOp k)) (n : NodeObj k) : NodeObj k :=
  ops.foldl (fun n op => op.run n) n

/-- `Factor::robustFactorType`, factor.hpp 86. -/
inductive Robust
  | quadratic | huber | cauchy | mcclure | ransac
deriving DecidableEq, Repr

/-- `Factor::evaluate_robust_weight`, factor.cpp 42-73: the value assigned to `robust_weight_` and returned; `old` is
the value of the member before the call (RANSAC leaves it alone). -/
noncomputable def robustWeight (ty : Robust) (old u : ℝ) : ℝ :=
  match ty with
  | .huber => if u < 1 then 1 else 1 / u
  | .cauchy => 1 / (1 + u * u)
  | .mcclure => 1 / (1 + u * u) / (1 + u * u)
  | .ransac => old
  | .quadratic => 1

/-- `robust_weight_` set by the constructor, factor.cpp 30. -/
def robustWeightInit : ℝ := 0

/-- Weights returned by consecutive calls `evaluate_robust_weight(u₁)`, `evaluate_robust_weight(u₂)`, … on a new factor. -/
noncomputable def robustWeights (ty : Robust) : ℝ → List ℝ → List ℝ
  | _, [] => []
  | old, u :: us => robustWeight ty old u :: robustWeights ty (robustWeight ty old u) us

end Mrob
