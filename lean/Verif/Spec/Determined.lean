import Verif.Model.FactorClass
import Verif.Spec.Geometry
import Mathlib.LinearAlgebra.Matrix.PosDef

/-!
# Specification: graphs that determine their nodes
-/

namespace Spec

open Mrob

/-- `Fixes V nbrs known m`: a measurement of the class `V` of the nodes `nbrs` says where the node `m` is, once the nodes
`known` are known: a prior its pose, a relative measurement either pose from the other, and a landmark or plane measurement
the landmark or plane from the pose (not the pose from the landmark). -/
inductive Fixes : FactorVirt → List NRef → List NRef → NRef → Prop
  | prior2d {obs W ty n} : Fixes (.prior2d obs W ty) [n] [] n
  | prior3d {Tobs W ty n} : Fixes (.prior3d Tobs W ty) [n] [] n
  | rel2d {obs W ty n m} : Fixes (.rel2d obs W ty) [n, m] [n] m
  | rel2dBack {obs W ty n m} : Fixes (.rel2d obs W ty) [n, m] [m] n
  | odom {obs W ty n m} : Fixes (.odom obs W ty) [n, m] [n] m
  | odomBack {obs W ty n m} : Fixes (.odom obs W ty) [n, m] [m] n
  | rel3d {Tobs W ty n m} (hT : IsRigid Tobs.T) : Fixes (.rel3d Tobs W ty) [n, m] [n] m
  | rel3dBack {Tobs W ty n m} : Fixes (.rel3d Tobs W ty) [n, m] [m] n
  | land2d {obs W ty n m} : Fixes (.land2d obs W false ty) [n, m] [n] m
  | land2dRev {obs W ty n m} : Fixes (.land2d obs W true ty) [m, n] [n] m
  | land3d {obs W ty n m} : Fixes (.land3d obs W false ty) [n, m] [n] m
  | land3dRev {obs W ty n m} : Fixes (.land3d obs W true ty) [m, n] [n] m
  | plane4d {obs W ty n m} : Fixes (.plane4d obs W false ty) [n, m] [n] m
  | plane4dRev {obs W ty n m} : Fixes (.plane4d obs W true ty) [m, n] [n] m

/-- The node is not estimated (an anchor), or some measurement with positive definite information fixes it from nodes that
are tied already. -/
inductive Tied (w : World) : NRef → Prop
  | known {n : NRef} (h : n ∉ w.g.active) : Tied w n
  | measured {f : FRef} {known : List NRef} {m : NRef} (hf : f ∈ w.g.factors) (hW : (w.fh f).virt.W.PosDef)
      (hr : (w.fh f).virt.robust ≠ .ransac) (hfix : Fixes (w.fh f).virt (w.fh f).nbrs known m)
      (hk : ∀ n ∈ known, Tied w n) : Tied w m

/-- A planar measurement that does not say where in the plane its nodes are: a relative pose, odometry, or a landmark seen
from a pose at least a millimetre away (closer, the code takes other derivatives). -/
inductive Relative (w : World) : FactorVirt → List NRef → Prop
  | rel2d {obs W ty n m} : Relative w (.rel2d obs W ty) [n, m]
  | odom {obs W ty n m} : Relative w (.odom obs W ty) [n, m]
  | land2d {obs W ty n m} {x : Vec3} {y : Vec2} (hn : (w.nh n).val = ⟨.pose2d, x⟩) (hm : (w.nh m).val = ⟨.landmark2d, y⟩)
      (hq : 1e-6 ≤ (y 0 - x 0) ^ 2 + (y 1 - x 1) ^ 2) : Relative w (.land2d obs W false ty) [n, m]
  | land2dRev {obs W ty n m} {x : Vec3} {y : Vec2} (hn : (w.nh n).val = ⟨.pose2d, x⟩) (hm : (w.nh m).val = ⟨.landmark2d, y⟩)
      (hq : 1e-6 ≤ (y 0 - x 0) ^ 2 + (y 1 - x 1) ^ 2) : Relative w (.land2d obs W true ty) [m, n]

/-- Consecutive calls `solve(method, maxIters, lambda, tolerance)`. -/
noncomputable def solveAll (env : Env) : List (FGraphSolve.Method × ℕ × ℝ × ℝ) → FGraphSolve → Out FGraphSolve
  | [], s => .ok s
  | c :: cs, s => s.solve env c.1 c.2.1 c.2.2.1 c.2.2.2 >>= solveAll env cs

end Spec
