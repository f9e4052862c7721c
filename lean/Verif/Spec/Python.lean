import Verif.Model.FGraphPy
import Verif.Lemmas.SolveSafe
import Verif.Spec.Measurement
import Verif.Spec.Graph

/-!
# What the calls of the Python interface mean
-/

open Matrix Spec

namespace Mrob

open World

namespace PyFactor

/-- The nodes named by a call, with the classes the method is meant for. -/
def uses : PyFactor → List (ℕ × NodeKind)
  | .prior2d _ n _ => [(n, .pose2d)]
  | .rel2d _ o t _ _ => [(o, .pose2d), (t, .pose2d)]
  | .odom _ o t _ => [(o, .pose2d), (t, .pose2d)]
  | .prior3d _ n _ => [(n, .pose3d)]
  | .rel3d _ o t _ _ => [(o, .pose3d), (t, .pose3d)]
  | .land3d _ p l _ _ => [(p, .pose3d), (l, .landmark3d)]
  | .land2d _ p l _ _ => [(p, .pose2d), (l, .landmark2d)]
  | .plane4d _ p l _ => [(p, .pose3d), (l, .plane4d)]
  | .p2plane _ _ _ n _ => [(n, .pose3d)]

/-- The node whose state the call sets. -/
def target : PyFactor → Option ℕ
  | .rel2d _ _ t _ upd => if upd then some t else none
  | .odom _ _ t _ => some t
  | .rel3d _ _ t _ upd => if upd then some t else none
  | .land2d _ _ l _ ini => if ini then some l else none
  | _ => none

/-- The information matrix passed to the call is positive semidefinite. -/
def InfoPsd : PyFactor → Prop
  | .prior2d _ _ W => W.PosSemidef
  | .rel2d _ _ _ W _ => W.PosSemidef
  | .odom _ _ _ W => W.PosSemidef
  | .prior3d _ _ W => W.PosSemidef
  | .rel3d _ _ _ W _ => W.PosSemidef
  | .land3d _ _ _ W _ => W.PosSemidef
  | .land2d _ _ _ W _ => W.PosSemidef
  | .plane4d _ _ _ W => W.PosSemidef
  | .p2plane _ _ _ _ W => W.PosSemidef

end PyFactor

/-- A factor whose nodes exist, have the right classes, and are distinct. -/
def PyFactor.Fits (ns : List (NodeKind × Mode)) (c : PyFactor) : Prop :=
  (∀ u ∈ c.uses, ∃ m, ns[u.1]? = some (u.2, m)) ∧ (c.uses.map Prod.fst).Nodup

namespace FGraphPy

/-- The nodes created by a history: class and mode, in order. -/
def created : List Call → List (NodeKind × Mode)
  | [] => []
  | .node k _ m :: cs => (k, m) :: created cs
  | .factor _ :: cs => created cs
  | .solve .. :: cs => created cs
  | .chi2 :: cs => created cs

/-- The factors created by a history, in order. -/
def factorsOf : List Call → List PyFactor
  | [] => []
  | .factor c :: cs => c :: factorsOf cs
  | .node .. :: cs => factorsOf cs
  | .solve .. :: cs => factorsOf cs
  | .chi2 :: cs => factorsOf cs

/-- The ids a user expects the calls to return when there already are `n` nodes and `f` factors. -/
def expectedIds : ℕ → ℕ → List Call → List (Option ℕ)
  | _, _, [] => []
  | n, f, .node .. :: cs => some n :: expectedIds (n + 1) f cs
  | n, f, .factor _ :: cs => some f :: expectedIds n (f + 1) cs
  | n, f, .solve .. :: cs => none :: expectedIds n f cs
  | n, f, .chi2 :: cs => none :: expectedIds n f cs

/-- A history in which no node is to be marginalised, and every factor names nodes created before, of the classes it is
meant for and distinct; `ns` are the nodes created before the history. -/
def Legal : List (NodeKind × Mode) → List Call → Prop
  | _, [] => True
  | ns, .node k _ m :: cs => m ≠ .schur ∧ Legal (ns ++ [(k, m)]) cs
  | ns, .factor c :: cs => c.Fits ns ∧ Legal ns cs
  | ns, .solve .. :: cs => Legal ns cs
  | ns, .chi2 :: cs => Legal ns cs

/-- The states with which the nodes of a history are created. -/
noncomputable def initial : List Call → List NodeVal
  | [] => []
  | .node k x _ :: cs => ⟨k, k.construct x⟩ :: initial cs
  | .factor _ :: cs => initial cs
  | .solve .. :: cs => initial cs
  | .chi2 :: cs => initial cs

/-- The history has no `solve`. -/
def NoSolve (cs : List Call) : Prop := ∀ c ∈ cs, ∀ env m k l t, c ≠ .solve env m k l t

end FGraphPy

open FGraphPy

/-- Calls that cannot fail: information matrices are positive semidefinite, and the graph is solved by `LM` with a
decomposition that succeeds on positive definite matrices. -/
def Benign : Call → Prop
  | .factor c => c.InfoPsd
  | .solve env m _ _ _ => m = .LM ∧ env.Complete
  | _ => True

/-- What a factor call contributes to the cost when the nodes have the states `v`: half the squared Mahalanobis norm of the
measurement error, with the nodes in the roles in which the call names them. -/
noncomputable def expectedChi2 (v : ℕ → Option NodeVal) : PyFactor → ℝ
  | .prior2d obs n W => match v n with
    | some ⟨.pose2d, x⟩ => halfSq W (absErr2 principal obs x)
    | _ => 0
  | .rel2d obs o t W _ => match v o, v t with
    | some ⟨.pose2d, x⟩, some ⟨.pose2d, y⟩ => halfSq W (relErr2 principal obs x y)
    | _, _ => 0
  | .odom obs o t W => match v o, v t with
    | some ⟨.pose2d, x⟩, some ⟨.pose2d, y⟩ => halfSq W (odomErr2 principal obs x y)
    | _, _ => 0
  | .prior3d obs n W => match v n with
    | some ⟨.pose3d, X⟩ => halfSq W fun i => (SE3.lnVee ⟨X.T * obs.inv.T⟩) (at6 i)
    | _ => 0
  | .rel3d obs o t W _ => match v o, v t with
    | some ⟨.pose3d, X⟩, some ⟨.pose3d, Y⟩ => halfSq W fun i => (SE3.lnVee ⟨X.T * obs.T * Y.inv.T⟩) (at6 i)
    | _, _ => 0
  | .land3d obs p l W _ => match v p, v l with
    | some ⟨.pose3d, X⟩, some ⟨.landmark3d, y⟩ => halfSq W (pointErr obs X.R X.t y)
    | _, _ => 0
  | .land2d obs p l W _ => match v p, v l with
    | some ⟨.pose2d, x⟩, some ⟨.landmark2d, y⟩ => halfSq W (rangeBearingErr principal obs x y)
    | _, _ => 0
  | .plane4d obs p l W => match v p, v l with
    | some ⟨.pose3d, X⟩, some ⟨.plane4d, y⟩ => halfSq W fun i => planeErr obs X.T y (at4 i)
    | _, _ => 0
  | .p2plane px py ny n W => match v n with
    | some ⟨.pose3d, X⟩ => halfSq W fun _ => pointPlaneErr px py ny X.R X.t
    | _ => 0

/-- Restrictions of `C74_chi2_partial` on a factor: relative measurements from the older to the newer node, planes observed
with a unit normal, landmarks not closer than a millimetre to the pose. -/
def Plain (v : ℕ → Option NodeVal) : PyFactor → Prop
  | .rel2d _ o t _ _ => o < t
  | .odom _ o t _ => o < t
  | .rel3d _ o t _ _ => o < t
  | .land2d _ p l _ _ => ∀ x y, v p = some ⟨.pose2d, x⟩ → v l = some ⟨.landmark2d, y⟩ →
    1e-6 ≤ (y 0 - x 0) ^ 2 + (y 1 - x 1) ^ 2
  | .plane4d obs _ _ _ => sqNorm (fun i => obs (Sum.inl i)) = 1
  | _ => True

/-- The node a factor call is told to initialise, and the state predicted from the measurement and the other node. -/
noncomputable def predicted (v : ℕ → Option NodeVal) : PyFactor → Option (ℕ × NodeVal)
  | .rel2d obs o t _ true => match v o with
    | some ⟨.pose2d, x⟩ => some (t, ⟨.pose2d, ![x 0 + (Real.cos (x 2) * obs 0 - Real.sin (x 2) * obs 1),
        x 1 + (Real.sin (x 2) * obs 0 + Real.cos (x 2) * obs 1), principal (x 2 + obs 2)]⟩)
    | _ => none
  | .odom obs o t _ => match v o with
    | some ⟨.pose2d, x⟩ => some (t, ⟨.pose2d, ![x 0 + obs 1 * Real.cos (x 2 + obs 0), x 1 + obs 1 * Real.sin (x 2 + obs 0),
        principal (x 2 + obs 0 + obs 2)]⟩)
    | _ => none
  | .rel3d obs o t _ true => match v o with
    | some ⟨.pose3d, X⟩ => some (t, ⟨.pose3d, ⟨X.T * obs.T⟩⟩)
    | _ => none
  | .land2d obs p l _ true => match v p with
    | some ⟨.pose2d, x⟩ => some (l, ⟨.landmark2d, ![x 0 + obs 0 * Real.cos (x 2 + obs 1), x 1 + obs 0 * Real.sin (x 2 + obs 1)]⟩)
    | _ => none
  | _ => none

/-- Restrictions of `C75_add_factor_partial`: planar measurements between poses from the older to the newer node, and relative
planar measurements that initialise only from a pose with heading zero. -/
def Unrotated (v : ℕ → Option NodeVal) : PyFactor → Prop
  | .rel2d _ o t _ upd => upd = true → o < t ∧ ∀ x, v o = some ⟨.pose2d, x⟩ → x 2 = 0
  | .odom _ o t _ => o < t
  | _ => True

end Mrob
