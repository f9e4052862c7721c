import Verif.Model.Plane
import Verif.Model.Graph

/-!
# Model of the eigen factor

`src/EigenFactors/plane_factor.cpp` and `mrob/plane_factor.hpp`: the class `PlaneFactor`.  The directory is commented out in
`CMakeLists.txt` (60-61).  `evaluate_residuals`, `evaluate_jacobians`, `evaluate_chi2`, `estimate_plane_incrementally` and
`get_error_incremental` are declared in the header and have no definition.  The unordered maps are lists of pairs without
double keys, in the order of insertion; the sums over them do not depend on the order.
-/

open Matrix

namespace Mrob

/-- The data members of `PlaneFactor`, plane_factor.hpp 149-173, without those of the base class and without `J_`, `H_`,
which are never used.  `none` is a matrix without a value. -/
structure EigenPlane where
  /-- `planeNodes_` -/
  nodes : List NRef
  /-- `S_` -/
  S : List (ℕ × Mat4)
  /-- `Q_` -/
  Q : List (ℕ × Mat4)
  /-- `accumulatedQ_` -/
  accQ : Option Mat4
  /-- `planeEstimation_` -/
  plane : Vec4
  /-- `planeError_` -/
  error : ℝ

namespace EigenPlane

/-- `PlaneFactor::PlaneFactor`, plane_factor.cpp 33-40. -/
def new (nh : NRef → NodeCell) (S : Mat4) (n : NRef) : EigenPlane := ⟨[n], [((nh n).id, S)], [], none, 0, 0⟩

/-- `PlaneFactor::add_observation`, plane_factor.cpp 43-48: `emplace` does nothing for a key that is present. -/
def addObservation (nh : NRef → NodeCell) (S : Mat4) (n : NRef) (f : EigenPlane) : EigenPlane :=
  { f with
    nodes := f.nodes ++ [n]
    S := if (f.S.map (·.1)).contains (nh n).id then f.S else f.S ++ [((nh n).id, S)] }

/-- `PlaneFactor::calculate_all_matrices_Q`, plane_factor.cpp 71-84; `T` is a default constructed `SE3` (line 78). -/
def calcQ (f : EigenPlane) : EigenPlane :=
  { f with Q := f.S.map fun q => (q.1, SE3.default.T * q.2 * SE3.default.Tᵀ) }

/-- `PlaneFactor::estimate_plane`, plane_factor.cpp 50-69. -/
def estimate (e : EigSolver) (f : EigenPlane) : ℝ × EigenPlane :=
  let f := f.calcQ
  let acc := (f.Q.map (·.2)).foldl (· + ·) 0
  let d := e.eig4 acc
  (d.val 0, { f with accQ := some acc, plane := fun i => d.vec i 0, error := d.val 0 })

/-- `PlaneFactor::calculate_jacobian`, plane_factor.cpp 87-151: the local matrix `Q` of line 93 has no value, every
coefficient is computed from it. -/
def jacobian (id : ℕ) (f : EigenPlane) : Out Vec6 := if (f.S.map (·.1)).contains id then .nan else .ok 0

/-- The constructor followed by calls of `add_observation`. -/
def observe (nh : NRef → NodeCell) (S : Mat4) (n : NRef) (l : List (Mat4 × NRef)) : EigenPlane :=
  l.foldl (fun f q => f.addObservation nh q.1 q.2) (new nh S n)

end EigenPlane

end Mrob
