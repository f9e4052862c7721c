import Verif.Model.SE3
import Verif.Model.Graph

/-!
# Model of `src/PCRegistration/plane.cpp`

The points, the cached matrices `S`, the matrices `Q`, the estimation and the stored gradients are the data members of a
`Plane` object.  The trajectory is shared with the `PlaneRegistration` object, so it is an argument of the functions which
read it; the pointer `trajectory_` is assumed to have been set (a null pointer is not modelled).
-/

open Matrix

namespace Mrob

/-- Result of `Eigen::SelfAdjointEigenSolver`: `eigenvalues()` and `eigenvectors()` (columns). -/
structure EigDec (ι : Type) (n : ℕ) where
  /-- `eigenvalues()` -/
  val : Fin n → ℝ
  /-- `eigenvectors()` -/
  vec : Matrix ι (Fin n) ℝ

/-- `Eigen::SelfAdjointEigenSolver<Mat4>` (plane.cpp 135, 153, 166) and `computeDirect` on `Mat3` (estimate_plane.cpp 54-55). -/
structure EigSolver where
  /-- the 4x4 solver -/
  eig4 : Mat4 → EigDec I4 4
  /-- the 3x3 solver -/
  eig3 : Mat3 → EigDec (Fin 3) 3

/-- What the documentation of `SelfAdjointEigenSolver` promises for a symmetric matrix: eigenvalues in increasing order,
orthonormal eigenvectors. -/
def EigDec.Decomposes {ι : Type} [Fintype ι] {n : ℕ} (d : EigDec ι n) (A : Matrix ι ι ℝ) : Prop :=
  Monotone d.val ∧ d.vecᵀ * d.vec = 1 ∧ A * d.vec = d.vec * Matrix.diagonal d.val

/-- The solver keeps its promise on symmetric matrices (nothing is assumed about other matrices). -/
def EigSolver.Sound (e : EigSolver) : Prop :=
  (∀ A : Mat4, Aᵀ = A → (e.eig4 A).Decomposes A) ∧ ∀ A : Mat3, Aᵀ = A → (e.eig3 A).Decomposes A

/-- Applies a partial operation to the elements of a list in order. -/
def Out.traverse {α β : Type} (f : α → Out β) : List α → Out (List β)
  | [] => .ok []
  | a :: l => f a >>= fun b => Out.traverse f l >>= fun bs => .ok (b :: bs)

/-- Unchecked indexing `v[t]` of a `std::vector`. -/
def Out.index {α : Type} (l : List α) (t : ℕ) : Out α :=
  match l[t]? with
  | some a => .ok a
  | none => .ub

/-- `v.at(t)` of a `std::vector`. -/
def Out.atT {α : Type} (l : List α) (t : ℕ) : Out α :=
  match l[t]? with
  | some a => .ok a
  | none => .throw

/-- `pHomog << p, 1.0`, plane.cpp 181-182. -/
def homPt (p : Vec3) : Vec4 := Sum.elim p fun _ => 1

/-- Lines 178-184 of plane.cpp: the accumulation of one matrix `S`. -/
def sumOuter (l : List Vec3) : Mat4 := l.foldl (fun S p => S + Matrix.vecMulVec (homPt p) (homPt p)) 0

/-- A `Plane` object, plane.hpp 129-153.  `isPlaneEstimated_` is written only.  `none` marks values the constructor leaves
indeterminate. -/
structure Plane where
  /-- `timeLength_` -/
  timeLength : ℕ
  /-- `allPlanePoints_` -/
  points : List (List Vec3)
  /-- `numberPoints_` (wrap-around at `2^32` not modelled) -/
  numberPoints : ℕ
  /-- `planeEstimation_` -/
  plane : Option Vec4
  /-- `lambda_` -/
  lambda : ℝ
  /-- `matrixS_` -/
  S : List Mat4
  /-- `matrixQ_` -/
  Q : List Mat4
  /-- `accumulatedQ_` -/
  accQ : Option Mat4
  /-- `gradQ_`, in the order of the six coordinates; `none` before the first gradient -/
  gradQ : Option (I6 → Mat4)

/-- The generators pushed into `lieGenerativeMatrices_` by the constructor, plane.cpp 55-85. -/
def lieG : I6 → Mat4
  | .inl 0 => homog !![0, 0, 0; 0, 0, -1; 0, 1, 0] ![0, 0, 0] 0
  | .inl 1 => homog !![0, 0, 1; 0, 0, 0; -1, 0, 0] ![0, 0, 0] 0
  | .inl 2 => homog !![0, -1, 0; 1, 0, 0; 0, 0, 0] ![0, 0, 0] 0
  | .inr 0 => homog !![0, 0, 0; 0, 0, 0; 0, 0, 0] ![1, 0, 0] 0
  | .inr 1 => homog !![0, 0, 0; 0, 0, 0; 0, 0, 0] ![0, 1, 0] 0
  | .inr 2 => homog !![0, 0, 0; 0, 0, 0; 0, 0, 0] ![0, 0, 1] 0

/-- Position of a coordinate of a `Mat61`: `0..5`. -/
def pos6 : I6 → ℕ
  | .inl i => i
  | .inr i => 3 + i

/-- A matrix with the given rows. -/
def rows4 (r0 r1 r2 : I4 → ℝ) : Mat4 := Matrix.of (Sum.elim ![r0, r1, r2] fun _ => 0)

/-- The rows assigned to `dQ` before its transpose is added, plane.cpp 219-221, 230-232, 241-243, 252-253, 262-263, 272-273. -/
def gradRows (Q : Mat4) : I6 → Mat4
  | .inl 0 => rows4 0 (-Q (.inl 2)) (Q (.inl 1))
  | .inl 1 => rows4 (Q (.inl 2)) 0 (-Q (.inl 0))
  | .inl 2 => rows4 (-Q (.inl 1)) (Q (.inl 0)) 0
  | .inr 0 => rows4 (Q (.inr ())) 0 0
  | .inr 1 => rows4 0 (Q (.inr ())) 0
  | .inr 2 => rows4 0 0 (Q (.inr ()))

/-- `dQ += dQ.transpose().eval()`. -/
def gradOf (Q : Mat4) (i : I6) : Mat4 := gradRows Q i + (gradRows Q i)ᵀ

/-- Lines 294-299 of plane.cpp. -/
noncomputable def ddQ (Q : Mat4) (gradQ : I6 → Mat4) (i j : I6) : Mat4 :=
  let a := lieG i * lieG j + lieG j * lieG i
  let a := a * ((0.5 : ℝ) • Q)
  let a := a + lieG i * gradQ j
  a + aᵀ

namespace Plane

/-- `Plane::Plane`, plane.cpp 36-86. -/
def new (timeLength : ℕ) : Plane :=
  ⟨timeLength, List.replicate timeLength [], 0, none, 0, [], [], none, none⟩

/-- `Plane::push_back_point`, plane.cpp 98-108. -/
def push (p : Vec3) (t : ℕ) (s : Plane) : Out Plane :=
  if t < s.timeLength then
    Out.index s.points t >>= fun l =>
      .ok { s with points := s.points.set t (l ++ [p]), numberPoints := s.numberPoints + 1 }
  else .ok s

/-- `Plane::get_points`, plane.cpp 110-115 (`back()` of an empty vector is undefined). -/
def getPoints (t : ℕ) (s : Plane) : Out (List Vec3) :=
  if t ≥ s.timeLength then
    match s.points.getLast? with
    | some l => .ok l
    | none => .ub
  else Out.index s.points t

/-- `Plane::get_number_points`, plane.hpp 58. -/
def getNumberPoints (t : ℕ) (s : Plane) : Out ℕ := Out.index s.points t >>= fun l => .ok l.length

/-- `Plane::clear_points`, plane.cpp 117-120. -/
def clearPoints (s : Plane) : Plane := { s with points := [] }

/-- `Plane::calculate_all_matrices_S`, plane.cpp 170-188. -/
noncomputable def calcS (reset : Bool) (s : Plane) : Out Plane :=
  let s := if reset then { s with S := [] } else s
  if s.S.isEmpty then
    Out.traverse (fun t => Out.index s.points t >>= fun l => .ok (sumOuter l)) (List.range s.timeLength) >>= fun S =>
      .ok { s with S := S }
  else .ok s

/-- The product `trajectory_->at(t).T() * matrixS_[t] * trajectory_->at(t).T().transpose()`, plane.cpp 151, 164, 202. -/
def rotS (traj : List SE3) (s : Plane) (t : ℕ) : Out Mat4 :=
  Out.atT traj t >>= fun T => Out.index s.S t >>= fun S => .ok (T.T * S * T.Tᵀ)

/-- `Plane::calculate_all_matrices_Q`, plane.cpp 196-205. -/
def calcQ (traj : List SE3) (s : Plane) : Out Plane :=
  Out.traverse (rotS traj s) (List.range s.timeLength) >>= fun Q => .ok { s with Q := Q }

/-- The column of the eigenvectors belonging to the first eigenvalue. -/
def firstVec (d : EigDec I4 4) : Vec4 := fun i => d.vec i 0

/-- `Plane::estimate_plane`, plane.cpp 123-145. -/
noncomputable def estimate (e : EigSolver) (traj : List SE3) (s : Plane) : Out (ℝ × Plane) :=
  s.calcS false >>= fun s => s.calcQ traj >>= fun s =>
    let acc := s.Q.foldl (· + ·) 0
    let d := e.eig4 acc
    .ok (d.val 0, { s with accQ := some acc, plane := some (firstVec d), lambda := d.val 0 })

/-- The updated accumulated matrix of lines 150-151 and 160-164 of plane.cpp. -/
def incQ (traj : List SE3) (t : ℕ) (s : Plane) : Out Mat4 :=
  match s.accQ with
  | none => .nan
  | some acc => Out.index s.Q t >>= fun Qt => rotS traj s t >>= fun Qn => .ok (acc - Qt + Qn)

/-- `Plane::estimate_plane_incrementally`, plane.cpp 148-156. -/
def estimateInc (e : EigSolver) (traj : List SE3) (t : ℕ) (s : Plane) : Out (ℝ × Plane) :=
  s.incQ traj t >>= fun acc =>
    let d := e.eig4 acc
    .ok (d.val 0, { s with accQ := some acc, plane := some (firstVec d) })

/-- `Plane::get_error_incremental`, plane.cpp 158-168. -/
def errorInc (e : EigSolver) (traj : List SE3) (t : ℕ) (s : Plane) : Out ℝ :=
  s.incQ traj t >>= fun acc => .ok ((e.eig4 acc).val 0)

/-- `Plane::get_mean_point`, plane.cpp 190-194; division by zero gives NaN or infinite entries. -/
noncomputable def meanPoint (t : ℕ) (s : Plane) : Out Vec3 :=
  Out.index s.S t >>= fun S =>
    if S (.inr ()) (.inr ()) = 0 then .nan else .ok fun i => S (.inl i) (.inr ()) / S (.inr ()) (.inr ())

/-- `Plane::calculate_gradient`, plane.cpp 207-280. -/
def gradient (t : ℕ) (s : Plane) : Out (Vec6 × Plane) :=
  Out.index s.Q t >>= fun Q =>
    match s.plane with
    | none => .nan
    | some pl => .ok (fun i => pl ⬝ᵥ (gradOf Q i *ᵥ pl), { s with gradQ := some (gradOf Q) })

/-- `Plane::calculate_hessian`, plane.cpp 282-304 (only the upper triangle is filled). -/
noncomputable def hessian (t : ℕ) (s : Plane) : Out Mat6 :=
  Out.index s.Q t >>= fun Q =>
    match s.gradQ with
    | none => .ub
    | some g =>
      match s.plane with
      | none => .nan
      | some pl => .ok (Matrix.of fun i j => if pos6 i ≤ pos6 j then pl ⬝ᵥ (ddQ Q g i j *ᵥ pl) else 0)

/-- `Plane::reset`, plane.cpp 316-322. -/
def reset (s : Plane) : Plane := { s with S := [], Q := [], accQ := some 0, plane := some 0 }

/-- The member functions which change a `Plane`; the trajectory is the one pointed to at the time of the call. -/
inductive Op
  | push (p : Vec3) (t : ℕ)
  | estimate (traj : List SE3)
  | estimateInc (traj : List SE3) (t : ℕ)
  | gradient (t : ℕ)
  | calcS (reset : Bool)
  | reset

/-- Effect of a call. -/
noncomputable def Op.run (e : EigSolver) : Op → Plane → Out Plane
  | push p t, s => s.push p t
  | estimate traj, s => s.estimate e traj >>= fun r => .ok r.2
  | estimateInc traj t, s => s.estimateInc e traj t >>= fun r => .ok r.2
  | gradient t, s => s.gradient t >>= fun r => .ok r.2
  | calcS b, s => s.calcS b
  | reset, s => .ok s.reset

/-- A sequence of calls. -/
noncomputable def run (e : EigSolver) : List Op → Plane → Out Plane
  | [], s => .ok s
  | op :: ops, s => op.run e s >>= fun s => run e ops s

end Plane

end Mrob
