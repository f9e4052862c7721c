import Verif.Model.EigenFactor
import Verif.Props.Plane
import Verif.Lemmas.PlaneReg

/-!
# C95: the plane factor fits a plane to what its poses have seen
-/

open Matrix

namespace Mrob

open Spec

/-- A node looks at a plane: the node and the points it sees, in its own frame. -/
abbrev View := NRef × List Vec3

namespace EigenPlane

/-- The factor built from a non-empty list of views, with the matrices `S` the header asks for. -/
def ofViews (nh : NRef → NodeCell) (v : View) (vs : List View) : EigenPlane :=
  observe nh (sumOuter v.2) v.1 (vs.map fun v => (sumOuter v.2, v.1))

theorem observe_S (nh : NRef → NodeCell) (vs : List View) (f : EigenPlane)
    (h : (f.S.map (·.1) ++ vs.map fun v => (nh v.1).id).Nodup) :
    ((vs.map fun v => (sumOuter v.2, v.1)).foldl (fun f q => f.addObservation nh q.1 q.2) f).S =
      f.S ++ vs.map fun v => ((nh v.1).id, sumOuter v.2) := by
  induction vs generalizing f with
  | nil => simp
  | cons v vs ih =>
    have hv : (f.S.map (·.1)).contains (nh v.1).id = false := by
      rw [List.nodup_append] at h
      simp only [List.contains_eq_mem, decide_eq_false_iff_not]
      intro hm
      exact h.2.2 _ hm _ (by simp) rfl
    have hS : (f.addObservation nh (sumOuter v.2) v.1).S = f.S ++ [((nh v.1).id, sumOuter v.2)] := by
      simp only [addObservation, hv]
      rfl
    simp only [List.map_cons, List.foldl_cons]
    rw [ih _ (by rw [hS]; simpa using h), hS]
    simp

theorem ofViews_S (nh : NRef → NodeCell) (v : View) (vs : List View)
    (h : ((v :: vs).map fun v => (nh v.1).id).Nodup) :
    (ofViews nh v vs).S = (v :: vs).map fun v => ((nh v.1).id, sumOuter v.2) := by
  rw [ofViews, observe, observe_S nh vs (new nh (sumOuter v.2) v.1) (by simpa [new] using h)]
  rfl

theorem estimate_acc (f : EigenPlane) : (f.calcQ.Q.map (·.2)).foldl (· + ·) 0 = (f.S.map (·.2)).sum := by
  rw [foldl_add_eq_sum, zero_add]
  simp [calcQ, SE3.default, Function.comp_def]

theorem one_lastRow : LastRow (1 : Mat4) := (show IsRigid (1 : Mat4) from rigid_one).lastRow

theorem quad_sum (x : Vec4) (clouds : List (List Vec3)) :
    x ⬝ᵥ ((clouds.map sumOuter).sum *ᵥ x) = planeCost x (clouds.map fun _ => 1) clouds := by
  induction clouds with
  | nil => simp [planeCost]
  | cons c cs ih =>
    have h1 := quad_cloud (T := 1) one_lastRow x c
    simp only [Matrix.one_mul, transpose_one, Matrix.mul_one] at h1
    simp only [List.map_cons, List.sum_cons, add_mulVec, dotProduct_add, ih, h1, planeCost, List.zipWith_cons_cons]

theorem sum_transpose (clouds : List (List Vec3)) : ((clouds.map sumOuter).sum)ᵀ = (clouds.map sumOuter).sum := by
  induction clouds with
  | nil => simp
  | cons c cs ih => simp [ih, sumOuter_transpose]

theorem estimate_unmoved {e : EigSolver} (he : e.Sound) (nh : NRef → NodeCell) (v : View) (vs : List View)
    (hid : ((v :: vs).map fun v => (nh v.1).id).Nodup) :
    OptimalFor ((v :: vs).map fun _ => SE3.default) ((v :: vs).map (·.2)) ((ofViews nh v vs).estimate e).2.plane
      ((ofViews nh v vs).estimate e).1 := by
  have hacc : (((ofViews nh v vs).calcQ.Q.map (·.2)).foldl (· + ·) 0) = (((v :: vs).map (·.2)).map sumOuter).sum := by
    rw [estimate_acc, ofViews_S nh v vs hid, List.map_map, List.map_map]
    rfl
  have hp : ((v :: vs).map fun _ => SE3.default).map SE3.T = ((v :: vs).map (·.2)).map fun _ => (1 : Mat4) := by
    simp only [List.map_map]
    rfl
  have hd := he.1 _ (sum_transpose ((v :: vs).map (·.2)))
  have hq := fun x => quad_sum x ((v :: vs).map (·.2))
  simp only [estimate, hacc]
  rw [OptimalFor, hp]
  refine ⟨hd.unit 0, ?_, fun x hx => ?_⟩
  · rw [← hq]
    exact hd.attains 0
  · rw [← hq]
    have := hd.le_quad (by simp) x
    rwa [show x ⬝ᵥ x = 1 from hx, mul_one] at this

end EigenPlane

/-- The pose a node holds. -/
def NodeCell.pose (c : NodeCell) : SE3 :=
  match c.val with
  | ⟨.pose3d, X⟩ => X
  | _ => SE3.default

/-- The views are those of 3D pose nodes with different ids. -/
structure GoodViews (nh : NRef → NodeCell) (views : List View) : Prop where
  ids : (views.map fun v => (nh v.1).id).Nodup
  poses : ∀ v ∈ views, ∃ X : SE3, (nh v.1).val = ⟨.pose3d, X⟩ ∧ IsRigid X.T

/-- Nodes with different ids have seen a plane, all from the identity pose: the estimated plane is a unit vector with the
smallest sum of squared values at the points seen, and the error returned and reported is that sum.

Missing: other poses (`C95_fails`: the poses of the nodes are not read), several observations under one id
(`C95_same_id_fails`), and the Jacobian (`C95_jacobian_fails`). -/
theorem C95_identity_partial (e : EigSolver) (he : e.Sound) (nh : NRef → NodeCell) (v : View) (vs : List View)
    (hv : GoodViews nh (v :: vs)) (hone : ∀ u ∈ v :: vs, (nh u.1).pose = SE3.default) :
    OptimalFor ((v :: vs).map fun u => (nh u.1).pose) ((v :: vs).map (·.2)) ((EigenPlane.ofViews nh v vs).estimate e).2.plane
        ((EigenPlane.ofViews nh v vs).estimate e).1 ∧
      ((EigenPlane.ofViews nh v vs).estimate e).2.error = ((EigenPlane.ofViews nh v vs).estimate e).1 := by
  refine ⟨?_, rfl⟩
  rw [List.map_congr_left (g := fun _ => SE3.default) hone]
  exact EigenPlane.estimate_unmoved he nh v vs hv.ids

namespace Demo

/-- Two pose nodes with the given ids and poses. -/
noncomputable def viewers (i j : ℕ) (X Y : SE3) (n : NRef) : NodeCell :=
  if n = 0 then { NodeCell.new .pose3d X .standard with id := i } else { NodeCell.new .pose3d Y .standard with id := j }

/-- One metre above the origin. -/
def metreUp : SE3 := ⟨homog 1 ![0, 0, 1] 1⟩

theorem metreUp_rigid : IsRigid metreUp.T := isRigid_homog isRotation_one _

/-- Three points of the floor, seen from the origin. -/
def floor3 : List Vec3 := [![0, 0, 0], ![1, 0, 0], ![0, 1, 0]]

/-- The origin, seen from `metreUp`. -/
def floor1 : List Vec3 := [![0, 0, -1]]

theorem viewers_good {i j : ℕ} (hij : i ≠ j) {X Y : SE3} (hX : IsRigid X.T) (hY : IsRigid Y.T) :
    GoodViews (viewers i j X Y) [(0, floor3), (1, floor1)] := by
  refine ⟨by simp [viewers, hij], fun v hv => ?_⟩
  simp only [List.mem_cons, List.not_mem_nil, or_false] at hv
  rcases hv with rfl | rfl
  · exact ⟨X, rfl, hX⟩
  · exact ⟨Y, rfl, hY⟩

/-- No plane through the points, all taken in one frame. -/
theorem floor_cost (pl : Vec4) (h : Unit4 pl) : 0 < planeCost pl [1, 1] [floor3, floor1] := by
  have h1 : planeCost pl [1, 1] [floor3, floor1] =
      pl (Sum.inr ()) ^ 2 + (pl (Sum.inl 0) + pl (Sum.inr ())) ^ 2 + (pl (Sum.inl 1) + pl (Sum.inr ())) ^ 2 +
        (-pl (Sum.inl 2) + pl (Sum.inr ())) ^ 2 := by
    simp [planeCost, cloudCost, floor3, floor1, planeEval, movePoint, Fin.sum_univ_three, Matrix.one_apply]
    ring
  have h2 : pl (Sum.inl 0) ^ 2 + pl (Sum.inl 1) ^ 2 + pl (Sum.inl 2) ^ 2 + pl (Sum.inr ()) ^ 2 = 1 := by
    have : pl ⬝ᵥ pl = 1 := h
    simp only [dotProduct, Fintype.sum_sum_type, Fin.sum_univ_three, Finset.univ_unique, Finset.sum_singleton] at this
    linear_combination this
  rw [h1]
  by_contra hn
  have hn := not_lt.mp hn
  have e0 : pl (Sum.inr ()) = 0 := by nlinarith [sq_nonneg (pl (Sum.inr ())), sq_nonneg (pl (Sum.inl 0) + pl (Sum.inr ())), sq_nonneg (pl (Sum.inl 1) + pl (Sum.inr ())), sq_nonneg (-pl (Sum.inl 2) + pl (Sum.inr ()))]
  rw [e0] at hn h2
  nlinarith [sq_nonneg (pl (Sum.inl 0)), sq_nonneg (pl (Sum.inl 1)), sq_nonneg (pl (Sum.inl 2))]

end Demo

/-- Four points of a floor seen from two poses at the origin. -/
example : GoodViews (Demo.viewers 0 1 SE3.default SE3.default) [(0, Demo.floor3), (1, Demo.floor1)] ∧
    ∀ u ∈ [((0 : NRef), Demo.floor3), (1, Demo.floor1)], (Demo.viewers 0 1 SE3.default SE3.default u.1).pose = SE3.default := by
  refine ⟨Demo.viewers_good (by decide) rigid_one rigid_one, fun u hu => ?_⟩
  simp only [List.mem_cons, List.not_mem_nil, or_false] at hu
  rcases hu with rfl | rfl <;> rfl

/-- The poses of the nodes are not used: the same views from any other poses give the same plane and error. -/
theorem C95_blind (e : EigSolver) (nh nh' : NRef → NodeCell) (v : View) (vs : List View)
    (hid : ∀ u ∈ v :: vs, (nh u.1).id = (nh' u.1).id) :
    ((EigenPlane.ofViews nh v vs).estimate e).1 = ((EigenPlane.ofViews nh' v vs).estimate e).1 ∧
      ((EigenPlane.ofViews nh v vs).estimate e).2.plane = ((EigenPlane.ofViews nh' v vs).estimate e).2.plane := by
  have key : EigenPlane.ofViews nh v vs = EigenPlane.ofViews nh' v vs := by
    have h0 : EigenPlane.new nh (sumOuter v.2) v.1 = EigenPlane.new nh' (sumOuter v.2) v.1 := by
      rw [EigenPlane.new, EigenPlane.new, hid v (by simp)]
    rw [EigenPlane.ofViews, EigenPlane.ofViews, EigenPlane.observe, EigenPlane.observe, h0, List.foldl_map, List.foldl_map]
    refine List.foldl_ext _ _ _ fun f u hu => ?_
    rw [EigenPlane.addObservation, EigenPlane.addObservation, hid u (List.mem_cons_of_mem _ hu)]
  rw [key]
  exact ⟨rfl, rfl⟩

/-- The same ids with other poses. -/
example : ∀ u ∈ [((0 : NRef), Demo.floor3), (1, Demo.floor1)],
    (Demo.viewers 0 1 SE3.default SE3.default u.1).id = (Demo.viewers 0 1 SE3.default Demo.metreUp u.1).id := by
  simp [Demo.viewers]

/-- The floor seen from the origin and from a pose one metre above it: all points lie on one plane, the error is positive. -/
theorem C95_fails : ∃ (nh : NRef → NodeCell) (v : View) (vs : List View), GoodViews nh (v :: vs) ∧
    (∃ pl, Unit4 pl ∧ planeCost pl (((v :: vs).map fun u => (nh u.1).pose).map SE3.T) ((v :: vs).map (·.2)) = 0) ∧
    ∀ e : EigSolver, e.Sound → 0 < ((EigenPlane.ofViews nh v vs).estimate e).1 := by
  refine ⟨Demo.viewers 0 1 SE3.default Demo.metreUp, (0, Demo.floor3), [(1, Demo.floor1)],
    Demo.viewers_good (by decide) rigid_one Demo.metreUp_rigid, ⟨Sum.elim ![0, 0, 1] fun _ => 0, ?_, ?_⟩, fun e he => ?_⟩
  · simp [Unit4, dotProduct, Fin.sum_univ_three]
  · change planeCost _ [(1 : Mat4), homog 1 ![0, 0, 1] 1] [Demo.floor3, Demo.floor1] = 0
    simp [planeCost, cloudCost, Demo.floor3, Demo.floor1, planeEval, movePoint, Fin.sum_univ_three, Matrix.one_apply, homog]
  · have h := EigenPlane.estimate_unmoved he (Demo.viewers 0 1 SE3.default Demo.metreUp) (0, Demo.floor3) [(1, Demo.floor1)]
      (Demo.viewers_good (by decide) rigid_one Demo.metreUp_rigid).ids
    rw [← h.2.1]
    exact Demo.floor_cost _ h.1

/-- Nodes get their id from the graph: two nodes that have not been added both have id 0, and the second view is lost.  Here
the points lie on no plane and the error is 0. -/
theorem C95_same_id_fails : ∃ (nh : NRef → NodeCell) (v : View) (vs : List View),
    (∀ u ∈ v :: vs, (nh u.1).val = ⟨.pose3d, SE3.default⟩) ∧
    (∀ pl, Unit4 pl → 0 < planeCost pl (((v :: vs).map fun u => (nh u.1).pose).map SE3.T) ((v :: vs).map (·.2))) ∧
    ∀ e : EigSolver, e.Sound → ((EigenPlane.ofViews nh v vs).estimate e).1 = 0 := by
  refine ⟨fun _ => NodeCell.new .pose3d SE3.default .standard, (0, Demo.floor3), [(1, Demo.floor1)], fun u _ => rfl,
    fun pl h => Demo.floor_cost pl h, fun e he => ?_⟩
  have hS : (EigenPlane.ofViews (fun _ => NodeCell.new .pose3d SE3.default .standard) (0, Demo.floor3) [(1, Demo.floor1)]).S =
      (EigenPlane.ofViews (fun _ => NodeCell.new .pose3d SE3.default .standard) (0, Demo.floor3) []).S := by
    simp [EigenPlane.ofViews, EigenPlane.observe, EigenPlane.addObservation, EigenPlane.new]
  have h1 : ((EigenPlane.ofViews (fun _ => NodeCell.new .pose3d SE3.default .standard) (0, Demo.floor3) [(1, Demo.floor1)]).estimate e).1 =
      ((EigenPlane.ofViews (fun _ => NodeCell.new .pose3d SE3.default .standard) (0, Demo.floor3) []).estimate e).1 := by
    simp only [EigenPlane.estimate, EigenPlane.estimate_acc, hS]
  rw [h1]
  have h := EigenPlane.estimate_unmoved he (fun _ => NodeCell.new .pose3d SE3.default .standard) (0, Demo.floor3) [] (by simp)
  refine le_antisymm ?_ ?_
  · refine (h.2.2 (Sum.elim ![0, 0, 1] fun _ => 0) ?_).trans (le_of_eq ?_)
    · simp [Unit4, dotProduct, Fin.sum_univ_three]
    · simp [planeCost, cloudCost, Demo.floor3, planeEval, movePoint, Fin.sum_univ_three, SE3.default, Matrix.one_apply]
  · rw [← h.2.1]
    exact planeCost_nonneg _ _ _

/-- The Jacobian of a node that has observed the plane is computed from a matrix that was never written; the other nodes get
zero. -/
theorem C95_jacobian_fails (nh : NRef → NodeCell) (v : View) (vs : List View) (id : ℕ) :
    ((∃ u ∈ v :: vs, (nh u.1).id = id) → (EigenPlane.ofViews nh v vs).jacobian id = .nan) ∧
      ((∀ u ∈ v :: vs, (nh u.1).id ≠ id) → (EigenPlane.ofViews nh v vs).jacobian id = .ok 0) := by
  have key : ∀ (vs : List View) (f : EigenPlane),
      id ∈ (((vs.map fun v => (sumOuter v.2, v.1)).foldl (fun f q => f.addObservation nh q.1 q.2) f).S.map (·.1)) ↔
        id ∈ f.S.map (·.1) ∨ ∃ u ∈ vs, (nh u.1).id = id := by
    intro vs
    induction vs with
    | nil => simp
    | cons u vs ih =>
      intro f
      simp only [List.map_cons, List.foldl_cons]
      rw [ih]
      have : id ∈ (f.addObservation nh (sumOuter u.2) u.1).S.map (·.1) ↔ id ∈ f.S.map (·.1) ∨ (nh u.1).id = id := by
        simp only [EigenPlane.addObservation]
        split
        · rename_i hc
          refine ⟨Or.inl, fun h => h.elim (fun h => h) fun h => ?_⟩
          rw [← h]
          simpa using hc
        · simp [eq_comm]
      rw [this]
      simp [or_assoc]
  have hm : id ∈ ((EigenPlane.ofViews nh v vs).S.map (·.1)) ↔ ∃ u ∈ v :: vs, (nh u.1).id = id := by
    rw [EigenPlane.ofViews, EigenPlane.observe, key]
    simp [EigenPlane.new, eq_comm]
  refine ⟨fun h => ?_, fun h => ?_⟩
  · rw [EigenPlane.jacobian, if_pos (by simpa using hm.mpr h)]
  · rw [EigenPlane.jacobian, if_neg]
    intro hc
    obtain ⟨u, hu, e⟩ := hm.mp (by simpa using hc)
    exact h u hu e

/-- A node that has seen the floor, and an id that is not in use. -/
example : (∃ u ∈ [((0 : NRef), Demo.floor3), (1, Demo.floor1)], (Demo.viewers 0 1 SE3.default Demo.metreUp u.1).id = 1) ∧
    ∀ u ∈ [((0 : NRef), Demo.floor3), (1, Demo.floor1)], (Demo.viewers 0 1 SE3.default Demo.metreUp u.1).id ≠ 2 := by
  simp [Demo.viewers]

end Mrob
