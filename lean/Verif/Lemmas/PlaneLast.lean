import Verif.Lemmas.PlaneRegTotal
import Verif.Lemmas.ExpCurve

/-! # The derivatives with respect to the last pose which `PlaneRegistration` computes -/

open Matrix

namespace Mrob

open Spec

/-! ## Values computed by the code -/

namespace Plane

/-- The gradient of an estimated plane at time `t`. -/
noncomputable def gAt (t : ℕ) (p : Plane) : Vec6 :=
  fun i => p.plane.getD 0 ⬝ᵥ (gradOf ((p.Q[t]?).getD 0) i *ᵥ p.plane.getD 0)

/-- The upper triangle computed for an estimated plane at time `t`. -/
noncomputable def hAt (t : ℕ) (p : Plane) : Mat6 :=
  Matrix.of fun i j => if pos6 i ≤ pos6 j then
    p.plane.getD 0 ⬝ᵥ (ddQ ((p.Q[t]?).getD 0) (gradOf ((p.Q[t]?).getD 0)) i j *ᵥ p.plane.getD 0) else 0

/-- The plane without the matrices cached for the Hessian. -/
def clearGrad (p : Plane) : Plane := { p with gradQ := none }

end Plane

namespace PlaneReg

/-- The planes without the matrices cached for the Hessian. -/
def core (s : PlaneReg) : List (ℕ × Plane) := s.planes.map fun q => (q.1, q.2.clearGrad)

theorem core_sum {β : Type} [AddCommMonoid β] {s s' : PlaneReg} (h : s'.core = s.core) (f : Plane → β)
    (hf : ∀ p : Plane, f p.clearGrad = f p) :
    (s'.planes.map fun q => f q.2).sum = (s.planes.map fun q => f q.2).sum := by
  have h1 : ∀ s : PlaneReg, (s.planes.map fun q => f q.2) = s.core.map fun q => f q.2 := by
    intro s
    rw [core, List.map_map]
    exact List.map_congr_left fun q _ => (hf q.2).symm
  rw [h1, h1, h]

theorem Est.core {n : ℕ} {s s' : PlaneReg} (h : s.Est n) (hc : s'.core = s.core) : s'.Est n := by
  intro q hq
  have h1 : (q.1, q.2.clearGrad) ∈ s.core := by
    rw [← hc]
    exact List.mem_map.mpr ⟨q, hq, rfl⟩
  obtain ⟨q', hq', e⟩ := List.mem_map.mp h1
  have e2 : q'.2.clearGrad = q.2.clearGrad := (Prod.mk.inj e).2
  obtain ⟨⟨pl, h2⟩, h3, h4⟩ := h q' hq'
  have a1 : q'.2.plane = q.2.plane := (congrArg Plane.plane e2 : q'.2.clearGrad.plane = q.2.clearGrad.plane)
  have a2 : q'.2.Q = q.2.Q := (congrArg Plane.Q e2 : q'.2.clearGrad.Q = q.2.clearGrad.Q)
  have a3 : q'.2.points = q.2.points := (congrArg Plane.points e2 : q'.2.clearGrad.points = q.2.clearGrad.points)
  exact ⟨⟨pl, a1 ▸ h2⟩, a2 ▸ h3, a3 ▸ h4⟩

theorem gradHessAt_est {n t : ℕ} {s : PlaneReg} (he : s.Est n) (ht : t < n) :
    ∃ s', s.gradHessAt t = .ok (((s.planes.map fun q => q.2.gAt t).sum, (s.planes.map fun q => q.2.hAt t).sum), s') ∧
      s'.core = s.core ∧ s'.numberPoses = s.numberPoses ∧ s'.traj = s.traj := by
  have key : ∀ q ∈ s.planes, (q.2.gradient t >>= fun (g, p) => p.hessian t >>= fun H => Out.ok ((g, H), p)) =
      .ok ((q.2.gAt t, q.2.hAt t), { q.2 with gradQ := some (gradOf ((q.2.Q[t]?).getD 0)) }) := by
    intro q hq
    obtain ⟨⟨pl, h1⟩, h2, h3⟩ := he q hq
    have hQ : t < q.2.Q.length := by omega
    have hg : q.2.gradient t = .ok (q.2.gAt t, { q.2 with gradQ := some (gradOf ((q.2.Q[t]?).getD 0)) }) := by
      have hv : q.2.gAt t = fun i => pl ⬝ᵥ (gradOf q.2.Q[t] i *ᵥ pl) := by
        funext i
        simp only [Plane.gAt, h1, Option.getD_some, List.getElem?_eq_getElem hQ]
      rw [Plane.gradient, Out.index_ok hQ, Out.ok_bind, hv]
      simp only [h1, Option.getD_some, List.getElem?_eq_getElem hQ]
    rw [hg, Out.ok_bind]
    dsimp only
    rw [Plane.hessian]
    dsimp only
    rw [Out.index_ok hQ, Out.ok_bind]
    simp only [Plane.hAt, h1, Option.getD_some, List.getElem?_eq_getElem hQ]
    rw [Out.ok_bind]
  refine ⟨{ s with planes := s.planes.map fun q => (q.1, { q.2 with gradQ := some (gradOf ((q.2.Q[t]?).getD 0)) }) }, ?_, ?_,
    rfl, rfl⟩
  · rw [gradHessAt, eachPlane_ok (g := fun p => (p.gAt t, p.hAt t))
      (k := fun p => { p with gradQ := some (gradOf ((p.Q[t]?).getD 0)) }) key, Out.ok_bind]
    dsimp only
    rw [List.map_map, List.map_map]
    rfl
  simp only [core, List.map_map]
  rfl

theorem gradHessLoop_est {n m : ℕ} {s0 : PlaneReg} (he : s0.Est n) : ∀ (l : List ℕ) (s : PlaneReg), s.core = s0.core →
    s.numberPoses = m → (∀ t ∈ l, t < n) → ∃ s', Out.mapAccum (fun t s => gradHessAt t s >>= fun ((g, H), s) =>
      .ok (((s.tau * t) • g, (s.tau * t) • symUpper H), s)) l s =
        .ok (l.map fun t : ℕ => ((s.tau * t) • (s0.planes.map fun q => q.2.gAt t).sum,
          (s.tau * t) • symUpper (s0.planes.map fun q => q.2.hAt t).sum), s') ∧ s'.core = s0.core ∧
        s'.numberPoses = m ∧ s'.traj = s.traj := by
  intro l
  induction l with
  | nil => intro s hc hm _; exact ⟨s, rfl, hc, hm, rfl⟩
  | cons a l ih =>
    intro s hc hm hb
    obtain ⟨s1, h1, c1, n1, t1⟩ := gradHessAt_est (he.core hc) (hb a List.mem_cons_self)
    obtain ⟨s', h2, c2, n2, t2⟩ := ih s1 (c1.trans hc) (n1.trans hm) fun t ht => hb t (List.mem_cons_of_mem _ ht)
    have ht : s1.tau = s.tau := by rw [tau, tau, lastIdx, lastIdx, n1]
    refine ⟨s', ?_, c2, n2, t2.trans t1⟩
    rw [Out.mapAccum, h1, Out.ok_bind]
    dsimp only
    rw [Out.ok_bind]
    dsimp only
    rw [h2, Out.ok_bind, List.map_cons, ht, core_sum hc (fun p => p.gAt a) fun _ => rfl,
      core_sum hc (fun p => p.hAt a) fun _ => rfl]

/-- What `calculate_gradient_hessian` computes. -/
theorem gradHess6_value {e : EigSolver} {s : PlaneReg} (hw : s.PlanesWf) (hl : s.numberPoses ≤ s.traj.length)
    (hn : ∀ q ∈ s.planes, q.2.timeLength = s.numberPoses) :
    ∃ s' : PlaneReg, s.gradHess6 e = .ok (((s.times.map fun t : ℕ => (s.tau * t) •
        (s.planes.map fun q => (q.2.estimated e s.traj q.2.usedS).gAt t).sum).sum,
      (s.times.map fun t : ℕ => (s.tau * t) • symUpper
        (s.planes.map fun q => (q.2.estimated e s.traj q.2.usedS).hAt t).sum).sum), s') ∧
      s'.core = PlaneReg.core { s with planes := s.planes.map fun q => (q.1, q.2.estimated e s.traj q.2.usedS) } ∧
      s'.numberPoses = s.numberPoses ∧ s'.traj = s.traj := by
  set s1 : PlaneReg := { s with planes := s.planes.map fun q => (q.1, q.2.estimated e s.traj q.2.usedS) } with hs1
  have herr : ∃ c, s.error e = .ok (c, s1) := ⟨_, by
    rw [error, eachPlane_ok (g := fun p => (e.eig4 (Plane.qList s.traj p.usedS).sum).val 0)
      (k := fun p => p.estimated e s.traj p.usedS) fun q hq => Plane.estimate_ok (hw q hq) ((hn q hq).trans_le hl), Out.ok_bind]⟩
  obtain ⟨c, herr⟩ := herr
  have he : s1.Est s.numberPoses := by
    obtain ⟨r, h1, h2⟩ := error_est (e := e) hw hl hn
    rw [herr] at h1
    cases h1
    exact h2
  obtain ⟨s', h1, h2, h3, h4⟩ := gradHessLoop_est (m := s.numberPoses) he s1.times s1 rfl rfl fun t ht => by
    have ht : t ∈ s.times := ht
    rw [times, List.mem_range'_1] at ht
    omega
  refine ⟨s', ?_, h2, h3, h4⟩
  rw [gradHess6, herr, Out.ok_bind]
  dsimp only
  rw [h1, Out.ok_bind, List.map_map, List.map_map]
  simp only [hs1, List.map_map]
  rfl

/-! ## The cost -/

theorem planeCost_range {n : ℕ} (pl : Vec4) (f : ℕ → SE3) (p : Plane) (hp : p.points.length = n) :
    planeCost pl (((List.range n).map f).map SE3.T) p.points = ∑ t ∈ Finset.range n, cloudCost pl (f t).T (p.cloudAt t) := by
  have h1 : p.points = (List.range n).map fun t => p.cloudAt t := by
    refine List.ext_getElem (by simp [hp]) fun i h1 h2 => ?_
    rw [List.getElem_map, List.getElem_range, Plane.cloudAt, List.getElem?_eq_getElem h1, Option.getD_some]
  rw [planeCost]
  conv_lhs => rw [h1]
  rw [List.map_map, List.zipWith_map, List.zipWith_self]
  rfl

/-- The cost of the planes at their present estimates: the sum over planes, poses and points of the squared values of the
plane at the moved points. -/
noncomputable def estCost (s : PlaneReg) : ℝ :=
  (s.planes.map fun q => planeCost (q.2.plane.getD 0) (s.traj.map SE3.T) q.2.points).sum

/-- The cost at the present estimates after the last pose was moved. -/
noncomputable def lastCost (s : PlaneReg) (dxi : Vec6) : Out ℝ := s.moveLast dxi >>= fun s' => .ok s'.estCost

theorem moveLast_trajTo {s : PlaneReg} (hi : s.PoseInv) (hn : 2 ≤ s.numberPoses) {T : SE3} (hT : s.traj.getLast? = some T)
    (dxi : Vec6) : s.moveLast dxi = .ok { s with traj := trajTo s.numberPoses (T.updateLhs dxi) } := by
  have h1 : s.lastPose = .ok T := by rw [lastPose, hT]
  obtain ⟨s', h2⟩ := placeLast_total hi (by omega) (T.updateLhs dxi)
  rw [moveLast, h1, Out.ok_bind, h2, placeLast_trajTo hi hn h2]

theorem list_deriv {α : Type} (l : List α) {F : α → ℝ → ℝ} {F' : α → ℝ} (h : ∀ a ∈ l, HasDerivAt (F a) (F' a) 0) :
    HasDerivAt (fun x => (l.map fun a => F a x).sum) (l.map F').sum 0 := by
  induction l with
  | nil => exact hasDerivAt_const _ _
  | cons a l ih =>
    simp only [List.map_cons, List.sum_cons]
    exact (h a List.mem_cons_self).add (ih fun b hb => h b (List.mem_cons_of_mem _ hb))

/-- The derivative of the cost of a cloud along a curve of poses. -/
theorem cloudCost_curve {M : ℝ → Mat4} {D : Mat4} (hM : MDeriv M D 0) (hl : ∀ h, LastRow (M h)) (pl : Vec4) (l : List Vec3) :
    HasDerivAt (fun h => cloudCost pl (M h) l) (pl ⬝ᵥ ((D * sumOuter l * (M 0)ᵀ + M 0 * sumOuter l * Dᵀ) *ᵥ pl)) 0 := by
  have h1 := (hM.mul (MDeriv.const (sumOuter l) 0)).mul hM.transpose
  have h2 := (VDeriv.const pl 0).dot (h1.mulVec (VDeriv.const pl 0))
  simp only [fun h => quad_cloud (hl h) pl l] at h2
  refine h2.congr_deriv ?_
  simp

/-- The gradient computed for one plane and pose, applied to a direction. -/
theorem grad_dot (X : Mat4) (pl : Vec4) (l : List Vec3) (xi : Vec6) :
    (fun i => pl ⬝ᵥ (gradOf (X * sumOuter l * Xᵀ) i *ᵥ pl)) ⬝ᵥ xi =
      pl ⬝ᵥ ((hat6 xi * X * sumOuter l * Xᵀ + X * sumOuter l * (hat6 xi * X)ᵀ) *ᵥ pl) := by
  have e : (fun i => pl ⬝ᵥ (gradOf (X * sumOuter l * Xᵀ) i *ᵥ pl)) ⬝ᵥ xi =
      pl ⬝ᵥ ((∑ i, xi i • gradOf (X * sumOuter l * Xᵀ) i) *ᵥ pl) := by
    rw [Matrix.sum_mulVec, dotProduct_sum]
    simp only [smul_mulVec, dotProduct_smul, smul_eq_mul]
    simp only [dotProduct, mul_comm]
  rw [e, sum_gradOf _ (conj_transpose (sumOuter_transpose l))]
  simp only [transpose_mul, Matrix.mul_assoc]

theorem list_sum_comm {α β : Type} (l : List α) (m : List β) (f : α → β → ℝ) :
    (l.map fun a => (m.map fun b => f a b).sum).sum = (m.map fun b => (l.map fun a => f a b).sum).sum := by
  induction l with
  | nil => simp
  | cons a l ih => simp only [List.map_cons, List.sum_cons, ih, List.sum_map_add]

theorem range_eq {n : ℕ} (hn : 1 ≤ n) : List.range n = 0 :: List.range' 1 (n - 1) := by
  obtain ⟨k, rfl⟩ : ∃ k, n = k + 1 := ⟨n - 1, by omega⟩
  rw [List.range_eq_range', List.range'_succ]
  rfl

theorem times_sum {s : PlaneReg} (hn : 1 ≤ s.numberPoses) (f : ℕ → ℝ) :
    (s.times.map fun t : ℕ => (s.tau * t) * f t).sum = ∑ t ∈ Finset.range s.numberPoses, (s.tau * t) * f t := by
  have h : ∑ t ∈ Finset.range s.numberPoses, (s.tau * t) * f t = ((List.range s.numberPoses).map fun t : ℕ => (s.tau * t) * f t).sum :=
    rfl
  rw [h, range_eq hn, List.map_cons, List.sum_cons]
  simp [times]

theorem dot_list_sum (l : List Vec6) (xi : Vec6) : l.sum ⬝ᵥ xi = (l.map fun g => g ⬝ᵥ xi).sum := by
  induction l with
  | nil => simp
  | cons a l ih => rw [List.sum_cons, add_dotProduct, ih, List.map_cons, List.sum_cons]

/-- The conditions of the statements about the last pose. -/
structure Ready (s : PlaneReg) (T : SE3) : Prop where
  pose : s.PoseInv
  two : 2 ≤ s.numberPoses
  interp : s.Interpolated
  wf : s.PlanesWf
  sync : ∀ q ∈ s.planes, q.2.InSync
  time : ∀ q ∈ s.planes, q.2.timeLength = s.numberPoses
  last : s.traj.getLast? = some T

/-- The estimate of a plane. -/
noncomputable def planeOf (e : EigSolver) (s : PlaneReg) (p : Plane) : Vec4 := Plane.firstVec (e.eig4 (Plane.qList s.traj p.usedS).sum)

/-- The pose at time `t`. -/
noncomputable def poseAt (n : ℕ) (T : SE3) (t : ℕ) : SE3 :=
  if t = 0 then SE3.default else if t + 1 = n then T else SE3.ofVec (((t : ℝ) / ((n : ℝ) - 1)) • T.lnVee)

theorem trajTo_eq (n : ℕ) (T : SE3) : trajTo n T = (List.range n).map (poseAt n T) := rfl

theorem Ready.Q_at {e : EigSolver} {s : PlaneReg} {T : SE3} (h : s.Ready T) {q : ℕ × Plane} (hq : q ∈ s.planes) {t : ℕ}
    (ht : t < s.numberPoses) : (q.2.estimated e s.traj q.2.usedS).Q[t]? =
      some ((poseAt s.numberPoses T t).T * sumOuter (q.2.cloudAt t) * (poseAt s.numberPoses T t).Tᵀ) := by
  have hl := h.pose.len (by have := h.two; omega)
  have hu : q.2.usedS.length = s.numberPoses := by rw [Plane.usedS_length (h.wf q hq), h.time q hq]
  have hp : q.2.points.length = s.numberPoses := by rw [(h.wf q hq).pts, h.time q hq]
  have hS : q.2.usedS[t]'(by omega) = sumOuter (q.2.cloudAt t) := by
    have : q.2.usedS[t]? = some (sumOuter (q.2.cloudAt t)) := by
      rw [Plane.usedS_inSync (h.sync q hq), List.getElem?_map, Plane.cloudAt_of_lt (by omega)]
      rfl
    exact Option.some.inj ((List.getElem?_eq_getElem (by omega)).symm.trans this)
  have h2 : t < (Plane.qList s.traj q.2.usedS).length := by rw [Plane.qList_length (by omega)]; omega
  have hT : s.traj[t]'(by omega) = poseAt s.numberPoses T t := by
    have : s.traj[t]? = some (poseAt s.numberPoses T t) := by
      rw [interpolated_traj h.pose h.two h.interp h.last, trajTo_eq, List.getElem?_map, List.getElem?_range ht, Option.map_some]
    exact Option.some.inj ((List.getElem?_eq_getElem (by omega)).symm.trans this)
  change (Plane.qList s.traj q.2.usedS)[t]? = _
  rw [List.getElem?_eq_getElem h2, Plane.qList_getElem (by omega) (by omega) h2, hS, hT]

/-- The gradient which the code computes, applied to a direction. -/
theorem Ready.grad {e : EigSolver} {s : PlaneReg} {T : SE3} (h : s.Ready T) {g : Vec6} {H : Mat6} {s' : PlaneReg}
    (hg : s.gradHess6 e = .ok ((g, H), s')) (xi : Vec6) :
    g ⬝ᵥ xi = (s.planes.map fun q => ∑ t ∈ Finset.range s.numberPoses, ((t : ℝ) / ((s.numberPoses : ℝ) - 1)) *
      (planeOf e s q.2 ⬝ᵥ ((hat6 xi * (poseAt s.numberPoses T t).T * sumOuter (q.2.cloudAt t) * (poseAt s.numberPoses T t).Tᵀ +
        (poseAt s.numberPoses T t).T * sumOuter (q.2.cloudAt t) * (hat6 xi * (poseAt s.numberPoses T t).T)ᵀ) *ᵥ
          planeOf e s q.2))).sum := by
  have hl := h.pose.len (by have := h.two; omega)
  obtain ⟨s1, h1, -, -, -⟩ := gradHess6_value (e := e) h.wf hl.ge h.time
  rw [hg, Out.ok.injEq, Prod.mk.injEq, Prod.mk.injEq] at h1
  obtain ⟨⟨h1, -⟩, -⟩ := h1
  rw [h1, dot_list_sum, List.map_map]
  have e1 : ((fun g => g ⬝ᵥ xi) ∘ fun t : ℕ => (s.tau * t) • (s.planes.map fun q =>
      (q.2.estimated e s.traj q.2.usedS).gAt t).sum) = fun t : ℕ => (s.tau * t) * ((s.planes.map fun q =>
        (q.2.estimated e s.traj q.2.usedS).gAt t ⬝ᵥ xi).sum) := by
    funext t
    rw [Function.comp_apply, smul_dotProduct, smul_eq_mul, dot_list_sum, List.map_map]
    rfl
  rw [e1, times_sum (by have := h.two; omega)]
  have e2 : ∀ t : ℕ, s.tau * t = (t : ℝ) / ((s.numberPoses : ℝ) - 1) := tau_eq (by have := h.two; omega) h.pose.bound
  have e3 : ∑ t ∈ Finset.range s.numberPoses, s.tau * t * (s.planes.map fun q =>
      (q.2.estimated e s.traj q.2.usedS).gAt t ⬝ᵥ xi).sum = (s.planes.map fun q => ∑ t ∈ Finset.range s.numberPoses,
        s.tau * t * ((q.2.estimated e s.traj q.2.usedS).gAt t ⬝ᵥ xi)).sum := by
    generalize s.planes = l
    induction l with
    | nil => simp
    | cons a l ih => simp only [List.map_cons, List.sum_cons, mul_add, Finset.sum_add_distrib, ih]
  rw [e3]
  refine congrArg List.sum (List.map_congr_left fun q hq => Finset.sum_congr rfl fun t ht => ?_)
  rw [e2, ← grad_dot]
  congr 2
  funext i
  rw [Plane.gAt, h.Q_at hq (Finset.mem_range.mp ht)]
  rfl

/-- The cost after the last pose was moved. -/
theorem Ready.lastCost {e : EigSolver} {s : PlaneReg} {T : SE3} (h : s.Ready T) {g : Vec6} {H : Mat6} {s' : PlaneReg}
    (hg : s.gradHess6 e = .ok ((g, H), s')) (dxi : Vec6) :
    s'.lastCost dxi = .ok (s.planes.map fun q => ∑ t ∈ Finset.range s.numberPoses,
      cloudCost (planeOf e s q.2) (poseAt s.numberPoses (T.updateLhs dxi) t).T (q.2.cloudAt t)).sum := by
  have hl := h.pose.len (by have := h.two; omega)
  obtain ⟨s1, h1, c1, n1, t1⟩ := gradHess6_value (e := e) h.wf hl.ge h.time
  rw [hg, Out.ok.injEq, Prod.mk.injEq] at h1
  obtain rfl := h1.2
  have hi' : s'.PoseInv := h.pose.planesOnly (gradHess6_frame hg).1
  have hs : ∀ (traj : List SE3), estCost { s' with traj := traj } =
      (s.planes.map fun q => planeCost (planeOf e s q.2) (traj.map SE3.T) q.2.points).sum := by
    intro traj
    have := core_sum c1 (fun p => planeCost (p.plane.getD 0) (traj.map SE3.T) p.points) fun _ => rfl
    rw [estCost]
    refine this.trans ?_
    rw [List.map_map]
    rfl
  rw [PlaneReg.lastCost, moveLast_trajTo hi' (by rw [n1]; exact h.two) (by rw [t1]; exact h.last), Out.ok_bind, hs, n1]
  congr 2
  refine List.map_congr_left fun q hq => ?_
  rw [trajTo_eq, planeCost_range _ _ _ (by rw [(h.wf q hq).pts, h.time q hq])]

theorem lastRow_poseAt {n : ℕ} {T : SE3} (hT : LastRow T.T) (t : ℕ) : LastRow (poseAt n T t).T := by
  rw [poseAt]
  split_ifs
  · exact ⟨fun j => by simp [SE3.default], by simp [SE3.default]⟩
  · exact hT
  · rw [se3_ofVec_T]
    exact ⟨fun j => rfl, rfl⟩

/-- The derivative of the cost with respect to the last pose. -/
theorem Ready.deriv {e : EigSolver} {s : PlaneReg} {T : SE3} (h : s.Ready T) {g : Vec6} {H : Mat6} {s' : PlaneReg}
    (hg : s.gradHess6 e = .ok ((g, H), s')) (hT : LastRow T.T) (xi : Vec6) {D : ℕ → Mat4}
    (hD : ∀ t < s.numberPoses, MDeriv (fun k : ℝ => (poseAt s.numberPoses (T.updateLhs (k • xi)) t).T) (D t) 0) :
    ∃ E : ℝ → ℝ, (∀ k : ℝ, s'.lastCost (k • xi) = .ok (E k)) ∧
      HasDerivAt E (s.planes.map fun q => ∑ t ∈ Finset.range s.numberPoses,
        (planeOf e s q.2 ⬝ᵥ ((D t * sumOuter (q.2.cloudAt t) * (poseAt s.numberPoses T t).Tᵀ +
          (poseAt s.numberPoses T t).T * sumOuter (q.2.cloudAt t) * (D t)ᵀ) *ᵥ planeOf e s q.2))).sum 0 := by
  refine ⟨fun k => (s.planes.map fun q => ∑ t ∈ Finset.range s.numberPoses,
    cloudCost (planeOf e s q.2) (poseAt s.numberPoses (T.updateLhs (k • xi)) t).T (q.2.cloudAt t)).sum,
    fun k => by rw [h.lastCost hg], ?_⟩
  refine list_deriv _ fun q hq => HasDerivAt.fun_sum fun t ht => ?_
  have key := cloudCost_curve (hD t (Finset.mem_range.mp ht)) (fun k => lastRow_poseAt (lastRow_updateLhs hT _) t)
    (planeOf e s q.2) (q.2.cloudAt t)
  simpa only [updateLhs_zero_smul] using key

theorem conj_corner {X S : Mat4} (hX : LastRow X) : (X * S * Xᵀ) (.inr ()) (.inr ()) = S (.inr ()) (.inr ()) := by
  simp [Matrix.mul_apply, Fintype.sum_sum_type, hX.1, hX.2]

/-- The entries of the Hessian of the code for translations. -/
theorem Ready.hess {e : EigSolver} {s : PlaneReg} {T : SE3} (h : s.Ready T) (hT : LastRow T.T) {g : Vec6} {H : Mat6}
    {s' : PlaneReg} (hg : s.gradHess6 e = .ok ((g, H), s')) (i j : Fin 3) :
    H (.inr i) (.inr j) = (s.planes.map fun q => ∑ t ∈ Finset.range s.numberPoses, ((t : ℝ) / ((s.numberPoses : ℝ) - 1)) *
      (2 * planeOf e s q.2 (.inl i) * planeOf e s q.2 (.inl j) * (q.2.cloudAt t).length)).sum := by
  have hl := h.pose.len (by have := h.two; omega)
  obtain ⟨s1, h1, -, -, -⟩ := gradHess6_value (e := e) h.wf hl.ge h.time
  rw [hg, Out.ok.injEq, Prod.mk.injEq, Prod.mk.injEq] at h1
  obtain ⟨⟨-, h1⟩, -⟩ := h1
  have hent : ∀ (l : List Mat6) (a b : I6), l.sum a b = (l.map fun M => M a b).sum := by
    intro l a b
    induction l with
    | nil => rfl
    | cons x l ih => rw [List.sum_cons, Matrix.add_apply, ih, List.map_cons, List.sum_cons]
  have hq : ∀ t < s.numberPoses, ∀ q ∈ s.planes, ∀ i j : Fin 3, pos6 (.inr i) ≤ pos6 (.inr j) →
      (q.2.estimated e s.traj q.2.usedS).hAt t (.inr i) (.inr j) =
        2 * planeOf e s q.2 (.inl i) * planeOf e s q.2 (.inl j) * (q.2.cloudAt t).length := by
    intro t ht q hq i j hij
    rw [Plane.hAt, Matrix.of_apply, if_pos hij, h.Q_at hq ht, Option.getD_some, hessian_translation,
      conj_corner (lastRow_poseAt hT t), Plane.sumOuter_count]
    rfl
  have hsym : ∀ t < s.numberPoses, symUpper (s.planes.map fun q => (q.2.estimated e s.traj q.2.usedS).hAt t).sum (.inr i) (.inr j) =
      (s.planes.map fun q => 2 * planeOf e s q.2 (.inl i) * planeOf e s q.2 (.inl j) * ((q.2.cloudAt t).length : ℝ)).sum := by
    intro t ht
    rw [symUpper, Matrix.of_apply]
    split_ifs with hij
    · rw [hent, List.map_map]
      exact congrArg List.sum (List.map_congr_left fun q hq' => hq t ht q hq' i j hij)
    · rw [hent, List.map_map]
      refine congrArg List.sum (List.map_congr_left fun q hq' => (hq t ht q hq' j i (le_of_not_ge hij)).trans ?_)
      ring
  have e1 : ∀ t ∈ s.times, ((fun M : Mat6 => M (.inr i) (.inr j)) ∘ fun t : ℕ => (s.tau * t) • symUpper
      (s.planes.map fun q => (q.2.estimated e s.traj q.2.usedS).hAt t).sum) t =
      (s.tau * t) * (s.planes.map fun q => 2 * planeOf e s q.2 (.inl i) * planeOf e s q.2 (.inl j) * ((q.2.cloudAt t).length : ℝ)).sum := by
    intro t ht
    rw [times, List.mem_range'_1] at ht
    rw [Function.comp_apply, Matrix.smul_apply, smul_eq_mul, hsym t (by omega)]
  rw [h1, hent, List.map_map, List.map_congr_left e1, times_sum (by have := h.two; omega)]
  have e2 : ∀ t : ℕ, s.tau * t = (t : ℝ) / ((s.numberPoses : ℝ) - 1) := tau_eq (by have := h.two; omega) h.pose.bound
  simp only [e2]
  generalize s.planes = l
  induction l with
  | nil => simp
  | cons a l ih => simp only [List.map_cons, List.sum_cons, mul_add, Finset.sum_add_distrib, ih]

end PlaneReg

end Mrob
