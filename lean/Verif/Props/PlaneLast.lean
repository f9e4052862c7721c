import Verif.Lemmas.PlaneLast
import Verif.Props.PlaneGrad

/-! # Property C65: the derivatives of the registration error with respect to the last pose -/

open Matrix

namespace Mrob

open Spec PlaneReg

namespace PlaneReg

theorem hat6_smul_T (k : ℝ) (v : Vec3) (xi : Vec6) :
    k • (hat6 xi * (SE3.mk (homog 1 (k • v) 1)).T) =
      homog (k • hat3 (head3 xi)) (k ^ 2 • (hat3 (head3 xi) *ᵥ v) + k • tail3 xi) 0 := by
  rw [hat6_eq, homog_mul, homog_smul]
  congr 1
  · simp
  · funext i
    simp only [Pi.add_apply, Pi.smul_apply, smul_eq_mul, mulVec_smul, one_mul]
    ring
  · simp

theorem quad_pair (A B : Mat4) (pl : Vec4) (l : List Vec3) :
    pl ⬝ᵥ ((A * sumOuter l * Bᵀ) *ᵥ pl) = (l.map fun p => (pl ⬝ᵥ (A *ᵥ homPt p)) * (pl ⬝ᵥ (B *ᵥ homPt p))).sum := by
  induction l with
  | nil => simp [sumOuter_nil]
  | cons p l ih =>
    rw [sumOuter_cons, Matrix.mul_add, Matrix.add_mul, add_mulVec, dotProduct_add, ih, List.map_cons, List.sum_cons]
    congr 1
    rw [mul_vecMulVec, vecMulVec_mul, vecMul_transpose, vecMulVec_mulVec]
    simp only [dotProduct_smul, op_smul_eq_smul, smul_eq_mul]
    rw [dotProduct_comm (B *ᵥ homPt p)]
    ring

end PlaneReg

/-- C65 for two poses: the gradient of `calculate_gradient_hessian` is the derivative of the cost of the estimated planes
when the last pose is perturbed from the left.  Missing: more than two poses. -/
theorem C65_gradient_two_poses_partial (e : EigSolver) (s : PlaneReg) (T : SE3) (h : s.Ready T) (hn : s.numberPoses = 2)
    (hT : IsRigid T.T) (g : Vec6) (H : Mat6) (s' : PlaneReg) (hg : s.gradHess6 e = .ok ((g, H), s')) (xi : Vec6) :
    ∃ E : ℝ → ℝ, (∀ k : ℝ, s'.lastCost (k • xi) = .ok (E k)) ∧ HasDerivAt E (g ⬝ᵥ xi) 0 := by
  obtain ⟨E, h1, h2⟩ := h.deriv hg hT.lastRow xi (D := fun t => if t = 0 then 0 else hat6 xi * T.T) (by
    intro t ht
    rw [hn] at ht ⊢
    by_cases h0 : t = 0
    · simp only [poseAt, h0, if_true]
      exact MDeriv.const _ _
    · have : t = 1 := by omega
      subst this
      exact updateLhs_deriv T xi)
  refine ⟨E, h1, h2.congr_deriv ?_⟩
  rw [h.grad hg xi]
  refine congrArg List.sum (List.map_congr_left fun q _ => ?_)
  rw [hn]
  norm_num [Finset.sum_range_succ, poseAt]

/-- C65 when the last pose is a pure translation `v` and the perturbation is a translation or a rotation about the direction
of `v`; in particular for all perturbations of a trajectory of identities.  Missing: see `C65_gradient_fails`. -/
theorem C65_gradient_translation_partial (e : EigSolver) (s : PlaneReg) (v : Vec3) (h : s.Ready ⟨homog 1 v 1⟩) (g : Vec6)
    (H : Mat6) (s' : PlaneReg) (hg : s.gradHess6 e = .ok ((g, H), s')) (xi : Vec6) (hxi : hat3 (head3 xi) *ᵥ v = 0) :
    ∃ E : ℝ → ℝ, (∀ k : ℝ, s'.lastCost (k • xi) = .ok (E k)) ∧ HasDerivAt E (g ⬝ᵥ xi) 0 := by
  have hX : IsRigid (SE3.mk (homog 1 v 1)).T := isRigid_homog isRotation_one v
  have hn1 : (s.numberPoses : ℝ) - 1 ≠ 0 := by
    have : (2 : ℝ) ≤ s.numberPoses := by exact_mod_cast h.two
    intro h; linarith
  obtain ⟨E, h1, h2⟩ := h.deriv hg hX.lastRow xi
    (D := fun t => ((t : ℝ) / ((s.numberPoses : ℝ) - 1)) • (hat6 xi * (poseAt s.numberPoses ⟨homog 1 v 1⟩ t).T)) (by
    intro t ht
    by_cases h0 : t = 0
    · simp only [poseAt, h0, if_true]
      exact (MDeriv.const _ _).congr (by simp)
    · by_cases h1 : t + 1 = s.numberPoses
      · simp only [poseAt, h0, h1, if_true, if_false]
        refine (updateLhs_deriv _ xi).congr ?_
        have : (t : ℝ) / ((s.numberPoses : ℝ) - 1) = 1 := by
          rw [← h1]; push_cast; rw [add_sub_cancel_right]
          exact div_self (by exact_mod_cast h0)
        rw [this, one_smul]
      · simp only [poseAt, h0, h1, if_false, interp_at]
        refine (interp_deriv v xi _).congr ?_
        rw [hat6_smul_T, hxi, smul_zero, smul_zero])
  refine ⟨E, h1, h2.congr_deriv ?_⟩
  rw [h.grad hg xi]
  refine congrArg List.sum (List.map_congr_left fun q _ => Finset.sum_congr rfl fun t _ => ?_)
  simp only [transpose_smul, smul_mul_assoc, mul_smul_comm, ← smul_add, smul_mulVec, dotProduct_smul, smul_eq_mul]

/-! ## Five points -/

namespace Demo

/-- Four points in the plane `z = 1` and one at `z = -1`, seen from a pose at `(a, 0, 0)`. -/
def five (a : ℝ) : List Vec3 := [![2 - a, 0, 1], ![-2 - a, 0, 1], ![-a, 2, 1], ![-a, -2, 1], ![-a, 0, -1]]

/-- A plane seen from the middle of three poses. -/
def fivePlane (a : ℝ) : Plane := { Plane.new 3 with points := [[], five a, []], numberPoints := 5 }

/-- The last pose. -/
noncomputable def fiveLast (a : ℝ) : SE3 := ⟨homog 1 ![2 * a, 0, 0] 1⟩

/-- The calls: one plane, three poses. -/
noncomputable def fiveOps (a : ℝ) : List Op :=
  [.setNumbers 1 3, .addNewPlane 0] ++ (five a).map (.pushPoint 0 1 ·) ++ [.setLastPose (fiveLast a)]

/-- The object built by the calls. -/
noncomputable def fiveReg (a : ℝ) : PlaneReg :=
  { PlaneReg.new with
    numberPlanes := 1
    numberPoses := 3
    planes := [(0, fivePlane a)]
    traj := trajTo 3 (fiveLast a)
    prev := List.replicate 3 0 }

theorem fiveOps_run (e : EigSolver) (svd : Mat3 → SVD3) (a : ℝ) :
    PlaneReg.run e svd (fiveOps a) (OptDense.new PlaneReg.new) = .ok { OptDense.new PlaneReg.new with obj := fiveReg a } := by
  have h : PlaneReg.run e svd (fiveOps a) (OptDense.new PlaneReg.new) = .ok { OptDense.new PlaneReg.new with
      obj := { fiveReg a with traj := [SE3.default,
        SE3.ofVec ((PlaneReg.tau (fiveReg a) * (1 : ℕ)) • (fiveLast a).lnVee),
        SE3.ofVec ((PlaneReg.tau (fiveReg a) * (2 : ℕ)) • (fiveLast a).lnVee)] } } := rfl
  rw [h]
  have ht : PlaneReg.tau (fiveReg a) = 1 / 2 := by
    have : (fiveReg a).lastIdx = 2 := lastIdx_eq (s := fiveReg a) (by exact three_ne_zero) (by change 3 < 2 ^ 32; norm_num)
    rw [PlaneReg.tau, this]; norm_num
  have h2 : SE3.ofVec ((PlaneReg.tau (fiveReg a) * (2 : ℕ)) • (fiveLast a).lnVee) = fiveLast a := by
    rw [ht, fiveLast, interp_at]; norm_num
  have h1 : trajTo 3 (fiveLast a) = [SE3.default, SE3.ofVec (((1 : ℕ) / ((3 : ℕ) - 1) : ℝ) • (fiveLast a).lnVee), fiveLast a] := by
    rfl
  rw [h2, ht]
  have e1 : (1 / 2 * (1 : ℕ) : ℝ) = ((1 : ℕ) / ((3 : ℕ) - 1) : ℝ) := by norm_num
  rw [e1, ← h1]
  rfl

theorem fiveReg_ready (a : ℝ) : (fiveReg a).Ready (fiveLast a) := by
  obtain ⟨e, he⟩ := exists_sound
  have hi : PoseInv (fiveReg a) := run_inv new_inv (fiveOps_run e (fun _ => ⟨0, 0, 0⟩) a)
  refine ⟨hi, by exact Nat.le_succ 2, ?_, ?_, ?_, ?_, rfl⟩
  · intro T hT t h0 h1
    have : fiveLast a = T := Option.some.inj hT
    subst this
    have : t = 1 := by have h1 : t + 1 < 3 := h1; omega
    subst this
    rfl
  all_goals
    intro q hq
    obtain rfl : q = (0, fivePlane a) := by simpa [fiveReg] using hq
  · exact ⟨rfl, Or.inl rfl⟩
  · exact Or.inl rfl
  · rfl

theorem fivePose (a : ℝ) : poseAt 3 (fiveLast a) 1 = ⟨homog 1 ![a, 0, 0] 1⟩ := by
  change SE3.ofVec _ = _
  rw [fiveLast, interp_at]
  congr 2
  funext i
  fin_cases i <;> simp
  ring

theorem five_cost (a : ℝ) (x : Vec4) : planeCost x ((fiveReg a).traj.map SE3.T) (fivePlane a).points =
    8 * x (.inl 0) ^ 2 + 8 * x (.inl 1) ^ 2 + 5 * x (.inl 2) ^ 2 + 6 * x (.inl 2) * x (.inr ()) + 5 * x (.inr ()) ^ 2 := by
  change planeCost x ((trajTo 3 (fiveLast a)).map SE3.T) _ = _
  rw [trajTo_eq, planeCost_range (n := 3) x _ (fivePlane a) rfl]
  rw [Finset.sum_range_succ, Finset.sum_range_succ, Finset.sum_range_one, fivePose]
  have h0 : (fivePlane a).cloudAt 0 = [] := rfl
  have h1 : (fivePlane a).cloudAt 1 = five a := rfl
  have h2 : (fivePlane a).cloudAt 2 = [] := rfl
  rw [h0, h1, h2]
  simp [cloudCost, five, planeEval, movePoint, homog, Fin.sum_univ_three, Matrix.one_apply]
  ring

/-- The estimated plane is `z = 1`. -/
theorem five_plane {e : EigSolver} (he : e.Sound) (a : ℝ) : ∃ c : ℝ, c ^ 2 = 1 / 2 ∧
    planeOf e (fiveReg a) (fivePlane a) = Sum.elim ![0, 0, c] fun _ => -c := by
  have hr := fiveReg_ready a
  have w : (fivePlane a).Wf := ⟨rfl, Or.inl rfl⟩
  have hlen : (fiveReg a).traj.length = 3 := rfl
  have hest := Plane.estimate_ok (e := e) (traj := (fiveReg a).traj) w (by rw [hlen]; exact le_refl 3)
  obtain ⟨pl, hpl, -, ho⟩ := estimate_optimal he (clouds := (fivePlane a).points) (fun A hA => by
    have hA : A ∈ trajTo 3 (fiveLast a) := hA
    have hR : ∀ v, LastRow (homog 1 v 1) := fun v => (isRigid_homog isRotation_one v).lastRow
    rw [trajTo_eq] at hA
    obtain ⟨t, ht, rfl⟩ := List.mem_map.mp hA
    have ht : t < 3 := List.mem_range.mp ht
    have : t = 0 ∨ t = 1 ∨ t = 2 := by omega
    rcases this with rfl | rfl | rfl
    · exact rigid_default.lastRow
    · rw [fivePose]; exact hR _
    · exact hR _) w rfl hest
  have hp : planeOf e (fiveReg a) (fivePlane a) = pl := Option.some.inj hpl
  set lam := (e.eig4 (Plane.qList (fiveReg a).traj (fivePlane a).usedS).sum).val 0
  have hx' : pl (.inl 0) ^ 2 + pl (.inl 1) ^ 2 + pl (.inl 2) ^ 2 + pl (.inr ()) ^ 2 = 1 := by
    rw [← show pl ⬝ᵥ pl = 1 from ho.1]
    simp [dotProduct, Fintype.sum_sum_type, Fin.sum_univ_three, pow_two]
  have hs : Real.sqrt (1 / 2) * Real.sqrt (1 / 2) = 1 / 2 := Real.mul_self_sqrt (by norm_num)
  have hle : lam ≤ 2 := by
    have := ho.2.2 (Sum.elim ![0, 0, Real.sqrt (1 / 2)] fun _ => -Real.sqrt (1 / 2))
      (by simp only [Unit4, dotProduct, Fintype.sum_sum_type, Fin.sum_univ_three]; simp; norm_num at hs ⊢; linarith)
    rw [five_cost] at this
    simp at this
    norm_num at hs this ⊢
    nlinarith
  have heq := ho.2.1
  rw [five_cost] at heq
  have z0 : pl (.inl 0) = 0 := by
    apply pow_eq_zero_iff (n := 2) (by norm_num) |>.mp
    nlinarith [sq_nonneg (pl (.inl 0)), sq_nonneg (pl (.inl 1)), sq_nonneg (pl (.inl 2) + pl (.inr ()))]
  have z1 : pl (.inl 1) = 0 := by
    apply pow_eq_zero_iff (n := 2) (by norm_num) |>.mp
    nlinarith [sq_nonneg (pl (.inl 0)), sq_nonneg (pl (.inl 1)), sq_nonneg (pl (.inl 2) + pl (.inr ()))]
  have z3 : pl (.inl 2) + pl (.inr ()) = 0 := by
    apply pow_eq_zero_iff (n := 2) (by norm_num) |>.mp
    nlinarith [sq_nonneg (pl (.inl 0)), sq_nonneg (pl (.inl 1)), sq_nonneg (pl (.inl 2) + pl (.inr ()))]
  have z4 : pl (.inr ()) = -pl (.inl 2) := by linarith
  refine ⟨pl (.inl 2), ?_, ?_⟩
  · rw [z0, z1, z4] at hx'
    nlinarith
  · rw [hp]
    funext i
    rcases i with i | i
    · fin_cases i <;> simp [z0, z1]
    · simp [z4]

end Demo

/-- C65 is false for three poses: five points are seen from the middle pose, the last pose is a translation along `x`.  For
a rotation of the last pose about `y` the gradient of the code is not the derivative of the cost of the estimated plane. -/
theorem C65_gradient_fails (e : EigSolver) (he : e.Sound) (svd : Mat3 → SVD3) : ∃ s g H s',
    PlaneReg.run e svd (Demo.fiveOps 1) (OptDense.new PlaneReg.new) = .ok s ∧ s.obj.gradHess6 e = .ok ((g, H), s') ∧
    ¬ ∃ E : ℝ → ℝ, (∀ k : ℝ, s'.lastCost (k • vec6 ![0, 1, 0] 0) = .ok (E k)) ∧
      HasDerivAt E (g ⬝ᵥ vec6 ![0, 1, 0] 0) 0 := by
  have hr := Demo.fiveReg_ready 1
  obtain ⟨s', h1, -, -, -⟩ := gradHess6_value (e := e) hr.wf (by rfl) hr.time
  refine ⟨_, _, _, s', Demo.fiveOps_run e svd 1, h1, ?_⟩
  rintro ⟨E, hE, hd⟩
  rw [hr.grad h1] at hd
  obtain ⟨E', hE', hd'⟩ := hr.deriv h1 (isRigid_homog isRotation_one _).lastRow (vec6 ![0, 1, 0] 0)
    (D := fun t => if t = 0 then 0 else if t = 1 then
      homog ((1 / 2 : ℝ) • hat3 ![0, 1, 0]) ((3 / 8 : ℝ) • (hat3 ![0, 1, 0] *ᵥ ![2, 0, 0])) 0
      else hat6 (vec6 ![0, 1, 0] 0) * (Demo.fiveLast 1).T) (by
    intro t ht
    have ht : t < 3 := ht
    have : t = 0 ∨ t = 1 ∨ t = 2 := by omega
    rcases this with rfl | rfl | rfl
    · exact MDeriv.const _ _
    · have := interp_deriv ![2 * 1, 0, 0] (vec6 ![0, 1, 0] 0) (1 / 2)
      rw [head3_vec6, tail3_vec6] at this
      have e1 : ((1 : ℕ) / ((3 : ℕ) - 1) : ℝ) = 1 / 2 := by norm_num
      change MDeriv (fun k : ℝ => (SE3.ofVec (((1 : ℕ) / ((3 : ℕ) - 1) : ℝ) • _)).T) _ 0
      rw [e1]
      refine this.congr ?_
      simp only [if_true, one_ne_zero, if_false]
      norm_num
    · exact updateLhs_deriv _ _)
  have hEE : E' = E := by
    funext k
    exact Out.ok.inj ((hE' k).symm.trans (hE k))
  rw [hEE] at hd'
  have := hd.unique hd'
  obtain ⟨c, hc, hpl⟩ := Demo.five_plane he 1
  simp only [Demo.fiveReg, List.map_cons, List.map_nil, List.sum_cons, List.sum_nil, add_zero] at this
  have h0 : (Demo.fivePlane 1).cloudAt 0 = [] := rfl
  have h1 : (Demo.fivePlane 1).cloudAt 1 = Demo.five 1 := rfl
  have h2 : (Demo.fivePlane 1).cloudAt 2 = [] := rfl
  have hpl' : planeOf e { PlaneReg.new with
    numberPlanes := 1
    numberPoses := 3
    planes := [(0, Demo.fivePlane 1)]
    traj := trajTo 3 (Demo.fiveLast 1)
    prev := List.replicate 3 0 } (Demo.fivePlane 1) = Sum.elim ![0, 0, c] fun _ => -c := hpl
  rw [hpl', Finset.sum_range_succ, Finset.sum_range_succ, Finset.sum_range_one, Finset.sum_range_succ, Finset.sum_range_succ,
    Finset.sum_range_one, h0, h1, h2, Demo.fivePose] at this
  simp only [sumOuter_nil, Matrix.mul_zero, Matrix.zero_mul, add_zero, zero_mulVec, dotProduct_zero, mul_zero, zero_add,
    add_mulVec, dotProduct_add, quad_pair] at this
  simp [Demo.five, hat6_eq, hat3, homPt, homog, mulVec, dotProduct, Matrix.mul_apply, Fintype.sum_sum_type,
    Fin.sum_univ_three] at this
  norm_num at this
  nlinarith

/-! ## The Hessian -/

namespace PlaneReg

theorem lastCost_translation {e : EigSolver} {s : PlaneReg} {T : SE3} (h : s.Ready T) (hT : LastRow T.T) {g : Vec6} {H : Mat6}
    {s' : PlaneReg} (hg : s.gradHess6 e = .ok ((g, H), s')) (v : Vec3) (k : ℝ)
    (hp : ∀ t < s.numberPoses, poseAt s.numberPoses (T.updateLhs (k • vec6 0 v)) t =
      (poseAt s.numberPoses T t).updateLhs (((t : ℝ) / ((s.numberPoses : ℝ) - 1) * k) • vec6 0 v)) :
    s'.lastCost (k • vec6 0 v) = .ok ((s.planes.map fun q => ∑ t ∈ Finset.range s.numberPoses,
        cloudCost (planeOf e s q.2) (poseAt s.numberPoses T t).T (q.2.cloudAt t)).sum + k * (g ⬝ᵥ vec6 0 v) +
      k ^ 2 * (s.planes.map fun q => ∑ t ∈ Finset.range s.numberPoses, ((t : ℝ) / ((s.numberPoses : ℝ) - 1)) ^ 2 *
        ((q.2.cloudAt t).length * (∑ i, planeOf e s q.2 (.inl i) * v i) ^ 2)).sum) := by
  rw [h.lastCost hg, h.grad hg]
  congr 1
  have key : ∀ q ∈ s.planes, ∑ t ∈ Finset.range s.numberPoses,
      cloudCost (planeOf e s q.2) (poseAt s.numberPoses (T.updateLhs (k • vec6 0 v)) t).T (q.2.cloudAt t) =
      ∑ t ∈ Finset.range s.numberPoses, cloudCost (planeOf e s q.2) (poseAt s.numberPoses T t).T (q.2.cloudAt t) +
      k * ∑ t ∈ Finset.range s.numberPoses, ((t : ℝ) / ((s.numberPoses : ℝ) - 1)) *
        (planeOf e s q.2 ⬝ᵥ ((hat6 (vec6 0 v) * (poseAt s.numberPoses T t).T * sumOuter (q.2.cloudAt t) *
          (poseAt s.numberPoses T t).Tᵀ + (poseAt s.numberPoses T t).T * sumOuter (q.2.cloudAt t) *
            (hat6 (vec6 0 v) * (poseAt s.numberPoses T t).T)ᵀ) *ᵥ planeOf e s q.2)) +
      k ^ 2 * ∑ t ∈ Finset.range s.numberPoses, ((t : ℝ) / ((s.numberPoses : ℝ) - 1)) ^ 2 *
        ((q.2.cloudAt t).length * (∑ i, planeOf e s q.2 (.inl i) * v i) ^ 2) := by
    intro q _
    rw [Finset.mul_sum, Finset.mul_sum, ← Finset.sum_add_distrib, ← Finset.sum_add_distrib]
    refine Finset.sum_congr rfl fun t ht => ?_
    have hl := lastRow_poseAt (n := s.numberPoses) hT t
    rw [hp t (Finset.mem_range.mp ht), cloudCost_translation hl, grad_dot, conj_corner hl, Plane.sumOuter_count]
    ring
  rw [List.map_congr_left key]
  generalize s.planes = l
  induction l with
  | nil => simp
  | cons a l ih =>
    simp only [List.map_cons, List.sum_cons, ih]
    ring

theorem updateLhs_homog_translation (v0 v : Vec3) (k : ℝ) :
    (SE3.mk (homog 1 v0 1)).updateLhs (k • vec6 0 v) = ⟨homog 1 (v0 + k • v) 1⟩ := by
  ext1
  change (SE3.ofVec _).T * _ = _
  rw [ofVec_translation, hat6_eq, head3_vec6, tail3_vec6, hat3_at_zero, ← homog_one, homog_smul, homog_add]
  simp only [smul_zero, add_zero, zero_add, mul_zero]
  rw [homog_mul, Matrix.one_mul, one_mulVec, one_smul, one_mul]

theorem poseAt_translation {n : ℕ} (hn : 2 ≤ n) (v0 v : Vec3) (k : ℝ) (t : ℕ) :
    poseAt n ((SE3.mk (homog 1 v0 1)).updateLhs (k • vec6 0 v)) t =
      (poseAt n ⟨homog 1 v0 1⟩ t).updateLhs (((t : ℝ) / ((n : ℝ) - 1) * k) • vec6 0 v) := by
  rw [updateLhs_homog_translation, poseAt, poseAt]
  split_ifs with h0 h1
  · subst h0
    simp only [Nat.cast_zero, zero_div, zero_mul]
    rw [updateLhs_zero_smul]
  · have : (t : ℝ) / ((n : ℝ) - 1) = 1 := by
      rw [← h1]; push_cast; rw [add_sub_cancel_right]
      exact div_self (by exact_mod_cast h0)
    rw [this, one_mul, updateLhs_homog_translation]
  · rw [interp_at, interp_at, updateLhs_homog_translation, smul_add, smul_smul]

end PlaneReg

/-- C65, second order, for two poses: along a translation of the last pose the cost of the estimated planes is the quadratic
polynomial given by the gradient and the Hessian of the code.  Missing: rotations (see `C63_fails`) and more poses. -/
theorem C65_hessian_two_poses_partial (e : EigSolver) (s : PlaneReg) (T : SE3) (h : s.Ready T) (hn : s.numberPoses = 2)
    (hT : IsRigid T.T) (g : Vec6) (H : Mat6) (s' : PlaneReg) (hg : s.gradHess6 e = .ok ((g, H), s')) (v : Vec3) :
    ∃ c, ∀ k : ℝ, s'.lastCost (k • vec6 0 v) =
      .ok (c + k * (g ⬝ᵥ vec6 0 v) + k ^ 2 / 2 * ∑ i, ∑ j, v i * v j * H (.inr i) (.inr j)) := by
  refine ⟨(s.planes.map fun q => ∑ t ∈ Finset.range s.numberPoses,
    cloudCost (planeOf e s q.2) (poseAt s.numberPoses T t).T (q.2.cloudAt t)).sum, fun k => (lastCost_translation h hT.lastRow hg v k fun t ht => ?_).trans ?_⟩
  · rw [hn] at ht ⊢
    have : t = 0 ∨ t = 1 := by omega
    rcases this with rfl | rfl
    · simp only [Nat.cast_zero, zero_div, zero_mul]
      rw [updateLhs_zero_smul, poseAt, poseAt, if_pos rfl, if_pos rfl]
    · have e1 : ((1 : ℕ) : ℝ) / ((2 : ℕ) - 1) * k = k := by norm_num
      rw [e1, poseAt, poseAt, if_neg one_ne_zero, if_pos (by norm_num), if_neg one_ne_zero, if_pos (by norm_num)]
  · congr 2
    have e1 : ∑ i, ∑ j, v i * v j * H (.inr i) (.inr j) = 2 * (s.planes.map fun q => ∑ t ∈ Finset.range s.numberPoses,
        ((t : ℝ) / ((s.numberPoses : ℝ) - 1)) ^ 2 * ((q.2.cloudAt t).length * (∑ i, planeOf e s q.2 (.inl i) * v i) ^ 2)).sum := by
      simp only [fun i j => h.hess hT.lastRow hg i j, hn]
      generalize s.planes = l
      induction l with
      | nil => simp
      | cons a l ih =>
        simp only [List.map_cons, List.sum_cons, mul_add, Finset.sum_add_distrib, ih]
        congr 1
        simp only [Finset.sum_range_succ, Finset.sum_range_zero, Fin.sum_univ_three]
        push_cast
        ring
    rw [e1]
    ring

/-- C65, second order, is false for three poses: five points are seen from the middle pose, all poses are the identity.
The entry of the Hessian for translations along `z` is `5/2`, the second derivative of the cost of the estimated plane when
the last pose moves along `z` is `5/4`: the code weights with `t/(n-1)` instead of its square. -/
theorem C65_hessian_fails (e : EigSolver) (he : e.Sound) (svd : Mat3 → SVD3) : ∃ s g H s' c,
    PlaneReg.run e svd (Demo.fiveOps 0) (OptDense.new PlaneReg.new) = .ok s ∧ s.obj.gradHess6 e = .ok ((g, H), s') ∧
    H (.inr 2) (.inr 2) = 5 / 2 ∧
    ∀ k : ℝ, s'.lastCost (k • vec6 0 ![0, 0, 1]) = .ok (c + k * (g ⬝ᵥ vec6 0 ![0, 0, 1]) + k ^ 2 / 2 * (5 / 4)) := by
  have hr := Demo.fiveReg_ready 0
  have hT : LastRow (Demo.fiveLast 0).T := (isRigid_homog isRotation_one _).lastRow
  obtain ⟨s', h1, -, -, -⟩ := gradHess6_value (e := e) hr.wf (by rfl) hr.time
  obtain ⟨c, hc, hpl⟩ := Demo.five_plane he 0
  have h0 : (Demo.fivePlane 0).cloudAt 0 = [] := rfl
  have h2 : (Demo.fivePlane 0).cloudAt 1 = Demo.five 0 := rfl
  have h3 : (Demo.fivePlane 0).cloudAt 2 = [] := rfl
  have hps : (Demo.fiveReg 0).planes = [(0, Demo.fivePlane 0)] := rfl
  have hnp : (Demo.fiveReg 0).numberPoses = 3 := rfl
  refine ⟨_, _, _, s', ((Demo.fiveReg 0).planes.map fun q => ∑ t ∈ Finset.range (Demo.fiveReg 0).numberPoses,
    cloudCost (planeOf e (Demo.fiveReg 0) q.2) (poseAt (Demo.fiveReg 0).numberPoses (Demo.fiveLast 0) t).T (q.2.cloudAt t)).sum,
    Demo.fiveOps_run e svd 0, h1, ?_, fun k => (lastCost_translation hr hT h1 ![0, 0, 1] k
    fun t _ => poseAt_translation hr.two _ _ _ t).trans ?_⟩
  · have := hr.hess hT h1 2 2
    refine this.trans ?_
    rw [hps, List.map_singleton, List.sum_singleton, hpl, hnp, Finset.sum_range_succ, Finset.sum_range_succ,
      Finset.sum_range_one, h0, h2, h3]
    simp [Demo.five]
    linear_combination 5 * hc
  · congr 2
    rw [hps, List.map_singleton, List.sum_singleton, hpl, hnp, Finset.sum_range_succ, Finset.sum_range_succ,
      Finset.sum_range_one, h0, h2, h3]
    simp [Demo.five, Fin.sum_univ_three]
    linear_combination k ^ 2 * (5 / 4) * hc

/-- The hypotheses of the statements above are met: the objects used here are ready, and one of two poses. -/
example (e : EigSolver) (svd : Mat3 → SVD3) : ∃ s g H s',
    PlaneReg.run e svd [.setNumbers 1 2, .addNewPlane 0, .pushPoint 0 1 ![1, 2, 3]] (OptDense.new PlaneReg.new) = .ok s ∧
    s.obj.Ready SE3.default ∧ s.obj.numberPoses = 2 ∧ s.obj.gradHess6 e = .ok ((g, H), s') := by
  obtain ⟨s, hs, hp⟩ : ∃ s, PlaneReg.run e svd [.setNumbers 1 2, .addNewPlane 0, .pushPoint 0 1 ![1, 2, 3]]
      (OptDense.new PlaneReg.new) = .ok s ∧ s.obj.planes = [(0, { Plane.new 2 with points := [[], [![1, 2, 3]]], numberPoints := 1 })] ∧
      s.obj.numberPoses = 2 ∧ s.obj.traj = List.replicate 2 SE3.default := ⟨_, rfl, rfl, rfl, rfl⟩
  have hr : s.obj.Ready SE3.default := by
    refine ⟨run_inv new_inv hs, hp.2.1.ge, interpolated_replicate (by rw [hp.2.1]; exact hp.2.2), ?_, ?_, ?_, by rw [hp.2.2]; rfl⟩
    all_goals
      intro q hq
      rw [hp.1] at hq
      obtain rfl := List.mem_singleton.mp hq
    · exact ⟨rfl, Or.inl rfl⟩
    · exact Or.inl rfl
    · rw [hp.2.1]; rfl
  obtain ⟨s', h1, -, -, -⟩ := gradHess6_value (e := e) hr.wf (by rw [hp.2.1, hp.2.2]; rfl) hr.time
  exact ⟨s, _, _, s', hs, hr, hp.2.1, h1⟩

end Mrob
