import Verif.Lemmas.Distance

/-! # Property C14: distances between poses -/

open Matrix

namespace Mrob

open Spec

theorem vnorm_sub_le3 (x y z : Vec3) : vnorm (x - z) ≤ vnorm (x - y) + vnorm (y - z) := by
  have e : ∀ v : Vec3, vnorm v = ‖(WithLp.toLp 2 v : EuclideanSpace ℝ (Fin 3))‖ := by
    intro v
    rw [EuclideanSpace.norm_eq, vnorm, sqNorm]
    congr 1
    exact Finset.sum_congr rfl fun i _ => by simp [sq]
  rw [e, e, e]
  have := norm_add_le (WithLp.toLp 2 (x - y) : EuclideanSpace ℝ (Fin 3)) (WithLp.toLp 2 (y - z))
  rw [← WithLp.toLp_add, sub_add_sub_cancel] at this
  exact this

/-- `SO3::distance` and `SE3::distance_rotation` are never negative, symmetric, zero between poses with
the same rotation, and at most `π`. -/
theorem C14_rotation {a b : SE3} (ha : IsRigid a.T) (hb : IsRigid b.T) :
    0 ≤ a.distanceRotation b ∧ a.distanceRotation b = b.distanceRotation a ∧
      (a.R = b.R → a.distanceRotation b = 0) ∧ a.distanceRotation b ≤ Real.pi ∧
      a.distanceRotation b = (SO3.mk a.R).distance (SO3.mk b.R) := by
  refine ⟨vnorm_nonneg _, ?_, fun h => ?_, ?_, rfl⟩
  · rw [SE3.distanceRotation, SE3.distanceRotation, ← vnorm_lnVee_transpose (a.R * b.Rᵀ), transpose_mul,
      transpose_transpose]
  · rw [SE3.distanceRotation, h, (rigid_R hb).1, lnVee_one, vnorm_eq_zero.mpr rfl]
  · have := C07_norm_le_pi ((rigid_R ha).mul (rigid_R hb).transpose)
    rwa [len_eq_vnorm] at this

/-- The rotation distance vanishes only between equal rotations, unless the relative rotation is a right
angle or more about a horizontal diagonal.  Missing for the full property: that case, where it fails
(`C14_rotation_zero_fails`). -/
theorem C14_rotation_zero_iff_partial {a b : SE3} (ha : IsRigid a.T) (hb : IsRigid b.T)
    (hax : angle (a.R * b.Rᵀ) < Real.pi / 2 ∨ ¬ FixesDiagonal (a.R * b.Rᵀ)) :
    a.distanceRotation b = 0 ↔ a.R = b.R := by
  constructor
  · intro h
    have h1 := (C07_zero_iff_partial ((rigid_R ha).mul (rigid_R hb).transpose) hax).mp
      (vnorm_eq_zero.mp h)
    calc a.R = a.R * b.Rᵀ * b.R := by rw [Matrix.mul_assoc, (rigid_R hb).transpose_mul, mul_one]
      _ = b.R := by rw [h1, one_mul]
  · exact (C14_rotation ha hb).2.2.1

/-- Two poses with different rotations meeting the hypotheses. -/
example : IsRigid (homog quarterZ ![1, 2, 3] 1) ∧ IsRigid (homog 1 ![0, 0, 1] 1) ∧
    ¬ FixesDiagonal (quarterZ * (1 : Mat3)ᵀ) := by
  refine ⟨isRigid_homog quarterZ_isRotation _, isRigid_homog isRotation_one _, ?_⟩
  rw [transpose_one, mul_one]
  rintro (h | h)
  · have h0 := congrFun h 0
    simp [quarterZ, mulVec, dotProduct, Fin.sum_univ_three] at h0
    norm_num at h0
  · have h1 := congrFun h 1
    simp [quarterZ, mulVec, dotProduct, Fin.sum_univ_three] at h1
    norm_num at h1

/-- The unrestricted claim is false: a half turn about a horizontal diagonal has rotation distance zero,
and full distance zero, from the identity. -/
theorem C14_rotation_zero_fails : ∃ a b : SE3, IsRigid a.T ∧ IsRigid b.T ∧ a.R ≠ b.R ∧
    a.distanceRotation b = 0 ∧ a.distance b = 0 := by
  have hang : angle halfDiag = Real.pi := by
    rw [angle, trace_fin_three]; simp [halfDiag]; norm_num
  have hd := C05_diagonal_fails halfDiag_isRotation (Or.inl (by
      funext i; fin_cases i <;> simp [halfDiag, mulVec, dotProduct, Fin.sum_univ_three]))
    (by rw [hang]; have := Real.pi_pos; linarith) (Or.inr hang)
  have hr : IsRigid (SE3.mk (homog halfDiag 0 1)).T := isRigid_homog halfDiag_isRotation 0
  have h1 : IsRigid (SE3.mk (homog 1 0 1)).T := isRigid_homog isRotation_one 0
  have hRa : (SE3.mk (homog halfDiag 0 1)).R = halfDiag := R_mk_homog _ _ _
  have hRb : (SE3.mk (homog 1 0 1)).R = 1 := R_mk_homog _ _ _
  refine ⟨SE3.mk (homog halfDiag 0 1), SE3.mk (homog 1 0 1), hr, h1, by rw [hRa, hRb]; exact hd.2.2, ?_, ?_⟩
  · rw [SE3.distanceRotation, hRa, hRb, transpose_one, mul_one, hd.1, vnorm_eq_zero.mpr rfl]
  · have e : (SE3.mk (homog halfDiag 0 1)).mul (SE3.mk (homog 1 0 1)).inv = SE3.mk (homog halfDiag 0 1) := by
      ext1
      change homog halfDiag 0 1 * (SE3.mk (homog 1 0 1)).inv.T = _
      rw [inv_T, hRb, t_mk_homog, mulVec_zero, transpose_one, homog_one, mul_one]
    rw [SE3.distance, e, se3_lnVee hr, hRa, t_mk_homog, hd.1, mulVec_zero, vnorm_eq_zero]
    funext i; rcases i with i | i <;> rfl

/-- `SE3::distance_trans` is a pseudo-metric on poses and a metric on their translations. -/
theorem C14_trans (a b c : SE3) :
    0 ≤ a.distanceTrans b ∧ a.distanceTrans b = b.distanceTrans a ∧
      (a.distanceTrans b = 0 ↔ a.t = b.t) ∧
      a.distanceTrans c ≤ a.distanceTrans b + b.distanceTrans c := by
  refine ⟨vnorm_nonneg _, ?_, ?_, vnorm_sub_le3 _ _ _⟩
  · rw [SE3.distanceTrans, SE3.distanceTrans, ← vnorm_neg, neg_sub]
  · rw [SE3.distanceTrans, vnorm_eq_zero, sub_eq_zero]

/-- `SE3::distance` is never negative and zero between equal poses. -/
theorem C14_distance {a : SE3} (ha : IsRigid a.T) (b : SE3) : 0 ≤ a.distance b ∧ a.distance a = 0 := by
  refine ⟨vnorm_nonneg _, ?_⟩
  rw [SE3.distance, (C10_inverse ha ha).2.1, vnorm_eq_zero]
  have h1 : IsRigid SE3.default.T := by
    change IsRigid 1
    rw [← homog_one]; exact isRigid_homog isRotation_one 0
  have hR : SE3.default.R = 1 := by rw [SE3.R, SE3.default, ← homog_one, tl3_homog]
  have ht : SE3.default.t = 0 := by rw [SE3.t, SE3.default, ← homog_one, tr3_homog]
  rw [se3_lnVee h1, hR, ht, lnVee_one, mulVec_zero]
  funext i; rcases i with i | i <;> rfl

/-- `SE3::distance` is symmetric unless the relative rotation is within `6e-8` of, but not exactly, a half
turn.  Missing for the full property: that band. -/
theorem C14_distance_symm_partial {a b : SE3} (ha : IsRigid a.T) (hb : IsRigid b.T)
    (hhi : angle (a.R * b.Rᵀ) ≤ Real.pi - 6e-8 ∨ angle (a.R * b.Rᵀ) = Real.pi) :
    a.distance b = b.distance a := by
  have hab := mul_isRigid ha (inv_isRigid hb)
  have hR : (a.mul b.inv).R = a.R * b.Rᵀ := by rw [mul_R ha (inv_isRigid hb), inv_R]
  have e : b.mul a.inv = (a.mul b.inv).inv := by
    rw [(C10_inverse ha (inv_isRigid hb)).2.2.2, (C10_inverse hb hb).2.2.1]
  rw [SE3.distance, SE3.distance, e, vnorm_se3_ln_inv hab (by rwa [hR])]

example : angle (quarterZ * (1 : Mat3)ᵀ) ≤ Real.pi - 6e-8 := by
  have hp := Real.two_le_pi
  rw [transpose_one, mul_one, angle, trace_fin_three]
  simp [quarterZ]
  norm_num
  linarith

/-- Off the diagonals `SE3::distance` vanishes only between equal poses. -/
theorem C14_distance_zero_iff_partial {a b : SE3} (ha : IsRigid a.T) (hb : IsRigid b.T)
    (hax : angle (a.R * b.Rᵀ) < Real.pi / 2 ∨ ¬ FixesDiagonal (a.R * b.Rᵀ)) :
    a.distance b = 0 ↔ a = b := by
  constructor
  · intro h
    have hab := mul_isRigid ha (inv_isRigid hb)
    have hR : (a.mul b.inv).R = a.R * b.Rᵀ := by rw [mul_R ha (inv_isRigid hb), inv_R]
    have h0 := vnorm_eq_zero.mp h
    rw [se3_lnVee hab, hR] at h0
    have hw : (SO3.mk (a.R * b.Rᵀ)).lnVee = 0 := by
      funext i; exact congrFun h0 (Sum.inl i)
    have hv : vInv (so3Ln (a.R * b.Rᵀ)).2 (SO3.mk (a.R * b.Rᵀ)).lnVee *ᵥ (a.mul b.inv).t = 0 := by
      funext i; exact congrFun h0 (Sum.inr i)
    rw [hw, vInv_zero, one_mulVec] at hv
    have h1 := (C07_zero_iff_partial ((rigid_R ha).mul (rigid_R hb).transpose) hax).mp hw
    have hone : a.mul b.inv = SE3.default := by
      ext1
      rw [rigid_T hab, hR, h1, hv, homog_one]; rfl
    have h2 : a.T * b.inv.T = 1 := congrArg SE3.T hone
    ext1
    calc a.T = a.T * (b.inv.T * b.T) := by rw [inv_mul_cancel' hb, mul_one]
      _ = b.T := by rw [← mul_assoc, h2, one_mul]
  · rintro rfl
    exact (C14_distance ha a).2

end Mrob
