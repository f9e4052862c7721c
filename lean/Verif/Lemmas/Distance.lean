import Verif.Props.SE3Ln
import Verif.Props.SE3

/-! Logarithm of the inverse. -/

open Matrix

namespace Mrob

open Spec

theorem cosOf_transpose (R : Mat3) : cosOf Rᵀ = cosOf R := by rw [cosOf, cosOf, trace_transpose]

theorem skewVec_transpose (R : Mat3) : skewVec Rᵀ = -skewVec R := by
  funext i; fin_cases i <;> simp [skewVec] <;> ring

open Classical in
theorem lnColumn_transpose (R : Mat3) (d : ℝ) : lnColumn Rᵀ d = lnColumn R d := by
  unfold lnColumn
  simp only [transpose_apply]
  rw [add_comm (R 1 0) (R 0 1), add_comm (R 2 0) (R 0 2), add_comm (R 2 1) (R 1 2)]
  by_cases h1 : R 0 0 > R 1 1 ∧ R 0 0 > R 2 2
  · exact (if_pos h1).trans (if_pos h1).symm
  · refine (if_neg h1).trans (Eq.trans ?_ (if_neg h1).symm)
    by_cases h2 : R 1 1 > R 0 0 ∧ R 1 1 > R 2 2
    · exact (if_pos h2).trans (if_pos h2).symm
    · exact (if_neg h2).trans (if_neg h2).symm

theorem lnSign_cases (R : Mat3) (M : Mat3) : lnSign R M = M ∨ lnSign R M = -M := by
  rw [lnSign]; split_ifs
  · right; rw [neg_one_smul]
  · left; rfl

/-- `SO3::ln` of the transpose of any matrix is the same logarithm up to sign, with the same angle. -/
theorem so3Ln_transpose (R : Mat3) : (so3Ln Rᵀ).2 = (so3Ln R).2 ∧
    ((so3Ln Rᵀ).1 = (so3Ln R).1 ∨ (so3Ln Rᵀ).1 = -(so3Ln R).1) := by
  rw [so3Ln_unfold, so3Ln_unfold, cosOf_transpose]
  split_ifs with h
  · rcases cacos (cosOf R) with _ | o
    · exact ⟨rfl, Or.inl (by simp [lnSmall])⟩
    · rw [lnSmall, lnSmall]
      split_ifs
      · refine ⟨rfl, Or.inr ?_⟩
        rw [transpose_transpose, ← smul_neg, neg_sub]
      · refine ⟨rfl, Or.inr ?_⟩
        rw [transpose_transpose, ← smul_neg, neg_sub]
  · unfold lnLarge
    simp only [lnColumn_transpose]
    refine ⟨trivial, ?_⟩
    set M := hat3 _
    rcases lnSign_cases R M with h1 | h1 <;> rcases lnSign_cases Rᵀ M with h2 | h2 <;> rw [h1, h2] <;> simp

theorem lnVee_transpose (R : Mat3) :
    (SO3.mk Rᵀ).lnVee = (SO3.mk R).lnVee ∨ (SO3.mk Rᵀ).lnVee = -(SO3.mk R).lnVee := by
  simp only [SO3.lnVee, SO3.ln]
  rcases (so3Ln_transpose R).2 with h | h
  · left; rw [h]
  · right; rw [h, vee3_neg]

theorem vnorm_lnVee_transpose (R : Mat3) : vnorm (SO3.mk Rᵀ).lnVee = vnorm (SO3.mk R).lnVee := by
  rcases lnVee_transpose R with h | h
  · rw [h]
  · rw [h, vnorm_neg]

/-- A rotation fixes the vector of its skew part. -/
theorem rot_skewVec {R : Mat3} (h : IsRotation R) : R *ᵥ skewVec R = skewVec R := by
  have e := rot_conj_hat3 h (skewVec R)
  have e2 : R * hat3 (skewVec R) * Rᵀ = hat3 (skewVec R) := by
    have s := sub_transpose_eq R
    have : hat3 (skewVec R) = (1 / 2 : ℝ) • (R - Rᵀ) := by rw [s, smul_smul]; norm_num
    rw [this, mul_smul_comm, smul_mul_assoc, mul_sub, sub_mul, h.1, Matrix.mul_assoc, h.1, mul_one, one_mul]
  rw [e2] at e
  have := congrArg vee3 e
  rw [vee3_hat3, vee3_hat3] at this
  exact this.symm

theorem rod_mulVec_self (a b : ℝ) (w : Vec3) : rod a b w *ᵥ w = w := by
  have : hat3 w *ᵥ w = 0 := by
    funext i; fin_cases i <;> simp [hat3, mulVec, dotProduct, Fin.sum_univ_three] <;> ring
  rw [rod, add_mulVec, add_mulVec, smul_mulVec, smul_mulVec, ← mulVec_mulVec, this]
  simp

/-- Outside the approximated band next to `π` a rotation fixes its logarithm. -/
theorem rot_lnVee {R : Mat3} (h : IsRotation R)
    (hhi : angle R ≤ Real.pi - 6e-8 ∨ angle R = Real.pi) :
    R *ᵥ (SO3.mk R).lnVee = (SO3.mk R).lnVee := by
  by_cases hax : angle R < Real.pi / 2 ∨ ¬ FixesDiagonal R
  · by_cases hs : angle R < 1e-5
    · rw [angle_eq] at hs
      rw [SO3.lnVee, SO3.ln, so3Ln_small h hs, vee3_hat3, mulVec_smul, rot_skewVec h]
    · have e := C05_exp_ln_partial h (Or.inr (not_lt.mp hs)) hhi hax
      calc R *ᵥ (SO3.mk R).lnVee = (SO3.ofVec (SO3.mk R).lnVee).R *ᵥ (SO3.mk R).lnVee := by rw [e]
        _ = _ := by rw [ofVec_R]; exact rod_mulVec_self _ _ _
  · push Not at hax
    rw [(C05_diagonal_fails h hax.2 hax.1 hhi).1, mulVec_zero]

theorem sqNorm_mulVec (M : Mat3) (x : Vec3) : sqNorm (M *ᵥ x) = x ⬝ᵥ ((Mᵀ * M) *ᵥ x) := by
  rw [sqNorm_eq_dot, ← mulVec_mulVec, dotProduct_mulVec x, ← mulVec_transpose, transpose_transpose]

theorem sqNorm_rod_neg (a b : ℝ) (w x : Vec3) : sqNorm (rod a b (-w) *ᵥ x) = sqNorm (rod a b w *ᵥ x) := by
  rw [sqNorm_mulVec, sqNorm_mulVec, rod_neg, rod_transpose, rod_transpose, rod_mul_rod, rod_mul_rod]
  congr 3 <;> ring

theorem sqNorm_vec6 (w v : Vec3) : sqNorm (vec6 w v) = sqNorm w + sqNorm v := by
  rw [sqNorm, Fintype.sum_sum_type]; rfl

/-- `SE3::ln` of the inverse has the same length, outside the approximated band next to `π`. -/
theorem vnorm_se3_ln_inv {a : SE3} (h : IsRigid a.T)
    (hhi : angle a.R ≤ Real.pi - 6e-8 ∨ angle a.R = Real.pi) :
    vnorm a.inv.lnVee = vnorm a.lnVee := by
  have hR := rigid_R h
  rw [vnorm, vnorm, se3_lnVee h, se3_lnVee (inv_isRigid h), inv_R, inv_t, sqNorm_vec6, sqNorm_vec6,
    (so3Ln_transpose a.R).1]
  set o := (so3Ln a.R).2
  set w := (SO3.mk a.R).lnVee with hw
  have hfix : a.R *ᵥ w = w := rot_lnVee hR hhi
  have hfixT : a.Rᵀ *ᵥ w = w := by
    conv_lhs => rw [← hfix]
    rw [mulVec_mulVec, hR.transpose_mul, one_mulVec]
  have hcomm : vInv o w * a.Rᵀ = a.Rᵀ * vInv o w := by
    rw [vInv, rot_mul_rod hR.transpose, hfixT]
  have hbase : sqNorm (vInv o w *ᵥ ((-a.Rᵀ) *ᵥ a.t)) = sqNorm (vInv o w *ᵥ a.t) := by
    rw [neg_mulVec, mulVec_neg, mulVec_mulVec, hcomm, ← mulVec_mulVec, ← sqNorm_rot hR.transpose (vInv o w *ᵥ a.t)]
    simp [sqNorm]
  rcases lnVee_transpose a.R with e | e
  · rw [e, ← hw, hbase]
  · rw [e, ← hw]
    congr 1
    rw [vInv, sqNorm_rod_neg]
    change _ + sqNorm (vInv o w *ᵥ _) = _
    rw [hbase]
    simp [sqNorm]

end Mrob
