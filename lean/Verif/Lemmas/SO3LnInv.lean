import Verif.Lemmas.SO3Ln
import Verif.Lemmas.SO3Bounds

/-! `SO3::ln` against `SO3::exp`. -/

open Matrix

namespace Mrob

open Spec

theorem angle_eq (R : Mat3) : angle R = Real.arccos (cosOf R) := by
  rw [angle, cosOf]; congr 1; norm_num; ring

theorem rot_eq_one_of_cosOf {R : Mat3} (h : IsRotation R) (hc : cosOf R = 1) : R = 1 := by
  have hu : skewVec R = 0 := by rw [← sqNorm_eq_zero, sqNorm_skewVec h, hc]; norm_num
  have := rot_eq_rod h (by rw [hc]; norm_num)
  rw [this, hu, rod_at_zero]

theorem lnVee_one : (SO3.mk (1 : Mat3)).lnVee = 0 := by
  have h1 : cosOf (1 : Mat3) = 1 := by rw [cosOf_eq]; simp
  have h2 := cacos_cosOf isRotation_one
  rw [h1, Real.arccos_one] at h2
  rw [SO3.lnVee, SO3.ln, so3Ln_unfold, h1, h2]
  have : (1:ℝ) > -1 + 1 := by norm_num
  simp only [this, if_true]
  rw [lnSmall, if_pos (by norm_num)]
  funext i; fin_cases i <;> simp [vee3]

theorem tie_aux {A B C s : ℝ} (hA : 0 ≤ A) (hB : 0 ≤ B) (hC : 0 ≤ C) (h1 : 2 * s = A + B + 2 * C)
    (h2 : s * s = A * B) : C = 0 ∧ A = B := by
  have hsq : (A - B) ^ 2 + 4 * (C * (A + B)) + 4 * C ^ 2 = 0 := by
    have : 4 * (s * s) = (A + B + 2 * C) ^ 2 := by rw [← h1]; ring
    rw [h2] at this
    linear_combination -this
  have a1 : 0 ≤ C * (A + B) := mul_nonneg hC (add_nonneg hA hB)
  have a2 := sq_nonneg (A - B)
  have a3 := sq_nonneg C
  have hC2 : C ^ 2 = 0 := by linarith
  have hAB : (A - B) ^ 2 = 0 := by linarith
  exact ⟨by simpa using hC2, sub_eq_zero.mp (by simpa using hAB)⟩

/-- The zero-column rotations are those with a horizontal diagonal as axis. -/
theorem badAxis_iff {R : Mat3} (h : IsRotation R) (hc : cosOf R ≠ 1) :
    BadAxis R ↔ FixesDiagonal R := by
  have dist : ∀ a : Vec3, R *ᵥ a = a ↔ a ⬝ᵥ (R *ᵥ a) = a ⬝ᵥ a := by
    intro a
    constructor
    · intro h'; rw [h']
    · intro h'
      have h1 := sqNorm_rot h a
      have : sqNorm (R *ᵥ a - a) = 0 := by
        rw [sqNorm_eq_dot] at *
        rw [sub_dotProduct, dotProduct_sub, dotProduct_sub, h', dotProduct_comm (R *ᵥ a) a, h']
        rw [sqNorm_eq_dot] at h1
        rw [h1]; ring
      exact sub_eq_zero.mp (sqNorm_eq_zero.mp this)
  rw [FixesDiagonal, dist, dist]
  have q1 : (![1, 1, 0] : Vec3) ⬝ᵥ (R *ᵥ ![1, 1, 0]) = R 0 0 + R 0 1 + R 1 0 + R 1 1 := by
    simp [dotProduct, mulVec, Fin.sum_univ_three]; ring
  have q2 : (![1, -1, 0] : Vec3) ⬝ᵥ (R *ᵥ ![1, -1, 0]) = R 0 0 - R 0 1 - R 1 0 + R 1 1 := by
    simp [dotProduct, mulVec, Fin.sum_univ_three]; ring
  have q3 : (![1, 1, 0] : Vec3) ⬝ᵥ ![1, 1, 0] = 2 := by simp [dotProduct, Fin.sum_univ_three]; norm_num
  have q4 : (![1, -1, 0] : Vec3) ⬝ᵥ ![1, -1, 0] = 2 := by simp [dotProduct, Fin.sum_univ_three]; norm_num
  rw [q1, q2, q3, q4]
  have m01 := symS_minor h 0 1 0
  have m := symS_minor h 0 0 1
  have p0 := symS_diag_nonneg h 0
  have p1 := symS_diag_nonneg h 1
  have p2 := symS_diag_nonneg h 2
  have ht := symS_trace R
  have hlt : cosOf R < 1 := lt_of_le_of_ne (cosOf_le_one h) hc
  simp only [symS, of_apply, if_true, cosOf_eq] at m p0 p1 p2 ht
  simp at m
  rw [cosOf_eq] at hlt
  rw [BadAxis]
  constructor
  · rintro ⟨e1, e2⟩
    rw [← e1, e2] at m
    have h01 : (R 0 1 + R 1 0) / 2 * ((R 0 1 + R 1 0) / 2) = (1 - R 0 0) * (1 - R 0 0) := by
      linarith
    rcases mul_self_eq_mul_self_iff.mp h01 with h' | h'
    · left; linarith
    · right; linarith
  · intro h'
    have key : ∀ s : ℝ, s * s = (R 0 1 + R 1 0) / 2 * ((R 0 1 + R 1 0) / 2) →
        R 0 0 + 2 * s + R 1 1 = 2 → R 0 0 = R 1 1 ∧ R 2 2 = 2 * R 0 0 - 1 := by
      intro s hs hh
      have m' : s * s = (R 0 0 - (R 0 0 + R 1 1 + R 2 2 - 1) / 2)
          * (R 1 1 - (R 0 0 + R 1 1 + R 2 2 - 1) / 2) := by linarith
      obtain ⟨e1, e2⟩ := tie_aux (A := R 0 0 - (R 0 0 + R 1 1 + R 2 2 - 1) / 2)
        (B := R 1 1 - (R 0 0 + R 1 1 + R 2 2 - 1) / 2)
        (C := R 2 2 - (R 0 0 + R 1 1 + R 2 2 - 1) / 2) (s := s) (by linarith) (by linarith)
        (by linarith) (by linarith) m'
      constructor <;> linarith
    rcases h' with h' | h'
    · exact key ((R 0 1 + R 1 0) / 2) rfl (by linarith)
    · exact key (-((R 0 1 + R 1 0) / 2)) (by ring) (by linarith)

/-- Norm of the logarithm in the generic case. -/
theorem vnorm_lnVec {R : Mat3} (h : IsRotation R) (h0 : 0 < Real.arccos (cosOf R))
    (hpi : Real.arccos (cosOf R) < Real.pi) :
    vnorm ((Real.arccos (cosOf R) / Real.sin (Real.arccos (cosOf R))) • skewVec R)
      = Real.arccos (cosOf R) := by
  have hs : 0 < Real.sin (Real.arccos (cosOf R)) := Real.sin_pos_of_pos_of_lt_pi h0 hpi
  rw [vnorm_smul, vnorm_skewVec h, abs_of_pos (div_pos h0 hs)]
  field_simp

/-- Exponential of the exact logarithm. -/
theorem ofVec_lnVec {R : Mat3} (h : IsRotation R) (h0 : 1e-5 ≤ Real.arccos (cosOf R))
    (hpi : Real.arccos (cosOf R) < Real.pi) :
    (SO3.ofVec ((Real.arccos (cosOf R) / Real.sin (Real.arccos (cosOf R))) • skewVec R)).R = R := by
  have hpos : 0 < Real.arccos (cosOf R) := lt_of_lt_of_le (by norm_num) h0
  have hv := vnorm_lnVec h hpos hpi
  have hcos := cos_arccos_cosOf h
  set o := Real.arccos (cosOf R) with ho
  have hs : 0 < Real.sin o := Real.sin_pos_of_pos_of_lt_pi hpos hpi
  have hc : cosOf R ≠ -1 := by
    intro h'
    rw [h', Real.arccos_neg_one] at ho
    linarith
  rw [ofVec_R, ← vnorm_sq, hv, expC1_of_ge h0, expC2_of_ge h0, rod_smul]
  conv_rhs => rw [rot_eq_rod h hc]
  have hne : 1 + cosOf R ≠ 0 := fun h' => hc (by linarith)
  have e : Real.sin o ^ 2 = (1 - cosOf R) * (1 + cosOf R) := by
    rw [Real.sin_sq, hcos]; ring
  have hone : (1 - cosOf R) ≠ 0 := by
    intro h'
    rw [h', zero_mul] at e
    nlinarith
  congr 1
  · field_simp
  · rw [hcos, div_pow, e]
    field_simp

/-- Exponential of the logarithm of a half turn. -/
theorem ofVec_half_turn {R : Mat3} (h : IsRotation R) (hc : cosOf R = -1) {n : Vec3}
    (hn : sqNorm n = 1) (hS : ∀ i j, 2 * (n i * n j) = symS R i j) :
    (SO3.ofVec (Real.pi • n)).R = R := by
  have hv : vnorm (Real.pi • n) = Real.pi := by
    rw [vnorm_smul, vnorm, hn, Real.sqrt_one, mul_one, abs_of_pos Real.pi_pos]
  have hp : (1e-5 : ℝ) ≤ Real.pi := by have := Real.two_le_pi; norm_num; linarith
  have hu : skewVec R = 0 := by
    rw [← sqNorm_eq_zero, sqNorm_skewVec h, hc]; norm_num
  rw [ofVec_R, ← vnorm_sq, hv, expC1_of_ge hp, expC2_of_ge hp, rod_smul, Real.sin_pi, Real.cos_pi,
    rod, hat3_sq, hn]
  have hpi : Real.pi ≠ 0 := Real.pi_ne_zero
  have e : (1 - -1) / Real.pi ^ 2 * Real.pi ^ 2 = 2 := by field_simp; norm_num
  rw [e]
  have u0 := congrFun hu 0
  have u1 := congrFun hu 1
  have u2 := congrFun hu 2
  simp [skewVec] at u0 u1 u2
  ext i j
  have hij := hS i j
  simp only [symS, of_apply, hc] at hij
  simp only [zero_div, zero_mul, zero_smul, add_zero, Matrix.add_apply, Matrix.smul_apply,
    Matrix.sub_apply, vecMulVec_apply, smul_eq_mul, one_smul]
  fin_cases i <;> fin_cases j <;> simp at hij ⊢ <;> linarith

theorem rotX_isRotation (a : ℝ) : IsRotation (rotX a) := by
  have h := Real.sin_sq_add_cos_sq a
  constructor
  · ext i j
    fin_cases i <;> fin_cases j <;> simp [rotX, Matrix.mul_apply, Fin.sum_univ_three] <;> nlinarith
  · simp [rotX, det_fin_three]; nlinarith

theorem rotY_isRotation (a : ℝ) : IsRotation (rotY a) := by
  have h := Real.sin_sq_add_cos_sq a
  constructor
  · ext i j
    fin_cases i <;> fin_cases j <;> simp [rotY, Matrix.mul_apply, Fin.sum_univ_three] <;> nlinarith
  · simp [rotY, det_fin_three]; nlinarith

theorem rotZ_isRotation (a : ℝ) : IsRotation (rotZ a) := by
  have h := Real.sin_sq_add_cos_sq a
  constructor
  · ext i j
    fin_cases i <;> fin_cases j <;> simp [rotZ, Matrix.mul_apply, Fin.sum_univ_three] <;> nlinarith
  · simp [rotZ, det_fin_three]; nlinarith

theorem angle_rotX {a : ℝ} (h0 : 0 ≤ a) (h1 : a ≤ Real.pi) : angle (rotX a) = a := by
  rw [angle, trace_fin_three]
  have : ((rotX a) 0 0 + (rotX a) 1 1 + (rotX a) 2 2 - 1) / 2 = Real.cos a := by
    simp [rotX]; ring
  rw [this, Real.arccos_cos h0 h1]

end Mrob
