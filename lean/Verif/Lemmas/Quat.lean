import Verif.Lemmas.SO3LnInv
import Mathlib.Algebra.Quaternion

/-! Quaternion to matrix conversion. -/

open Matrix

namespace Mrob

open Spec

/-- Homogeneous quadratic form of the conversion, for coefficients `(x,y,z,w)`. -/
def quatQ (v : Fin 4 → ℝ) : Mat3 :=
  !![v 3 ^ 2 + v 0 ^ 2 - v 1 ^ 2 - v 2 ^ 2, 2 * (v 0 * v 1 - v 2 * v 3), 2 * (v 0 * v 2 + v 1 * v 3);
     2 * (v 0 * v 1 + v 2 * v 3), v 3 ^ 2 - v 0 ^ 2 + v 1 ^ 2 - v 2 ^ 2, 2 * (v 1 * v 2 - v 0 * v 3);
     2 * (v 0 * v 2 - v 1 * v 3), 2 * (v 1 * v 2 + v 0 * v 3), v 3 ^ 2 - v 0 ^ 2 - v 1 ^ 2 + v 2 ^ 2]

/-- Quaternion product on coefficient vectors `(x,y,z,w)`. -/
def quatMul (a b : Fin 4 → ℝ) : Fin 4 → ℝ :=
  ![a 3 * b 0 + a 0 * b 3 + a 1 * b 2 - a 2 * b 1,
    a 3 * b 1 + a 1 * b 3 + a 2 * b 0 - a 0 * b 2,
    a 3 * b 2 + a 2 * b 3 + a 0 * b 1 - a 1 * b 0,
    a 3 * b 3 - a 0 * b 0 - a 1 * b 1 - a 2 * b 2]

theorem sqNorm4 (v : Fin 4 → ℝ) : sqNorm v = v 0 * v 0 + v 1 * v 1 + v 2 * v 2 + v 3 * v 3 := by
  rw [sqNorm, Fin.sum_univ_four]

theorem quatToRot_unit {x y z w : ℝ} (h : x * x + y * y + z * z + w * w = 1) :
    quatToRot x y z w = quatQ ![x, y, z, w] := by
  ext i j
  fin_cases i <;> fin_cases j <;> simp [quatToRot, quatQ] <;>
    first | ring1 | linear_combination (-1) * h

theorem quatQ_smul (c : ℝ) (v : Fin 4 → ℝ) : quatQ (c • v) = c ^ 2 • quatQ v := by
  ext i j
  fin_cases i <;> fin_cases j <;> simp [quatQ] <;> ring

theorem quatQ_mul (a b : Fin 4 → ℝ) : quatQ (quatMul a b) = quatQ a * quatQ b := by
  ext i j
  fin_cases i <;> fin_cases j <;> simp [quatQ, quatMul, Matrix.mul_apply, Fin.sum_univ_three] <;> ring

theorem sqNorm_quatMul (a b : Fin 4 → ℝ) : sqNorm (quatMul a b) = sqNorm a * sqNorm b := by
  rw [sqNorm4, sqNorm4, sqNorm4]
  simp [quatMul]
  ring

theorem sqNorm_pos {ι : Type*} [Fintype ι] {v : ι → ℝ} (h : v ≠ 0) : 0 < sqNorm v :=
  lt_of_le_of_ne (sqNorm_nonneg v) fun h' => h (sqNorm_eq_zero.mp h'.symm)

theorem vnorm_pos {ι : Type*} [Fintype ι] {v : ι → ℝ} (h : v ≠ 0) : 0 < vnorm v :=
  Real.sqrt_pos.mpr (sqNorm_pos h)

theorem quatToSo3_eq {v : Fin 4 → ℝ} (h : v ≠ 0) : quatToSo3 v = (sqNorm v)⁻¹ • quatQ v := by
  have hp := sqNorm_pos h
  have hn := vnorm_pos h
  have hs := vnorm_sq v
  rw [quatToSo3]
  simp only [gt_iff_lt, hp, if_true]
  rw [quatToRot_unit]
  · have e : ![v 0 / vnorm v, v 1 / vnorm v, v 2 / vnorm v, v 3 / vnorm v] = (vnorm v)⁻¹ • v := by
      funext i; fin_cases i <;> simp [div_eq_inv_mul]
    rw [e, quatQ_smul, inv_pow, hs]
  · rw [div_mul_div_comm, div_mul_div_comm, div_mul_div_comm, div_mul_div_comm, ← sq (vnorm v), hs,
      ← add_div, ← add_div, ← add_div, ← sqNorm4, div_self hp.ne']

theorem quatQ_orth (v : Fin 4 → ℝ) : quatQ v * (quatQ v)ᵀ = sqNorm v ^ 2 • (1 : Mat3) := by
  rw [sqNorm4]
  ext i j
  fin_cases i <;> fin_cases j <;> simp [quatQ, Matrix.mul_apply, Fin.sum_univ_three] <;> ring

theorem quatQ_det (v : Fin 4 → ℝ) : (quatQ v).det = sqNorm v ^ 3 := by
  rw [sqNorm4, det_fin_three]
  simp [quatQ]
  ring

theorem quatToSo3_isRotation {v : Fin 4 → ℝ} (h : v ≠ 0) : IsRotation (quatToSo3 v) := by
  have hp := (sqNorm_pos h).ne'
  rw [quatToSo3_eq h]
  constructor
  · rw [transpose_smul, smul_mul_smul_comm, quatQ_orth, smul_smul]
    have : (sqNorm v)⁻¹ * (sqNorm v)⁻¹ * sqNorm v ^ 2 = 1 := by field_simp
    rw [this, one_smul]
  · rw [det_smul, quatQ_det, Fintype.card_fin]
    field_simp

theorem quatQ_x (a : ℝ) : quatQ ![Real.sin (a / 2), 0, 0, Real.cos (a / 2)] = rotX a := by
  have h1 : Real.cos a = Real.cos (a / 2) ^ 2 - Real.sin (a / 2) ^ 2 := by
    rw [← Real.cos_two_mul']; ring_nf
  have h2 : Real.sin a = 2 * Real.sin (a / 2) * Real.cos (a / 2) := by
    rw [← Real.sin_two_mul]; ring_nf
  have h3 := Real.sin_sq_add_cos_sq (a / 2)
  ext i j
  fin_cases i <;> fin_cases j <;> simp [quatQ, rotX, h1, h2] <;> first | done | ring1 | linarith

theorem quatQ_y (a : ℝ) : quatQ ![0, Real.sin (a / 2), 0, Real.cos (a / 2)] = rotY a := by
  have h1 : Real.cos a = Real.cos (a / 2) ^ 2 - Real.sin (a / 2) ^ 2 := by
    rw [← Real.cos_two_mul']; ring_nf
  have h2 : Real.sin a = 2 * Real.sin (a / 2) * Real.cos (a / 2) := by
    rw [← Real.sin_two_mul]; ring_nf
  have h3 := Real.sin_sq_add_cos_sq (a / 2)
  ext i j
  fin_cases i <;> fin_cases j <;> simp [quatQ, rotY, h1, h2] <;> first | done | ring1 | linarith

theorem quatQ_z (a : ℝ) : quatQ ![0, 0, Real.sin (a / 2), Real.cos (a / 2)] = rotZ a := by
  have h1 : Real.cos a = Real.cos (a / 2) ^ 2 - Real.sin (a / 2) ^ 2 := by
    rw [← Real.cos_two_mul']; ring_nf
  have h2 : Real.sin a = 2 * Real.sin (a / 2) * Real.cos (a / 2) := by
    rw [← Real.sin_two_mul]; ring_nf
  have h3 := Real.sin_sq_add_cos_sq (a / 2)
  ext i j
  fin_cases i <;> fin_cases j <;> simp [quatQ, rotZ, h1, h2] <;> first | done | ring1 | linarith

theorem rpyToSo3_eq (v : Vec3) : rpyToSo3 v = rotX (v 0) * rotY (v 1) * rotZ (v 2) := by
  rw [← quatQ_x, ← quatQ_y, ← quatQ_z, ← quatQ_mul, ← quatQ_mul]
  set a : Fin 4 → ℝ := ![Real.sin (v 0 / 2), 0, 0, Real.cos (v 0 / 2)] with ha
  set b : Fin 4 → ℝ := ![0, Real.sin (v 1 / 2), 0, Real.cos (v 1 / 2)] with hb
  set c : Fin 4 → ℝ := ![0, 0, Real.sin (v 2 / 2), Real.cos (v 2 / 2)] with hc
  have ua : sqNorm a = 1 := by rw [sqNorm4, ha]; simp [← sq]
  have ub : sqNorm b = 1 := by rw [sqNorm4, hb]; simp [← sq]
  have uc : sqNorm c = 1 := by rw [sqNorm4, hc]; simp [← sq]
  have hu : sqNorm (quatMul (quatMul a b) c) = 1 := by
    rw [sqNorm_quatMul, sqNorm_quatMul, ua, ub, uc]; norm_num
  change quatToRot (quatMul (quatMul a b) c 0) (quatMul (quatMul a b) c 1)
    (quatMul (quatMul a b) c 2) (quatMul (quatMul a b) c 3) = _
  rw [sqNorm4] at hu
  rw [quatToRot_unit hu]
  congr 1

end Mrob
