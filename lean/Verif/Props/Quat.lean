import Verif.Lemmas.QuatInv
import Verif.Props.Convert
import Verif.Props.SO3

/-! # Property C76: conversion of a rotation to a quaternion -/

open Matrix

namespace Mrob

open Spec NormedSpace

/-! ## C76 -/

/-- For every rotation `so3_to_quat` gives a quaternion of unit length, and `quat_to_so3` maps it back to the rotation. -/
theorem C76_round_trip {R : Mat3} (h : IsRotation R) :
    sqNorm (so3ToQuat R) = 1 ∧ quatToSo3 (so3ToQuat R) = R := by
  obtain ⟨e, hn⟩ := quatQ_of_shoemake (so3ToQuat_prod h)
  exact ⟨hn, (quatToSo3_unit hn).trans e⟩

example : IsRotation (rotX 3 * rotZ 2) := (rotX_isRotation 3).mul (rotZ_isRotation 2)

/-- For every non-zero quaternion the way back gives the normalised quaternion, up to the sign. -/
theorem C76_normalised {v : Fin 4 → ℝ} (h : v ≠ 0) :
    so3ToQuat (quatToSo3 v) = (vnorm v)⁻¹ • v ∨ so3ToQuat (quatToSo3 v) = -((vnorm v)⁻¹ • v) := by
  have hp := vnorm_pos h
  have hn : sqNorm ((vnorm v)⁻¹ • v) = 1 := by
    rw [sqNorm_smul, inv_pow, vnorm_sq, inv_mul_cancel₀ (sqNorm_pos h).ne']
  have e : quatToSo3 v = quatQ ((vnorm v)⁻¹ • v) := by
    rw [quatToSo3_eq h, quatQ_smul, inv_pow, vnorm_sq]
  apply eq_or_neg_of_prod
  intro a b
  have h1 := so3ToQuat_prod (quatToSo3_isRotation h) a b
  have h2 := shoemake_quatQ _ hn a b
  rw [← e] at h2
  linarith

example : (![1, 2, 3, -4] : Fin 4 → ℝ) ≠ 0 := fun h => by have := congrFun h 0; simp at this

/-- The quaternion of a product of rotations is the Hamilton product of the quaternions, up to the sign. -/
theorem C76_product {A B : Mat3} (hA : IsRotation A) (hB : IsRotation B) :
    quatOf (so3ToQuat (A * B)) = quatOf (so3ToQuat A) * quatOf (so3ToQuat B) ∨
      quatOf (so3ToQuat (A * B)) = -(quatOf (so3ToQuat A) * quatOf (so3ToQuat B)) := by
  obtain ⟨nA, eA⟩ := C76_round_trip hA
  obtain ⟨nB, eB⟩ := C76_round_trip hB
  set p := so3ToQuat A
  set q := so3ToQuat B
  have hn : sqNorm (quatMul p q) = 1 := by rw [sqNorm_quatMul, nA, nB, one_mul]
  have e : A * B = quatQ (quatMul p q) := by
    rw [quatQ_mul, ← quatToSo3_unit nA, ← quatToSo3_unit nB, eA, eB]
  have hq : quatOf (quatMul p q) = quatOf p * quatOf q := by
    ext <;> simp [quatMul] <;> ring
  have hneg : ∀ v, quatOf (-v) = -quatOf v := fun v => by ext <;> simp
  have : so3ToQuat (A * B) = quatMul p q ∨ so3ToQuat (A * B) = -quatMul p q := by
    apply eq_or_neg_of_prod
    intro a b
    have h1 := so3ToQuat_prod (hA.mul hB) a b
    have h2 := shoemake_quatQ _ hn a b
    rw [← e] at h2
    linarith
  rcases this with h | h
  · left; rw [h, hq]
  · right; rw [h, hneg, hq]

/-- The quaternion of the exponential of a rotation vector `w` is `(sin(|w|/2) w/|w|, cos(|w|/2))`, up to the
sign. -/
theorem C76_exp {w : Vec3} (h : 1e-5 ≤ len w) :
    let q : Fin 4 → ℝ := ![Real.sin (len w / 2) / len w * w 0, Real.sin (len w / 2) / len w * w 1,
      Real.sin (len w / 2) / len w * w 2, Real.cos (len w / 2)]
    so3ToQuat (SO3.ofVec w).R = q ∨ so3ToQuat (SO3.ofVec w).R = -q := by
  intro q
  have ho : 0 < len w := lt_of_lt_of_le (by norm_num) h
  have hsq : w 0 ^ 2 + w 1 ^ 2 + w 2 ^ 2 = len w ^ 2 := by
    rw [len_eq_vnorm, vnorm_sq, sqNorm, Fin.sum_univ_three]; ring
  have hsin : Real.sin (len w) = 2 * Real.sin (len w / 2) * Real.cos (len w / 2) := by
    rw [← Real.sin_two_mul]; congr 1; ring
  have hcos : 1 - Real.cos (len w) = 2 * Real.sin (len w / 2) ^ 2 := by
    have h1 := Real.cos_sq (len w / 2)
    have h2 := Real.sin_sq_add_cos_sq (len w / 2)
    rw [mul_div_cancel₀ _ (two_ne_zero)] at h1
    linarith
  have hsc := Real.sin_sq_add_cos_sq (len w / 2)
  have hR : IsRotation (SO3.ofVec w).R := (C03_rotation_exact w (Or.inl h))
  have hn : sqNorm q = 1 := by
    rw [sqNorm4]
    simp only [q, cons_val_zero, cons_val_one, cons_val]
    have : ∀ s : ℝ, s * w 0 * (s * w 0) + s * w 1 * (s * w 1) + s * w 2 * (s * w 2) = s ^ 2 * len w ^ 2 := by
      intro s; rw [← hsq]; ring
    rw [this, div_pow, div_mul_cancel₀ _ (pow_ne_zero 2 ho.ne'), ← hsc]
    ring
  have e : (SO3.ofVec w).R = quatQ q := by
    have hge : (1e-5 : ℝ) ≤ vnorm w := by rw [← len_eq_vnorm]; exact h
    rw [ofVec_R, expC1_of_ge hge, expC2_of_ge hge, ← len_eq_vnorm, hsin, hcos, ← vnorm_sq, ← len_eq_vnorm]
    have d1 : 2 * Real.sin (len w / 2) * Real.cos (len w / 2) / len w =
        2 * (Real.sin (len w / 2) / len w) * Real.cos (len w / 2) := by ring
    have d2 : 2 * Real.sin (len w / 2) ^ 2 / len w ^ 2 = 2 * (Real.sin (len w / 2) / len w) ^ 2 := by ring
    have hn' := hn
    rw [sqNorm4] at hn'
    simp only [q, cons_val_zero, cons_val_one, cons_val] at hn'
    rw [d1, d2]
    simp only [q]
    generalize Real.sin (len w / 2) / len w = s at *
    generalize Real.cos (len w / 2) = c at *
    ext i j
    fin_cases i <;> fin_cases j <;>
      simp [rod, quatQ, hat3, Matrix.mul_apply, Fin.sum_univ_three] <;>
      first | ring1 | linear_combination (-1) * hn'
  apply eq_or_neg_of_prod
  intro a b
  have h1 := so3ToQuat_prod hR a b
  have h2 := shoemake_quatQ _ hn a b
  rw [← e] at h2
  linarith

example : (1e-5 : ℝ) ≤ len ![3, 0, 4] := by
  rw [len_eq_vnorm]
  apply Real.le_sqrt_of_sq_le
  simp [sqNorm, Fin.sum_univ_three]
  norm_num

/-- The sign: below 120 degrees (positive trace) the scalar part is the positive one, above it may be negative. -/
theorem C76_sign : (∀ R : Mat3, IsRotation R → 0 < R.trace → 1 / 2 < so3ToQuat R 3) ∧
    ∃ R : Mat3, IsRotation R ∧ so3ToQuat R 3 < 0 := by
  constructor
  · intro R _ h
    rw [trace_fin_three] at h
    rw [so3ToQuat, if_pos h]
    have : 1 < Real.sqrt (R 0 0 + R 1 1 + R 2 2 + 1) := by
      rw [Real.lt_sqrt (by norm_num)]; linarith
    simp
    linarith
  · have hne : (![0, 0, -12, 5] : Fin 4 → ℝ) ≠ 0 := fun h => by have := congrFun h 3; simp at this
    refine ⟨_, quatToSo3_isRotation hne, ?_⟩
    have e : quatToSo3 ![0, 0, -12, 5] = !![-119 / 169, 120 / 169, 0; -120 / 169, -119 / 169, 0; 0, 0, 1] := by
      rw [quatToSo3_eq hne, sqNorm4]
      ext i j
      fin_cases i <;> fin_cases j <;> simp [quatQ] <;> norm_num
    rw [e, so3ToQuat, if_neg (by simp [cons_val_two]; norm_num)]
    have hi : (-119 / 169 : ℝ) < 1 := by norm_num
    simp [rotToQuatLarge, Function.update_apply, hi]
    exact mul_neg_of_neg_of_pos (by norm_num)
      (div_pos (by norm_num) (Real.sqrt_pos.mpr (by norm_num)))

end Mrob
