import Verif.Lemmas.SO3

/-! Algebra of rotation matrices: cofactor identities, the symmetric and skew parts. -/

open Matrix

namespace Mrob

open Spec

theorem _root_.Spec.IsRotation.transpose_mul {R : Mat3} (h : IsRotation R) : Rᵀ * R = 1 :=
  mul_eq_one_comm.mp h.1

theorem _root_.Spec.IsRotation.transpose {R : Mat3} (h : IsRotation R) : IsRotation Rᵀ :=
  ⟨by rw [transpose_transpose]; exact h.transpose_mul, by rw [det_transpose]; exact h.2⟩

theorem _root_.Spec.IsRotation.mul {A B : Mat3} (ha : IsRotation A) (hb : IsRotation B) :
    IsRotation (A * B) := by
  refine ⟨?_, by rw [det_mul, ha.2, hb.2, one_mul]⟩
  rw [Matrix.transpose_mul, mul_assoc, ← mul_assoc B, hb.1, one_mul, ha.1]

theorem isRotation_one : IsRotation (1 : Mat3) := ⟨by simp, by simp⟩

theorem _root_.Spec.IsRotation.adjugate {R : Mat3} (h : IsRotation R) : R.adjugate = Rᵀ := by
  have h1 : R * R.adjugate = 1 := by rw [mul_adjugate, h.2, one_smul]
  calc R.adjugate = Rᵀ * R * R.adjugate := by rw [h.transpose_mul, one_mul]
    _ = Rᵀ := by rw [mul_assoc, h1, mul_one]

/-- Scalar consequences of being a rotation. -/
structure RotEqs (R : Mat3) : Prop where
  r00 : R 0 0 * R 0 0 + R 0 1 * R 0 1 + R 0 2 * R 0 2 = 1
  r11 : R 1 0 * R 1 0 + R 1 1 * R 1 1 + R 1 2 * R 1 2 = 1
  r22 : R 2 0 * R 2 0 + R 2 1 * R 2 1 + R 2 2 * R 2 2 = 1
  r01 : R 0 0 * R 1 0 + R 0 1 * R 1 1 + R 0 2 * R 1 2 = 0
  r02 : R 0 0 * R 2 0 + R 0 1 * R 2 1 + R 0 2 * R 2 2 = 0
  r12 : R 1 0 * R 2 0 + R 1 1 * R 2 1 + R 1 2 * R 2 2 = 0
  c00 : R 0 0 * R 0 0 + R 1 0 * R 1 0 + R 2 0 * R 2 0 = 1
  c11 : R 0 1 * R 0 1 + R 1 1 * R 1 1 + R 2 1 * R 2 1 = 1
  c22 : R 0 2 * R 0 2 + R 1 2 * R 1 2 + R 2 2 * R 2 2 = 1
  c01 : R 0 0 * R 0 1 + R 1 0 * R 1 1 + R 2 0 * R 2 1 = 0
  c02 : R 0 0 * R 0 2 + R 1 0 * R 1 2 + R 2 0 * R 2 2 = 0
  c12 : R 0 1 * R 0 2 + R 1 1 * R 1 2 + R 2 1 * R 2 2 = 0
  a00 : R 0 0 = R 1 1 * R 2 2 - R 1 2 * R 2 1
  a01 : R 0 1 = R 1 2 * R 2 0 - R 1 0 * R 2 2
  a02 : R 0 2 = R 1 0 * R 2 1 - R 1 1 * R 2 0
  a10 : R 1 0 = R 0 2 * R 2 1 - R 0 1 * R 2 2
  a11 : R 1 1 = R 0 0 * R 2 2 - R 0 2 * R 2 0
  a12 : R 1 2 = R 0 1 * R 2 0 - R 0 0 * R 2 1
  a20 : R 2 0 = R 0 1 * R 1 2 - R 0 2 * R 1 1
  a21 : R 2 1 = R 0 2 * R 1 0 - R 0 0 * R 1 2
  a22 : R 2 2 = R 0 0 * R 1 1 - R 0 1 * R 1 0

theorem _root_.Spec.IsRotation.eqs {R : Mat3} (h : IsRotation R) : RotEqs R := by
  have e : ∀ i j, (R * Rᵀ) i j = (1 : Mat3) i j := fun i j => by rw [h.1]
  have f : ∀ i j, (Rᵀ * R) i j = (1 : Mat3) i j := fun i j => by rw [h.transpose_mul]
  have g : ∀ i j, R.adjugate i j = R j i := fun i j => by rw [h.adjugate]; rfl
  simp only [Matrix.mul_apply, Fin.sum_univ_three, transpose_apply] at e f
  rw [Matrix.adjugate_fin_three] at g
  constructor
  · simpa using e 0 0
  · simpa using e 1 1
  · simpa using e 2 2
  · simpa using e 0 1
  · simpa using e 0 2
  · simpa using e 1 2
  · simpa using f 0 0
  · simpa using f 1 1
  · simpa using f 2 2
  · simpa using f 0 1
  · simpa using f 0 2
  · simpa using f 1 2
  · have := g 0 0; simp at this; linarith
  · have := g 1 0; simp at this; linarith
  · have := g 2 0; simp at this; linarith
  · have := g 0 1; simp at this; linarith
  · have := g 1 1; simp at this; linarith
  · have := g 2 1; simp at this; linarith
  · have := g 0 2; simp at this; linarith
  · have := g 1 2; simp at this; linarith
  · have := g 2 2; simp at this; linarith

/-- Conjugation of `hat3` by a rotation. -/
theorem rot_conj_hat3 {R : Mat3} (h : IsRotation R) (w : Vec3) :
    R * hat3 w * Rᵀ = hat3 (R *ᵥ w) := by
  have E := h.eqs
  ext i j
  fin_cases i <;> fin_cases j <;>
    simp [hat3, Matrix.mul_apply, Fin.sum_univ_three, mulVec, dotProduct]
  · ring
  · linear_combination w 0 * E.a20 + w 1 * E.a21 + w 2 * E.a22
  · linear_combination -w 0 * E.a10 - w 1 * E.a11 - w 2 * E.a12
  · linear_combination -w 0 * E.a20 - w 1 * E.a21 - w 2 * E.a22
  · ring
  · linear_combination w 0 * E.a00 + w 1 * E.a01 + w 2 * E.a02
  · linear_combination w 0 * E.a10 + w 1 * E.a11 + w 2 * E.a12
  · linear_combination -w 0 * E.a00 - w 1 * E.a01 - w 2 * E.a02
  · ring

theorem rot_mul_hat3 {R : Mat3} (h : IsRotation R) (w : Vec3) :
    R * hat3 w = hat3 (R *ᵥ w) * R := by
  rw [← rot_conj_hat3 h, mul_assoc, h.transpose_mul, mul_one]

theorem sqNorm_rot {R : Mat3} (h : IsRotation R) (w : Vec3) : sqNorm (R *ᵥ w) = sqNorm w := by
  rw [sqNorm_eq_dot, sqNorm_eq_dot, dotProduct_mulVec, ← mulVec_transpose, mulVec_mulVec,
    h.transpose_mul, one_mulVec]

theorem vnorm_rot {R : Mat3} (h : IsRotation R) (w : Vec3) : vnorm (R *ᵥ w) = vnorm w := by
  rw [vnorm, vnorm, sqNorm_rot h]

/-- Conjugating a Rodrigues polynomial by a rotation rotates its vector. -/
theorem rot_mul_rod {R : Mat3} (h : IsRotation R) (a b : ℝ) (w : Vec3) :
    R * rod a b w = rod a b (R *ᵥ w) * R := by
  have h2 : R * (hat3 w * hat3 w) = hat3 (R *ᵥ w) * hat3 (R *ᵥ w) * R := by
    rw [← mul_assoc, rot_mul_hat3 h, mul_assoc, rot_mul_hat3 h, mul_assoc]
  simp only [rod, mul_add, add_mul, mul_one, one_mul, mul_smul_comm, smul_mul_assoc, h2,
    rot_mul_hat3 h]

/-! ### Cosine, symmetric part and skew vector -/

/-- Half of `trace - 1`: the cosine of the angle. -/
noncomputable def cosOf (R : Mat3) : ℝ := (R.trace - 1) * 0.5

/-- Vector of the skew part `(R - Rᵀ)/2`. -/
noncomputable def skewVec (R : Mat3) : Vec3 :=
  ![(R 2 1 - R 1 2) / 2, (R 0 2 - R 2 0) / 2, (R 1 0 - R 0 1) / 2]

/-- Symmetric part minus `cos · I`. -/
noncomputable def symS (R : Mat3) : Mat3 :=
  Matrix.of fun i j => (R i j + R j i) / 2 - if i = j then cosOf R else 0

theorem cosOf_eq (R : Mat3) : cosOf R = (R 0 0 + R 1 1 + R 2 2 - 1) / 2 := by
  rw [cosOf, Matrix.trace_fin_three]; ring

theorem symS_symm (R : Mat3) (i j : Fin 3) : symS R i j = symS R j i := by
  fin_cases i <;> fin_cases j <;> simp [symS] <;> ring

theorem symS_trace (R : Mat3) : symS R 0 0 + symS R 1 1 + symS R 2 2 = 1 - cosOf R := by
  simp [symS, cosOf_eq]; ring

/-- `u uᵀ = (1+c) S`. -/
theorem skew_mul_skew {R : Mat3} (h : IsRotation R) (i j : Fin 3) :
    skewVec R i * skewVec R j = (1 + cosOf R) * symS R i j := by
  have E := h.eqs
  fin_cases i <;> fin_cases j <;> simp [skewVec, symS, cosOf_eq]
  · linear_combination (1 / 4) * (E.r11 + E.r22 - E.c00) - (1 / 2) * E.a00
  · linear_combination (1 / 4) * (-E.a01 - E.a10 - E.c01 - E.r01)
  · linear_combination (1 / 4) * (-E.a02 - E.a20 - E.c02 - E.r02)
  · linear_combination (1 / 4) * (-E.a01 - E.a10 - E.c01 - E.r01)
  · linear_combination (1 / 4) * (E.r00 + E.r22 - E.c11) - (1 / 2) * E.a11
  · linear_combination (1 / 4) * (-E.a12 - E.a21 - E.c12 - E.r12)
  · linear_combination (1 / 4) * (-E.a02 - E.a20 - E.c02 - E.r02)
  · linear_combination (1 / 4) * (-E.a12 - E.a21 - E.c12 - E.r12)
  · linear_combination (1 / 4) * (E.r00 + E.r11 - E.c22) - (1 / 2) * E.a22

/-- All 2x2 minors of `S` vanish. -/
theorem symS_minor {R : Mat3} (h : IsRotation R) (i j k : Fin 3) :
    symS R i k * symS R j k = symS R k k * symS R i j := by
  have E := h.eqs
  fin_cases k <;> fin_cases i <;> fin_cases j <;> 
    simp [symS, cosOf_eq, -mul_eq_mul_left_iff, -mul_eq_mul_right_iff] <;>
    first
    | ring1
    | linear_combination (1 / 4) * (E.r00 + E.r11 - E.c22) + (1 / 2) * E.a22
    | linear_combination (1 / 4) * (E.r00 + E.r22 - E.c11) + (1 / 2) * E.a11
    | linear_combination (1 / 4) * (E.r11 + E.r22 - E.c00) + (1 / 2) * E.a00
    | linear_combination (1 / 4) * (E.c12 + E.r12 - E.a12 - E.a21)
    | linear_combination (1 / 4) * (E.c02 + E.r02 - E.a02 - E.a20)
    | linear_combination (1 / 4) * (E.c01 + E.r01 - E.a01 - E.a10)

/-- The sum of the diagonal of `u uᵀ`. -/
theorem sqNorm_skewVec {R : Mat3} (h : IsRotation R) :
    sqNorm (skewVec R) = 1 - cosOf R ^ 2 := by
  rw [sqNorm3, skew_mul_skew h, skew_mul_skew h, skew_mul_skew h]
  linear_combination (1 + cosOf R) * symS_trace R

theorem cosOf_le_one {R : Mat3} (h : IsRotation R) : cosOf R ≤ 1 := by
  have E := h.eqs
  rw [cosOf_eq]
  nlinarith [E.r00, E.r11, E.r22, sq_nonneg (R 0 0 - 1), sq_nonneg (R 1 1 - 1),
    sq_nonneg (R 2 2 - 1), sq_nonneg (R 0 1), sq_nonneg (R 0 2), sq_nonneg (R 1 0),
    sq_nonneg (R 1 2), sq_nonneg (R 2 0), sq_nonneg (R 2 1)]

theorem neg_one_le_cosOf {R : Mat3} (h : IsRotation R) : -1 ≤ cosOf R := by
  have h1 := cosOf_le_one h
  have h2 := sqNorm_skewVec h
  have h3 := sqNorm_nonneg (skewVec R)
  by_contra hc
  push Not at hc
  nlinarith

theorem symS_diag_nonneg {R : Mat3} (h : IsRotation R) (k : Fin 3) : 0 ≤ symS R k k := by
  have h1 := neg_one_le_cosOf h
  have hs : ∀ i j, symS R i i * symS R j j = symS R i j ^ 2 := by
    intro i j
    have := symS_minor h j j i
    rw [← this, symS_symm R j i]; ring
  have ht := symS_trace R
  have hle := cosOf_le_one h
  by_contra hc
  push Not at hc
  have key : ∀ j, symS R j j ≤ 0 := by
    intro j
    have := hs k j
    by_contra hj
    push Not at hj
    nlinarith [sq_nonneg (symS R k j)]
  have k0 := key 0
  have k1 := key 1
  have k2 := key 2
  have : symS R k k < 0 := hc
  fin_cases k <;> simp at this <;> linarith


end Mrob
