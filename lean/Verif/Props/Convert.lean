import Verif.Lemmas.Quat
import Verif.Lemmas.SE3

/-! # Properties C15–C17: validity checks and conversions -/

open Matrix

namespace Mrob

open Spec

/-! ## C15 -/

/-- `isSO3` accepts exactly the matrices whose determinant is within `1e-6` of one; in particular it
accepts every rotation. `isSE3` accepts every rigid transformation.  Missing for the full property: the
converse, which fails (`C15_isSO3_unsound`, `C15_isSE3_unsound`). -/
theorem C15_complete_partial (M : Mat3) (T : Mat4) :
    (isSO3 M = true ↔ |M.det - 1| ≤ 1e-6) ∧ (IsRotation M → isSO3 M = true) ∧
      (IsRigid T → isSE3 T = true) := by
  have h1 : ∀ M : Mat3, isSO3 M = true ↔ |M.det - 1| ≤ 1e-6 := by
    intro M
    rw [isSO3]
    split_ifs with ha hb
    · simp only [Bool.false_eq_true, false_iff, not_le]
      rw [abs_of_neg (by linarith)]
      norm_num
      linarith
    · simp only [Bool.false_eq_true, false_iff, not_le]
      exact hb
    · simp only [true_iff]
      exact not_lt.mp hb
  have h2 : ∀ M : Mat3, IsRotation M → isSO3 M = true := by
    intro M h
    rw [h1, h.2, sub_self, abs_zero]
    norm_num
  refine ⟨h1 M, h2 M, fun h => ?_⟩
  obtain ⟨hr, hz, ho⟩ := h
  have e1 : ∀ j, T (Sum.inr ()) (Sum.inl j) = 0 := fun j => congrFun (congrFun hz ()) j
  have e2 : T (Sum.inr ()) (Sum.inr ()) = 1 := congrFun (congrFun ho ()) ()
  rw [isSE3, tl3, h2 _ hr, e1, e1, e1, e2]
  norm_num

example : IsRigid (homog (rotX 1) ![1, 2, 3] 1) := isRigid_homog (rotX_isRotation 1) _

/-- `isSO3` accepts a matrix that doubles one axis and halves another: it does not check orthogonality. -/
theorem C15_isSO3_unsound : ∃ M : Mat3, isSO3 M = true ∧ ¬ NearOrthogonal 1 M := by
  refine ⟨!![2, 0, 0; 0, 1 / 2, 0; 0, 0, 1], ?_, ?_⟩
  · rw [(C15_complete_partial _ 1).1, det_fin_three]
    simp
    norm_num
  · intro h
    have := (h ![1, 0, 0]).1
    simp [mulVec, dotProduct, Fin.sum_univ_three] at this
    norm_num at this

/-- `isSE3` accepts a last row `(1,-1,0,1)`, with which transforming homogeneous points is not affine, and
also `(0,0,0,-100)`: it compares the signed sum of the deviations with the tolerance. -/
theorem C15_isSE3_unsound : ∃ T T' : Mat4, isSE3 T = true ∧ isSE3 T' = true ∧
    T.toBlocks₁₁ = 1 ∧ T'.toBlocks₁₁ = 1 ∧ T (Sum.inr ()) (Sum.inl 0) = 1 ∧
    T' (Sum.inr ()) (Sum.inr ()) = -100 := by
  have h1 : isSO3 1 = true := (C15_complete_partial 1 1).2.1 ⟨by simp, by simp⟩
  refine ⟨fromBlocks 1 0 (Matrix.of fun _ j => ![1, -1, 0] j) 1,
    fromBlocks 1 0 0 (Matrix.of fun _ _ => -100), ?_, ?_, rfl, rfl, rfl, rfl⟩
  · rw [isSE3, tl3, toBlocks_fromBlocks₁₁, h1]
    simp
    norm_num
  · rw [isSE3, tl3, toBlocks_fromBlocks₁₁, h1]
    simp
    norm_num

/-! ## C16 -/

/-- The quaternion with coefficient vector `(x,y,z,w)`. -/
def quatOf (v : Fin 4 → ℝ) : Quaternion ℝ := ⟨v 3, v 0, v 1, v 2⟩

/-- The coefficient vector `(x,y,z,w)` of a quaternion. -/
def coeffs (q : Quaternion ℝ) : Fin 4 → ℝ := ![q.imI, q.imJ, q.imK, q.re]

/-- A point as a pure quaternion. -/
def pureQ (p : Vec3) : Quaternion ℝ := ⟨0, p 0, p 1, p 2⟩

@[simp] theorem pureQ_re (p : Vec3) : (pureQ p).re = 0 := rfl
@[simp] theorem pureQ_imI (p : Vec3) : (pureQ p).imI = p 0 := rfl
@[simp] theorem pureQ_imJ (p : Vec3) : (pureQ p).imJ = p 1 := rfl
@[simp] theorem pureQ_imK (p : Vec3) : (pureQ p).imK = p 2 := rfl
@[simp] theorem quatOf_re (v : Fin 4 → ℝ) : (quatOf v).re = v 3 := rfl
@[simp] theorem quatOf_imI (v : Fin 4 → ℝ) : (quatOf v).imI = v 0 := rfl
@[simp] theorem quatOf_imJ (v : Fin 4 → ℝ) : (quatOf v).imJ = v 1 := rfl
@[simp] theorem quatOf_imK (v : Fin 4 → ℝ) : (quatOf v).imK = v 2 := rfl

theorem coeffs_quatOf (v : Fin 4 → ℝ) : coeffs (quatOf v) = v := by
  funext i; fin_cases i <;> rfl

theorem coeffs_mul (p q : Quaternion ℝ) : coeffs (p * q) = quatMul (coeffs p) (coeffs q) := by
  funext i; fin_cases i <;> simp [coeffs, quatMul] <;> ring

theorem coeffs_ne_zero {q : Quaternion ℝ} (h : q ≠ 0) : coeffs q ≠ 0 := by
  intro h'
  apply h
  have e : ∀ i, coeffs q i = 0 := fun i => congrFun h' i
  ext
  · exact e 3
  · exact e 0
  · exact e 1
  · exact e 2

/-- `quat_to_so3` of a non-zero quaternion is a rotation, independent of the scale and sign of the
quaternion; the unit quaternion gives the identity. -/
theorem C16_rotation {v : Fin 4 → ℝ} (h : v ≠ 0) {c : ℝ} (hc : c ≠ 0) :
    IsRotation (quatToSo3 v) ∧ quatToSo3 (c • v) = quatToSo3 v ∧ quatToSo3 (-v) = quatToSo3 v ∧
      quatToSo3 ![0, 0, 0, 1] = 1 := by
  have scale : ∀ c : ℝ, c ≠ 0 → quatToSo3 (c • v) = quatToSo3 v := by
    intro c hc
    rw [quatToSo3_eq h, quatToSo3_eq (smul_ne_zero hc h), quatQ_smul, sqNorm_smul, smul_smul]
    congr 1
    have := (sqNorm_pos h).ne'
    field_simp
  refine ⟨quatToSo3_isRotation h, scale c hc, ?_, ?_⟩
  · rw [← neg_one_smul ℝ v]; exact scale _ (by norm_num)
  · have hne : (![0, 0, 0, 1] : Fin 4 → ℝ) ≠ 0 := fun h' => by
      have := congrFun h' 3; simp at this
    rw [quatToSo3_eq hne, sqNorm4]
    ext i j
    fin_cases i <;> fin_cases j <;> simp [quatQ]

/-- `quat_to_so3` maps the Hamilton product to the matrix product. -/
theorem C16_product {p q : Quaternion ℝ} (hp : p ≠ 0) (hq : q ≠ 0) :
    quatToSo3 (coeffs (p * q)) = quatToSo3 (coeffs p) * quatToSo3 (coeffs q) := by
  rw [quatToSo3_eq (coeffs_ne_zero (mul_ne_zero hp hq)), quatToSo3_eq (coeffs_ne_zero hp),
    quatToSo3_eq (coeffs_ne_zero hq), coeffs_mul, sqNorm_quatMul, quatQ_mul, smul_mul_smul_comm, mul_inv]

/-- The matrix acts on points as conjugation by the quaternion: `R p = q p q⁻¹`. -/
theorem C16_conjugation {v : Fin 4 → ℝ} (h : v ≠ 0) (p : Vec3) :
    pureQ (quatToSo3 v *ᵥ p) = quatOf v * pureQ p * (quatOf v)⁻¹ := by
  have hp := (sqNorm_pos h).ne'
  have hne : quatOf v ≠ 0 := by
    intro h'
    apply h
    rw [← coeffs_quatOf v, h']
    funext i; fin_cases i <;> rfl
  have key : pureQ (quatQ v *ᵥ p) * quatOf v = sqNorm v • (quatOf v * pureQ p) := by
    rw [sqNorm4]
    ext <;> simp [quatQ, mulVec, dotProduct, Fin.sum_univ_three] <;> ring
  have hsm : pureQ ((sqNorm v)⁻¹ • (quatQ v *ᵥ p)) = (sqNorm v)⁻¹ • pureQ (quatQ v *ᵥ p) := by
    ext <;> simp
  have hm : ∀ (c : ℝ) (x y : Quaternion ℝ), (c • x) * y = c • (x * y) := by
    intro c x y; ext <;> simp <;> ring
  rw [← mul_left_inj' hne, mul_assoc _ _ (quatOf v), inv_mul_cancel₀ hne, mul_one, quatToSo3_eq h, smul_mulVec, hsm,
    hm, key, smul_smul, inv_mul_cancel₀ hp, one_smul]

example : (![1, 2, 3, 4] : Fin 4 → ℝ) ≠ 0 := fun h => by have := congrFun h 0; simp at this

/-! ## C17 -/

/-- `rpy_to_so3((r,p,y))` is the product of the elementary rotations about `x`, `y`, `z` in this order; it
is a rotation and does not change when whole turns are added to the angles. -/
theorem C17_rpy (v : Vec3) (k : Fin 3 → ℤ) :
    rpyToSo3 v = rotX (v 0) * rotY (v 1) * rotZ (v 2) ∧ IsRotation (rpyToSo3 v) ∧
      rpyToSo3 (fun i => v i + k i * (2 * Real.pi)) = rpyToSo3 v := by
  refine ⟨rpyToSo3_eq v, ?_, ?_⟩
  · rw [rpyToSo3_eq]
    exact ((rotX_isRotation _).mul (rotY_isRotation _)).mul (rotZ_isRotation _)
  · rw [rpyToSo3_eq, rpyToSo3_eq]
    simp only [rotX, rotY, rotZ, Real.cos_add_int_mul_two_pi, Real.sin_add_int_mul_two_pi]

end Mrob
