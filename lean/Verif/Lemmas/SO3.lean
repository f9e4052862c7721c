import Verif.Model.SO3
import Verif.Spec.Geometry
import Mathlib.Tactic.LinearCombination
import Mathlib.Tactic.FieldSimp
import Mathlib.Tactic.FinCases
import Mathlib.LinearAlgebra.Matrix.NonsingularInverse

open Matrix

namespace Mrob

/-! ### Vectors -/

theorem sqNorm3 (v : Vec3) : sqNorm v = v 0 * v 0 + v 1 * v 1 + v 2 * v 2 := by
  simp [sqNorm, Fin.sum_univ_three]

theorem sqNorm_nonneg {ι : Type*} [Fintype ι] (v : ι → ℝ) : 0 ≤ sqNorm v :=
  Finset.sum_nonneg fun i _ => mul_self_nonneg (v i)

theorem vnorm_nonneg {ι : Type*} [Fintype ι] (v : ι → ℝ) : 0 ≤ vnorm v := Real.sqrt_nonneg _

theorem vnorm_sq {ι : Type*} [Fintype ι] (v : ι → ℝ) : vnorm v ^ 2 = sqNorm v :=
  Real.sq_sqrt (sqNorm_nonneg v)

theorem sqNorm_eq_zero {ι : Type*} [Fintype ι] {v : ι → ℝ} : sqNorm v = 0 ↔ v = 0 := by
  rw [sqNorm, Finset.sum_eq_zero_iff_of_nonneg fun i _ => mul_self_nonneg (v i)]
  simp [funext_iff]

theorem vnorm_eq_zero {ι : Type*} [Fintype ι] {v : ι → ℝ} : vnorm v = 0 ↔ v = 0 := by
  rw [vnorm, Real.sqrt_eq_zero (sqNorm_nonneg v), sqNorm_eq_zero]

theorem sqNorm_smul {ι : Type*} [Fintype ι] (c : ℝ) (v : ι → ℝ) :
    sqNorm (c • v) = c ^ 2 * sqNorm v := by
  simp only [sqNorm, Pi.smul_apply, smul_eq_mul, Finset.mul_sum]
  exact Finset.sum_congr rfl fun i _ => by ring

theorem vnorm_smul {ι : Type*} [Fintype ι] (c : ℝ) (v : ι → ℝ) :
    vnorm (c • v) = |c| * vnorm v := by
  rw [vnorm, sqNorm_smul, Real.sqrt_mul (sq_nonneg c), Real.sqrt_sq_eq_abs, vnorm]

theorem vnorm_neg {ι : Type*} [Fintype ι] (v : ι → ℝ) : vnorm (-v) = vnorm v := by
  have := vnorm_smul (-1) v
  simpa using this

theorem sqNorm_eq_dot {ι : Type*} [Fintype ι] (v : ι → ℝ) : sqNorm v = v ⬝ᵥ v := rfl

/-! ### hat and vee -/

theorem vee3_hat3 (w : Vec3) : vee3 (hat3 w) = w := by
  funext i; fin_cases i <;> simp [vee3, hat3]

theorem hat3_add (a b : Vec3) : hat3 (a + b) = hat3 a + hat3 b := by
  ext i j; fin_cases i <;> fin_cases j <;> simp [hat3] <;> ring

theorem hat3_smul (c : ℝ) (a : Vec3) : hat3 (c • a) = c • hat3 a := by
  ext i j; fin_cases i <;> fin_cases j <;> simp [hat3]

theorem hat3_neg (a : Vec3) : hat3 (-a) = -hat3 a := by
  ext i j; fin_cases i <;> fin_cases j <;> simp [hat3]

theorem hat3_zero : hat3 0 = 0 := by
  ext i j; fin_cases i <;> fin_cases j <;> simp [hat3]

theorem vee3_smul (c : ℝ) (M : Mat3) : vee3 (c • M) = c • vee3 M := by
  funext i; fin_cases i <;> simp [vee3]

theorem vee3_neg (M : Mat3) : vee3 (-M) = -vee3 M := by
  funext i; fin_cases i <;> simp [vee3]

theorem hat3_transpose (w : Vec3) : (hat3 w)ᵀ = -hat3 w := by
  ext i j; fin_cases i <;> fin_cases j <;> simp [hat3]

theorem hat3_vee3 {M : Mat3} (h : Mᵀ = -M) : hat3 (vee3 M) = M := by
  have h' : ∀ i j, M j i = -M i j := fun i j => congrFun (congrFun h i) j
  have d : ∀ i, M i i = 0 := fun i => by have := h' i i; linarith
  ext i j
  fin_cases i <;> fin_cases j <;> simp [hat3, vee3, d]
  · rw [h' 0 1]
  · rw [h' 0 2]
  · rw [h' 1 2]

/-- `W² = w wᵀ - |w|² I`. -/
theorem hat3_sq (w : Vec3) : hat3 w * hat3 w = vecMulVec w w - sqNorm w • (1 : Mat3) := by
  ext i j
  fin_cases i <;> fin_cases j <;>
    simp [hat3, Matrix.mul_apply, Fin.sum_univ_three, vecMulVec_apply, sqNorm3] <;> ring

/-- `W³ = -|w|² W`. -/
theorem hat3_cube (w : Vec3) : hat3 w * hat3 w * hat3 w = -(sqNorm w) • hat3 w := by
  ext i j
  fin_cases i <;> fin_cases j <;>
    simp [hat3, Matrix.mul_apply, Fin.sum_univ_three, sqNorm3] <;> ring

/-! ### Rodrigues polynomials -/

/-- `I + a W + b W²`. -/
noncomputable def rod (a b : ℝ) (w : Vec3) : Mat3 := 1 + a • hat3 w + b • (hat3 w * hat3 w)

theorem so3ExpHat_hat3 (w : Vec3) :
    so3ExpHat (hat3 w) = rod (expC1 (vnorm w) (sqNorm w)) (expC2 (vnorm w) (sqNorm w)) w := by
  simp only [so3ExpHat, vee3_hat3, rod, smul_mul_assoc]

theorem ofVec_R (w : Vec3) :
    (SO3.ofVec w).R = rod (expC1 (vnorm w) (sqNorm w)) (expC2 (vnorm w) (sqNorm w)) w :=
  so3ExpHat_hat3 w

theorem rod_transpose (a b : ℝ) (w : Vec3) : (rod a b w)ᵀ = rod (-a) b w := by
  simp only [rod, transpose_add, transpose_one, transpose_smul, transpose_mul, hat3_transpose,
    neg_mul_neg, smul_neg, neg_smul]

theorem rod_neg (a b : ℝ) (w : Vec3) : rod a b (-w) = rod (-a) b w := by
  simp only [rod, hat3_neg, neg_mul_neg, smul_neg, neg_smul]

theorem hat3_pow4 (w : Vec3) :
    hat3 w * hat3 w * (hat3 w * hat3 w) = -(sqNorm w) • (hat3 w * hat3 w) := by
  rw [← mul_assoc, hat3_cube, smul_mul_assoc]

theorem hat3_pow3' (w : Vec3) :
    hat3 w * (hat3 w * hat3 w) = -(sqNorm w) • hat3 w := by
  rw [← mul_assoc, hat3_cube]

/-- Products of Rodrigues polynomials in the same `w`. -/
theorem rod_mul_rod (a b a' b' : ℝ) (w : Vec3) :
    rod a b w * rod a' b' w =
      rod (a + a' - sqNorm w * (a * b' + b * a')) (b + b' + a * a' - sqNorm w * b * b') w := by
  simp only [rod, add_mul, mul_add, one_mul, mul_one, smul_mul_assoc, mul_smul_comm, hat3_pow4,
    hat3_pow3', hat3_cube, smul_smul]
  module

theorem rod_zero (w : Vec3) : rod 0 0 w = 1 := by simp [rod]

theorem rod_at_zero (a b : ℝ) : rod a b 0 = 1 := by simp [rod, hat3_zero]

theorem rod_det (a b : ℝ) (w : Vec3) :
    (rod a b w).det = (1 - sqNorm w * b) ^ 2 + sqNorm w * a ^ 2 := by
  rw [Matrix.det_fin_three]
  simp [rod, hat3, sqNorm3]
  ring

theorem rod_isRotation {a b : ℝ} {w : Vec3} (h : a ^ 2 + sqNorm w * b ^ 2 = 2 * b) :
    Spec.IsRotation (rod a b w) := by
  constructor
  · rw [rod_transpose, rod_mul_rod]
    have h1 : a + -a - sqNorm w * (a * b + b * -a) = 0 := by ring
    have h2 : b + b + a * -a - sqNorm w * b * b = 0 := by linarith
    rw [h1, h2, rod_zero]
  · rw [rod_det]
    linear_combination sqNorm w * h

theorem expC1_of_ge {o o2 : ℝ} (h : 1e-5 ≤ o) : expC1 o o2 = Real.sin o / o := by
  simp [expC1, not_lt.mpr h]

theorem expC2_of_ge {o o2 : ℝ} (h : 1e-5 ≤ o) : expC2 o o2 = (1 - Real.cos o) / o2 := by
  simp [expC2, not_lt.mpr h]

theorem expC1_of_lt {o o2 : ℝ} (h : o < 1e-5) : expC1 o o2 = 1 - o2 / 6 := by
  simp [expC1, h]

theorem expC2_of_lt {o o2 : ℝ} (h : o < 1e-5) : expC2 o o2 = 0.5 - o2 / 24 := by
  simp [expC2, h]

/-- The identity behind orthogonality of the closed form. -/
theorem rodrigues_coeff {o : ℝ} (h : o ≠ 0) :
    (Real.sin o / o) ^ 2 + o ^ 2 * ((1 - Real.cos o) / o ^ 2) ^ 2
      = 2 * ((1 - Real.cos o) / o ^ 2) := by
  field_simp
  have := Real.sin_sq_add_cos_sq o
  linear_combination this

theorem ofVec_isRotation_of_ge {w : Vec3} (h : 1e-5 ≤ vnorm w) :
    Spec.IsRotation (SO3.ofVec w).R := by
  have h0 : vnorm w ≠ 0 := by
    have : (0:ℝ) < 1e-5 := by norm_num
    linarith
  rw [ofVec_R, expC1_of_ge h, expC2_of_ge h]
  apply rod_isRotation
  rw [← vnorm_sq]
  exact rodrigues_coeff h0

theorem ofVec_zero : (SO3.ofVec 0).R = 1 := by rw [ofVec_R, rod_at_zero]

end Mrob
