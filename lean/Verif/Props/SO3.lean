import Verif.Lemmas.Exp
import Verif.Lemmas.Taylor
import Verif.Lemmas.SO3Ln
import Verif.Lemmas.SO3Bounds

/-! # Properties C01–C07: rotations -/

open Matrix NormedSpace

namespace Mrob

open Spec

/-! ## C01 -/

/-- `hat3 w` is the matrix of the cross product with `w`. -/
theorem C01_hat3_cross (w : Vec3) : hat3 w = crossMat w := by
  ext i j
  fin_cases i <;> fin_cases j <;>
    simp [hat3, crossMat, LinearMap.toMatrix'_apply, cross_apply]

/-- Applying `hat3 w` is taking the cross product, and `hat3 w` is skew. -/
theorem C01_hat3_mulVec (w v : Vec3) : hat3 w *ᵥ v = crossProduct w v ∧ (hat3 w)ᵀ = -hat3 w := by
  refine ⟨?_, hat3_transpose w⟩
  funext i
  fin_cases i <;> simp [hat3, mulVec, dotProduct, Fin.sum_univ_three, cross_apply] <;> ring

/-- `vee3` inverts `hat3`, and `hat3` inverts `vee3` on skew matrices. -/
theorem C01_vee3_hat3 (w : Vec3) (M : Mat3) :
    vee3 (hat3 w) = w ∧ (Mᵀ = -M → hat3 (vee3 M) = M) :=
  ⟨vee3_hat3 w, hat3_vee3⟩

/-- Skew matrices exist: the hypothesis of `C01_vee3_hat3` is satisfiable. -/
example : (!![0, -3, 2; 3, 0, -1; -2, 1, 0] : Mat3)ᵀ = -!![0, -3, 2; 3, 0, -1; -2, 1, 0] := by
  ext i j; fin_cases i <;> fin_cases j <;> simp

/-! ## C02 -/

/-- Outside the small-angle band `SO3(w)` is the exponential of the cross-product matrix. -/
theorem C02_exp_exact (w : Vec3) (h : 1e-5 ≤ len w ∨ w = 0) :
    (SO3.ofVec w).R = exp (crossMat w) := by
  rw [← C01_hat3_cross]
  rcases h with h | rfl
  · rw [len_eq_vnorm] at h
    have hw : w ≠ 0 := by
      rintro rfl
      rw [vnorm_eq_zero.mpr rfl] at h
      norm_num at h
    rw [exp_hat3 hw, ofVec_R, expC1_of_ge h, expC2_of_ge h, vnorm_sq]
  · rw [ofVec_zero, hat3_zero, exp_zero]

/-- Inside the small-angle band `SO3(w)` differs from the exponential by at most `1e-26` per entry. -/
theorem C02_exp_small (w : Vec3) (h : len w < 1e-5) (i j : Fin 3) :
    |(SO3.ofVec w).R i j - exp (crossMat w) i j| ≤ 1e-26 := by
  rw [← C01_hat3_cross]
  rw [len_eq_vnorm] at h
  by_cases hw : w = 0
  · subst hw
    rw [ofVec_zero, hat3_zero, exp_zero, sub_self, abs_zero]; norm_num
  have hpos : 0 < vnorm w := lt_of_le_of_ne (vnorm_nonneg w) fun h' => hw (vnorm_eq_zero.mp h'.symm)
  rw [exp_hat3 hw, ofVec_R, expC1_of_lt h, expC2_of_lt h, ← vnorm_sq]
  refine (rod_sub_le w i j).trans ?_
  have h1 := sinc_taylor hpos
  have h2 := cosc_taylor hpos
  rw [abs_sub_comm] at h1 h2
  have e2 : (0.5 : ℝ) - vnorm w ^ 2 / 24 = 1 / 2 - vnorm w ^ 2 / 24 := by norm_num
  rw [e2]
  set o := vnorm w
  have p4 : o ^ 4 ≤ (1e-5) ^ 4 := by gcongr
  have p2 : o ^ 2 ≤ (1e-5) ^ 2 := by gcongr
  calc _ ≤ o ^ 4 / 120 * o + o ^ 4 / 720 * o ^ 2 := by gcongr
    _ ≤ (1e-5) ^ 4 / 120 * 1e-5 + (1e-5) ^ 4 / 720 * (1e-5) ^ 2 := by gcongr
    _ ≤ 1e-26 := by norm_num

/-- A vector outside the band. -/
example : 1e-5 ≤ len ![(1 : ℝ), -2, 2] ∨ (![(1 : ℝ), -2, 2] : Vec3) = 0 := by
  left; rw [len_vec3, show (1:ℝ) * 1 + -2 * -2 + 2 * 2 = 3 ^ 2 by norm_num, Real.sqrt_sq] <;> norm_num

/-- A vector inside the band. -/
example : len ![(3e-6 : ℝ), 0, 4e-6] < 1e-5 := by
  rw [len_vec3, show (3e-6:ℝ) * 3e-6 + 0 * 0 + 4e-6 * 4e-6 = 5e-6 ^ 2 by norm_num, Real.sqrt_sq] <;>
    norm_num

/-! ## C03 -/

/-- Outside the small-angle band `SO3(w)` is exactly a rotation. -/
theorem C03_rotation_exact (w : Vec3) (h : 1e-5 ≤ len w ∨ w = 0) :
    IsRotation (SO3.ofVec w).R := by
  rcases h with h | rfl
  · exact ofVec_isRotation_of_ge h
  · rw [ofVec_zero]; exact isRotation_one

/-- Inside the band the orthogonality defect is at most `1e-31` per entry and the determinant is
within `1e-31` of one. -/
theorem C03_rotation_small (w : Vec3) (h : len w < 1e-5) :
    (∀ i j, |((SO3.ofVec w).R * (SO3.ofVec w).Rᵀ) i j - (1 : Mat3) i j| ≤ 1e-31) ∧
      |(SO3.ofVec w).R.det - 1| ≤ 1e-31 := by
  rw [len_eq_vnorm] at h
  have hn := vnorm_nonneg w
  set o := vnorm w with ho
  have p2 : o ^ 2 ≤ (1e-5) ^ 2 := by gcongr
  have p4 : o ^ 4 ≤ (1e-5) ^ 4 := by gcongr
  have p6 : o ^ 6 ≤ (1e-5) ^ 6 := by gcongr
  have n2 : 0 ≤ o ^ 2 := by positivity
  have n4 : 0 ≤ o ^ 4 := by positivity
  have n6 : 0 ≤ o ^ 6 := by positivity
  have e6 : o ^ 6 = o ^ 4 * o ^ 2 := by ring
  have hd : |o ^ 4 / 72 - o ^ 6 / 576| ≤ o ^ 4 / 72 := by
    rw [abs_of_nonneg] <;> nlinarith
  constructor
  · intro i j
    rw [rod_small_defect w h, Matrix.add_apply, Matrix.smul_apply, add_sub_cancel_left, smul_eq_mul,
      abs_mul]
    calc _ ≤ o ^ 4 / 72 * o ^ 2 := by
          gcongr
          exact abs_hat3_sq_le w i j
      _ = o ^ 6 / 72 := by ring
      _ ≤ (1e-5) ^ 6 / 72 := by gcongr
      _ ≤ 1e-31 := by norm_num
  · rw [ofVec_R, expC1_of_lt h, expC2_of_lt h, rod_det, ← vnorm_sq, ← ho]
    have e : (1 - o ^ 2 * (0.5 - o ^ 2 / 24)) ^ 2 + o ^ 2 * (1 - o ^ 2 / 6) ^ 2 - 1
        = -(o ^ 6 / 72 - o ^ 6 * o ^ 2 / 576) := by ring
    rw [e, abs_neg, abs_of_nonneg] <;> nlinarith

/-- The defect is real: inside the band the matrix is not exactly orthogonal. -/
theorem C03_rotation_small_not_exact :
    ¬ IsRotation (SO3.ofVec ![1e-6, 0, 0]).R := by
  intro h
  have hn : vnorm ![(1e-6 : ℝ), 0, 0] = 1e-6 := by
    rw [← len_eq_vnorm, len_vec3, show (1e-6:ℝ) * 1e-6 + 0 * 0 + 0 * 0 = 1e-6 ^ 2 by norm_num,
      Real.sqrt_sq (by norm_num)]
  have h1 := h.1
  rw [rod_small_defect _ (by rw [hn]; norm_num), hn] at h1
  have h2 := congrFun (congrFun h1 1) 1
  simp [hat3] at h2
  norm_num at h2

end Mrob
