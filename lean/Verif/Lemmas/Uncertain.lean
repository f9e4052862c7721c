import Verif.Props.SE3
import Verif.Model.SE3Cov
import Verif.Spec.Uncertain

/-!
# Lemmas on uncertain poses
-/

open Matrix NormedSpace

namespace Mrob

open Spec

theorem expTwist_eq (δ : Vec6) : expTwist δ = exp (hat6 δ) := by
  rw [expTwist, twist_eq_hat6]
  congr 2
  exact vec6_eta δ

theorem hat6_adj {a : SE3} (ha : IsRigid a.T) (xi : Vec6) : hat6 (a.adj *ᵥ xi) * a.T = a.T * hat6 xi := by
  obtain ⟨h1, h2⟩ := adj_mulVec a xi
  have hr := rigid_R ha
  rw [hat6_eq, hat6_eq, h1, h2, rigid_T ha, homog_mul, homog_mul]
  have e1 : hat3 (a.R *ᵥ head3 xi) * a.R = a.R * hat3 (head3 xi) := by
    rw [← rot_conj_hat3 hr, mul_assoc, hr.transpose_mul, mul_one]
  rw [e1]
  congr 1
  · rw [hat3_mulVec_comm a.t]; simp
  · simp

theorem exp_adj {a : SE3} (ha : IsRigid a.T) (xi : Vec6) : expTwist (a.adj *ᵥ xi) * a.T = a.T * expTwist xi := by
  have h1 := mul_inv_cancel' ha
  have hu : IsUnit a.T := IsUnit.of_mul_eq_one _ h1
  have hd : a.T⁻¹ * a.T = 1 := nonsing_inv_mul _ ((Matrix.isUnit_iff_isUnit_det _).mp hu)
  have hd' : a.T * a.T⁻¹ = 1 := mul_nonsing_inv _ ((Matrix.isUnit_iff_isUnit_det _).mp hu)
  have h2 : hat6 (a.adj *ᵥ xi) = a.T * hat6 xi * a.T⁻¹ := by
    rw [← hat6_adj ha, mul_assoc, hd', mul_one]
  rw [expTwist_eq, expTwist_eq, h2, exp_conj _ _ hu, mul_assoc, hd, mul_one]

theorem twistMean_adj {ι : Type} [Fintype ι] (A : Mat6) (p : ι → ℝ) (δ : ι → Vec6) :
    twistMean p (fun i => A *ᵥ δ i) = A *ᵥ twistMean p δ := by
  simp only [twistMean, mulVec_sum, mulVec_smul]

theorem twistCov_adj {ι : Type} [Fintype ι] (A : Mat6) (p : ι → ℝ) (δ : ι → Vec6) :
    twistCov p (fun i => A *ᵥ δ i) = A * twistCov p δ * Aᵀ := by
  simp only [twistCov, Matrix.mul_sum, Matrix.sum_mul, Matrix.mul_smul, Matrix.smul_mul]
  refine Finset.sum_congr rfl fun i _ => ?_
  rw [mul_vecMulVec, vecMulVec_mul, vecMul_transpose]

theorem expTwist_rotation {δ : Vec6} (h : tail3 δ = 0) : expTwist δ = homog (exp (hat3 (head3 δ))) 0 1 := by
  rw [expTwist_eq]
  by_cases h0 : head3 δ = 0
  · rw [exp_hat6_zero h0, h0, h, hat3_zero, exp_zero]
  · rw [exp_hat6 h0, h, mulVec_zero]

namespace Demo

/-- Half a turn about the vertical axis, to the left or to the right. -/
noncomputable def turn (b : Bool) : Vec6 := vec6 ![0, 0, if b then Real.pi else -Real.pi] 0

/-- The identity with the covariance of a random half turn. -/
noncomputable def turning : SE3Cov := ⟨SE3.default, twistCov (fun _ : Bool => 1 / 2) turn⟩

theorem turning_describes : Describes turning.pose.T turning.cov (fun _ : Bool => 1 / 2) fun b => expTwist (turn b) := by
  refine ⟨turn, fun i => (mul_one _).symm, ?_, rfl⟩
  funext r
  rcases r with r | r <;> fin_cases r <;> simp [twistMean, turn, vec6]

theorem exp_turn (b : Bool) : expTwist (turn b) = homog !![-1, 0, 0; 0, -1, 0; 0, 0, 1] 0 1 := by
  rw [expTwist_rotation (by rw [turn, tail3_vec6]), turn, head3_vec6]
  have hp := Real.pi_pos
  have hn : vnorm ![0, 0, if b then Real.pi else -Real.pi] = Real.pi := by
    rw [vnorm, sqNorm]
    cases b <;> simp [Fin.sum_univ_three, Real.sqrt_mul_self hp.le]
  have h0 : (![0, 0, if b then Real.pi else -Real.pi] : Vec3) ≠ 0 := by
    intro h
    rw [h] at hn
    rw [← hn, vnorm_eq_zero.mpr rfl] at hp
    exact lt_irrefl _ hp
  congr 1
  rw [exp_hat3 h0, hn, Real.sin_pi, Real.cos_pi]
  have hp' := hp.ne'
  ext i j
  cases b <;> fin_cases i <;> fin_cases j <;> simp [rod, hat3, Matrix.mul_apply, Fin.sum_univ_three] <;> field_simp <;> norm_num

end Demo

end Mrob
