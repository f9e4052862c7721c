import Verif.Lemmas.SE3
import Verif.Lemmas.SO3Bounds
import Verif.Lemmas.Taylor

/-! Bounds on the translation part of `SE3::exp`, and adjoint algebra. -/

open Matrix

namespace Mrob

open Spec

theorem crossMat_eq_hat3 (w : Vec3) : crossMat w = hat3 w := by
  ext i j
  fin_cases i <;> fin_cases j <;>
    simp [hat3, crossMat, LinearMap.toMatrix'_apply, cross_apply]

theorem twist_eq_hat6 (w v : Vec3) : twist w v = hat6 (vec6 w v) := by
  rw [hat6_eq, head3_vec6, tail3_vec6, twist, crossMat_eq_hat3, homog]
  congr 1

/-- Row bound for a matrix-vector product. -/
theorem mulVec_bound {M : Mat3} {c : ℝ} (hM : ∀ i j, |M i j| ≤ c) (v : Vec3) (i : Fin 3) :
    |(M *ᵥ v) i| ≤ 3 * c * vnorm v := by
  have hc : 0 ≤ c := (abs_nonneg _).trans (hM 0 0)
  have hv := abs_le_vnorm v
  simp only [mulVec, dotProduct, Fin.sum_univ_three]
  have b : ∀ j, |M i j * v j| ≤ c * vnorm v := fun j => by
    rw [abs_mul]; exact mul_le_mul (hM i j) (hv j) (abs_nonneg _) hc
  calc _ ≤ |M i 0 * v 0| + |M i 1 * v 1| + |M i 2 * v 2| := abs_add_three _ _ _
    _ ≤ c * vnorm v + c * vnorm v + c * vnorm v := by gcongr <;> exact b _
    _ = _ := by ring

/-- Difference of two Rodrigues polynomials applied to a vector. -/
theorem rod_sub_mulVec_le {a b a' b' c : ℝ} (w v : Vec3) (i : Fin 3)
    (h : |a - a'| * vnorm w + |b - b'| * vnorm w ^ 2 ≤ c) :
    |(rod a b w *ᵥ v) i - (rod a' b' w *ᵥ v) i| ≤ 3 * c * vnorm v := by
  have e : (rod a b w *ᵥ v) i - (rod a' b' w *ᵥ v) i = ((rod a b w - rod a' b' w) *ᵥ v) i := by
    rw [sub_mulVec]; rfl
  rw [e]
  exact mulVec_bound (fun i j => (rod_sub_le w i j).trans h) v i

/-- The coefficients used by `SE3::exp` are always within the Taylor remainder of the exact ones. -/
theorem vC2_err {o : ℝ} (h : 0 < o) :
    |vC2 o (o ^ 2) - (1 / 2 - o ^ 2 / 24)| ≤ o ^ 4 / 720 := by
  by_cases h' : 1e-3 < o
  · rw [vC2_of_gt h']; exact cosc_taylor h
  · rw [vC2_of_le (not_lt.mp h')]
    have : (0.5 : ℝ) - o ^ 2 / 24 - (1 / 2 - o ^ 2 / 24) = 0 := by norm_num
    rw [this, abs_zero]; positivity

theorem vC3_err {o : ℝ} (h : 0 < o) :
    |vC3 o (o ^ 2) - (1 / 6 - o ^ 2 / 120)| ≤ o ^ 4 / 5040 := by
  by_cases h' : 1e-3 < o
  · rw [vC3_of_gt h', div_div, show o ^ 2 * o = o ^ 3 by ring]; exact sinc3_taylor h
  · rw [vC3_of_le (not_lt.mp h'), sub_self, abs_zero]; positivity

/-- `adj` in terms of rotation and translation parts. -/
theorem adj_mulVec (a : SE3) (xi : Vec6) :
    head3 (a.adj *ᵥ xi) = a.R *ᵥ head3 xi ∧
      tail3 (a.adj *ᵥ xi) = hat3 a.t *ᵥ (a.R *ᵥ head3 xi) + a.R *ᵥ tail3 xi := by
  have : xi = Sum.elim (head3 xi) (tail3 xi) := (vec6_eta xi).symm
  constructor
  · funext i
    rw [head3, SE3.adj, this, fromBlocks_mulVec]
    simp [head3]
    rfl
  · funext i
    rw [tail3, SE3.adj, this, fromBlocks_mulVec]
    simp [tail3, mulVec_mulVec]
    rfl

theorem hat3_mulVec_comm (a b : Vec3) : hat3 a *ᵥ b = -(hat3 b *ᵥ a) := by
  funext i; fin_cases i <;> simp [hat3, mulVec, dotProduct, Fin.sum_univ_three] <;> ring

/-- `V(Rw) R = R V(w)`. -/
theorem vMat_rot {R : Mat3} (h : IsRotation R) (w : Vec3) : R * vMat w = vMat (R *ᵥ w) * R := by
  rw [vMat, vMat, vnorm_rot h, sqNorm_rot h, rot_mul_rod h]

theorem ofVec_rot {R : Mat3} (h : IsRotation R) (w : Vec3) :
    R * (SO3.ofVec w).R = (SO3.ofVec (R *ᵥ w)).R * R := by
  rw [ofVec_R, ofVec_R, vnorm_rot h, sqNorm_rot h, rot_mul_rod h]

/-- Products of `V` with the generator. -/
theorem rod_mul_hat3 (a b : ℝ) (w : Vec3) :
    rod a b w * hat3 w = rod (1 - sqNorm w * b) a w - 1 := by
  simp only [rod, add_mul, one_mul, smul_mul_assoc, hat3_cube]
  module

/-- Twist form of the adjoint law: defect in the translation. -/
theorem adj_defect {a : SE3} (ha : IsRigid a.T) (xi : Vec6) :
    ∃ d : Vec3, (a.updateRhs xi).T = homog (a.R * (SO3.ofVec (head3 xi)).R)
        (a.R *ᵥ (vMat (head3 xi) *ᵥ tail3 xi) + a.t) 1 ∧
      (a.updateLhs (a.adj *ᵥ xi)).T = homog (a.R * (SO3.ofVec (head3 xi)).R)
        (a.R *ᵥ (vMat (head3 xi) *ᵥ tail3 xi) + a.t + d) 1 ∧
      d = ((SO3.ofVec (a.R *ᵥ head3 xi)).R - 1 - vMat (a.R *ᵥ head3 xi) * hat3 (a.R *ᵥ head3 xi)) *ᵥ a.t := by
  have hr := rigid_R ha
  obtain ⟨h1, h2⟩ := adj_mulVec a xi
  refine ⟨_, ?_, ?_, rfl⟩
  · rw [SE3.updateRhs, se3_ofVec_T, rigid_T ha, homog_mul]
    simp
  · rw [SE3.updateLhs, se3_ofVec_T, h1, h2, rigid_T ha, homog_mul, ← ofVec_rot hr]
    change homog _ _ _ = _
    rw [mul_one]
    refine congrArg (fun x => homog _ x 1) ?_
    rw [one_smul, mulVec_add, mulVec_mulVec _ (vMat _) a.R, ← vMat_rot hr, hat3_mulVec_comm a.t,
      mulVec_neg, mulVec_mulVec, sub_mulVec, sub_mulVec, one_mulVec, mulVec_mulVec]
    abel

theorem adj_mul {a b : SE3} (ha : IsRigid a.T) (hb : IsRigid b.T) :
    (a.mul b).adj = a.adj * b.adj := by
  have hr := rigid_R ha
  rw [SE3.adj, SE3.adj, SE3.adj, fromBlocks_multiply, mul_R ha hb]
  have ht : (a.mul b).t = a.R *ᵥ b.t + a.t := by
    rw [SE3.t, SE3.mul, rigid_T ha, rigid_T hb, homog_mul]; simp
  rw [ht, hat3_add, add_mul, ← rot_conj_hat3 hr]
  congr 1
  · simp
  · simp
  · have : a.R * hat3 b.t * a.Rᵀ * (a.R * b.R) = a.R * (hat3 b.t * b.R) := by
      rw [mul_assoc (a.R * hat3 b.t), ← mul_assoc a.Rᵀ, hr.transpose_mul, one_mul, mul_assoc]
    rw [this, mul_assoc, add_comm]
  · simp

theorem adj_one : SE3.default.adj = 1 := by
  have h1 : SE3.default.R = 1 := by
    rw [SE3.R, SE3.default, ← homog_one, tl3_homog]
  have h2 : SE3.default.t = 0 := by
    rw [SE3.t, SE3.default, ← homog_one, tr3_homog]
  rw [SE3.adj, h1, h2, hat3_zero, zero_mul, fromBlocks_one]

end Mrob
