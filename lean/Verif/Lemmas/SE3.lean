import Verif.Model.SE3
import Verif.Lemmas.Exp
import Verif.Lemmas.SO3Ln

open Matrix NormedSpace

namespace Mrob

open Spec

/-! ### Blocks -/

@[simp] theorem tl3_homog (A : Mat3) (b : Vec3) (c : ℝ) : tl3 (homog A b c) = A := by
  simp [tl3, homog]

@[simp] theorem tr3_homog (A : Mat3) (b : Vec3) (c : ℝ) : tr3 (homog A b c) = b := by
  funext i; simp [tr3, homog]

theorem homog_mul (A A' : Mat3) (b b' : Vec3) (c c' : ℝ) :
    homog A b c * homog A' b' c' = homog (A * A') (A *ᵥ b' + c' • b) (c * c') := by
  rw [homog, homog, fromBlocks_multiply, homog]
  congr 1
  · simp
  · ext i j
    simp [Matrix.mul_apply, mulVec, dotProduct, mul_comm]
  · simp
  · ext i j
    simp [Matrix.mul_apply]

theorem homog_add (A A' : Mat3) (b b' : Vec3) (c c' : ℝ) :
    homog A b c + homog A' b' c' = homog (A + A') (b + b') (c + c') := by
  ext i j; rcases i with i | i <;> rcases j with j | j <;> simp [homog]

theorem homog_smul (k : ℝ) (A : Mat3) (b : Vec3) (c : ℝ) :
    k • homog A b c = homog (k • A) (k • b) (k * c) := by
  ext i j; rcases i with i | i <;> rcases j with j | j <;> simp [homog]

theorem homog_one : homog 1 0 1 = 1 := by
  ext i j
  rcases i with i | i <;> rcases j with j | j <;> simp [homog, Matrix.one_apply]

theorem homog_inj {A A' : Mat3} {b b' : Vec3} {c c' : ℝ} (h : homog A b c = homog A' b' c') :
    A = A' ∧ b = b' := by
  constructor
  · rw [← tl3_homog A b c, h, tl3_homog]
  · rw [← tr3_homog A b c, h, tr3_homog]

theorem isRigid_iff {T : Mat4} : IsRigid T ↔ IsRotation (tl3 T) ∧ T = homog (tl3 T) (tr3 T) 1 := by
  constructor
  · rintro ⟨h1, h2, h3⟩
    refine ⟨h1, ?_⟩
    ext i j
    rcases i with i | i <;> rcases j with j | j
    · simp [homog, tl3, toBlocks₁₁]
    · simp [homog, tr3]
    · have := congrFun (congrFun h2 i) j
      simpa [homog, toBlocks₂₁] using this
    · have := congrFun (congrFun h3 i) j
      simpa [homog, toBlocks₂₂] using this
  · rintro ⟨h1, h2⟩
    refine ⟨h1, ?_, ?_⟩
    · rw [h2]; simp [homog]
    · rw [h2]; ext i j; simp [homog]

theorem isRigid_homog {R : Mat3} (h : IsRotation R) (t : Vec3) : IsRigid (homog R t 1) :=
  isRigid_iff.mpr ⟨by simpa using h, by simp⟩

/-! ### hat6 / vee6 -/

theorem hat6_eq (xi : Vec6) : hat6 xi = homog (hat3 (head3 xi)) (tail3 xi) 0 := by
  rw [hat6]
  congr 1
  funext i; fin_cases i <;> simp [tail3]

theorem vee6_homog (A : Mat3) (b : Vec3) (c : ℝ) : vee6 (homog A b c) = vec6 (vee3 A) b := by
  rw [vee6]
  congr 1
  funext i; fin_cases i <;> simp [homog]

@[simp] theorem head3_vec6 (w v : Vec3) : head3 (vec6 w v) = w := rfl
@[simp] theorem tail3_vec6 (w v : Vec3) : tail3 (vec6 w v) = v := rfl
theorem vec6_eta (x : Vec6) : vec6 (head3 x) (tail3 x) = x := by
  funext i; rcases i with i | i <;> rfl

theorem vee6_hat6 (xi : Vec6) : vee6 (hat6 xi) = xi := by
  rw [hat6_eq, vee6_homog, vee3_hat3, vec6_eta]

/-- The matrix `V` computed by `SE3::exp`. -/
noncomputable def vMat (w : Vec3) : Mat3 :=
  rod (vC2 (vnorm w) (sqNorm w)) (vC3 (vnorm w) (sqNorm w)) w

theorem se3ExpHat_homog (w v : Vec3) :
    se3ExpHat (homog (hat3 w) v 0) = homog (SO3.ofVec w).R (vMat w *ᵥ v) 1 := by
  simp only [se3ExpHat, vee6_homog, vee3_hat3, head3_vec6, tail3_vec6, tl3_homog, vMat, rod,
    smul_mul_assoc, add_assoc]

theorem se3_ofVec_T (xi : Vec6) :
    (SE3.ofVec xi).T = homog (SO3.ofVec (head3 xi)).R (vMat (head3 xi) *ᵥ tail3 xi) 1 := by
  rw [SE3.ofVec, hat6_eq, se3ExpHat_homog]

/-- The matrix exponential of a twist. -/
theorem exp_hat6 {xi : Vec6} (h : head3 xi ≠ 0) :
    exp (hat6 xi) = homog (exp (hat3 (head3 xi)))
      (rod ((1 - Real.cos (vnorm (head3 xi))) / vnorm (head3 xi) ^ 2)
        ((vnorm (head3 xi) - Real.sin (vnorm (head3 xi))) / vnorm (head3 xi) ^ 3) (head3 xi)
          *ᵥ tail3 xi) 1 := by
  set w := head3 xi with hw
  set v := tail3 xi with hv
  have h0 : vnorm w ≠ 0 := fun hh => h (vnorm_eq_zero.mp hh)
  have e : hat6 xi = homog (hat3 w) v 0 := hat6_eq xi
  have h2 : hat6 xi ^ 2 = homog (hat3 w * hat3 w) (hat3 w *ᵥ v) 0 := by
    rw [pow_two, e, homog_mul]; simp
  have h3 : hat6 xi ^ 3 = homog (-(vnorm w ^ 2) • hat3 w) ((hat3 w * hat3 w) *ᵥ v) 0 := by
    rw [pow_succ, h2, e, homog_mul, hat3_cube, vnorm_sq]; simp
  have h4 : hat6 xi ^ 4 = -(vnorm w ^ 2) • hat6 xi ^ 2 := by
    rw [pow_succ, h3, h2, e, homog_mul, homog_smul, smul_mul_assoc, smul_mulVec]
    simp
  rw [exp_of_quartic h0 h4, h2, h3, e, exp_hat3 h, ← homog_one, homog_add, homog_smul, homog_smul,
    homog_add, homog_add]
  congr 1
  · rw [rod, smul_smul]
    have : (vnorm w - Real.sin (vnorm w)) / vnorm w ^ 3 * -(vnorm w ^ 2)
        = Real.sin (vnorm w) / vnorm w - 1 := by field_simp; ring
    rw [this]
    module
  · rw [rod, add_mulVec, add_mulVec, one_mulVec, smul_mulVec, smul_mulVec]
    simp
  · simp

/-- Pure translations. -/
theorem exp_hat6_zero {xi : Vec6} (h : head3 xi = 0) :
    exp (hat6 xi) = homog 1 (tail3 xi) 1 := by
  have e : hat6 xi = homog 0 (tail3 xi) 0 := by rw [hat6_eq, h, hat3_zero]
  have h2 : hat6 xi ^ 2 = 0 := by
    rw [pow_two, e, homog_mul]; ext i j; rcases i with i | i <;> rcases j with j | j <;> simp [homog]
  have h4 : hat6 xi ^ 4 = -((2 * Real.pi) ^ 2) • hat6 xi ^ 2 := by
    rw [h2, smul_zero, show 4 = 2 + 2 from rfl, pow_add, h2, mul_zero]
  have h3 : hat6 xi ^ 3 = 0 := by rw [pow_succ, h2, zero_mul]
  rw [exp_of_quartic (by positivity) h4, h2, h3, smul_zero, smul_zero, add_zero, add_zero, e,
    ← homog_one, homog_add]
  simp

theorem vC2_of_gt {o o2 : ℝ} (h : 1e-3 < o) : vC2 o o2 = (1 - Real.cos o) / o2 := by
  simp [vC2, h]
theorem vC3_of_gt {o o2 : ℝ} (h : 1e-3 < o) : vC3 o o2 = (o - Real.sin o) / o2 / o := by
  simp [vC3, h]
theorem vC2_of_le {o o2 : ℝ} (h : o ≤ 1e-3) : vC2 o o2 = 0.5 - o2 / 24 := by
  simp [vC2, not_lt.mpr h]
theorem vC3_of_le {o o2 : ℝ} (h : o ≤ 1e-3) : vC3 o o2 = 1 / 6 - o2 / 120 := by
  simp [vC3, not_lt.mpr h]

theorem vMat_zero : vMat 0 = 1 := rod_at_zero _ _

/-! ### Inverse and group structure -/

theorem inv_T (a : SE3) : a.inv.T = homog a.Rᵀ ((-a.Rᵀ) *ᵥ a.t) 1 := rfl

theorem rigid_T {a : SE3} (h : IsRigid a.T) : a.T = homog a.R a.t 1 := (isRigid_iff.mp h).2

theorem rigid_R {a : SE3} (h : IsRigid a.T) : IsRotation a.R := (isRigid_iff.mp h).1

theorem inv_isRigid {a : SE3} (h : IsRigid a.T) : IsRigid a.inv.T :=
  isRigid_homog (rigid_R h).transpose _

theorem mul_isRigid {a b : SE3} (ha : IsRigid a.T) (hb : IsRigid b.T) : IsRigid (a.mul b).T := by
  change IsRigid (a.T * b.T)
  rw [rigid_T ha, rigid_T hb, homog_mul]
  simpa using isRigid_homog ((rigid_R ha).mul (rigid_R hb)) _

theorem mul_inv_cancel' {a : SE3} (h : IsRigid a.T) : a.T * a.inv.T = 1 := by
  rw [inv_T, rigid_T h, homog_mul]
  have hr := (rigid_R h).1
  rw [hr, mulVec_mulVec, mul_neg, hr, neg_mulVec, one_mulVec, one_smul, neg_add_cancel, mul_one,
    homog_one]

theorem inv_mul_cancel' {a : SE3} (h : IsRigid a.T) : a.inv.T * a.T = 1 :=
  mul_eq_one_comm.mp (mul_inv_cancel' h)

@[simp] theorem mul_R {a b : SE3} (ha : IsRigid a.T) (hb : IsRigid b.T) :
    (a.mul b).R = a.R * b.R := by
  change tl3 (a.T * b.T) = _
  rw [rigid_T ha, rigid_T hb, homog_mul, tl3_homog]

@[simp] theorem mul_t {a b : SE3} (ha : IsRigid a.T) (hb : IsRigid b.T) :
    (a.mul b).t = a.R *ᵥ b.t + a.t := by
  change tr3 (a.T * b.T) = _
  rw [rigid_T ha, rigid_T hb, homog_mul, tr3_homog, one_smul]

@[simp] theorem inv_R (a : SE3) : a.inv.R = a.Rᵀ := tl3_homog _ _ _
@[simp] theorem inv_t (a : SE3) : a.inv.t = (-a.Rᵀ) *ᵥ a.t := tr3_homog _ _ _
theorem R_mk_homog (A : Mat3) (b : Vec3) (c : ℝ) : (SE3.mk (homog A b c)).R = A := tl3_homog _ _ _
theorem t_mk_homog (A : Mat3) (b : Vec3) (c : ℝ) : (SE3.mk (homog A b c)).t = b := tr3_homog _ _ _

end Mrob
