import Verif.Lemmas.FactorDeriv

/-!
# Perturbation of the relative pose at zero residual
-/

open Matrix Filter Topology

namespace Mrob

open Spec

theorem trace_rod_mul_rod (a b a' b' : ℝ) (w w' : Vec3) :
    (rod a b w * rod a' b' w').trace = 3 - 2 * b * sqNorm w - 2 * b' * sqNorm w' - 2 * a * a' * (w ⬝ᵥ w')
      + b * b' * ((w ⬝ᵥ w') ^ 2 + sqNorm w * sqNorm w') := by
  rw [Matrix.trace_fin_three]
  simp only [rod, Matrix.mul_apply, Matrix.add_apply, Matrix.smul_apply, smul_eq_mul, Fin.sum_univ_three, hat3,
    sqNorm3, dotProduct]
  simp
  ring

/-- Two small rotations composed with opposite sense stay in the domain of `acos`, or are symmetric. -/
theorem rel_cos_le (w w' : Vec3) : ∀ᶠ s : ℝ in 𝓝 0,
    cosOf ((SO3.ofVec (s • w)).R * (SO3.ofVec (s • w')).Rᵀ) ≤ 1 ∨
      skewVec ((SO3.ofVec (s • w)).R * (SO3.ofVec (s • w')).Rᵀ) = 0 := by
  by_cases hww : w = w'
  · subst hww
    filter_upwards [ofVec_smul_eventually w] with s hs
    right
    rw [hs, rod_transpose, rod_mul_rod, skewVec_rod]
    ring_nf
    simp
  · set d := w ⬝ᵥ w' with hd
    set n := sqNorm w with hn
    set n' := sqNorm w' with hn'
    have hpos : 0 < n + n' - 2 * d := by
      have h1 : 0 < sqNorm (w - w') :=
        lt_of_le_of_ne (sqNorm_nonneg _) fun h => hww (sub_eq_zero.mp (sqNorm_eq_zero.mp h.symm))
      have h2 : sqNorm (w - w') = n + n' - 2 * d := by
        rw [hn, hn', hd]; simp [sqNorm3, dotProduct, Fin.sum_univ_three]; ring
      rwa [h2] at h1
    have hg : Continuous fun s : ℝ => 2 * (0.5 - s ^ 2 * n / 24) * n + 2 * (0.5 - s ^ 2 * n' / 24) * n'
        - 2 * (1 - s ^ 2 * n / 6) * (1 - s ^ 2 * n' / 6) * d
        - s ^ 2 * (0.5 - s ^ 2 * n / 24) * (0.5 - s ^ 2 * n' / 24) * (d ^ 2 + n * n') := by fun_prop
    have hg0 := continuousAt_const.eventually_lt (hg.continuousAt (x := 0))
      (show (0 : ℝ) < _ by norm_num; linarith)
    filter_upwards [ofVec_smul_eventually w, ofVec_smul_eventually w', hg0] with s h1 h2 h3
    left
    rw [h1, h2, rod_transpose, cosOf, trace_rod_mul_rod, ← hd, ← hn, ← hn']
    have : 0 ≤ s ^ 2 * (2 * (0.5 - s ^ 2 * n / 24) * n + 2 * (0.5 - s ^ 2 * n' / 24) * n'
        - 2 * (1 - s ^ 2 * n / 6) * (1 - s ^ 2 * n' / 6) * d
        - s ^ 2 * (0.5 - s ^ 2 * n / 24) * (0.5 - s ^ 2 * n' / 24) * (d ^ 2 + n * n')) :=
      mul_nonneg (sq_nonneg s) h3.le
    nlinarith [this]

/-- A left update in block form. -/
theorem updateLhs_homog {X : SE3} (hX : IsRigid X.T) (s : ℝ) (xi : Vec6) :
    (X.updateLhs (s • xi)).T = homog ((SO3.ofVec (s • head3 xi)).R * X.R)
      ((SO3.ofVec (s • head3 xi)).R *ᵥ X.t + vMat (s • head3 xi) *ᵥ (s • tail3 xi)) 1 := by
  change (SE3.ofVec (s • xi)).T * X.T = _
  rw [se3_ofVec_T, rigid_T hX, homog_mul, one_smul, one_mul]
  rfl

theorem updateLhs_R {X : SE3} (hX : IsRigid X.T) (s : ℝ) (xi : Vec6) :
    (X.updateLhs (s • xi)).R = (SO3.ofVec (s • head3 xi)).R * X.R := by
  rw [SE3.R, updateLhs_homog hX, tl3_homog]

theorem updateLhs_t {X : SE3} (hX : IsRigid X.T) (s : ℝ) (xi : Vec6) :
    (X.updateLhs (s • xi)).t = (SO3.ofVec (s • head3 xi)).R *ᵥ X.t + vMat (s • head3 xi) *ᵥ (s • tail3 xi) := by
  rw [SE3.t, updateLhs_homog hX, tr3_homog]

/-- The perturbed relative transformation at zero residual. -/
theorem rel3dTr_perturbed {Tobs Xo Xt : SE3} (ho : IsRigid Xo.T) (hb : IsRigid Tobs.T) (ht : IsRigid Xt.T)
    (h0 : Xt = Xo.mul Tobs) (xo xt : Vec6) (s : ℝ) :
    rel3dTr Tobs (Xo.updateLhs (s • xo)) (Xt.updateLhs (s • xt)) =
      ⟨homog ((SO3.ofVec (s • head3 xo)).R * (SO3.ofVec (s • head3 xt)).Rᵀ)
        ((SO3.ofVec (s • head3 xo)).R *ᵥ (Xt.t - (SO3.ofVec (s • head3 xt)).Rᵀ *ᵥ
          ((SO3.ofVec (s • head3 xt)).R *ᵥ Xt.t + vMat (s • head3 xt) *ᵥ (s • tail3 xt)))
          + vMat (s • head3 xo) *ᵥ (s • tail3 xo)) 1⟩ := by
  ext1
  change (Xo.updateLhs (s • xo)).T * Tobs.T * (Xt.updateLhs (s • xt)).inv.T = _
  have e1 : (Xo.updateLhs (s • xo)).T * Tobs.T = (SE3.ofVec (s • xo)).T * Xt.T := by
    rw [h0]; exact Matrix.mul_assoc _ _ _
  have hr := (rigid_R ht).1
  rw [e1, inv_T, se3_ofVec_T, updateLhs_R ht, updateLhs_t ht, rigid_T ht, homog_mul, homog_mul]
  have eh : head3 (s • xo) = s • head3 xo := rfl
  have et : tail3 (s • xo) = s • tail3 xo := rfl
  rw [eh, et]
  set A := (SO3.ofVec (s • head3 xo)).R
  set B := (SO3.ofVec (s • head3 xt)).R
  have e2 : A * Xt.R * (B * Xt.R)ᵀ = A * Bᵀ := by
    rw [Matrix.transpose_mul, Matrix.mul_assoc, ← Matrix.mul_assoc Xt.R, hr, Matrix.one_mul]
  rw [e2, one_mul, one_smul, one_smul, one_mul]
  congr 1
  rw [Matrix.mulVec_mulVec, mul_neg, e2, Matrix.mulVec_sub, neg_mulVec, Matrix.mulVec_mulVec _ A]
  abel

end Mrob
