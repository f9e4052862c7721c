import Verif.Props.SE3Cov
import Verif.Lemmas.DampedRate
import Verif.Lemmas.FourthOrder

/-! # Property C106: covariances of fourth-order compounding -/

open Matrix

namespace Mrob

open Spec

/-- Fourth-order compounding of covariances which are small compared to their definiteness gives a positive definite covariance.

Missing: singular or badly conditioned covariances, see `C106_fails`. -/
theorem C106_small_partial (a b : SE3Cov) (ha : a.covᵀ = a.cov) (hb : b.covᵀ = b.cov) (h : (a.compound2 b).cov.PosDef) :
    ∃ t₀ : ℝ, 0 < t₀ ∧ ∀ t, 0 < t → t < t₀ → (SE3Cov.compound4 ⟨a.pose, t • a.cov⟩ ⟨b.pose, t • b.cov⟩).cov.PosDef := by
  have h : (a.cov + a.pose.adj * b.cov * a.pose.adjᵀ).PosDef := h
  obtain ⟨μ, hμ, hlow⟩ := posDef_low h
  have h2 : (a.pose.adj * b.cov * a.pose.adjᵀ)ᵀ = a.pose.adj * b.cov * a.pose.adjᵀ := by
    rw [transpose_mul, transpose_mul, transpose_transpose, hb, Matrix.mul_assoc]
  set s1 := a.cov
  generalize hs2 : a.pose.adj * b.cov * a.pose.adjᵀ = s2 at *
  set M := ∑ i, ∑ j, |extra4 s1 s2 i j|
  have hM : 0 ≤ M := Finset.sum_nonneg fun i _ => Finset.sum_nonneg fun j _ => abs_nonneg _
  refine ⟨μ / (M + 1), div_pos hμ (by linarith), fun t ht htt => ?_⟩
  have e : (SE3Cov.compound4 ⟨a.pose, t • s1⟩ ⟨b.pose, t • b.cov⟩).cov = SE3Cov.cov4 (t • s1) (t • s2) := by
    change SE3Cov.cov4 (t • s1) (a.pose.adj * (t • b.cov) * a.pose.adjᵀ) = _
    rw [Matrix.mul_smul, Matrix.smul_mul, hs2]
  rw [e]
  have hsym : (SE3Cov.cov4 (t • s1) (t • s2))ᵀ = SE3Cov.cov4 (t • s1) (t • s2) :=
    cov4_transpose (by rw [transpose_smul, ha]) (by rw [transpose_smul, h2])
  refine PosDef.of_dotProduct_mulVec_pos (by rw [IsHermitian, conjTranspose_eq_transpose_of_trivial, hsym]) fun x hx => ?_
  rw [star_trivial, cov4_smul, add_mulVec, smul_mulVec, smul_mulVec, dotProduct_add, dotProduct_smul, dotProduct_smul]
  have hx0 : 0 < x ⬝ᵥ x := by
    have := dotProduct_star_self_pos_iff.mpr hx
    rwa [star_trivial] at this
  have q1 := hlow x
  have q2 := (abs_le.mp (quad_le_sum (extra4 s1 s2) x)).1
  rw [lt_div_iff₀ (by linarith)] at htt
  change 0 < t * _ + t * t * _
  have : 0 < (x ⬝ᵥ (s1 + s2) *ᵥ x) + t * (x ⬝ᵥ extra4 s1 s2 *ᵥ x) := by
    have : t * (-(M * (x ⬝ᵥ x))) ≤ t * (x ⬝ᵥ extra4 s1 s2 *ᵥ x) := mul_le_mul_of_nonneg_left q2 ht.le
    have : 0 < (μ - t * M) * (x ⬝ᵥ x) := mul_pos (by nlinarith) hx0
    nlinarith
  nlinarith [mul_pos ht this]

/-- The property is false at every scale: a pose whose rotation about `x` has variance `t`, followed by one whose translation along
the diagonal `(1, 1, 0)` has variance `t` in each coordinate, gets a negative variance in a direction. -/
theorem C106_fails (t : ℝ) (ht : 0 < t) : ∃ a b : SE3Cov, IsRigid a.pose.T ∧ IsRigid b.pose.T ∧ a.cov.PosSemidef ∧ b.cov.PosSemidef ∧
    (∀ i j, |a.cov i j| ≤ t) ∧ (∀ i j, |b.cov i j| ≤ t) ∧ ∃ x, x ⬝ᵥ ((a.compound4 b).cov *ᵥ x) < 0 := by
  have hone : IsRigid SE3.default.T := by
    change IsRigid 1
    rw [← homog_one]; exact isRigid_homog ⟨by simp, by simp⟩ 0
  have hpsd : ∀ u : Vec6, (t • vecMulVec u u).PosSemidef := by
    intro u
    have := posSemidef_vecMulVec_self_star u
    rw [star_trivial] at this
    exact this.smul ht.le
  refine ⟨⟨SE3.default, t • vecMulVec (vec6 ![1, 0, 0] 0) (vec6 ![1, 0, 0] 0)⟩,
    ⟨SE3.default, t • vecMulVec (vec6 0 ![1, 1, 0]) (vec6 0 ![1, 1, 0])⟩, hone, hone, hpsd _, hpsd _, ?_, ?_,
    vec6 0 ![t / 12 - 1, 1, 0], ?_⟩
  · intro i j
    rcases i with i | i <;> rcases j with j | j <;> fin_cases i <;> fin_cases j <;> simp [vecMulVec_apply, vec6, ht.le, abs_of_pos ht]
  · intro i j
    rcases i with i | i <;> rcases j with j | j <;> fin_cases i <;> fin_cases j <;> simp [vecMulVec_apply, vec6, ht.le, abs_of_pos ht]
  · have key : ∀ x : ℝ, vec6 0 ![x, 1, 0] ⬝ᵥ (SE3Cov.cov4 (t • vecMulVec (vec6 ![1, 0, 0] 0) (vec6 ![1, 0, 0] 0))
        (t • vecMulVec (vec6 0 ![1, 1, 0]) (vec6 0 ![1, 1, 0])) *ᵥ vec6 0 ![x, 1, 0]) = t * (x + 1) ^ 2 - t ^ 2 / 6 * (x + 1) := by
      intro x
      simp [dotProduct, mulVec, I6, Fin.sum_univ_three, SE3Cov.cov4, SE3Cov.mA1, SE3Cov.mA2, SE3Cov.mB, br, br2, fromBlocks,
        toBlocks₁₁, toBlocks₁₂, toBlocks₂₁, toBlocks₂₂, vecMulVec_apply, vec6, Matrix.mul_apply, trace_fin_three]
      ring
    change _ ⬝ᵥ (SE3Cov.cov4 _ (SE3.default.adj * _ * SE3.default.adjᵀ) *ᵥ _) < 0
    rw [adj_one, one_mul, transpose_one, mul_one, key]
    have : 0 < t ^ 3 := by positivity
    nlinarith

/-- The hypotheses of `C106_small_partial`. -/
example : ∃ a b : SE3Cov, a.covᵀ = a.cov ∧ b.covᵀ = b.cov ∧ (a.compound2 b).cov.PosDef := by
  refine ⟨SE3Cov.default, SE3Cov.default, transpose_one, transpose_one, ?_⟩
  change (1 + SE3.default.adj * 1 * SE3.default.adjᵀ : Mat6).PosDef
  rw [adj_one, transpose_one, mul_one, mul_one]
  exact PosDef.one.add PosDef.one

end Mrob
