import Verif.Lemmas.Uncertain
import Verif.Props.SE3Cov
import Verif.Lemmas.PlaneReg

/-!
# C87: uncertain poses
-/

open Matrix NormedSpace

namespace Mrob

open Spec

/-- C87: `update_rhs` of an uncertain pose is right: the outcomes times the increment are described by the updated
object.  It is compounding with an exactly known increment, to second and to fourth order. -/
theorem C87_update_rhs (a : SE3Cov) (xi : Vec6) {ι : Type} [Fintype ι] (p : ι → ℝ) (M : ι → Mat4)
    (h : Describes a.pose.T a.cov p M) :
    Describes (a.updateRhs xi).pose.T (a.updateRhs xi).cov p (fun i => M i * (SE3.ofVec xi).T) ∧
      a.updateRhs xi = a.compound2 ⟨SE3.ofVec xi, 0⟩ ∧ a.updateRhs xi = a.compound4 ⟨SE3.ofVec xi, 0⟩ := by
  obtain ⟨δ, h1, h2, h3⟩ := h
  have h4 : a.updateRhs xi = a.compound2 ⟨SE3.ofVec xi, 0⟩ := by
    ext1
    · rfl
    · change a.cov = a.cov + a.pose.adj * 0 * _
      rw [mul_zero, Matrix.zero_mul, add_zero]
  refine ⟨⟨δ, fun i => ?_, h2, h3⟩, h4, ?_⟩
  · simp only [h1 i, mul_assoc]; rfl
  · rw [h4, (C19_fourth_order a ⟨SE3.ofVec xi, 0⟩).2.2.2 rfl]

/-- C87: `update` (`update_lhs`) of an uncertain pose.  Partial: the covariance is right only when the increment leaves it
alone; it is not transformed by the adjoint of the increment, see `C87_update_lhs_fails`. -/
theorem C87_update_lhs_partial (a : SE3Cov) (xi : Vec6) (hxi : IsRigid (SE3.ofVec xi).T) {ι : Type} [Fintype ι] (p : ι → ℝ)
    (M : ι → Mat4) (h : Describes a.pose.T a.cov p M) :
    Describes (a.updateLhs xi).pose.T ((SE3.ofVec xi).adj * a.cov * (SE3.ofVec xi).adjᵀ) p (fun i => (SE3.ofVec xi).T * M i) ∧
      ((SE3.ofVec xi).adj * a.cov * (SE3.ofVec xi).adjᵀ = a.cov →
        Describes (a.updateLhs xi).pose.T (a.updateLhs xi).cov p fun i => (SE3.ofVec xi).T * M i) := by
  obtain ⟨δ, h1, h2, h3⟩ := h
  have key : Describes (a.updateLhs xi).pose.T ((SE3.ofVec xi).adj * a.cov * (SE3.ofVec xi).adjᵀ) p
      (fun i => (SE3.ofVec xi).T * M i) := by
    refine ⟨fun i => (SE3.ofVec xi).adj *ᵥ δ i, fun i => ?_, ?_, ?_⟩
    · simp only [h1 i]
      rw [← mul_assoc, ← exp_adj hxi, mul_assoc]
      rfl
    · rw [twistMean_adj, h2, mulVec_zero]
    · rw [twistCov_adj, h3]
  refine ⟨key, fun hc => ?_⟩
  rw [hc] at key
  exact key

/-- C87: compounding with an exactly known pose on either side describes the product of the outcomes with that pose. -/
theorem C87_exact (a : SE3Cov) (P : SE3) (hP : IsRigid P.T) {ι : Type} [Fintype ι] (p : ι → ℝ) (M : ι → Mat4)
    (h : Describes a.pose.T a.cov p M) :
    Describes (a.compound2 ⟨P, 0⟩).pose.T (a.compound2 ⟨P, 0⟩).cov p (fun i => M i * P.T) ∧
      Describes (SE3Cov.compound2 ⟨P, 0⟩ a).pose.T (SE3Cov.compound2 ⟨P, 0⟩ a).cov p fun i => P.T * M i := by
  obtain ⟨δ, h1, h2, h3⟩ := h
  refine ⟨⟨δ, fun i => ?_, h2, ?_⟩, fun i => P.adj *ᵥ δ i, fun i => ?_, ?_, ?_⟩
  · simp only [h1 i, mul_assoc]; rfl
  · rw [h3]
    change a.cov = a.cov + a.pose.adj * 0 * _
    rw [mul_zero, Matrix.zero_mul, add_zero]
  · simp only [h1 i]
    rw [← mul_assoc, ← exp_adj hP, mul_assoc]
    rfl
  · rw [twistMean_adj, h2, mulVec_zero]
  · rw [twistCov_adj, h3]
    exact (zero_add _).symm

/-- C87: compounding of two independent uncertain poses: every product of outcomes is `exp(δ₁) exp(Ad δ₂)` times the
compounded pose, and the covariance is that of `δ₁ + Ad δ₂`. -/
theorem C87_compound (a b : SE3Cov) (ha : IsRigid a.pose.T) {ι κ : Type} [Fintype ι] [Fintype κ] (p : ι → ℝ) (q : κ → ℝ)
    (M : ι → Mat4) (N : κ → Mat4) (hp : ∑ i, p i = 1) (hq : ∑ j, q j = 1) (h : Describes a.pose.T a.cov p M)
    (h' : Describes b.pose.T b.cov q N) : ∃ (δ : ι → Vec6) (ε : κ → Vec6),
      (∀ i j, M i * N j = expTwist (δ i) * expTwist (ε j) * (a.compound2 b).pose.T) ∧
      twistMean (fun ij : ι × κ => p ij.1 * q ij.2) (fun ij => δ ij.1 + ε ij.2) = 0 ∧
      twistCov (fun ij : ι × κ => p ij.1 * q ij.2) (fun ij => δ ij.1 + ε ij.2) = (a.compound2 b).cov := by
  obtain ⟨δ, h1, h2, h3⟩ := h
  obtain ⟨ε, k1, k2, k3⟩ := h'
  have m2 : twistMean q (fun j => a.pose.adj *ᵥ ε j) = 0 := by rw [twistMean_adj, k2, mulVec_zero]
  have c2 : twistCov q (fun j => a.pose.adj *ᵥ ε j) = a.pose.adj * b.cov * a.pose.adjᵀ := by rw [twistCov_adj, k3]
  generalize hε : (fun j => a.pose.adj *ᵥ ε j) = ε' at m2 c2
  refine ⟨δ, ε', fun i j => ?_, ?_, ?_⟩
  · have : ε' j = a.pose.adj *ᵥ ε j := by rw [← hε]
    rw [this, h1 i, k1 j, mul_assoc, ← mul_assoc a.pose.T, ← exp_adj ha]
    simp only [mul_assoc]
    rfl
  · funext r
    have e1 := congrFun h2 r
    have e2 := congrFun m2 r
    simp only [twistMean, Finset.sum_apply, Pi.smul_apply, smul_eq_mul, Pi.zero_apply, Pi.add_apply,
      Fintype.sum_prod_type] at e1 e2 ⊢
    have : ∀ i : ι, ∑ j, p i * q j * (δ i r + ε' j r) = p i * δ i r * ∑ j, q j + p i * ∑ j, q j * ε' j r := by
      intro i
      rw [Finset.mul_sum, Finset.mul_sum, ← Finset.sum_add_distrib]
      exact Finset.sum_congr rfl fun j _ => by ring
    simp only [this, hq, e2, mul_zero, add_zero, mul_one, e1]
  · change _ = a.cov + a.pose.adj * b.cov * a.pose.adjᵀ
    rw [← h3, ← c2]
    ext r c
    have e1 := congrFun h2 r
    have e2 := congrFun m2 r
    have e1' := congrFun h2 c
    have e2' := congrFun m2 c
    simp only [twistMean, Finset.sum_apply, Pi.smul_apply, smul_eq_mul, Pi.zero_apply] at e1 e2 e1' e2'
    simp only [twistCov, Matrix.sum_apply, Matrix.add_apply, Matrix.smul_apply, vecMulVec_apply, smul_eq_mul, Pi.add_apply,
      Fintype.sum_prod_type]
    have : ∀ i : ι, ∑ j, p i * q j * ((δ i r + ε' j r) * (δ i c + ε' j c)) =
        p i * (δ i r * δ i c) * ∑ j, q j + p i * δ i r * ∑ j, q j * ε' j c + p i * δ i c * ∑ j, q j * ε' j r +
          p i * ∑ j, q j * (ε' j r * ε' j c) := by
      intro i
      simp only [Finset.mul_sum, ← Finset.sum_add_distrib]
      exact Finset.sum_congr rfl fun j _ => by ring
    simp only [this, hq, e2, e2', mul_zero, add_zero, mul_one, Finset.sum_add_distrib, ← Finset.sum_mul, hp, one_mul]

/-- A random half turn about the vertical axis: an uncertain pose that is not exactly known. -/
example : Describes Demo.turning.pose.T Demo.turning.cov (fun _ : Bool => 1 / 2) (fun b => expTwist (Demo.turn b)) ∧
    Demo.turning.cov (Sum.inl 2) (Sum.inl 2) = Real.pi ^ 2 ∧ IsRigid Demo.turning.pose.T ∧
    IsRigid (SE3.ofVec (vec6 0 ![1, 0, 0])).T ∧ ∑ _b : Bool, (1 / 2 : ℝ) = 1 := by
  refine ⟨Demo.turning_describes, ?_, rigid_one, ?_, by norm_num⟩
  · simp only [Demo.turning, twistCov, Demo.turn, Fintype.sum_bool, Matrix.add_apply, Matrix.smul_apply, vecMulVec_apply]
    simp [vec6]
    ring
  · exact C09_group_exact (n := 1) (.ofVec _ (Or.inr (by rw [head3_vec6])))

/-- C87 is false of the code for `update`: the origin of the frame is displaced by one metre after a random half turn about
it.  No random twist with the reported covariance, which has no translation, describes the displaced pose. -/
theorem C87_update_lhs_fails : ∃ (a : SE3Cov) (xi : Vec6) (p : Bool → ℝ) (M : Bool → Mat4), IsRigid (SE3.ofVec xi).T ∧
    IsRigid a.pose.T ∧ Describes a.pose.T a.cov p M ∧
    ¬ Describes (a.updateLhs xi).pose.T (a.updateLhs xi).cov p fun i => (SE3.ofVec xi).T * M i := by
  refine ⟨Demo.turning, vec6 0 ![1, 0, 0], _, _, ?_, rigid_one, Demo.turning_describes, ?_⟩
  · exact C09_group_exact (n := 1) (.ofVec _ (Or.inr (by rw [head3_vec6])))
  rintro ⟨δ, h1, -, h3⟩
  have hlin : ∀ b, tail3 (δ b) = 0 := by
    intro b
    funext r
    have hc := congrFun (congrFun h3 (Sum.inr r)) (Sum.inr r)
    have hz : (Demo.turning.updateLhs (vec6 0 ![1, 0, 0])).cov (Sum.inr r) (Sum.inr r) = 0 := by
      simp only [Demo.turning, SE3Cov.updateLhs, twistCov, Demo.turn, Fintype.sum_bool, Matrix.add_apply, Matrix.smul_apply,
        vecMulVec_apply]
      simp [vec6]
    rw [hz] at hc
    simp only [twistCov, Fintype.sum_bool, Matrix.add_apply, Matrix.smul_apply, vecMulVec_apply, smul_eq_mul] at hc
    change δ b (Sum.inr r) = 0
    cases b <;> nlinarith [mul_self_nonneg (δ true (Sum.inr r)), mul_self_nonneg (δ false (Sum.inr r))]
  have h := h1 true
  have hT : (SE3.ofVec (vec6 0 ![1, 0, 0])).T = homog 1 ![1, 0, 0] 1 := by
    rw [se3_ofVec_T, head3_vec6, tail3_vec6, ofVec_zero, vMat_zero, one_mulVec]
  have hU : (Demo.turning.updateLhs (vec6 0 ![1, 0, 0])).pose.T = homog 1 ![1, 0, 0] 1 := by
    rw [← hT]; exact mul_one _
  simp only [hU, hT, Demo.exp_turn, expTwist_rotation (hlin true), homog_mul] at h
  have hR := congrArg tl3 h
  have ht := congrFun (congrArg tr3 h) 0
  simp only [tl3_homog, tr3_homog] at hR ht
  rw [one_mul, mul_one] at hR
  rw [← hR] at ht
  simp [mulVec, dotProduct, Fin.sum_univ_three] at ht
  linarith

/-- C87: the covariance of a default-constructed object is the identity (SE3cov.cpp 6), so it is not the neutral element of
compounding; the identity with covariance zero is. -/
theorem C87_default_fails (b : SE3Cov) : (SE3Cov.default.compound2 b).pose = b.pose ∧
    (SE3Cov.default.compound2 b).cov = 1 + b.cov ∧ SE3Cov.default.compound2 b ≠ b ∧
    SE3Cov.compound2 ⟨SE3.default, 0⟩ b = b ∧ b.compound2 ⟨SE3.default, 0⟩ = b := by
  have h0 : (SE3Cov.default.compound2 b).cov = 1 + b.cov := by
    change 1 + SE3.default.adj * b.cov * SE3.default.adjᵀ = _
    rw [adj_one, one_mul, transpose_one, mul_one]
  refine ⟨?_, h0, fun h => ?_, ?_, ?_⟩
  · change SE3.mk (1 * b.pose.T) = _
    rw [one_mul]
  · rw [h] at h0
    have := congrFun (congrFun h0 (Sum.inl 0)) (Sum.inl 0)
    rw [Matrix.add_apply, Matrix.one_apply_eq] at this
    linarith
  · ext1
    · change SE3.mk (1 * b.pose.T) = _
      rw [one_mul]
    · change 0 + SE3.default.adj * b.cov * SE3.default.adjᵀ = _
      rw [adj_one, one_mul, transpose_one, mul_one, zero_add]
  · ext1
    · change SE3.mk (b.pose.T * 1) = _
      rw [mul_one]
    · change b.cov + b.pose.adj * 0 * b.pose.adjᵀ = _
      rw [mul_zero, Matrix.zero_mul, add_zero]

end Mrob
