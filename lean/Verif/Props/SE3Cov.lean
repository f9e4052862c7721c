import Verif.Lemmas.SE3Cov
import Verif.Lemmas.SE3
import Verif.Lemmas.SO3LnInv
import Mathlib.LinearAlgebra.Matrix.PosDef
import Mathlib.Algebra.Order.Star.Real

/-! # Properties C18, C19, C61: covariance compounding -/

open Matrix

namespace Mrob

open Spec

/-! ## C18 -/

/-- Product of the poses of a chain, from the left. -/
def chainPose (a : SE3) : List SE3Cov → SE3
  | [] => a
  | b :: l => chainPose (a.mul b.pose) l

/-- First-order propagation along a chain: each covariance is moved to the common frame by the adjoint of
the pose reached before it. -/
def propagated (a : SE3) : List SE3Cov → Mat6
  | [] => 0
  | b :: l => a.adj * b.cov * a.adjᵀ + propagated (a.mul b.pose) l

/-- Along any chain of compoundings the pose is the product of the poses, and the covariance is the first
one plus every later one conjugated by the adjoint of the pose reached before it. -/
theorem C18_chain_value (a : SE3Cov) (l : List SE3Cov) :
    (l.foldl SE3Cov.compound2 a).pose = chainPose a.pose l ∧
      (l.foldl SE3Cov.compound2 a).cov = a.cov + propagated a.pose l := by
  induction l generalizing a with
  | nil => simp [chainPose, propagated]
  | cons b l ih =>
    obtain ⟨h1, h2⟩ := ih (a.compound2 b)
    refine ⟨by rw [List.foldl_cons, h1]; rfl, ?_⟩
    rw [List.foldl_cons, h2]
    simp only [SE3Cov.compound2, propagated, add_assoc]

/-- Covariances stay symmetric positive semidefinite along any chain of compoundings, and never shrink. -/
theorem C18_chain_psd (a : SE3Cov) (l : List SE3Cov) (ha : a.cov.PosSemidef)
    (hl : ∀ b ∈ l, b.cov.PosSemidef) :
    (l.foldl SE3Cov.compound2 a).cov.PosSemidef ∧
      (l.foldl SE3Cov.compound2 a).covᵀ = (l.foldl SE3Cov.compound2 a).cov ∧
      ((l.foldl SE3Cov.compound2 a).cov - a.cov).PosSemidef := by
  have conj : ∀ (A : Mat6) {P : Mat6}, P.PosSemidef → (A * P * Aᵀ).PosSemidef := by
    intro A P hP
    have := hP.mul_mul_conjTranspose_same A
    rwa [conjTranspose_eq_transpose_of_trivial] at this
  have hprop : ∀ (p : SE3) (l : List SE3Cov), (∀ b ∈ l, b.cov.PosSemidef) → (propagated p l).PosSemidef := by
    intro p l
    induction l generalizing p with
    | nil => intro _; exact PosSemidef.zero
    | cons b l ih =>
      intro hl
      exact (conj _ (hl b (by simp))).add (ih _ fun c hc => hl c (by simp [hc]))
  have hv := (C18_chain_value a l).2
  have hpsd : (l.foldl SE3Cov.compound2 a).cov.PosSemidef := by
    rw [hv]; exact ha.add (hprop _ _ hl)
  refine ⟨hpsd, ?_, ?_⟩
  · have := hpsd.isHermitian
    rwa [IsHermitian, conjTranspose_eq_transpose_of_trivial] at this
  · rw [hv, add_sub_cancel_left]; exact hprop _ _ hl

/-- A chain with identity covariances. -/
example : (1 : Mat6).PosSemidef := PosSemidef.one

/-- Compounding is associative on valid poses. -/
theorem C18_assoc {a b c : SE3Cov} (ha : IsRigid a.pose.T) (hb : IsRigid b.pose.T) :
    (a.compound2 b).compound2 c = a.compound2 (b.compound2 c) := by
  ext1
  · simp only [SE3Cov.compound2, SE3.mul, mul_assoc]
  · simp only [SE3Cov.compound2]
    rw [adj_mul ha hb, transpose_mul, mul_add, add_mul]
    simp only [Matrix.mul_assoc, add_assoc]

example : IsRigid (SE3Cov.mk (SE3.mk (homog (rotX 1) ![1, 2, 3] 1)) 1).pose.T :=
  isRigid_homog (rotX_isRotation 1) _

/-! ## C19 -/

/-- `compound_4th_order` keeps symmetric covariances symmetric, gives the same pose as the second-order
rule and agrees with it when either covariance is zero. -/
theorem C19_fourth_order (a b : SE3Cov) :
    (a.covᵀ = a.cov → b.covᵀ = b.cov → (a.compound4 b).covᵀ = (a.compound4 b).cov) ∧
      (a.compound4 b).pose = (a.compound2 b).pose ∧
      (a.cov = 0 → a.compound4 b = a.compound2 b) ∧ (b.cov = 0 → a.compound4 b = a.compound2 b) := by
  refine ⟨fun h1 h2 => ?_, rfl, fun h => ?_, fun h => ?_⟩
  · refine cov4_transpose h1 ?_
    rw [transpose_mul, transpose_mul, transpose_transpose, h2, Matrix.mul_assoc]
  · simp only [SE3Cov.compound4, SE3Cov.compound2, h, cov4_zero_left, zero_add]
  · simp only [SE3Cov.compound4, SE3Cov.compound2, h, mul_zero, zero_mul, cov4_zero_right, add_zero]

/-- Identity covariances are symmetric. -/
example : (1 : Mat6)ᵀ = 1 := transpose_one

/-! ## C61 -/

/-- `curly_wedge` is the Lie bracket of twists: `[hat6 x, hat6 y] = hat6 (curly_wedge(x) y)`. -/
theorem C61_curly_wedge (x y : Vec6) :
    hat6 x * hat6 y - hat6 y * hat6 x = hat6 (curlyWedge x *ᵥ y) ∧
      curlyWedge x = adTwist (head3 x) (tail3 x) := by
  constructor
  · ext i j
    rcases i with i | i <;> rcases j with j | j
    · fin_cases i <;> fin_cases j <;>
        simp [hat6, homog, curlyWedge, Matrix.mul_apply, Fin.sum_univ_three, hat3, mulVec, dotProduct,
          head3, tail3, fromBlocks] <;> ring
    · fin_cases i <;>
        simp [hat6, homog, curlyWedge, Matrix.mul_apply, Fin.sum_univ_three, hat3, mulVec, dotProduct,
          head3, tail3, fromBlocks] <;> ring
    · fin_cases j <;> simp [hat6, homog, Matrix.mul_apply, fromBlocks]
    · simp [hat6, homog, Matrix.mul_apply, fromBlocks]
  · rw [curlyWedge, adTwist, crossMat_eq_hat3, crossMat_eq_hat3]

/-- The covariance of the fourth-order expansion of `ln(exp(x₁) exp(x₂))` for independent zero-mean
twists with second moments `s₁`, `s₂` (Barfoot, *State Estimation for Robotics*, 7.3.3). -/
noncomputable def bchCovariance (s1 s2 : Mat6) : Mat6 :=
  s1 + s2 + (1 / 12 : ℝ) • (momentAdAd s1 * s2 + s2 * (momentAdAd s1)ᵀ + momentAdAd s2 * s1
    + s1 * (momentAdAd s2)ᵀ) + (1 / 4 : ℝ) • momentAdPAd s1 s2

/-- When the rotation-translation block of the first covariance is symmetric, `compound_4th_order` is the
fourth-order expansion.  Missing for the full property: other covariances, where it fails
(`C61_fails`). -/
theorem C61_bch_partial {a b : SE3Cov} (h1 : a.covᵀ = a.cov) (h2 : b.covᵀ = b.cov)
    (hx : a.cov.toBlocks₁₂ᵀ = a.cov.toBlocks₁₂) :
    (a.compound4 b).cov = bchCovariance a.cov (a.pose.adj * b.cov * a.pose.adjᵀ) := by
  have h2' : (a.pose.adj * b.cov * a.pose.adjᵀ)ᵀ = a.pose.adj * b.cov * a.pose.adjᵀ := by
    rw [transpose_mul, transpose_mul, transpose_transpose, h2, Matrix.mul_assoc]
  change SE3Cov.cov4 _ _ = _
  generalize a.pose.adj * b.cov * a.pose.adjᵀ = s2 at h2' ⊢
  generalize a.cov = s1 at h1 hx ⊢
  obtain ⟨a1, a2, a3, a4⟩ := sym_blocks h1
  obtain ⟨b1, b2, b3, b4⟩ := sym_blocks h2'
  have e1 : SE3Cov.mA1 s1 = momentAdAd s1 := by
    rw [momentAdAd_eq, SE3Cov.mA1, a1, a2, a3]
  have e2 : SE3Cov.mA2 s2 = momentAdAd s2 := by
    rw [momentAdAd_eq, SE3Cov.mA2, b1, b2, b3]
  have e3 : SE3Cov.mB s1 s2 = momentAdPAd s1 s2 := by
    unfold SE3Cov.mB
    dsimp only
    rw [momentAdPAd_eq, a1, a2, a3, a4, b1, b2, b3, b4, transpose_add, br2_transpose, br2_transpose, a1, a3, b1,
      b2]
    have hx' : s1.toBlocks₂₁ = s1.toBlocks₁₂ := by rw [← a2, hx]
    rw [hx', add_comm (br2 (toBlocks₁₁ s1) (toBlocks₂₁ s2)), add_comm (br2 (toBlocks₁₁ s1) (toBlocks₁₂ s2))]
    congr 1
    abel
  rw [SE3Cov.cov4, bchCovariance, e1, e2, e3]

/-- Correlated rotation and translation with a symmetric cross block. -/
example : (fromBlocks 1 (diagonal ![1, 2, 3]) (diagonal ![1, 2, 3]) 1 : Mat6)ᵀ
      = fromBlocks 1 (diagonal ![1, 2, 3]) (diagonal ![1, 2, 3]) 1 ∧
    (fromBlocks 1 (diagonal ![1, 2, 3]) (diagonal ![1, 2, 3]) 1 : Mat6).toBlocks₁₂ᵀ
      = (fromBlocks 1 (diagonal ![1, 2, 3]) (diagonal ![1, 2, 3]) 1 : Mat6).toBlocks₁₂ := by
  constructor
  · rw [fromBlocks_transpose, transpose_one, diagonal_transpose]
  · rw [toBlocks_fromBlocks₁₂, diagonal_transpose]

/-- The unrestricted claim is false: with a positive semidefinite first covariance correlating rotation
about `x` with translation along `y`, `compound_4th_order` disagrees with the expansion. -/
theorem C61_fails : ∃ a b : SE3Cov, IsRigid a.pose.T ∧ IsRigid b.pose.T ∧ a.cov.PosSemidef ∧ b.cov.PosSemidef ∧
    (a.compound4 b).cov ≠ bchCovariance a.cov (a.pose.adj * b.cov * a.pose.adjᵀ) := by
  have hone : IsRigid SE3.default.T := by
    change IsRigid 1
    rw [← homog_one]; exact isRigid_homog ⟨by simp, by simp⟩ 0
  let u : I6 → ℝ := fun i => if i = Sum.inl 0 ∨ i = Sum.inr 1 then 1 else 0
  have hpsd : (vecMulVec u u).PosSemidef := by
    have := posSemidef_vecMulVec_self_star u
    rwa [star_trivial] at this
  have hsym : (vecMulVec u u)ᵀ = vecMulVec u u := by rw [transpose_vecMulVec]
  have hadj : SE3.default.adj * (1 : Mat6) * SE3.default.adjᵀ = 1 := by
    rw [adj_one, transpose_one, mul_one, mul_one]
  refine ⟨⟨SE3.default, vecMulVec u u⟩, ⟨SE3.default, 1⟩, hone, hone, hpsd, PosSemidef.one, ?_⟩
  change SE3Cov.cov4 _ _ ≠ _
  rw [hadj]
  dsimp only
  generalize hs : vecMulVec u u = s1 at hsym
  obtain ⟨a1, a2, a3, a4⟩ := sym_blocks hsym
  obtain ⟨b1, b2, b3, b4⟩ := sym_blocks (transpose_one : (1 : Mat6)ᵀ = 1)
  have e1 : SE3Cov.mA1 s1 = momentAdAd s1 := by
    rw [momentAdAd_eq, SE3Cov.mA1, a1, a2, a3]
  have e2 : SE3Cov.mA2 (1 : Mat6) = momentAdAd 1 := by
    rw [momentAdAd_eq, SE3Cov.mA2, b1, b2, b3]
  rw [SE3Cov.cov4, bchCovariance, e1, e2]
  intro h
  have hB := smul_right_injective Mat6 (by norm_num : (1 / 4 : ℝ) ≠ 0) (add_left_cancel h)
  have h0 := congrFun (congrFun hB (Sum.inr 0)) (Sum.inl 1)
  rw [momentAdPAd_eq, ← hs] at h0
  simp [SE3Cov.mB, br2, br, fromBlocks, toBlocks₁₁, toBlocks₁₂, toBlocks₂₁, vecMulVec, u,
    Matrix.mul_apply, Fin.sum_univ_three, trace_fin_three] at h0

end Mrob
