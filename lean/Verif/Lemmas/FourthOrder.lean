import Verif.Lemmas.SE3Cov

/-! # Scaling the covariances of `compound_4th_order` -/

open Matrix

namespace Mrob

theorem br_smul (t : ℝ) (A : Mat3) : br (t • A) = t • br A := by
  rw [br, br, trace_smul, smul_add, smul_eq_mul, smul_smul, mul_neg]

theorem br2_smul (t u : ℝ) (A B : Mat3) : br2 (t • A) (u • B) = (t * u) • br2 A B := by
  rw [br2, br2, br_smul, br_smul, smul_mul_smul_comm, smul_mul_smul_comm, br_smul, mul_comm u t, smul_add]

/-- The terms of fourth order. -/
noncomputable def extra4 (s1 s2 : Mat6) : Mat6 := SE3Cov.cov4 s1 s2 - s1 - s2

theorem cov4_smul (t : ℝ) (s1 s2 : Mat6) :
    SE3Cov.cov4 (t • s1) (t • s2) = t • (s1 + s2) + (t * t) • extra4 s1 s2 := by
  have b1 : ∀ s : Mat6, (t • s).toBlocks₁₁ = t • s.toBlocks₁₁ := fun _ => rfl
  have b2 : ∀ s : Mat6, (t • s).toBlocks₁₂ = t • s.toBlocks₁₂ := fun _ => rfl
  have b3 : ∀ s : Mat6, (t • s).toBlocks₂₁ = t • s.toBlocks₂₁ := fun _ => rfl
  have b4 : ∀ s : Mat6, (t • s).toBlocks₂₂ = t • s.toBlocks₂₂ := fun _ => rfl
  have hA1 : ∀ s, SE3Cov.mA1 (t • s) = t • SE3Cov.mA1 s := by
    intro s
    rw [SE3Cov.mA1, SE3Cov.mA1, b1, b2, b3, ← smul_add, br_smul, br_smul, fromBlocks_smul, smul_zero]
  have hA2 : ∀ s, SE3Cov.mA2 (t • s) = t • SE3Cov.mA2 s := by
    intro s
    rw [SE3Cov.mA2, SE3Cov.mA2, b1, b3, transpose_smul, ← smul_add, br_smul, br_smul, fromBlocks_smul, smul_zero]
  have hB : SE3Cov.mB (t • s1) (t • s2) = (t * t) • SE3Cov.mB s1 s2 := by
    rw [SE3Cov.mB, SE3Cov.mB]
    simp only [b1, b2, b3, b4, br2_smul, ← smul_add, transpose_smul, fromBlocks_smul]
  rw [extra4, SE3Cov.cov4, SE3Cov.cov4, hA1, hA2, hB]
  simp only [transpose_smul, smul_mul_smul_comm]
  module

theorem quad_le_sum (R : Mat6) (x : Vec6) : |x ⬝ᵥ (R *ᵥ x)| ≤ (∑ i, ∑ j, |R i j|) * (x ⬝ᵥ x) := by
  have hx : ∀ i, x i * x i ≤ x ⬝ᵥ x := fun i =>
    Finset.single_le_sum (f := fun i => x i * x i) (fun j _ => mul_self_nonneg _) (Finset.mem_univ i)
  have h2 : ∀ i j, |x i * x j| ≤ x ⬝ᵥ x := by
    intro i j
    rw [abs_mul]
    have h1 := hx i
    have h2 := hx j
    have h3 := sq_nonneg (|x i| - |x j|)
    have h4 := abs_mul_abs_self (x i)
    have h5 := abs_mul_abs_self (x j)
    nlinarith
  generalize x ⬝ᵥ x = q at h2 ⊢
  simp only [dotProduct, mulVec, Finset.mul_sum, Finset.sum_mul]
  refine (Finset.abs_sum_le_sum_abs _ _).trans (Finset.sum_le_sum fun i _ => (Finset.abs_sum_le_sum_abs _ _).trans
    (Finset.sum_le_sum fun j _ => ?_))
  rw [show x i * (R i j * x j) = R i j * (x i * x j) by ring, abs_mul]
  exact mul_le_mul_of_nonneg_left (h2 i j) (abs_nonneg _)

end Mrob
