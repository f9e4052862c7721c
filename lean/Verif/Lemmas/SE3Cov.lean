import Verif.Model.SE3Cov
import Verif.Lemmas.SE3More

/-! Covariance compounding. -/

open Matrix

namespace Mrob

open Spec

theorem br_transpose (A : Mat3) : (br A)ᵀ = br Aᵀ := by
  rw [br, br, transpose_add, transpose_smul, transpose_one, trace_transpose]

theorem br_zero : br 0 = 0 := by simp [br]

theorem br2_zero_left (B : Mat3) : br2 0 B = 0 := by simp [br2, br_zero]

theorem br2_zero_right (A : Mat3) : br2 A 0 = 0 := by simp [br2, br_zero]

theorem br2_transpose (A B : Mat3) : (br2 A B)ᵀ = br2 Aᵀ Bᵀ := by
  ext i j
  fin_cases i <;> fin_cases j <;>
    simp [br2, br, Matrix.mul_apply, Fin.sum_univ_three, trace_fin_three] <;> ring

theorem sym_blocks {s : Mat6} (h : sᵀ = s) : s.toBlocks₁₁ᵀ = s.toBlocks₁₁ ∧ s.toBlocks₁₂ᵀ = s.toBlocks₂₁ ∧
    s.toBlocks₂₁ᵀ = s.toBlocks₁₂ ∧ s.toBlocks₂₂ᵀ = s.toBlocks₂₂ := by
  have e : ∀ i j, s j i = s i j := fun i j => congrFun (congrFun h i) j
  refine ⟨?_, ?_, ?_, ?_⟩ <;> ext i j <;> exact e _ _

theorem mB_transpose {s1 s2 : Mat6} (h1 : s1ᵀ = s1) (h2 : s2ᵀ = s2) :
    (SE3Cov.mB s1 s2)ᵀ = SE3Cov.mB s1 s2 := by
  obtain ⟨a1, a2, a3, a4⟩ := sym_blocks h1
  obtain ⟨b1, b2, b3, b4⟩ := sym_blocks h2
  unfold SE3Cov.mB
  rw [fromBlocks_transpose]
  simp only [transpose_transpose, transpose_add, br2_transpose, a1, a2, a3, a4, b1, b2, b3, b4]
  congr 1
  abel

theorem cov4_transpose {s1 s2 : Mat6} (h1 : s1ᵀ = s1) (h2 : s2ᵀ = s2) :
    (SE3Cov.cov4 s1 s2)ᵀ = SE3Cov.cov4 s1 s2 := by
  unfold SE3Cov.cov4
  simp only [transpose_add, transpose_smul, transpose_mul, transpose_transpose, h1, h2,
    mB_transpose h1 h2]
  congr 3
  abel

theorem mA1_zero : SE3Cov.mA1 0 = 0 := by
  unfold SE3Cov.mA1
  have : ((0 : Mat6).toBlocks₂₁ + (0 : Mat6).toBlocks₁₂) = 0 := by ext; simp [toBlocks₂₁, toBlocks₁₂]
  rw [this, show (0 : Mat6).toBlocks₁₁ = 0 from rfl, br_zero, fromBlocks_zero]

theorem mA2_zero : SE3Cov.mA2 0 = 0 := by
  unfold SE3Cov.mA2
  rw [show (0 : Mat6).toBlocks₂₁ = 0 from rfl, show (0 : Mat6).toBlocks₁₁ = 0 from rfl, transpose_zero, add_zero,
    br_zero, fromBlocks_zero]

theorem mB_zero_left (s : Mat6) : SE3Cov.mB 0 s = 0 := by
  unfold SE3Cov.mB
  rw [show (0 : Mat6).toBlocks₁₁ = 0 from rfl, show (0 : Mat6).toBlocks₁₂ = 0 from rfl,
    show (0 : Mat6).toBlocks₂₁ = 0 from rfl, show (0 : Mat6).toBlocks₂₂ = 0 from rfl]
  simp only [br2_zero_left, add_zero, transpose_zero, fromBlocks_zero]

theorem mB_zero_right (s : Mat6) : SE3Cov.mB s 0 = 0 := by
  unfold SE3Cov.mB
  rw [show (0 : Mat6).toBlocks₁₁ = 0 from rfl, show (0 : Mat6).toBlocks₁₂ = 0 from rfl,
    show (0 : Mat6).toBlocks₂₁ = 0 from rfl, show (0 : Mat6).toBlocks₂₂ = 0 from rfl]
  simp only [br2_zero_right, add_zero, transpose_zero, fromBlocks_zero]

theorem cov4_zero_left (s : Mat6) : SE3Cov.cov4 0 s = s := by
  simp [SE3Cov.cov4, mA1_zero, mB_zero_left]

theorem cov4_zero_right (s : Mat6) : SE3Cov.cov4 s 0 = s := by
  simp [SE3Cov.cov4, mA2_zero, mB_zero_right]

/-- `Σ A_ij ê_i ê_j`. -/
theorem sum_hat_hat (A : Mat3) :
    ∑ i, ∑ j, A i j • (hat3 (Pi.single i 1) * hat3 (Pi.single j 1)) = br Aᵀ := by
  ext a b
  fin_cases a <;> fin_cases b <;>
    simp [Fin.sum_univ_three, hat3, br, trace_fin_three, Matrix.mul_apply, Pi.single_apply] <;> ring

/-- `Σ A_ij ê_i B ê_jᵀ`. -/
theorem sum_hat_mul_hat (A B : Mat3) :
    ∑ i, ∑ j, A i j • (hat3 (Pi.single i 1) * B * (hat3 (Pi.single j 1))ᵀ) = br2 Aᵀ Bᵀ := by
  ext a b
  fin_cases a <;> fin_cases b <;>
    simp [Fin.sum_univ_three, hat3, br, br2, trace_fin_three, Matrix.mul_apply, Pi.single_apply, vecMul,
      dotProduct] <;> ring

theorem adBasis_inl (i : Fin 3) :
    adBasis (Sum.inl i) = fromBlocks (hat3 (Pi.single i 1)) 0 0 (hat3 (Pi.single i 1)) := by
  have e : (fun k => if (Sum.inl i : I6) = Sum.inl k then (1 : ℝ) else 0) = Pi.single i 1 := by
    funext k; simp [Pi.single_apply, eq_comm]
  have e0 : (fun k => if (Sum.inl i : I6) = Sum.inr k then (1 : ℝ) else 0) = (0 : Vec3) := by
    funext k; simp
  rw [adBasis, adTwist, e, e0, crossMat_eq_hat3, crossMat_eq_hat3, hat3_zero]

theorem adBasis_inr (i : Fin 3) :
    adBasis (Sum.inr i) = fromBlocks 0 0 (hat3 (Pi.single i 1)) 0 := by
  have e : (fun k => if (Sum.inr i : I6) = Sum.inr k then (1 : ℝ) else 0) = Pi.single i 1 := by
    funext k; simp [Pi.single_apply, eq_comm]
  have e0 : (fun k => if (Sum.inr i : I6) = Sum.inl k then (1 : ℝ) else 0) = (0 : Vec3) := by
    funext k; simp
  rw [adBasis, adTwist, e, e0, crossMat_eq_hat3, crossMat_eq_hat3, hat3_zero]

theorem sum_fromBlocks {ι : Type*} (t : Finset ι) (A B C D : ι → Mat3) :
    ∑ i ∈ t, fromBlocks (A i) (B i) (C i) (D i)
      = fromBlocks (∑ i ∈ t, A i) (∑ i ∈ t, B i) (∑ i ∈ t, C i) (∑ i ∈ t, D i) := by
  classical
  induction t using Finset.induction_on with
  | empty => simp
  | insert a t ha ih => rw [Finset.sum_insert ha, ih, fromBlocks_add]; simp [Finset.sum_insert ha]

theorem br_add (A B : Mat3) : br (A + B) = br A + br B := by
  rw [br, br, br, trace_add, neg_add, add_smul]; abel

theorem momentAdAd_eq (s : Mat6) : momentAdAd s = fromBlocks (br s.toBlocks₁₁ᵀ) 0
    (br (s.toBlocks₁₂ᵀ + s.toBlocks₂₁ᵀ)) (br s.toBlocks₁₁ᵀ) := by
  rw [momentAdAd]
  simp only [Fintype.sum_sum_type, adBasis_inl, adBasis_inr, fromBlocks_multiply, fromBlocks_smul,
    mul_zero, zero_mul, add_zero, zero_add, smul_zero, sum_fromBlocks, Finset.sum_const_zero, fromBlocks_add]
  rw [br_add, ← sum_hat_hat, ← sum_hat_hat, ← sum_hat_hat]
  rfl

theorem momentAdPAd_eq (s P : Mat6) : momentAdPAd s P = fromBlocks
    (br2 s.toBlocks₁₁ᵀ P.toBlocks₁₁ᵀ)
    (br2 s.toBlocks₁₂ᵀ P.toBlocks₁₁ᵀ + br2 s.toBlocks₁₁ᵀ P.toBlocks₁₂ᵀ)
    (br2 s.toBlocks₂₁ᵀ P.toBlocks₁₁ᵀ + br2 s.toBlocks₁₁ᵀ P.toBlocks₂₁ᵀ)
    (br2 s.toBlocks₁₁ᵀ P.toBlocks₂₂ᵀ + br2 s.toBlocks₁₂ᵀ P.toBlocks₂₁ᵀ
      + br2 s.toBlocks₂₁ᵀ P.toBlocks₁₂ᵀ + br2 s.toBlocks₂₂ᵀ P.toBlocks₁₁ᵀ) := by
  rw [momentAdPAd]
  simp only [Fintype.sum_sum_type]
  conv_lhs => rw [← fromBlocks_toBlocks P]
  simp only [adBasis_inl, adBasis_inr, fromBlocks_multiply, fromBlocks_smul, fromBlocks_transpose, transpose_zero,
    mul_zero, zero_mul, add_zero, zero_add, smul_zero, sum_fromBlocks, Finset.sum_const_zero, fromBlocks_add]
  simp only [← sum_hat_mul_hat]
  congr 1
  · rw [add_comm, Finset.sum_add_distrib]; rfl
  · rw [add_comm]; rfl
  · simp only [toBlocks₁₁, toBlocks₁₂, toBlocks₂₁, toBlocks₂₂, of_apply, Finset.sum_add_distrib]
    abel

end Mrob
