import Verif.Lemmas.SO3Bounds
import Verif.Lemmas.Rotation

/-! Drift of products of `SO3` exponentials. -/

open Matrix

namespace Mrob

open Spec

theorem mulVec_dot_self (A : Mat3) (x : Vec3) : (A *ᵥ x) ⬝ᵥ (A *ᵥ x) = x ⬝ᵥ ((Aᵀ * A) *ᵥ x) := by
  rw [← mulVec_mulVec, dotProduct_mulVec x, vecMul_transpose]

theorem nearOrthogonal_of_isRotation {R : Mat3} (h : IsRotation R) : NearOrthogonal 0 R := by
  intro x
  have h1 := sqNorm_rot h x
  have h2 := sqNorm_rot h.transpose x
  simp only [sqNorm_eq_dot] at h1 h2
  rw [h1, h2]; simp

theorem nearOrthogonal_mul {α β : ℝ} {A B : Mat3} (hα : 0 ≤ α) (hβ : 0 ≤ β)
    (ha : NearOrthogonal α A) (hb : NearOrthogonal β B) :
    NearOrthogonal ((1 + α) * (1 + β) - 1) (A * B) := by
  intro x
  have hx : 0 ≤ x ⬝ᵥ x := sqNorm_nonneg x
  constructor
  · have h1 := (ha (B *ᵥ x)).1
    have h2 := (hb x).1
    rw [← mulVec_mulVec]
    rw [abs_le] at *
    constructor <;> nlinarith
  · have h1 := (hb (Aᵀ *ᵥ x)).2
    have h2 := (ha x).2
    rw [transpose_mul, ← mulVec_mulVec]
    rw [abs_le] at *
    constructor <;> nlinarith

theorem nearOrthogonal_transpose {α : ℝ} {A : Mat3} (h : NearOrthogonal α A) :
    NearOrthogonal α Aᵀ := fun x => ⟨(h x).2, by rw [transpose_transpose]; exact (h x).1⟩

theorem nearOrthogonal_mono {α β : ℝ} {A : Mat3} (hab : α ≤ β) (h : NearOrthogonal α A) :
    NearOrthogonal β A := fun x => by
  have hx : 0 ≤ x ⬝ᵥ x := sqNorm_nonneg x
  have := mul_le_mul_of_nonneg_right hab hx
  exact ⟨(h x).1.trans this, (h x).2.trans this⟩

/-- Every exponential built by the code, in or out of the small-angle band. -/
theorem nearOrthogonal_ofVec (w : Vec3) : NearOrthogonal 1e-31 (SO3.ofVec w).R := by
  by_cases h : 1e-5 ≤ vnorm w
  · exact nearOrthogonal_mono (by norm_num) (nearOrthogonal_of_isRotation (ofVec_isRotation_of_ge h))
  push Not at h
  have hn := vnorm_nonneg w
  -- R Rᵀ = Rᵀ R = 1 + κ W²
  have h1 := rod_small_defect w h
  have h2 : (SO3.ofVec w).Rᵀ * (SO3.ofVec w).R = (SO3.ofVec w).R * (SO3.ofVec w).Rᵀ := by
    rw [ofVec_R, rod_transpose, rod_mul_rod, rod_mul_rod]
    congr 1 <;> ring
  set κ := vnorm w ^ 4 / 72 - vnorm w ^ 6 / 576 with hκ
  set o := vnorm w with ho
  have p2 : o ^ 2 ≤ (1e-5) ^ 2 := by gcongr
  have p4 : o ^ 4 ≤ (1e-5) ^ 4 := by gcongr
  have n2 : 0 ≤ o ^ 2 := by positivity
  have n4 : 0 ≤ o ^ 4 := by positivity
  have e6 : o ^ 6 = o ^ 4 * o ^ 2 := by ring
  have κ0 : 0 ≤ κ := by rw [hκ]; nlinarith
  have κ1 : κ ≤ (1e-5) ^ 4 / 72 := by rw [hκ]; nlinarith
  have quad : ∀ x : Vec3, |x ⬝ᵥ ((1 + κ • (hat3 w * hat3 w)) *ᵥ x) - x ⬝ᵥ x| ≤ 1e-31 * (x ⬝ᵥ x) := by
    intro x
    have e : x ⬝ᵥ ((1 + κ • (hat3 w * hat3 w)) *ᵥ x) - x ⬝ᵥ x
        = -(κ * ((hat3 w *ᵥ x) ⬝ᵥ (hat3 w *ᵥ x))) := by
      rw [add_mulVec, one_mulVec, dotProduct_add, add_sub_cancel_left, smul_mulVec, dotProduct_smul,
        ← mulVec_mulVec, dotProduct_mulVec, ← mulVec_transpose, hat3_transpose, neg_mulVec,
        neg_dotProduct, smul_eq_mul]
      ring
    have hb : (hat3 w *ᵥ x) ⬝ᵥ (hat3 w *ᵥ x) ≤ o ^ 2 * (x ⬝ᵥ x) := by
      rw [vnorm_sq, sqNorm3]
      simp [hat3, mulVec, dotProduct, Fin.sum_univ_three]
      nlinarith [sq_nonneg (w 0 * x 0 + w 1 * x 1 + w 2 * x 2)]
    have hb0 : 0 ≤ (hat3 w *ᵥ x) ⬝ᵥ (hat3 w *ᵥ x) := sqNorm_nonneg _
    have hx : 0 ≤ x ⬝ᵥ x := sqNorm_nonneg x
    rw [e, abs_neg, abs_of_nonneg (mul_nonneg κ0 hb0)]
    calc _ ≤ (1e-5) ^ 4 / 72 * ((1e-5) ^ 2 * (x ⬝ᵥ x)) := by
          gcongr
          exact hb.trans (by gcongr)
      _ ≤ 1e-31 * (x ⬝ᵥ x) := by nlinarith
  intro x
  have d1 : ((SO3.ofVec w).R *ᵥ x) ⬝ᵥ ((SO3.ofVec w).R *ᵥ x)
      = x ⬝ᵥ ((1 + κ • (hat3 w * hat3 w)) *ᵥ x) := by
    rw [← h1, ← h2, mulVec_dot_self]
  have d2 : ((SO3.ofVec w).Rᵀ *ᵥ x) ⬝ᵥ ((SO3.ofVec w).Rᵀ *ᵥ x)
      = x ⬝ᵥ ((1 + κ • (hat3 w * hat3 w)) *ᵥ x) := by
    rw [← h1, mulVec_dot_self, transpose_transpose]
  rw [d1, d2]
  exact ⟨quad x, quad x⟩

theorem det_ofVec (w : Vec3) : |(SO3.ofVec w).R.det - 1| ≤ 1e-31 := by
  by_cases h : 1e-5 ≤ vnorm w
  · rw [(ofVec_isRotation_of_ge h).2]; norm_num
  push Not at h
  have hn := vnorm_nonneg w
  set o := vnorm w with ho
  have p2 : o ^ 2 ≤ (1e-5) ^ 2 := by gcongr
  have p6 : o ^ 6 ≤ (1e-5) ^ 6 := by gcongr
  have n2 : 0 ≤ o ^ 2 := by positivity
  have n6 : 0 ≤ o ^ 6 := by positivity
  rw [ofVec_R, expC1_of_lt h, expC2_of_lt h, rod_det, ← vnorm_sq, ← ho]
  have e : (1 - o ^ 2 * (0.5 - o ^ 2 / 24)) ^ 2 + o ^ 2 * (1 - o ^ 2 / 6) ^ 2 - 1
      = -(o ^ 6 / 72 - o ^ 6 * o ^ 2 / 576) := by ring
  rw [e, abs_neg, abs_of_nonneg] <;> nlinarith

theorem abs_mul_sub_one_le {a b α β : ℝ} (hα : 0 ≤ α) (_hβ : 0 ≤ β) (ha : |a - 1| ≤ α)
    (hb : |b - 1| ≤ β) : |a * b - 1| ≤ (1 + α) * (1 + β) - 1 := by
  have e : a * b - 1 = (a - 1) * (b - 1) + (a - 1) + (b - 1) := by ring
  rw [e]
  calc _ ≤ |(a - 1) * (b - 1)| + |a - 1| + |b - 1| := abs_add_three _ _ _
    _ ≤ α * β + α + β := by
        rw [abs_mul]; gcongr
    _ = _ := by ring

end Mrob
