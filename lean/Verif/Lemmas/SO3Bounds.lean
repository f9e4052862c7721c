import Verif.Lemmas.Exp
import Verif.Lemmas.Taylor

/-! Entrywise bounds for Rodrigues polynomials. -/

open Matrix NormedSpace

namespace Mrob

open Spec

theorem len_eq_vnorm {ι : Type*} [Fintype ι] (w : ι → ℝ) : len w = vnorm w := rfl

theorem len_vec3 (a b c : ℝ) : len ![a, b, c] = Real.sqrt (a * a + b * b + c * c) := by
  simp [len, dotProduct, Fin.sum_univ_three]

theorem abs_le_vnorm (w : Vec3) (i : Fin 3) : |w i| ≤ vnorm w := by
  rw [vnorm, sqNorm]
  apply Real.le_sqrt_of_sq_le
  rw [sq_abs, sq]
  exact Finset.single_le_sum (f := fun i => w i * w i) (fun i _ => mul_self_nonneg _)
    (Finset.mem_univ i)

theorem abs_hat3_le (w : Vec3) (i j : Fin 3) : |hat3 w i j| ≤ vnorm w := by
  have h0 := abs_le_vnorm w 0
  have h1 := abs_le_vnorm w 1
  have h2 := abs_le_vnorm w 2
  have hn := vnorm_nonneg w
  fin_cases i <;> fin_cases j <;> simp [hat3] <;> assumption

theorem abs_hat3_sq_le (w : Vec3) (i j : Fin 3) : |(hat3 w * hat3 w) i j| ≤ vnorm w ^ 2 := by
  have hs : vnorm w ^ 2 = w 0 * w 0 + w 1 * w 1 + w 2 * w 2 := by rw [vnorm_sq, sqNorm3]
  rw [hat3_sq, ← vnorm_sq, hs, _root_.abs_le]
  fin_cases i <;> fin_cases j <;> simp [vecMulVec_apply] <;> constructor <;>
    nlinarith [mul_self_nonneg (w 0), mul_self_nonneg (w 1), mul_self_nonneg (w 2),
      mul_self_nonneg (w 0 - w 1), mul_self_nonneg (w 0 + w 1), mul_self_nonneg (w 0 - w 2),
      mul_self_nonneg (w 0 + w 2), mul_self_nonneg (w 1 - w 2), mul_self_nonneg (w 1 + w 2)]

theorem rod_sub_le {a b a' b' : ℝ} (w : Vec3) (i j : Fin 3) :
    |rod a b w i j - rod a' b' w i j| ≤ |a - a'| * vnorm w + |b - b'| * vnorm w ^ 2 := by
  have e : rod a b w i j - rod a' b' w i j
      = (a - a') * hat3 w i j + (b - b') * (hat3 w * hat3 w) i j := by
    simp [rod]; ring
  rw [e]
  refine (abs_add_le _ _).trans ?_
  rw [abs_mul, abs_mul]
  gcongr
  · exact abs_hat3_le w i j
  · exact abs_hat3_sq_le w i j

theorem rod_small_defect (w : Vec3) (h : vnorm w < 1e-5) :
    (SO3.ofVec w).R * (SO3.ofVec w).Rᵀ
      = 1 + (vnorm w ^ 4 / 72 - vnorm w ^ 6 / 576) • (hat3 w * hat3 w) := by
  rw [ofVec_R, expC1_of_lt h, expC2_of_lt h, rod_transpose, rod_mul_rod, ← vnorm_sq, rod]
  have h1 : ∀ a b x : ℝ, a + -a - x * (a * b + b * -a) = 0 := by intros; ring
  rw [h1, zero_smul, add_zero]
  congr 2
  ring

end Mrob
