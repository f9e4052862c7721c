import Verif.Lemmas.SO3Hist

/-! # Property C04: histories of rotation operations -/

open Matrix

namespace Mrob

open Spec

/-- `SO3Reach U n a`: the object `a` can be produced from rotations by a finite sequence of `mul`/`*`,
`inv`, `update_lhs`, `update_rhs` using `n` updates in total (counted with multiplicity through
`mul`), all with arguments satisfying `U`. -/
inductive SO3Reach (U : Vec3 → Prop) : ℕ → SO3 → Prop
  | start (a : SO3) : IsRotation a.R → SO3Reach U 0 a
  | default : SO3Reach U 0 SO3.default
  | ofVec (w : Vec3) : U w → SO3Reach U 1 (SO3.ofVec w)
  | mul {m n : ℕ} {a b : SO3} : SO3Reach U m a → SO3Reach U n b → SO3Reach U (m + n) (a.mul b)
  | inv {n : ℕ} {a : SO3} : SO3Reach U n a → SO3Reach U n a.inv
  | updateLhs {n : ℕ} {a : SO3} (w : Vec3) : U w → SO3Reach U n a → SO3Reach U (n + 1) (a.updateLhs w)
  | updateRhs {n : ℕ} {a : SO3} (w : Vec3) : U w → SO3Reach U n a → SO3Reach U (n + 1) (a.updateRhs w)

/-- Whatever the history, if every update vector is zero or outside the small-angle band the result is
exactly a rotation. -/
theorem C04_group_exact {n : ℕ} {a : SO3} (h : SO3Reach (fun w => 1e-5 ≤ len w ∨ w = 0) n a) :
    IsRotation a.R := by
  have hv : ∀ w : Vec3, 1e-5 ≤ len w ∨ w = 0 → IsRotation (SO3.ofVec w).R := by
    intro w hw
    rcases hw with hw | rfl
    · exact ofVec_isRotation_of_ge hw
    · rw [ofVec_zero]; exact isRotation_one
  induction h with
  | start a ha => exact ha
  | default => exact isRotation_one
  | ofVec w hw => exact hv w hw
  | mul _ _ iha ihb => exact iha.mul ihb
  | inv _ ih => exact ih.transpose
  | updateLhs w hw _ ih => exact (hv w hw).mul ih
  | updateRhs w hw _ ih => exact ih.mul (hv w hw)

/-- For arbitrary update vectors, the deviation from the group after a history with `n` updates is at
most `(1+1e-31)^n - 1`: relative change of squared lengths, and determinant. -/
theorem C04_group_drift {n : ℕ} {a : SO3} (h : SO3Reach (fun _ => True) n a) :
    NearOrthogonal ((1 + 1e-31) ^ n - 1) a.R ∧ |a.R.det - 1| ≤ (1 + 1e-31) ^ n - 1 := by
  have pos : ∀ k : ℕ, (0 : ℝ) ≤ (1 + 1e-31) ^ k - 1 := fun k => by
    have : (1 : ℝ) ≤ (1 + 1e-31) ^ k := one_le_pow₀ (by norm_num)
    linarith
  have m : ∀ k l : ℕ, ((1:ℝ) + ((1 + 1e-31) ^ k - 1)) * (1 + ((1 + 1e-31) ^ l - 1)) - 1
      = (1 + 1e-31) ^ (k + l) - 1 := fun k l => by rw [pow_add]; ring
  have one : ((1:ℝ) + 1e-31) ^ 1 - 1 = 1e-31 := by ring
  have hv : ∀ w : Vec3, NearOrthogonal ((1 + 1e-31) ^ 1 - 1) (SO3.ofVec w).R ∧
      |(SO3.ofVec w).R.det - 1| ≤ (1 + 1e-31) ^ 1 - 1 := fun w => by
    rw [one]; exact ⟨nearOrthogonal_ofVec w, det_ofVec w⟩
  have prod : ∀ {k l : ℕ} {A B : Mat3},
      (NearOrthogonal ((1 + 1e-31) ^ k - 1) A ∧ |A.det - 1| ≤ (1 + 1e-31) ^ k - 1) →
      (NearOrthogonal ((1 + 1e-31) ^ l - 1) B ∧ |B.det - 1| ≤ (1 + 1e-31) ^ l - 1) →
      (NearOrthogonal ((1 + 1e-31) ^ (k + l) - 1) (A * B) ∧
        |(A * B).det - 1| ≤ (1 + 1e-31) ^ (k + l) - 1) := by
    intro k l A B hA hB
    rw [det_mul, ← m k l]
    exact ⟨nearOrthogonal_mul (pos k) (pos l) hA.1 hB.1,
      abs_mul_sub_one_le (pos k) (pos l) hA.2 hB.2⟩
  induction h with
  | start a ha =>
    rw [pow_zero, sub_self]
    exact ⟨nearOrthogonal_of_isRotation ha, by rw [ha.2]; simp⟩
  | default =>
    rw [pow_zero, sub_self]
    exact ⟨nearOrthogonal_of_isRotation isRotation_one, by simp [SO3.default]⟩
  | ofVec w _ => exact hv w
  | mul _ _ iha ihb => exact prod iha ihb
  | inv _ ih => exact ⟨nearOrthogonal_transpose ih.1, by simpa [SO3.inv, det_transpose] using ih.2⟩
  | @updateLhs k a w _ _ ih => rw [add_comm k 1]; exact prod (hv w) ih
  | updateRhs w _ _ ih => exact prod ih (hv w)

/-- `mul` is associative with unit `SO3()`; `inv` is a two-sided inverse of a rotation; updates are
multiplications by `SO3(w)`. -/
theorem C04_group_laws (a b c : SO3) (w : Vec3) :
    (a.mul b).mul c = a.mul (b.mul c) ∧ SO3.default.mul a = a ∧ a.mul SO3.default = a ∧
      (IsRotation a.R → a.mul a.inv = SO3.default ∧ a.inv.mul a = SO3.default) ∧
      a.updateLhs w = (SO3.ofVec w).mul a ∧ a.updateRhs w = a.mul (SO3.ofVec w) := by
  refine ⟨?_, ?_, ?_, fun h => ⟨?_, ?_⟩, rfl, rfl⟩
  · simp [SO3.mul, mul_assoc]
  · simp [SO3.mul, SO3.default]
  · simp [SO3.mul, SO3.default]
  · simp [SO3.mul, SO3.inv, SO3.default, h.1]
  · simp [SO3.mul, SO3.inv, SO3.default, h.transpose_mul]

/-- A history with updates on both sides, an inversion and a product. -/
example : SO3Reach (fun w => 1e-5 ≤ len w ∨ w = 0) 3
    (((SO3.ofVec ![1, -2, 2]).updateLhs ![0, 3, 4]).mul
      ((SO3.default.updateRhs ![0, 0, 0]).inv)) := by
  refine .mul (m := 2) (n := 1) (.updateLhs _ ?_ (.ofVec _ ?_)) (.inv (.updateRhs (n := 0) _ ?_ .default))
  · left; rw [len_vec3, show (0:ℝ) * 0 + 3 * 3 + 4 * 4 = 5 ^ 2 by norm_num, Real.sqrt_sq] <;> norm_num
  · left; rw [len_vec3, show (1:ℝ) * 1 + -2 * -2 + 2 * 2 = 3 ^ 2 by norm_num, Real.sqrt_sq] <;> norm_num
  · right; funext i; fin_cases i <;> rfl

end Mrob
