import Verif.Lemmas.Quat
import Verif.Model.Quat

/-! Conversion of a rotation to a quaternion. -/

open Matrix
namespace Mrob
open Spec

/-- The symmetric matrix `4 q qᵀ` read off a rotation matrix. -/
def shoemake (m : Mat3) : Matrix (Fin 4) (Fin 4) ℝ :=
  !![1 + m 0 0 - m 1 1 - m 2 2, m 0 1 + m 1 0, m 0 2 + m 2 0, m 2 1 - m 1 2;
     m 0 1 + m 1 0, 1 - m 0 0 + m 1 1 - m 2 2, m 1 2 + m 2 1, m 0 2 - m 2 0;
     m 0 2 + m 2 0, m 1 2 + m 2 1, 1 - m 0 0 - m 1 1 + m 2 2, m 1 0 - m 0 1;
     m 2 1 - m 1 2, m 0 2 - m 2 0, m 1 0 - m 0 1, 1 + m 0 0 + m 1 1 + m 2 2]

theorem shoemake_rank {m : Mat3} (h : IsRotation m) (i a b : Fin 4) :
    shoemake m i a * shoemake m i b = shoemake m i i * shoemake m a b := by
  have h1 := h.1
  have h2 : mᵀ * m = 1 := mul_eq_one_comm.mp h1
  have h3 : m.adjugate = mᵀ := by
    have := congrArg (mᵀ * ·) (mul_adjugate m)
    simp only [h.2, one_smul, mul_one, ← mul_assoc, h2, one_mul] at this
    exact this
  have r : ∀ a b, (m * mᵀ) a b = (1 : Mat3) a b := fun a b => by rw [h1]
  have c : ∀ a b, (mᵀ * m) a b = (1 : Mat3) a b := fun a b => by rw [h2]
  have d : ∀ a b, m.adjugate a b = mᵀ a b := fun a b => by rw [h3]
  simp only [Matrix.mul_apply, Fin.sum_univ_three, transpose_apply] at r c
  have r00 := r 0 0; have r11 := r 1 1; have r22 := r 2 2; have r01 := r 0 1; have r02 := r 0 2; have r12 := r 1 2
  have c00 := c 0 0; have c11 := c 1 1; have c22 := c 2 2; have c01 := c 0 1; have c02 := c 0 2; have c12 := c 1 2
  have d00 := d 0 0; have d01 := d 0 1; have d02 := d 0 2
  have d10 := d 1 0; have d11 := d 1 1; have d12 := d 1 2
  have d20 := d 2 0; have d21 := d 2 1; have d22 := d 2 2
  rw [adjugate_fin_three] at d00 d01 d02 d10 d11 d12 d20 d21 d22
  simp at r00 r11 r22 r01 r02 r12 c00 c11 c22 c01 c02 c12 d00 d01 d02 d10 d11 d12 d20 d21 d22
  clear r c d h1 h2 h3 h
  fin_cases i <;> fin_cases a <;> fin_cases b <;> simp [shoemake] <;> grind

/-- A quaternion whose products are those of `shoemake` is mapped back to the matrix. -/
theorem quatQ_of_shoemake {m : Mat3} {q : Fin 4 → ℝ} (h : ∀ a b, 4 * (q a * q b) = shoemake m a b) :
    quatQ q = m ∧ sqNorm q = 1 := by
  have h00 := h 0 0; have h11 := h 1 1; have h22 := h 2 2; have h33 := h 3 3
  have h01 := h 0 1; have h02 := h 0 2; have h03 := h 0 3; have h12 := h 1 2; have h13 := h 1 3; have h23 := h 2 3
  simp [shoemake] at h00 h11 h22 h33 h01 h02 h03 h12 h13 h23
  constructor
  · ext i j
    fin_cases i <;> fin_cases j <;> simp [quatQ] <;> linarith
  · rw [sqNorm4]; linarith

theorem shoemake_quatQ (q : Fin 4 → ℝ) (hq : sqNorm q = 1) (a b : Fin 4) :
    4 * (q a * q b) = shoemake (quatQ q) a b := by
  rw [sqNorm4] at hq
  fin_cases a <;> fin_cases b <;> simp [shoemake, quatQ] <;> linarith

/-- The quaternion read off row `i` of `shoemake`. -/
theorem shoemake_row {m : Mat3} (h : IsRotation m) (i : Fin 4) (hi : 0 < shoemake m i i) {q : Fin 4 → ℝ}
    (hq : ∀ a, q a = shoemake m i a * ((1 / 2) / Real.sqrt (shoemake m i i))) (a b : Fin 4) :
    4 * (q a * q b) = shoemake m a b := by
  have hs : Real.sqrt (shoemake m i i) ≠ 0 := (Real.sqrt_pos.mpr hi).ne'
  have hss : Real.sqrt (shoemake m i i) ^ 2 = shoemake m i i := Real.sq_sqrt hi.le
  rw [hq a, hq b]
  have := shoemake_rank h i a b
  field_simp
  rw [hss]
  linarith

/-- `so3_to_quat` reads off a row of `shoemake` with positive diagonal. -/
theorem so3ToQuat_row (m : Mat3) : ∃ i, 1 ≤ shoemake m i i ∧
    ∀ a, so3ToQuat m a = shoemake m i a * ((1 / 2) / Real.sqrt (shoemake m i i)) := by
  have key : ∀ x : ℝ, 1 ≤ x → (1 / 2) * Real.sqrt x = x * ((1 / 2) / Real.sqrt x) := by
    intro x hx
    have hp : 0 < x := by linarith
    have hs : Real.sqrt x ≠ 0 := (Real.sqrt_pos.mpr hp).ne'
    have hss : Real.sqrt x ^ 2 = x := Real.sq_sqrt hp.le
    field_simp
    rw [hss]
  by_cases ht : m 0 0 + m 1 1 + m 2 2 > 0
  · have e : shoemake m 3 3 = m 0 0 + m 1 1 + m 2 2 + 1 := by simp [shoemake]; ring
    have hp : 1 ≤ shoemake m 3 3 := by rw [e]; linarith
    refine ⟨3, hp, fun a => ?_⟩
    rw [so3ToQuat, if_pos ht, ← e]
    fin_cases a
    · simp [shoemake]
    · simp [shoemake]
    · simp [shoemake]
    · exact key _ hp
  · simp only [so3ToQuat, if_neg ht]
    have row : ∀ (i : Fin 3) (l : Fin 4), l = i.castSucc → m (i + 1) (i + 1) ≤ m i i → m (i + 2) (i + 2) ≤ m i i →
        1 ≤ shoemake m l l ∧ ∀ a, rotToQuatLarge m i (i + 1) (i + 2) a =
          shoemake m l a * ((1 / 2) / Real.sqrt (shoemake m l l)) := by
      intro i l hl h1 h2
      have e : shoemake m l l = m i i - m (i + 1) (i + 1) - m (i + 2) (i + 2) + 1 := by
        subst hl
        fin_cases i <;> simp [shoemake] <;> ring
      have hp : 1 ≤ shoemake m l l := by
        rw [e]
        have ht' : m i i + m (i + 1) (i + 1) + m (i + 2) (i + 2) ≤ 0 := by
          have := not_lt.mp ht
          fin_cases i <;> simp <;> linarith
        linarith
      refine ⟨hp, fun a => ?_⟩
      have k := key _ hp
      subst hl
      have k' : (1 / 2) * Real.sqrt (m i i - m (i + 1) (i + 1) - m (i + 2) (i + 2) + 1) =
          shoemake m i.castSucc i.castSucc * ((1 / 2) / Real.sqrt (shoemake m i.castSucc i.castSucc)) := by
        rw [← e]; exact k
      simp only [rotToQuatLarge]
      rw [k']
      simp only [← e]
      generalize (1 / 2) / Real.sqrt (shoemake m i.castSucc i.castSucc) = s
      fin_cases i <;> fin_cases a <;> simp [shoemake, Function.update_apply] <;> left <;> ring
    have hle : ∀ i : Fin 3, (if m 2 2 > m (if m 1 1 > m 0 0 then 1 else 0) (if m 1 1 > m 0 0 then 1 else 0)
        then (2 : Fin 3) else (if m 1 1 > m 0 0 then 1 else 0)) = i → ∀ j, m j j ≤ m i i := by
      intro i hi j
      split_ifs at hi <;> subst hi <;> fin_cases j <;> simp <;> linarith
    generalize hi : (if m 2 2 > m (if m 1 1 > m 0 0 then 1 else 0) (if m 1 1 > m 0 0 then 1 else 0)
        then (2 : Fin 3) else (if m 1 1 > m 0 0 then 1 else 0)) = i
    exact ⟨i.castSucc, row i _ rfl (hle i hi _) (hle i hi _)⟩

theorem so3ToQuat_prod {m : Mat3} (h : IsRotation m) (a b : Fin 4) :
    4 * (so3ToQuat m a * so3ToQuat m b) = shoemake m a b := by
  obtain ⟨i, hi, e⟩ := so3ToQuat_row m
  exact shoemake_row h i (by linarith) e a b

/-- Two quaternions with the same products differ by the sign. -/
theorem eq_or_neg_of_prod {p q : Fin 4 → ℝ} (h : ∀ a b, p a * p b = q a * q b) : p = q ∨ p = -q := by
  by_cases hp : p = 0
  · left
    rw [hp]
    funext a
    have := h a a
    rw [hp] at this
    have hq : q a = 0 := by simpa using this
    exact hq.symm
  · obtain ⟨i, hi⟩ : ∃ i, p i ≠ 0 := by
      by_contra hc
      exact hp (funext fun i => not_not.mp fun h => hc ⟨i, h⟩)
    rcases mul_self_eq_mul_self_iff.mp (h i i) with e | e
    · left
      funext a
      have := h i a
      rw [← e] at this
      exact mul_left_cancel₀ hi this
    · right
      funext a
      have := h i a
      rw [show q i = -p i by rw [e, neg_neg]] at this
      simp only [Pi.neg_apply]
      exact mul_left_cancel₀ hi (by rw [this]; ring)

theorem quatToSo3_unit {q : Fin 4 → ℝ} (h : sqNorm q = 1) : quatToSo3 q = quatQ q := by
  rw [quatToSo3_eq (fun h0 => by simp [h0, sqNorm] at h), h, inv_one, one_smul]
end Mrob
