import Verif.Model.Node
import Verif.Spec.Graph
import Verif.Lemmas.SO3

/-! Lemmas on `wrap_angle` and the nodes. -/

open Matrix

namespace Mrob

open Spec

theorem wrapUp_of_ge {a : ℝ} (h : -Real.pi ≤ a) : wrapUp a = a := by
  rw [wrapUp, if_neg (not_lt.mpr h)]

theorem wrapDown_of_lt {a : ℝ} (h : a < Real.pi) : wrapDown a = a := by
  rw [wrapDown, if_neg (not_le.mpr h)]

theorem wrapUp_spec (a : ℝ) : -Real.pi ≤ wrapUp a ∧ ∃ k : ℤ, wrapUp a = a + k * (2 * Real.pi) := by
  induction a using wrapUp.induct with
  | case1 a h ih =>
    rw [wrapUp, if_pos h]
    refine ⟨ih.1, ?_⟩
    obtain ⟨k, hk⟩ := ih.2
    exact ⟨k + 1, by rw [hk]; push_cast; ring⟩
  | case2 a h =>
    rw [wrapUp, if_neg h]
    exact ⟨not_lt.mp h, 0, by simp⟩

theorem wrapDown_spec (a : ℝ) (ha : -Real.pi ≤ a) :
    -Real.pi ≤ wrapDown a ∧ wrapDown a < Real.pi ∧ ∃ k : ℤ, wrapDown a = a + k * (2 * Real.pi) := by
  induction a using wrapDown.induct with
  | case1 a h ih =>
    rw [wrapDown, if_pos h]
    have := Real.pi_pos
    obtain ⟨h1, h2, k, hk⟩ := ih (by linarith)
    exact ⟨h1, h2, k - 1, by rw [hk]; push_cast; ring⟩
  | case2 a h =>
    rw [wrapDown, if_neg h]
    exact ⟨ha, not_le.mp h, 0, by simp⟩

theorem wrapAngle_spec (a : ℝ) :
    -Real.pi ≤ wrapAngle a ∧ wrapAngle a < Real.pi ∧ ∃ k : ℤ, wrapAngle a = a + k * (2 * Real.pi) := by
  obtain ⟨h1, k, hk⟩ := wrapUp_spec a
  obtain ⟨h2, h3, l, hl⟩ := wrapDown_spec (wrapUp a) h1
  exact ⟨h2, h3, k + l, by rw [wrapAngle, hl, hk]; push_cast; ring⟩

theorem wrapAngle_of_mem {a : ℝ} (h1 : -Real.pi ≤ a) (h2 : a < Real.pi) : wrapAngle a = a := by
  rw [wrapAngle, wrapUp_of_ge h1, wrapDown_of_lt h2]

theorem eq_of_sameAngle {a b : ℝ} (ha : -Real.pi ≤ a ∧ a < Real.pi) (hb : -Real.pi ≤ b ∧ b < Real.pi)
    (h : ∃ k : ℤ, a = b + k * (2 * Real.pi)) : a = b := by
  obtain ⟨k, hk⟩ := h
  have hp := Real.pi_pos
  have h1 : (k : ℝ) < 1 := by
    by_contra h; push Not at h; nlinarith
  have h2 : -1 < (k : ℝ) := by
    by_contra h; push Not at h; nlinarith
  have h1' : k < 1 := by exact_mod_cast h1
  have h2' : -1 < k := by exact_mod_cast h2
  have : k = 0 := by omega
  rw [hk, this]; simp

theorem wrapAngle_eq_iff (a b : ℝ) :
    wrapAngle a = wrapAngle b ↔ ∃ k : ℤ, a = b + k * (2 * Real.pi) := by
  obtain ⟨a1, a2, k, hk⟩ := wrapAngle_spec a
  obtain ⟨b1, b2, l, hl⟩ := wrapAngle_spec b
  constructor
  · intro h
    exact ⟨l - k, by push_cast; linarith⟩
  · rintro ⟨m, hm⟩
    exact eq_of_sameAngle ⟨a1, a2⟩ ⟨b1, b2⟩ ⟨k + m - l, by push_cast; linarith⟩

theorem wrapAngle_eq_of {a b : ℝ} (hb : -Real.pi ≤ b ∧ b < Real.pi) (h : ∃ k : ℤ, a = b + k * (2 * Real.pi)) :
    wrapAngle a = b := by
  rw [(wrapAngle_eq_iff a b).mpr h, wrapAngle_of_mem hb.1 hb.2]

theorem cos_wrapAngle (a : ℝ) : Real.cos (wrapAngle a) = Real.cos a := by
  obtain ⟨-, -, k, hk⟩ := wrapAngle_spec a
  rw [hk, Real.cos_add_int_mul_two_pi]

theorem sin_wrapAngle (a : ℝ) : Real.sin (wrapAngle a) = Real.sin a := by
  obtain ⟨-, -, k, hk⟩ := wrapAngle_spec a
  rw [hk, Real.sin_add_int_mul_two_pi]

@[simp] theorem wrap2_0 (x : Vec3) : wrap2 x 0 = x 0 := rfl
@[simp] theorem wrap2_1 (x : Vec3) : wrap2 x 1 = x 1 := rfl
@[simp] theorem wrap2_2 (x : Vec3) : wrap2 x 2 = wrapAngle (x 2) := rfl

theorem wrap2_of_mem {x : Vec3} (h1 : -Real.pi ≤ x 2) (h2 : x 2 < Real.pi) : wrap2 x = x := by
  funext i
  rcases (by decide +revert : i = 0 ∨ i = 1 ∨ i = 2) with rfl | rfl | rfl
  · rfl
  · rfl
  · rw [wrap2_2, wrapAngle_of_mem h1 h2]

theorem normalizeHead_inl (x : Vec4) (h : 0 < sqNorm (fun i => x (Sum.inl i))) (i : Fin 3) :
    normalizeHead x (Sum.inl i) = x (Sum.inl i) / Real.sqrt (sqNorm (fun i => x (Sum.inl i))) := by
  simp only [normalizeHead, gt_iff_lt, if_pos h, Sum.elim_inl]

theorem normalizeHead_inr (x : Vec4) (u : Unit) : normalizeHead x (Sum.inr u) = x (Sum.inr u) := by
  simp only [normalizeHead]
  split_ifs <;> rfl

theorem normalizeHead_zero (x : Vec4) (h : ¬ 0 < sqNorm (fun i => x (Sum.inl i))) :
    normalizeHead x = x := by
  simp only [normalizeHead, gt_iff_lt, if_neg h]

theorem sqNorm_normalizeHead (x : Vec4) (h : 0 < sqNorm (fun i => x (Sum.inl i))) :
    sqNorm (fun i => normalizeHead x (Sum.inl i)) = 1 := by
  have e : (fun i => normalizeHead x (Sum.inl i))
      = (Real.sqrt (sqNorm (fun i => x (Sum.inl i))))⁻¹ • fun i => x (Sum.inl i) := by
    funext i
    rw [normalizeHead_inl x h, Pi.smul_apply, smul_eq_mul, div_eq_inv_mul]
  rw [e, sqNorm_smul, inv_pow, Real.sq_sqrt h.le, inv_mul_cancel₀ h.ne']

theorem normalizeHead_unit (x : Vec4) (h : sqNorm (fun i => x (Sum.inl i)) = 1) :
    normalizeHead x = x := by
  funext j
  rcases j with i | u
  · rw [normalizeHead_inl x (by rw [h]; exact one_pos), h, Real.sqrt_one, div_one]
  · exact normalizeHead_inr x u

end Mrob
