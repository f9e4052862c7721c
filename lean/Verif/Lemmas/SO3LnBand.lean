import Verif.Lemmas.SO3LnInv
import Verif.Lemmas.Taylor

/-! `SO3::ln` in its approximated bands. -/

open Matrix

namespace Mrob

open Spec

theorem cosOf_pos_iff {R : Mat3} (h : IsRotation R) :
    0 < cosOf R ↔ Real.arccos (cosOf R) < Real.pi / 2 := Real.arccos_lt_pi_div_two.symm

theorem badAxis_iff' {R : Mat3} (h : IsRotation R) (hc : cosOf R ≤ 0) :
    BadAxis R ↔ FixesDiagonal R := badAxis_iff h (by linarith)

/-- Result of `SO3::ln` for angles below `1e-5`. -/
theorem so3Ln_small {R : Mat3} (h : IsRotation R) (h1 : Real.arccos (cosOf R) < 1e-5) :
    so3Ln R = (hat3 ((1 + Real.arccos (cosOf R) ^ 2 / 6) • skewVec R), Real.arccos (cosOf R)) := by
  have hc : 0 < cosOf R := by
    rw [cosOf_pos_iff h]
    have := Real.two_le_pi
    have e : (1e-5 : ℝ) < 1 := by norm_num
    linarith
  rw [so3Ln_unfold, cacos_cosOf h, if_pos (by linarith), lnSmall, if_pos h1, sub_transpose_eq,
    smul_smul, hat3_smul]
  congr 2
  norm_num; ring

/-- Result of the second branch. -/
theorem so3Ln_large {R : Mat3} (h : IsRotation R) (hc : cosOf R ≤ 0) :
    so3Ln R = lnLarge R (some (Real.arccos (cosOf R))) := by
  rw [so3Ln_unfold, cacos_cosOf h, if_neg (by linarith)]

/-- Norm of the vector returned by the second branch. -/
theorem vnorm_lnLarge (R : Mat3) (o : Option ℝ) (w : Vec3)
    (hw : w = open Classical in lnColumn R (Real.cos (lnLargeAngle o))) (hw0 : w ≠ 0)
    (ho : 0 ≤ lnLargeAngle o) :
    vnorm (vee3 (lnLarge R o).1) = lnLargeAngle o := by
  unfold lnLarge
  simp only [← hw]
  rw [lnNormalize_of_ne hw0, lnSign_hat3]
  have hv : vnorm w ≠ 0 := fun h' => hw0 (vnorm_eq_zero.mp h')
  have hvp : 0 < vnorm w := lt_of_le_of_ne (vnorm_nonneg w) (Ne.symm hv)
  split_ifs
  · rw [vee3_hat3, vnorm_neg, vnorm_smul, abs_of_nonneg (div_nonneg ho hvp.le)]
    field_simp
  · rw [vee3_hat3, vnorm_smul, abs_of_nonneg (div_nonneg ho hvp.le)]
    field_simp

theorem lnLarge_zero_column (R : Mat3) (o : Option ℝ)
    (hw : (open Classical in lnColumn R (Real.cos (lnLargeAngle o))) = 0) :
    (lnLarge R o).1 = 0 := by
  unfold lnLarge
  simp only [hw]
  have : lnNormalize 0 (lnLargeAngle o) = 0 := by rw [lnNormalize]; split_ifs <;> simp
  rw [this, hat3_zero, lnSign]
  simp

theorem lnLargeAngle_bounds {o : ℝ} (h0 : 0 ≤ o) (h1 : o ≤ Real.pi) :
    o ≤ lnLargeAngle (some o) ∧ lnLargeAngle (some o) ≤ Real.pi ∧
      lnLargeAngle (some o) - o ≤ 6e-8 := by
  rw [lnLargeAngle]
  split_ifs with h
  · exact ⟨h1, le_refl _, h.le⟩
  · refine ⟨le_refl _, h1, ?_⟩
    rw [sub_self]; norm_num

open Classical in
/-- The column selected by the second branch, whatever the angle used. -/
theorem lnColumn_apply (R : Mat3) (d : ℝ) (i : Fin 3) :
    lnColumn R d i = symS R i (pivot R) + if i = pivot R then cosOf R - d else 0 := by
  rw [lnColumn, pivot]
  split_ifs <;> fin_cases i <;> simp_all [symS] <;> ring

/-- If the axis is not a horizontal diagonal the selected column is not zero. -/
theorem lnColumn_ne_zero {R : Mat3} (h : IsRotation R) (hb : ¬ BadAxis R) {d : ℝ}
    (hd : d ≤ cosOf R) : (open Classical in lnColumn R d) ≠ 0 := by
  intro h'
  have h1 := congrFun h' (pivot R)
  rw [lnColumn_apply, if_pos rfl, Pi.zero_apply] at h1
  have h2 := symS_diag_nonneg h (pivot R)
  apply hb
  rw [← symS_pivot h]
  linarith

theorem sin_mul_le {o : ℝ} (h0 : 0 ≤ o) (h1 : o ≤ 1) : (1 + o ^ 2 / 6) * Real.sin o ≤ o := by
  have h2 := sin_le_taylor5 h0
  have p : 0 ≤ 1 + o ^ 2 / 6 := by positivity
  have h3 := mul_le_mul_of_nonneg_left h2 p
  refine h3.trans ?_
  have o5 : 0 ≤ o ^ 5 := by positivity
  have o2 : o ^ 2 ≤ 1 := pow_le_one₀ h0 h1
  nlinarith

/-- Entry error of the half-turn approximation. -/
theorem half_turn_aux {a δ x y ex ey nk q : ℝ} (ha : 1 ≤ |a|) (hδ : 0 ≤ δ) (hx : |x| ≤ 1)
    (hy : |y| ≤ 1) (hk : |nk| ≤ 1) (hex : |ex| ≤ 1) (hey : |ey| ≤ 1)
    (hq : q = a ^ 2 + 2 * (a * δ * nk) + δ ^ 2) (hq1 : a ^ 2 ≤ q) :
    |2 * ((a * x + δ * ex) * (a * y + δ * ey)) / q - (2 - δ) * (x * y)| ≤ 9 * δ + 4 * δ ^ 2 := by
  have hq0 : 0 < q := by
    have : 1 ≤ a ^ 2 := by rw [← sq_abs]; nlinarith
    linarith
  have hxy : |x * y| ≤ 1 := by rw [abs_mul]; exact mul_le_one₀ hx (abs_nonneg _) hy
  have hxe : |x * ey| ≤ 1 := by rw [abs_mul]; exact mul_le_one₀ hx (abs_nonneg _) hey
  have hye : |ex * y| ≤ 1 := by rw [abs_mul]; exact mul_le_one₀ hex (abs_nonneg _) hy
  have hee : |ex * ey| ≤ 1 := by rw [abs_mul]; exact mul_le_one₀ hex (abs_nonneg _) hey
  have e : 2 * ((a * x + δ * ex) * (a * y + δ * ey)) / q - (2 - δ) * (x * y)
      = (2 * (a * δ) * (x * ey + ex * y - 2 * nk * (x * y)) + 2 * δ ^ 2 * (ex * ey - x * y)) / q
        + δ * (x * y) := by
    field_simp
    rw [hq]; ring
  have haq : |a| ≤ q := by
    have : |a| ≤ |a| ^ 2 := by nlinarith
    rw [sq_abs] at this
    linarith
  have h1q : 1 ≤ q := ha.trans haq
  have b1 : |x * ey + ex * y - 2 * nk * (x * y)| ≤ 4 := by
    have c1 : |2 * nk * (x * y)| ≤ 2 := by
      rw [abs_mul, abs_mul, abs_two]
      nlinarith [abs_nonneg nk, abs_nonneg (x * y)]
    calc _ ≤ |x * ey + ex * y| + |2 * nk * (x * y)| := abs_sub _ _
      _ ≤ |x * ey| + |ex * y| + |2 * nk * (x * y)| := by gcongr; exact abs_add_le _ _
      _ ≤ _ := by linarith
  have b2 : |ex * ey - x * y| ≤ 2 := (abs_sub _ _).trans (by linarith)
  rw [e]
  calc _ ≤ |(2 * (a * δ) * (x * ey + ex * y - 2 * nk * (x * y)) + 2 * δ ^ 2 * (ex * ey - x * y)) / q|
        + |δ * (x * y)| := abs_add_le _ _
    _ ≤ (8 * δ + 4 * δ ^ 2) + δ := by
        gcongr
        · rw [abs_div, abs_of_pos hq0, div_le_iff₀ hq0]
          calc _ ≤ |2 * (a * δ) * (x * ey + ex * y - 2 * nk * (x * y))|
                + |2 * δ ^ 2 * (ex * ey - x * y)| := abs_add_le _ _
            _ ≤ 2 * (q * δ) * 4 + 2 * δ ^ 2 * 2 := by
                rw [abs_mul, abs_mul, abs_mul, abs_mul, abs_two, abs_mul, abs_two, abs_of_nonneg hδ,
                  abs_of_nonneg (sq_nonneg δ)]
                gcongr
            _ ≤ _ := by nlinarith [sq_nonneg δ]
        · rw [abs_mul, abs_of_nonneg hδ]
          nlinarith
    _ = _ := by ring

theorem half_turn_final {A B C δ : ℝ} {i j : Fin 3} (h1 : |A - B| ≤ 9 * δ + 4 * δ ^ 2)
    (h2 : |C| ≤ 6e-8) (h0 : 0 ≤ δ) (hδ : δ ≤ 1.8e-15) :
    |A - (if i = j then 1 else 0) - (B + (if i = j then δ - 1 else 0) + C)| ≤ 1e-7 := by
  have d2 : δ ^ 2 ≤ δ := by norm_num at hδ; nlinarith
  rw [_root_.abs_le] at *
  norm_num at *
  split_ifs <;> constructor <;> linarith

/-- Cosine of the angle, skew part and tie condition of a Rodrigues matrix. -/
theorem cosOf_rod (a b : ℝ) (w : Vec3) : cosOf (rod a b w) = 1 - b * sqNorm w := by
  rw [cosOf_eq, sqNorm3]
  simp [rod, hat3]; ring

theorem skewVec_rod (a b : ℝ) (w : Vec3) : skewVec (rod a b w) = a • w := by
  funext i
  fin_cases i <;> simp [skewVec, rod, hat3] <;> ring

theorem badAxis_rod {a b : ℝ} (hb : b ≠ 0) (w : Vec3) :
    BadAxis (rod a b w) ↔ w 2 = 0 ∧ |w 0| = |w 1| := by
  rw [BadAxis]
  have e0 : rod a b w 0 0 = 1 - b * (w 1 * w 1 + w 2 * w 2) := by simp [rod, hat3]; ring
  have e1 : rod a b w 1 1 = 1 - b * (w 0 * w 0 + w 2 * w 2) := by simp [rod, hat3]; ring
  have e2 : rod a b w 2 2 = 1 - b * (w 0 * w 0 + w 1 * w 1) := by simp [rod, hat3]; ring
  rw [e0, e1, e2, abs_eq_abs, ← mul_self_eq_mul_self_iff]
  constructor
  · rintro ⟨h1, h2⟩
    have h3 : b * (w 0 * w 0 - w 1 * w 1) = 0 := by linarith
    have h4 : w 0 * w 0 = w 1 * w 1 := sub_eq_zero.mp ((mul_eq_zero.mp h3).resolve_left hb)
    rw [h4] at h2
    have h5 : b * (w 2 * w 2) = 0 := by linarith
    have h6 := (mul_eq_zero.mp h5).resolve_left hb
    exact ⟨mul_self_eq_zero.mp h6, h4⟩
  · rintro ⟨h1, h2⟩
    rw [h1, h2]
    constructor <;> ring

theorem arccos_small {o : ℝ} (h0 : 0 ≤ o) (h1 : o < 1e-5) :
    cacos (1 - (0.5 - o ^ 2 / 24) * o ^ 2) = some (Real.arccos (1 - (0.5 - o ^ 2 / 24) * o ^ 2)) ∧
      Real.arccos (1 - (0.5 - o ^ 2 / 24) * o ^ 2) ≤ o ∧ 0 < 1 - (0.5 - o ^ 2 / 24) * o ^ 2 := by
  have o1 : o ≤ 1 := h1.le.trans (by norm_num)
  have p2 : o ^ 2 ≤ 1 := pow_le_one₀ h0 o1
  have n2 : 0 ≤ o ^ 2 := by positivity
  have hle : 1 - (0.5 - o ^ 2 / 24) * o ^ 2 ≤ 1 := by nlinarith
  have hpos : 0 < 1 - (0.5 - o ^ 2 / 24) * o ^ 2 := by nlinarith
  refine ⟨?_, ?_, hpos⟩
  · rw [cacos, if_pos ⟨by linarith, hle⟩]
  · have hc := cos_le_taylor4 h0
    have e : 1 - (0.5 - o ^ 2 / 24) * o ^ 2 = 1 - o ^ 2 / 2 + o ^ 4 / 24 := by ring
    have h3 : Real.cos o ≤ 1 - (0.5 - o ^ 2 / 24) * o ^ 2 := by rw [e]; exact hc
    have := Real.arccos_le_arccos h3
    rwa [Real.arccos_cos h0 (by have := Real.two_le_pi; linarith)] at this

end Mrob
