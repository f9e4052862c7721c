import Verif.Lemmas.SO3NearPi

/-! # Properties C05, C06, C07: the rotation logarithm -/

open Matrix

namespace Mrob

open Spec

/-- A quarter turn about the `z` axis: meets the hypotheses of the exact theorems. -/
def quarterZ : Mat3 := !![0, -1, 0; 1, 0, 0; 0, 0, 1]

/-- The half turn about `(1,1,0)`. -/
def halfDiag : Mat3 := !![0, 1, 0; 1, 0, 0; 0, 0, -1]

theorem quarterZ_isRotation : IsRotation quarterZ := by
  constructor
  · ext i j; fin_cases i <;> fin_cases j <;> simp [quarterZ, Matrix.mul_apply, Fin.sum_univ_three]
  · simp [quarterZ, det_fin_three]

theorem halfDiag_isRotation : IsRotation halfDiag := by
  constructor
  · ext i j; fin_cases i <;> fin_cases j <;> simp [halfDiag, Matrix.mul_apply, Fin.sum_univ_three]
  · simp [halfDiag, det_fin_three]

/-! ## C05 -/

/-- `SO3(R.ln_vee()).R() = R` for rotations whose angle is not in one of the two approximated bands and,
from a right angle on, whose axis is not a horizontal diagonal.  Missing for the full property: the
bands (`C05_small_partial`, `C05_near_pi_partial`) and the diagonal axes, where it fails
(`C05_diagonal_fails`). -/
theorem C05_exp_ln_partial {R : Mat3} (h : IsRotation R) (hlo : angle R = 0 ∨ 1e-5 ≤ angle R)
    (hhi : angle R ≤ Real.pi - 6e-8 ∨ angle R = Real.pi)
    (hax : angle R < Real.pi / 2 ∨ ¬ FixesDiagonal R) :
    (SO3.ofVec (SO3.mk R).lnVee).R = R := by
  rw [angle_eq] at *
  rcases hlo with h0 | h0
  · have hc : cosOf R = 1 := by
      rw [← cos_arccos_cosOf h, h0, Real.cos_zero]
    rw [rot_eq_one_of_cosOf h hc, lnVee_one, ofVec_zero]
  have hb : 0 < cosOf R ∨ ¬ BadAxis R := by
    rcases hax with hax | hax
    · left; rwa [cosOf_pos_iff h]
    · by_cases hc : 0 < cosOf R
      · left; exact hc
      · right; rwa [badAxis_iff' h (not_lt.mp hc)]
  rcases hhi with h1 | h1
  · have hlt : Real.arccos (cosOf R) < Real.pi := by
      have : (0:ℝ) < 6e-8 := by norm_num
      linarith
    rw [SO3.lnVee, SO3.ln, so3Ln_eq h h0 (by linarith) hb, vee3_hat3]
    exact ofVec_lnVec h h0 hlt
  · have hc : cosOf R = -1 := by rw [← cos_arccos_cosOf h, h1, Real.cos_pi]
    obtain ⟨n, hn, hS, e⟩ := so3Ln_pi h hc (hb.resolve_left (by rw [hc]; norm_num))
    rw [SO3.lnVee, SO3.ln, e, vee3_hat3]
    exact ofVec_half_turn h hc hn hS

/-- Below `1e-5` rad the round trip is off by at most `2e-15` per entry. -/
theorem C05_small_partial {R : Mat3} (h : IsRotation R) (hlo : angle R < 1e-5) (i j : Fin 3) :
    |(SO3.ofVec (SO3.mk R).lnVee).R i j - R i j| ≤ 2e-15 := by
  rw [angle_eq] at *
  have hcos := cos_arccos_cosOf h
  have ho := Real.arccos_nonneg (cosOf R)
  have hsv := vnorm_skewVec h
  rw [SO3.lnVee, SO3.ln, so3Ln_small h hlo, vee3_hat3]
  set o := Real.arccos (cosOf R) with hodef
  have o1 : o ≤ 1 := hlo.le.trans (by norm_num)
  have hs0 : 0 ≤ Real.sin o := Real.sin_nonneg_of_nonneg_of_le_pi ho (by have := Real.two_le_pi; linarith)
  have hso : Real.sin o ≤ o := Real.sin_le ho
  have n2 : 0 ≤ o ^ 2 := by positivity
  have p2 : o ^ 2 ≤ (1e-5) ^ 2 := by gcongr
  have hvn : vnorm ((1 + o ^ 2 / 6) • skewVec R) = (1 + o ^ 2 / 6) * Real.sin o := by
    rw [vnorm_smul, hsv, abs_of_pos (by positivity)]
  have hle := sin_mul_le ho o1
  have hlt : vnorm ((1 + o ^ 2 / 6) • skewVec R) < 1e-5 := by rw [hvn]; linarith
  have hge : 0 ≤ vnorm ((1 + o ^ 2 / 6) • skewVec R) := vnorm_nonneg _
  have hc : cosOf R ≠ -1 := by
    have := Real.one_sub_sq_div_two_le_cos (x := o)
    rw [hcos] at this
    intro h'; rw [h'] at this; nlinarith
  rw [ofVec_R, ← vnorm_sq, expC1_of_lt hlt, expC2_of_lt hlt, rod_smul]
  set m := vnorm ((1 + o ^ 2 / 6) • skewVec R) with hm
  have hmo : m ≤ o := by rw [hvn]; exact hle
  have m2 : m ^ 2 ≤ o ^ 2 := by gcongr
  have m0 : 0 ≤ m ^ 2 := by positivity
  conv_lhs => rw [rot_eq_rod h hc]
  have skew_eq : ∀ c, skewVec (rod 1 c (skewVec R)) = skewVec R := by
    intro c; funext i; fin_cases i <;> simp [skewVec, rod, hat3] <;> ring
  rw [skew_eq]
  have hcl : 1 - o ^ 2 / 2 ≤ cosOf R := by rw [← hcos]; exact Real.one_sub_sq_div_two_le_cos
  have hcu : cosOf R ≤ 1 := cosOf_le_one h
  have d1 : |(1 - m ^ 2 / 6) * (1 + o ^ 2 / 6) - 1| ≤ o ^ 2 := by
    rw [_root_.abs_le]; constructor <;> nlinarith
  have k1 : 1 / (1 + cosOf R) ≤ 1 / 2 + o ^ 2 := by
    rw [div_le_iff₀ (by nlinarith)]; nlinarith
  have k2 : 1 / 2 ≤ 1 / (1 + cosOf R) := by
    rw [le_div_iff₀ (by nlinarith)]; linarith
  have d2 : |(0.5 - m ^ 2 / 24) * (1 + o ^ 2 / 6) ^ 2 - 1 / (1 + cosOf R)| ≤ 2 * o ^ 2 := by
    have t1 : 1 ≤ (1 + o ^ 2 / 6) ^ 2 := by nlinarith
    have t2 : (1 + o ^ 2 / 6) ^ 2 ≤ 1 + o ^ 2 := by nlinarith
    rw [_root_.abs_le]; constructor <;> nlinarith
  refine (rod_sub_le _ i j).trans ?_
  rw [hsv]
  calc _ ≤ o ^ 2 * o + 2 * o ^ 2 * o ^ 2 := by gcongr
    _ ≤ (1e-5) ^ 2 * 1e-5 + 2 * (1e-5) ^ 2 * (1e-5) ^ 2 := by gcongr
    _ ≤ 2e-15 := by norm_num

/-- Within `6e-8` of a half turn, unless the two first diagonal entries tie above the third, the round
trip is off by at most `1e-7` per entry. -/
theorem C05_near_pi_partial {R : Mat3} (h : IsRotation R) (hlo : Real.pi - 6e-8 < angle R)
    (hhi : angle R < Real.pi) (htie : ¬ (R 0 0 = R 1 1 ∧ R 2 2 < R 0 0)) (i j : Fin 3) :
    |(SO3.ofVec (SO3.mk R).lnVee).R i j - R i j| ≤ 1e-7 := by
  rw [angle_eq] at *
  obtain ⟨n, v, k, δ, a, q, s, hδ, hδ0, hδ1, hnu, hnle, hsk, hnS, hs, hsin1, ha, haa, hvi, hq, hqe,
    hqa, hq1, hs1, hsa, hres⟩ := near_pi_data h hlo hhi htie
  set o := Real.arccos (cosOf R) with ho
  have hp := Real.two_le_pi
  have hv0 : v ≠ 0 := by
    intro h'
    rw [hq, h', sqNorm_eq_zero.mpr rfl] at hq1
    linarith
  have hvn : vnorm v ^ 2 = q := by rw [vnorm_sq, hq]
  have hvpos : 0 < vnorm v := lt_of_le_of_ne (vnorm_nonneg v) fun h' => hv0 (vnorm_eq_zero.mp h'.symm)
  have hsabs : |s| = 1 := by
    rw [← sq_eq_sq₀ (abs_nonneg s) zero_le_one, sq_abs, hs1, one_pow]
  rw [hres]
  have hvv : vnorm ((s * (Real.pi / vnorm v)) • v) = Real.pi := by
    rw [vnorm_smul, abs_mul, hsabs, one_mul, abs_of_pos (div_pos Real.pi_pos hvpos)]
    field_simp
  have hpp : (1e-5 : ℝ) ≤ Real.pi := le_trans (by norm_num) hp
  rw [ofVec_R, ← vnorm_sq, hvv, expC1_of_ge hpp, expC2_of_ge hpp, rod_smul, Real.sin_pi, Real.cos_pi]
  have hcoef : (1 - -1) / Real.pi ^ 2 * (s * (Real.pi / vnorm v)) ^ 2 = 2 / q := by
    rw [mul_pow, hs1, one_mul, div_pow, hvn]
    have := Real.pi_ne_zero
    field_simp
    norm_num
  rw [hcoef, zero_div, zero_mul, rod, zero_smul, add_zero, hat3_sq, ← hq]
  have entry : ((1 : Mat3) + (2 / q) • (vecMulVec v v - q • (1 : Mat3))) i j
      = 2 * (v i * v j) / q - if i = j then 1 else 0 := by
    rw [Matrix.add_apply, Matrix.smul_apply, Matrix.sub_apply, Matrix.smul_apply, vecMulVec_apply,
      Matrix.one_apply]
    have : q ≠ 0 := by linarith
    simp only [smul_eq_mul]
    split_ifs <;> field_simp <;> ring
  -- the rotation itself
  have hR : R i j = (2 - δ) * (n i * n j) + (if i = j then δ - 1 else 0)
      + Real.sin o * hat3 n i j := by
    have e1 := hnS i j
    have e2 : R i j = symS R i j + (if i = j then cosOf R else 0) + hat3 (skewVec R) i j := by
      fin_cases i <;> fin_cases j <;> simp [symS, hat3, skewVec] <;> ring
    rw [e2, e1, show δ - 1 = cosOf R by rw [hδ]; ring]
    congr 1
    fin_cases i <;> fin_cases j <;> simp [hat3, hsk]
  rw [entry, hR, hvi, hvi]
  have b1 := half_turn_aux (a := a) (δ := δ) (x := n i) (y := n j)
    (ex := if i = k then 1 else 0) (ey := if j = k then 1 else 0) (nk := n k) (q := q)
    haa hδ0.le (hnle i) (hnle j) (hnle k) (by split_ifs <;> simp) (by split_ifs <;> simp) hqe hqa
  have b2 : |hat3 n i j| ≤ 1 := by
    fin_cases i <;> fin_cases j <;> simp [hat3, hnle]
  have b3 : |Real.sin o * hat3 n i j| ≤ 6e-8 := by
    rw [abs_mul, abs_of_pos hs]
    have := mul_le_mul hsin1 b2 (abs_nonneg _) (hs.le.trans hsin1)
    linarith
  exact half_turn_final b1 b3 hδ0.le hδ1

/-- Every rotation by a right angle or more about a horizontal diagonal is sent to the zero vector, so that
the round trip yields the identity instead of the rotation. -/
theorem C05_diagonal_fails {R : Mat3} (h : IsRotation R) (hax : FixesDiagonal R)
    (hlo : Real.pi / 2 ≤ angle R) (hhi : angle R ≤ Real.pi - 6e-8 ∨ angle R = Real.pi) :
    (SO3.mk R).lnVee = 0 ∧ (SO3.ofVec (SO3.mk R).lnVee).R = 1 ∧ R ≠ 1 := by
  rw [angle_eq] at *
  have hc : cosOf R ≤ 0 := by
    by_contra hcon
    push Not at hcon
    have := (cosOf_pos_iff h).mp hcon
    linarith
  have h2 : 6e-8 ≤ Real.pi - Real.arccos (cosOf R) ∨ cosOf R = -1 := by
    rcases hhi with h' | h'
    · left; linarith
    · right; rw [← cos_arccos_cosOf h, h', Real.cos_pi]
  have hz := so3Ln_bad h hc ((badAxis_iff' h hc).mpr hax) h2
  have hz2 : (SO3.mk R).lnVee = 0 := by
    rw [SO3.lnVee, SO3.ln, hz]
    funext i; fin_cases i <;> simp [vee3]
  refine ⟨hz2, by rw [hz2, ofVec_zero], ?_⟩
  rintro rfl
  rw [cosOf_eq] at hc
  norm_num at hc

/-- The full property is false: the half turn about `(1,1,0)` is a rotation. -/
theorem C05_full_fails :
    ¬ ∀ R : Mat3, IsRotation R → (SO3.ofVec (SO3.mk R).lnVee).R = R := by
  intro hall
  have hang : angle halfDiag = Real.pi := by
    rw [angle, trace_fin_three]; simp [halfDiag]; norm_num
  have := C05_diagonal_fails halfDiag_isRotation (Or.inl (by
      funext i; fin_cases i <;> simp [halfDiag, mulVec, dotProduct, Fin.sum_univ_three]))
    (by rw [hang]; have := Real.pi_pos; linarith) (Or.inr hang)
  rw [hall _ halfDiag_isRotation] at this
  exact this.2.2 this.2.1

/-- The quarter turn about `z` meets the hypotheses of `C05_exp_ln_partial` and `C07_norm_partial`. -/
example : IsRotation quarterZ ∧ 1e-5 ≤ angle quarterZ ∧ angle quarterZ ≤ Real.pi - 6e-8 ∧
    ¬ FixesDiagonal quarterZ := by
  have hang : angle quarterZ = Real.pi / 2 := by
    rw [angle, trace_fin_three]; simp [quarterZ]
  refine ⟨quarterZ_isRotation, ?_, ?_, ?_⟩
  · rw [hang]; have := Real.two_le_pi; norm_num; linarith
  · rw [hang]; have := Real.two_le_pi; norm_num; linarith
  · rintro (h | h) <;>
      · have h0 := congrFun h 0
        have h1 := congrFun h 1
        simp [quarterZ, mulVec, dotProduct, Fin.sum_univ_three] at h0 h1
        try norm_num at h0
        try norm_num at h1

/-- A turn by `1e-6` about `x` meets the hypotheses of `C05_small_partial`. -/
example : IsRotation (rotX 1e-6) ∧ angle (rotX 1e-6) < 1e-5 ∧ rotX 1e-6 ≠ 1 := by
  have hp := Real.two_le_pi
  have ha := angle_rotX (a := 1e-6) (by norm_num) (by norm_num; linarith)
  refine ⟨rotX_isRotation _, by rw [ha]; norm_num, fun h => ?_⟩
  rw [h, angle, trace_fin_three] at ha
  norm_num at ha

/-- A turn by `π - 1e-8` about `x` meets the hypotheses of `C05_near_pi_partial`. -/
example : IsRotation (rotX (Real.pi - 1e-8)) ∧ Real.pi - 6e-8 < angle (rotX (Real.pi - 1e-8)) ∧
    angle (rotX (Real.pi - 1e-8)) < Real.pi ∧
    ¬ (rotX (Real.pi - 1e-8) 0 0 = rotX (Real.pi - 1e-8) 1 1 ∧
      rotX (Real.pi - 1e-8) 2 2 < rotX (Real.pi - 1e-8) 0 0) := by
  have hp := Real.two_le_pi
  have ha := angle_rotX (a := Real.pi - 1e-8) (by norm_num; linarith) (by norm_num)
  refine ⟨rotX_isRotation _, by rw [ha]; norm_num, by rw [ha]; norm_num, ?_⟩
  rintro ⟨h, -⟩
  have h1 : (1:ℝ) = -Real.cos 1e-8 := by simpa [rotX, Real.cos_pi_sub] using h
  have h2 := Real.one_sub_sq_div_two_le_cos (x := 1e-8)
  norm_num at h1 h2
  linarith

end Mrob
