import Mathlib.Analysis.Real.Pi.Bounds
import Verif.Lemmas.SO3NearPi
import Verif.Props.SO3Ln

/-! # Properties C06, C07: logarithm of an exponential, length of the logarithm -/

open Matrix

namespace Mrob

open Spec

/-! ## C06 -/

/-- The three facts needed about `SO3(w)` outside the small-angle band. -/
theorem ofVec_data {w : Vec3} (h : 1e-5 ≤ vnorm w) (hpi : vnorm w ≤ Real.pi) :
    Real.arccos (cosOf (SO3.ofVec w).R) = vnorm w ∧
      skewVec (SO3.ofVec w).R = (Real.sin (vnorm w) / vnorm w) • w ∧
      (BadAxis (SO3.ofVec w).R ↔ w 2 = 0 ∧ |w 0| = |w 1|) := by
  have hpos : 0 < vnorm w := lt_of_lt_of_le (by norm_num) h
  rw [ofVec_R, expC1_of_ge h, expC2_of_ge h]
  refine ⟨?_, skewVec_rod _ _ _, badAxis_rod ?_ _⟩
  · rw [cosOf_rod, ← vnorm_sq]
    have : 1 - (1 - Real.cos (vnorm w)) / vnorm w ^ 2 * vnorm w ^ 2 = Real.cos (vnorm w) := by
      field_simp; ring
    rw [this, Real.arccos_cos hpos.le hpi]
  · have h1 : Real.cos (vnorm w) < 1 := by
      rw [← Real.cos_zero]
      exact Real.cos_lt_cos_of_nonneg_of_le_pi (le_refl _) hpi hpos
    rw [← vnorm_sq]
    have : 0 < (1 - Real.cos (vnorm w)) / vnorm w ^ 2 := div_pos (by linarith) (by positivity)
    exact this.ne'

/-- `SO3(w).ln_vee() = w` for every `w` up to `π - 6e-8` long outside the small-angle band, unless it is
a right angle or more about a horizontal diagonal.  Missing for the full property: the bands
(`C06_small_partial`, `C06_near_pi_partial`) and the diagonals, where it fails
(`C06_diagonal_fails`). -/
theorem C06_ln_exp_partial {w : Vec3} (h : w = 0 ∨ (1e-5 ≤ len w ∧ len w ≤ Real.pi - 6e-8))
    (hax : ¬ (Real.pi / 2 ≤ len w ∧ w 2 = 0 ∧ |w 0| = |w 1|)) : (SO3.ofVec w).lnVee = w := by
  rcases h with rfl | ⟨h1, h2⟩
  · have : SO3.ofVec 0 = ⟨1⟩ := by ext1; exact ofVec_zero
    rw [this, lnVee_one]
  · rw [len_eq_vnorm] at *
    have hlt : vnorm w < Real.pi := by
      have : (0:ℝ) < 6e-8 := by norm_num
      linarith
    have hpos : 0 < vnorm w := lt_of_lt_of_le (by norm_num) h1
    have hrot := ofVec_isRotation_of_ge h1
    obtain ⟨ha, hs, hb⟩ := ofVec_data h1 hlt.le
    have hcase : 0 < cosOf (SO3.ofVec w).R ∨ ¬ BadAxis (SO3.ofVec w).R := by
      rw [hb, cosOf_pos_iff hrot, ha]
      by_cases h' : vnorm w < Real.pi / 2
      · exact Or.inl h'
      · exact Or.inr fun h'' => hax ⟨not_lt.mp h', h''⟩
    rw [SO3.lnVee, SO3.ln, so3Ln_eq hrot (by rw [ha]; exact h1) (by rw [ha]; linarith) hcase,
      vee3_hat3, ha, hs, smul_smul]
    have : Real.sin (vnorm w) ≠ 0 := (Real.sin_pos_of_pos_of_lt_pi hpos hlt).ne'
    have e : vnorm w / Real.sin (vnorm w) * (Real.sin (vnorm w) / vnorm w) = 1 := by field_simp
    rw [e, one_smul]

/-- Below `1e-5` the round trip is off by at most `1e-15` per component. -/
theorem C06_small_partial {w : Vec3} (h : len w < 1e-5) (i : Fin 3) :
    |(SO3.ofVec w).lnVee i - w i| ≤ 1e-15 := by
  rw [len_eq_vnorm] at h
  have hn := vnorm_nonneg w
  have hw : ∀ i, |w i| ≤ vnorm w := abs_le_vnorm w
  set R := (SO3.ofVec w).R with hR
  have e : R = rod (1 - vnorm w ^ 2 / 6) (0.5 - vnorm w ^ 2 / 24) w := by
    rw [hR, ofVec_R, expC1_of_lt h, expC2_of_lt h, ← vnorm_sq]
  have hc : cosOf R = 1 - (0.5 - vnorm w ^ 2 / 24) * vnorm w ^ 2 := by
    rw [e, cosOf_rod, ← vnorm_sq]
  obtain ⟨k1, k2, k3⟩ := arccos_small hn h
  rw [← hc] at k1 k2 k3
  have k4 := Real.arccos_nonneg (cosOf R)
  set o' := Real.arccos (cosOf R) with ho'
  have hlt : o' < 1e-5 := lt_of_le_of_lt k2 h
  have hln : (SO3.ofVec w).lnVee = ((1 + o' ^ 2 / 6) * (1 - vnorm w ^ 2 / 6)) • w := by
    rw [SO3.lnVee, SO3.ln, ← hR, so3Ln_unfold, k1, if_pos (by linarith), lnSmall, if_pos hlt,
      sub_transpose_eq, smul_smul, ← hat3_smul, vee3_hat3, e, skewVec_rod, smul_smul]
    congr 2
    ring
  rw [hln, Pi.smul_apply, smul_eq_mul]
  have e2 : (1 + o' ^ 2 / 6) * (1 - vnorm w ^ 2 / 6) * w i - w i
      = ((1 + o' ^ 2 / 6) * (1 - vnorm w ^ 2 / 6) - 1) * w i := by ring
  rw [e2, abs_mul]
  set o := vnorm w
  have n2 : 0 ≤ o ^ 2 := by positivity
  have n2' : 0 ≤ o' ^ 2 := by positivity
  have p2 : o ^ 2 ≤ (1e-5) ^ 2 := by gcongr
  have p2' : o' ^ 2 ≤ o ^ 2 := by gcongr
  have d : |(1 + o' ^ 2 / 6) * (1 - o ^ 2 / 6) - 1| ≤ o ^ 2 := by
    rw [_root_.abs_le]; constructor <;> nlinarith
  calc _ ≤ o ^ 2 * o := by gcongr; exact hw i
    _ ≤ (1e-5) ^ 2 * 1e-5 := by gcongr
    _ ≤ 1e-15 := by norm_num

/-- Within `6e-8` of length `π`, unless the two first components tie in size above the third, the
round trip is off by at most `1e-7` per component (the returned vector has length `π`). -/
theorem C06_near_pi_partial {w : Vec3} (hlo : Real.pi - 6e-8 < len w) (hhi : len w < Real.pi)
    (htie : ¬ (|w 0| = |w 1| ∧ |w 2| < |w 0|)) (i : Fin 3) :
    |(SO3.ofVec w).lnVee i - w i| ≤ 1e-7 := by
  rw [len_eq_vnorm] at *
  have hp := Real.two_le_pi
  have h1 : 1e-5 ≤ vnorm w := by norm_num at *; linarith
  have hpos : 0 < vnorm w := lt_of_lt_of_le (by norm_num) h1
  have hrot := ofVec_isRotation_of_ge h1
  obtain ⟨ha, hsk, hb⟩ := ofVec_data h1 hhi.le
  have hsin := Real.sin_pos_of_pos_of_lt_pi hpos hhi
  -- the tie condition on the matrix
  have hcl : Real.cos (vnorm w) < 1 := by
    rw [← Real.cos_zero]
    exact Real.cos_lt_cos_of_nonneg_of_le_pi (le_refl _) hhi.le hpos
  have htie' : ¬ ((SO3.ofVec w).R 0 0 = (SO3.ofVec w).R 1 1 ∧ (SO3.ofVec w).R 2 2 < (SO3.ofVec w).R 0 0) := by
    rw [ofVec_R, expC1_of_ge h1, expC2_of_ge h1]
    set b := (1 - Real.cos (vnorm w)) / sqNorm w with hbdef
    have hbpos : 0 < b := div_pos (by linarith) (by rw [← vnorm_sq]; positivity)
    rintro ⟨t1, t2⟩
    simp [rod, hat3] at t1 t2
    apply htie
    have q1 : w 0 * w 0 = w 1 * w 1 := by
      exact (t1.resolve_right hbpos.ne').symm
    have q2 : w 2 * w 2 < w 0 * w 0 := by
      have := lt_of_mul_lt_mul_left t2 hbpos.le
      linarith
    exact ⟨abs_eq_abs.mpr (mul_self_eq_mul_self_iff.mp q1),
      sq_lt_sq.mp (by nlinarith)⟩
  obtain ⟨n, v, k, δ, a, q, s, hδ, hδ0, hδ1, hnu, hnle, hskn, hnS, hs, hsin1, haeq, haa, hvi, hq, hqe,
    hqa, hq1, hs1, hsa, hres⟩ := near_pi_data hrot (by rw [ha]; exact hlo) (by rw [ha]; exact hhi) htie'
  rw [ha] at hskn
  have hwn : w i = vnorm w * n i := by
    have e1 := hskn i
    rw [hsk, Pi.smul_apply, smul_eq_mul] at e1
    field_simp at e1
    linarith
  have hvv : vnorm v ^ 2 = q := by rw [vnorm_sq, hq]
  have hv1 : 1 ≤ vnorm v := by
    have := vnorm_nonneg v
    nlinarith
  rw [show (SO3.ofVec w).lnVee = (SO3.mk (SO3.ofVec w).R).lnVee from rfl, hres, hwn, Pi.smul_apply,
    smul_eq_mul, hvi]
  refine near_pi_entry hv1 (hvv.trans hqe) haa hδ0.le hδ1 (hnle i) (hnle k) ?_ hs1 hsa ?_ ?_
  · split_ifs <;> simp
  · exact hlo.le
  · exact hhi.le

/-- A right angle or more about a horizontal diagonal comes back as the zero vector. -/
theorem C06_diagonal_fails {w : Vec3} (h1 : Real.pi / 2 ≤ len w) (h2 : len w ≤ Real.pi - 6e-8)
    (hz : w 2 = 0) (he : |w 0| = |w 1|) : (SO3.ofVec w).lnVee = 0 ∧ w ≠ 0 := by
  rw [len_eq_vnorm] at *
  have hp := Real.two_le_pi
  have h3 : 1e-5 ≤ vnorm w := by norm_num at *; linarith
  have hlt : vnorm w ≤ Real.pi := h2.trans (by norm_num)
  have hrot := ofVec_isRotation_of_ge h3
  obtain ⟨ha, hs, hb⟩ := ofVec_data h3 hlt
  have hc : cosOf (SO3.ofVec w).R ≤ 0 := by
    by_contra hcon
    push Not at hcon
    have := (cosOf_pos_iff hrot).mp hcon
    linarith
  have := so3Ln_bad hrot hc (hb.mpr ⟨hz, he⟩) (Or.inl (by rw [ha]; linarith))
  refine ⟨?_, ?_⟩
  · rw [SO3.lnVee, SO3.ln, this]
    funext i; fin_cases i <;> simp [vee3]
  · rintro rfl
    rw [vnorm_eq_zero.mpr rfl] at h3
    norm_num at h3

/-- The full property is false: `w = (√2, √2, 0)` has length 2. -/
theorem C06_full_fails :
    ¬ ∀ w : Vec3, len w < Real.pi → (SO3.ofVec w).lnVee = w := by
  intro hall
  have hlen : len ![Real.sqrt 2, Real.sqrt 2, 0] = 2 := by
    rw [len_vec3, Real.mul_self_sqrt (by norm_num), show (2:ℝ) + 2 + 0 * 0 = 2 ^ 2 by norm_num,
      Real.sqrt_sq (by norm_num)]
  have p1 := Real.pi_gt_d2
  have p2 := Real.pi_lt_d2
  have := C06_diagonal_fails (w := ![Real.sqrt 2, Real.sqrt 2, 0])
    (by rw [hlen]; norm_num at *; linarith) (by rw [hlen]; norm_num at *; linarith) (by simp) (by simp)
  rw [hall _ (by rw [hlen]; norm_num at *; linarith)] at this
  exact this.2 this.1

/-- `(1,-2,2)·0.9` meets the hypotheses of `C06_ln_exp_partial`. -/
example : (1e-5 ≤ len ![(0.9 : ℝ), -1.8, 1.8] ∧ len ![(0.9 : ℝ), -1.8, 1.8] ≤ Real.pi - 6e-8) ∧
    ¬ (Real.pi / 2 ≤ len ![(0.9 : ℝ), -1.8, 1.8] ∧ (![(0.9 : ℝ), -1.8, 1.8] : Vec3) 2 = 0 ∧
      |(![(0.9 : ℝ), -1.8, 1.8] : Vec3) 0| = |(![(0.9 : ℝ), -1.8, 1.8] : Vec3) 1|) := by
  have hlen : len ![(0.9 : ℝ), -1.8, 1.8] = 2.7 := by
    rw [len_vec3, show (0.9:ℝ) * 0.9 + -1.8 * -1.8 + 1.8 * 1.8 = 2.7 ^ 2 by norm_num, Real.sqrt_sq] <;>
      norm_num
  rw [hlen]
  have := Real.pi_gt_d2
  refine ⟨⟨by norm_num, by norm_num at *; linarith⟩, ?_⟩
  rintro ⟨-, h, -⟩
  simp at h
  norm_num at h

/-- A vector just short of `π` along `x` meets the hypotheses of `C06_near_pi_partial`. -/
example : Real.pi - 6e-8 < len ![Real.pi - 1e-8, 0, 0] ∧ len ![Real.pi - 1e-8, 0, 0] < Real.pi ∧
    ¬ (|(![Real.pi - 1e-8, 0, 0] : Vec3) 0| = |(![Real.pi - 1e-8, 0, 0] : Vec3) 1| ∧
      |(![Real.pi - 1e-8, 0, 0] : Vec3) 2| < |(![Real.pi - 1e-8, 0, 0] : Vec3) 0|) := by
  have hp := Real.two_le_pi
  have h0 : 0 ≤ Real.pi - 1e-8 := by norm_num; linarith
  have hlen : len ![Real.pi - 1e-8, 0, 0] = Real.pi - 1e-8 := by
    rw [len_vec3, mul_zero, add_zero, add_zero, Real.sqrt_mul_self h0]
  rw [hlen]
  refine ⟨by norm_num, by norm_num, ?_⟩
  rintro ⟨h, -⟩
  simp at h
  norm_num at h
  linarith

/-! ## C07 -/

theorem len_lnVee_small {R : Mat3} (h : IsRotation R) (h1 : Real.arccos (cosOf R) < 1e-5) :
    vnorm (SO3.mk R).lnVee
      = (1 + Real.arccos (cosOf R) ^ 2 / 6) * Real.sin (Real.arccos (cosOf R)) := by
  rw [SO3.lnVee, SO3.ln, so3Ln_small h h1, vee3_hat3, vnorm_smul, vnorm_skewVec h,
    abs_of_pos (by positivity)]

/-- Off the diagonals the length of the logarithm is the angle, up to `6e-8` in the worst case. -/
theorem C07_norm_close_partial {R : Mat3} (h : IsRotation R)
    (hax : angle R < Real.pi / 2 ∨ ¬ FixesDiagonal R) :
    |len (SO3.mk R).lnVee - angle R| ≤ 6e-8 := by
  rw [angle_eq, len_eq_vnorm] at *
  have h0 := Real.arccos_nonneg (cosOf R)
  have hpi := Real.arccos_le_pi (cosOf R)
  by_cases hs : Real.arccos (cosOf R) < 1e-5
  · rw [len_lnVee_small h hs]
    set o := Real.arccos (cosOf R)
    have o1 : o ≤ 1 := hs.le.trans (by norm_num)
    have hs0 : 0 ≤ Real.sin o := Real.sin_nonneg_of_nonneg_of_le_pi h0 hpi
    have hle := sin_mul_le h0 o1
    have hge : 0 ≤ (1 + o ^ 2 / 6) * Real.sin o := by positivity
    have hs3 : o - o ^ 3 / 6 ≤ Real.sin o := by
      rcases eq_or_lt_of_le h0 with h' | h'
      · rw [← h']; simp
      · have := Real.sin_gt_sub_cube h'
        have c : 0 ≤ o ^ 3 := by positivity
        linarith
    have p3 : o ^ 3 ≤ (1e-5) ^ 3 := by gcongr
    have hge2 : Real.sin o ≤ (1 + o ^ 2 / 6) * Real.sin o := by nlinarith [sq_nonneg o]
    rw [_root_.abs_le]
    norm_num at p3 ⊢
    constructor <;> linarith
  push Not at hs
  by_cases hc : 0 < cosOf R
  · have hlt := (cosOf_pos_iff h).mp hc
    have hp := Real.two_le_pi
    rw [SO3.lnVee, SO3.ln, so3Ln_eq h hs (by norm_num; linarith) (Or.inl hc), vee3_hat3,
      vnorm_lnVec h (lt_of_lt_of_le (by norm_num) hs) (by linarith), sub_self, abs_zero]
    norm_num
  · push Not at hc
    have hb : ¬ BadAxis R := by
      rw [badAxis_iff' h hc]
      refine hax.resolve_left ?_
      rw [← cosOf_pos_iff h]; exact not_lt.mpr hc
    obtain ⟨b1, b2, b3⟩ := lnLargeAngle_bounds h0 hpi
    have hd : Real.cos (lnLargeAngle (some (Real.arccos (cosOf R)))) ≤ cosOf R := by
      conv_rhs => rw [← cos_arccos_cosOf h]
      exact Real.cos_le_cos_of_nonneg_of_le_pi h0 b2 b1
    rw [SO3.lnVee, SO3.ln, so3Ln_large h hc,
      vnorm_lnLarge R _ _ rfl (lnColumn_ne_zero h hb hd) (h0.trans b1), abs_of_nonneg (by linarith)]
    exact b3

/-- Off the diagonals and the approximated bands the length of the logarithm is exactly the angle. -/
theorem C07_norm_partial {R : Mat3} (h : IsRotation R) (hlo : angle R = 0 ∨ 1e-5 ≤ angle R)
    (hhi : angle R ≤ Real.pi - 6e-8 ∨ angle R = Real.pi)
    (hax : angle R < Real.pi / 2 ∨ ¬ FixesDiagonal R) :
    len (SO3.mk R).lnVee = angle R := by
  rw [angle_eq, len_eq_vnorm] at *
  rcases hlo with h0 | h0
  · have hc : cosOf R = 1 := by rw [← cos_arccos_cosOf h, h0, Real.cos_zero]
    rw [rot_eq_one_of_cosOf h hc, lnVee_one, vnorm_eq_zero.mpr rfl, ← rot_eq_one_of_cosOf h hc, h0]
  have hb : 0 < cosOf R ∨ ¬ BadAxis R := by
    rcases hax with hax | hax
    · left; rwa [cosOf_pos_iff h]
    · by_cases hc : 0 < cosOf R
      · left; exact hc
      · right; rwa [badAxis_iff' h (not_lt.mp hc)]
  rcases hhi with h1 | h1
  · have hlt : Real.arccos (cosOf R) < Real.pi := by
      have : (0:ℝ) < 6e-8 := by norm_num
      linarith
    rw [SO3.lnVee, SO3.ln, so3Ln_eq h h0 (by linarith) hb, vee3_hat3]
    exact vnorm_lnVec h (lt_of_lt_of_le (by norm_num) h0) hlt
  · have hc : cosOf R = -1 := by rw [← cos_arccos_cosOf h, h1, Real.cos_pi]
    obtain ⟨n, hn, hS, e⟩ := so3Ln_pi h hc (hb.resolve_left (by rw [hc]; norm_num))
    rw [SO3.lnVee, SO3.ln, e, vee3_hat3, vnorm_smul, vnorm, hn, Real.sqrt_one, mul_one,
      abs_of_pos Real.pi_pos, h1]

/-- For every rotation the logarithm is at most `π` long. -/
theorem C07_norm_le_pi {R : Mat3} (h : IsRotation R) : len (SO3.mk R).lnVee ≤ Real.pi := by
  rw [len_eq_vnorm]
  have h0 := Real.arccos_nonneg (cosOf R)
  have hpi := Real.arccos_le_pi (cosOf R)
  by_cases hs : Real.arccos (cosOf R) < 1e-5
  · rw [len_lnVee_small h hs]
    exact (sin_mul_le h0 (hs.le.trans (by norm_num))).trans hpi
  push Not at hs
  by_cases hc : 0 < cosOf R
  · have hlt := (cosOf_pos_iff h).mp hc
    have hp := Real.two_le_pi
    rw [SO3.lnVee, SO3.ln, so3Ln_eq h hs (by norm_num; linarith) (Or.inl hc), vee3_hat3,
      vnorm_lnVec h (lt_of_lt_of_le (by norm_num) hs) (by linarith)]
    exact hpi
  · push Not at hc
    obtain ⟨b1, b2, b3⟩ := lnLargeAngle_bounds h0 hpi
    rw [SO3.lnVee, SO3.ln, so3Ln_large h hc]
    by_cases hw : (open Classical in lnColumn R (Real.cos (lnLargeAngle (some (Real.arccos (cosOf R)))))) = 0
    · rw [lnLarge_zero_column R _ hw]
      have : vee3 (0 : Mat3) = 0 := by funext i; fin_cases i <;> simp [vee3]
      rw [this, vnorm_eq_zero.mpr rfl]
      exact Real.pi_pos.le
    · rw [vnorm_lnLarge R _ _ rfl hw (h0.trans b1)]
      exact b2

/-- Off the diagonals the logarithm is zero only for the identity. -/
theorem C07_zero_iff_partial {R : Mat3} (h : IsRotation R)
    (hax : angle R < Real.pi / 2 ∨ ¬ FixesDiagonal R) : (SO3.mk R).lnVee = 0 ↔ R = 1 := by
  constructor
  · intro hz
    by_cases hs : angle R < 1e-5
    · rw [angle_eq] at hs
      have h1 := len_lnVee_small h hs
      rw [hz, vnorm_eq_zero.mpr rfl] at h1
      have h0 := Real.arccos_nonneg (cosOf R)
      rcases eq_or_lt_of_le h0 with h' | h'
      · exact rot_eq_one_of_cosOf h (by rw [← cos_arccos_cosOf h, ← h', Real.cos_zero])
      · have : 0 < Real.sin (Real.arccos (cosOf R)) := Real.sin_pos_of_pos_of_lt_pi h' (by
          have := Real.two_le_pi; norm_num at hs; linarith)
        have : 0 < (1 + Real.arccos (cosOf R) ^ 2 / 6) * Real.sin (Real.arccos (cosOf R)) := by
          positivity
        linarith
    · exfalso
      have h1 := C07_norm_close_partial h hax
      have h2 : len (SO3.mk R).lnVee = 0 := by rw [hz, len_eq_vnorm, vnorm_eq_zero.mpr rfl]
      rw [h2, _root_.abs_le] at h1
      norm_num at h1 hs
      linarith [h1.1]
  · rintro rfl
    exact lnVee_one

/-- The full property is false: a non-identity rotation has logarithm zero. -/
theorem C07_full_fails :
    ∃ R : Mat3, IsRotation R ∧ angle R = Real.pi ∧ len (SO3.mk R).lnVee = 0 := by
  have hang : angle halfDiag = Real.pi := by
    rw [angle, trace_fin_three]; simp [halfDiag]; norm_num
  refine ⟨halfDiag, halfDiag_isRotation, hang, ?_⟩
  have := C05_diagonal_fails halfDiag_isRotation (Or.inl (by
      funext i; fin_cases i <;> simp [halfDiag, mulVec, dotProduct, Fin.sum_univ_three]))
    (by rw [hang]; have := Real.pi_pos; linarith) (Or.inr hang)
  rw [this.1, len_eq_vnorm, vnorm_eq_zero.mpr rfl]

end Mrob
