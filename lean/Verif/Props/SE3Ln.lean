import Verif.Lemmas.SE3Ln
import Verif.Props.SO3LnNorm

/-! # Property C13: logarithm and exponential of rigid transformations, `regenerate` -/

open Matrix

namespace Mrob

open Spec

/-- Off the diagonals and above `1e-5` the length of the logarithm is the angle `SO3::ln` reports. -/
theorem vnorm_lnVee_eq {R : Mat3} (h : IsRotation R) (hs : 1e-5 ≤ Real.arccos (cosOf R))
    (hax : Real.arccos (cosOf R) < Real.pi / 2 ∨ ¬ FixesDiagonal R) :
    vnorm (SO3.mk R).lnVee = (so3Ln R).2 := by
  have h0 := Real.arccos_nonneg (cosOf R)
  have hpi := Real.arccos_le_pi (cosOf R)
  by_cases hc : 0 < cosOf R
  · have hlt := (cosOf_pos_iff h).mp hc
    have hp := Real.two_le_pi
    rw [SO3.lnVee, SO3.ln, so3Ln_eq h hs (by norm_num; linarith) (Or.inl hc), vee3_hat3,
      vnorm_lnVec h (lt_of_lt_of_le (by norm_num) hs) (by linarith)]
  · push Not at hc
    have hb : ¬ BadAxis R := by
      rw [badAxis_iff' h hc]
      refine hax.resolve_left ?_
      rw [← cosOf_pos_iff h]; exact not_lt.mpr hc
    obtain ⟨b1, b2, b3⟩ := lnLargeAngle_bounds h0 hpi
    have hd : Real.cos (lnLargeAngle (some (Real.arccos (cosOf R)))) ≤ cosOf R := by
      conv_rhs => rw [← cos_arccos_cosOf h]
      exact Real.cos_le_cos_of_nonneg_of_le_pi h0 b2 b1
    rw [SO3.lnVee, SO3.ln, so3Ln_large h hc,
      vnorm_lnLarge R _ _ rfl (lnColumn_ne_zero h hb hd) (h0.trans b1)]
    rfl

/-- Translation part of `exp ∘ ln`, exact above `5e-3`. -/
theorem vMat_vInv_ln {R : Mat3} (h : IsRotation R) (hs : 5e-3 < Real.arccos (cosOf R))
    (hax : Real.arccos (cosOf R) < Real.pi / 2 ∨ ¬ FixesDiagonal R) :
    vMat (SO3.mk R).lnVee * vInv (so3Ln R).2 (SO3.mk R).lnVee = 1 := by
  have h5 : 1e-5 ≤ Real.arccos (cosOf R) := le_trans (by norm_num) hs.le
  have e := vnorm_lnVee_eq h h5 hax
  have hle := C07_norm_le_pi h
  rw [len_eq_vnorm] at hle
  rw [← e]
  refine (vMat_mul_vInv ?_ hle).1
  have hcl := C07_norm_close_partial h (by rwa [angle_eq])
  by_cases hc : 0 < cosOf R
  · have hlt := (cosOf_pos_iff h).mp hc
    have hp := Real.two_le_pi
    rw [SO3.lnVee, SO3.ln, so3Ln_eq h h5 (by norm_num; linarith) (Or.inl hc), vee3_hat3,
      vnorm_lnVec h (lt_of_lt_of_le (by norm_num) h5) (by linarith)]
    exact hs
  · push Not at hc
    have hp := Real.two_le_pi
    have : Real.pi / 2 ≤ Real.arccos (cosOf R) := by
      by_contra h'
      push Not at h'
      exact absurd ((cosOf_pos_iff h).mpr h') (not_lt.mpr hc)
    rw [len_eq_vnorm, angle_eq, _root_.abs_le] at hcl
    norm_num at hcl ⊢
    linarith [hcl.1]

/-- `SE3(T.ln_vee())` is `T` for every rigid transformation whose rotation angle is zero or above
`5e-3`, is `π` or at most `π - 6e-8`, and whose rotation is not a right angle or more about a horizontal
diagonal.  Missing for the full property: the two bands (`C13_small_partial`, `C13_near_pi_partial`) and
the diagonals, where it fails (`C13_full_fails`). -/
theorem C13_exp_ln_partial {a : SE3} (h : IsRigid a.T) (hlo : angle a.R = 0 ∨ 5e-3 < angle a.R)
    (hhi : angle a.R ≤ Real.pi - 6e-8 ∨ angle a.R = Real.pi)
    (hax : angle a.R < Real.pi / 2 ∨ ¬ FixesDiagonal a.R) :
    SE3.ofVec a.lnVee = a := by
  have hR := rigid_R h
  ext1
  have hrot := C05_exp_ln_partial hR (hlo.imp_right fun h' => le_trans (by norm_num) h'.le) hhi hax
  rw [ofVec_lnVee h, hrot]
  conv_rhs => rw [rigid_T h]
  rw [angle_eq] at *
  rcases hlo with h0 | h0
  · have hc : cosOf a.R = 1 := by rw [← cos_arccos_cosOf hR, h0, Real.cos_zero]
    rw [rot_eq_one_of_cosOf hR hc, lnVee_one, vMat_zero, vInv_zero, mul_one, one_mulVec]
  · rw [vMat_vInv_ln hR h0 hax, one_mulVec]

/-- A quarter turn about `z` with a translation meets every hypothesis. -/
example : IsRigid (homog quarterZ ![1, 2, 3] 1) ∧ 5e-3 < angle quarterZ ∧
    angle quarterZ ≤ Real.pi - 6e-8 ∧ ¬ FixesDiagonal quarterZ := by
  have e : angle quarterZ = Real.pi / 2 := by
    rw [angle, trace_fin_three]; simp [quarterZ]
  have hp := Real.two_le_pi
  refine ⟨isRigid_homog quarterZ_isRotation _, by rw [e]; norm_num; linarith,
    by rw [e]; norm_num; linarith, ?_⟩
  rintro (h | h)
  · have h0 := congrFun h 0
    simp [quarterZ, mulVec, dotProduct, Fin.sum_univ_three] at h0
    norm_num at h0
  · have h1 := congrFun h 1
    simp [quarterZ, mulVec, dotProduct, Fin.sum_univ_three] at h1
    norm_num at h1

/-- For rotation angles up to `5e-3` the round trip reproduces the rotation to `2e-15` per entry, the
translation to `2e-13` of its length per component, and the last row exactly. -/
theorem C13_small_partial {a : SE3} (h : IsRigid a.T) (hlo : angle a.R ≤ 5e-3) :
    (∀ i j, |(SE3.ofVec a.lnVee).R i j - a.R i j| ≤ 2e-15) ∧
    (∀ i, |(SE3.ofVec a.lnVee).t i - a.t i| ≤ 2e-13 * len a.t) ∧
    (SE3.ofVec a.lnVee).T.toBlocks₂₁ = 0 ∧ (SE3.ofVec a.lnVee).T.toBlocks₂₂ = 1 := by
  have hR := rigid_R h
  have hp := Real.two_le_pi
  have hax : angle a.R < Real.pi / 2 ∨ ¬ FixesDiagonal a.R := Or.inl (by norm_num at hlo; linarith)
  have e1 : (SE3.ofVec a.lnVee).R = (SO3.ofVec (SO3.mk a.R).lnVee).R := by
    rw [SE3.R, ofVec_lnVee h, tl3_homog]
  have e2 : (SE3.ofVec a.lnVee).t = (vMat (SO3.mk a.R).lnVee * vInv (so3Ln a.R).2 (SO3.mk a.R).lnVee) *ᵥ a.t := by
    rw [SE3.t, ofVec_lnVee h, tr3_homog]
  refine ⟨fun i j => ?_, fun i => ?_, ?_, ?_⟩
  · rw [e1]
    by_cases hs : angle a.R < 1e-5
    · exact C05_small_partial hR hs i j
    · rw [C05_exp_ln_partial hR (Or.inr (not_lt.mp hs)) (Or.inl (by norm_num at hlo ⊢; linarith)) hax, sub_self,
        abs_zero]
      norm_num
  · rw [e2, len_eq_vnorm]
    by_cases hw : (SO3.mk a.R).lnVee = 0
    · rw [hw, vMat_zero, vInv_zero, mul_one, one_mulVec, sub_self, abs_zero]
      have := vnorm_nonneg a.t
      positivity
    · rw [angle_eq] at *
      have := fun hh => (vMat_vInv_band (w := (SO3.mk a.R).lnVee) (o := (so3Ln a.R).2) (s := 1) hw
        (by rw [sub_self, abs_zero]; norm_num) hh a.t i).1
      rw [one_smul] at this
      refine this ?_
      by_cases hs : Real.arccos (cosOf a.R) < 1e-5
      · right
        have e := len_lnVee_small hR hs
        have h0 := Real.arccos_nonneg (cosOf a.R)
        rw [e, so3Ln_small hR hs]
        exact ⟨lt_of_le_of_lt (sin_mul_le h0 (hs.le.trans (by norm_num))) hs, h0, hs⟩
      · left
        have e := vnorm_lnVee_eq hR (not_lt.mp hs) hax
        refine ⟨rfl, e.symm, ?_⟩
        have c : 0 < cosOf a.R := by
          rw [cosOf_pos_iff hR]; norm_num at hlo; linarith
        rw [so3Ln_eq hR (not_lt.mp hs) (by norm_num at hlo ⊢; linarith) (Or.inl c)]
        exact hlo
  · rw [ofVec_lnVee h, homog, toBlocks_fromBlocks₂₁]
  · rw [ofVec_lnVee h, homog, toBlocks_fromBlocks₂₂]; ext; simp

/-- A pure translation. -/
example : IsRigid (homog 1 ![1, 2, 3] 1) ∧ angle (1 : Mat3) ≤ 5e-3 := by
  refine ⟨isRigid_homog isRotation_one _, ?_⟩
  rw [angle, trace_one]; norm_num

/-- Within `6e-8` of a half turn, unless the two first diagonal entries of the rotation tie above the
third, the round trip is exact in the translation and `1e-7` accurate in the rotation. -/
theorem C13_near_pi_partial {a : SE3} (h : IsRigid a.T) (hlo : Real.pi - 6e-8 < angle a.R)
    (hhi : angle a.R < Real.pi) (htie : ¬ (a.R 0 0 = a.R 1 1 ∧ a.R 2 2 < a.R 0 0))
    (hax : ¬ FixesDiagonal a.R) :
    (∀ i j, |(SE3.ofVec a.lnVee).R i j - a.R i j| ≤ 1e-7) ∧ (SE3.ofVec a.lnVee).t = a.t := by
  have hR := rigid_R h
  have hp := Real.two_le_pi
  constructor
  · intro i j
    rw [show (SE3.ofVec a.lnVee).R = (SO3.ofVec (SO3.mk a.R).lnVee).R by
      rw [SE3.R, ofVec_lnVee h, tl3_homog]]
    exact C05_near_pi_partial hR hlo hhi htie i j
  · rw [SE3.t, ofVec_lnVee h, tr3_homog, vMat_vInv_ln hR ?_ (Or.inr hax), one_mulVec]
    rw [angle_eq] at hlo
    norm_num at hlo ⊢
    linarith

/-- A rotation by `π - 3e-8` about `x`. -/
example : IsRigid (homog (rotX (Real.pi - 3e-8)) ![1, 2, 3] 1) ∧
    Real.pi - 6e-8 < angle (rotX (Real.pi - 3e-8)) ∧ angle (rotX (Real.pi - 3e-8)) < Real.pi ∧
    ¬ (rotX (Real.pi - 3e-8) 0 0 = rotX (Real.pi - 3e-8) 1 1 ∧
      rotX (Real.pi - 3e-8) 2 2 < rotX (Real.pi - 3e-8) 0 0) ∧ ¬ FixesDiagonal (rotX (Real.pi - 3e-8)) := by
  have hp := Real.two_le_pi
  have ha : angle (rotX (Real.pi - 3e-8)) = Real.pi - 3e-8 :=
    angle_rotX (by norm_num; linarith) (by norm_num)
  have hs : 0 < Real.cos (3e-8) := Real.cos_pos_of_mem_Ioo ⟨by norm_num; linarith, by norm_num; linarith⟩
  refine ⟨isRigid_homog (rotX_isRotation _) _, by rw [ha]; norm_num, by rw [ha]; norm_num, ?_, ?_⟩
  · rintro ⟨h, -⟩
    simp [rotX, Real.cos_pi_sub] at h
    norm_num at h hs
    linarith
  · rintro (h | h) <;> have := congrFun h 1 <;>
      simp [rotX, mulVec, dotProduct, Fin.sum_univ_three, Real.cos_pi_sub] at this <;>
      norm_num at this hs <;> linarith

/-- `regenerate()` replaces a rigid transformation by `SE3(T.ln_vee())`, so the three theorems above
describe it. -/
theorem C13_regenerate {a : SE3} (h : IsRigid a.T) : a.regenerate = SE3.ofVec a.lnVee := by
  rw [SE3.ofVec, hat6_lnVee h, SE3.regenerate]

/-- `SE3(xi).ln_vee() = xi` for angular parts that are zero or between `5e-3` and `π - 6e-8` long, unless
they are a right angle or more about a horizontal diagonal. -/
theorem C13_ln_exp_partial {w v : Vec3} (h : w = 0 ∨ (5e-3 < len w ∧ len w ≤ Real.pi - 6e-8))
    (hax : ¬ (Real.pi / 2 ≤ len w ∧ w 2 = 0 ∧ |w 0| = |w 1|)) :
    (SE3.ofVec (vec6 w v)).lnVee = vec6 w v := by
  have hln := C06_ln_exp_partial (h.imp_right fun h' => ⟨le_trans (by norm_num) h'.1.le, h'.2⟩) hax
  change (SO3.mk (SO3.ofVec w).R).lnVee = w at hln
  rw [SE3.lnVee, SE3.ln, se3_ofVec_T, head3_vec6, tail3_vec6, se3Ln_homog, vee6_homog, vee3_hat3, hln,
    mulVec_mulVec]
  congr 1
  rcases h with rfl | ⟨h1, h2⟩
  · rw [vMat_zero, vInv_zero, one_mul, one_mulVec]
  · rw [len_eq_vnorm] at *
    have h5 : 1e-5 ≤ vnorm w := le_trans (by norm_num) h1.le
    have hpi : vnorm w ≤ Real.pi := h2.trans (by norm_num)
    have hrot := ofVec_isRotation_of_ge h5
    obtain ⟨ha, hs, hb⟩ := ofVec_data h5 hpi
    have hd : vnorm w < Real.pi / 2 ∨ ¬ BadAxis (SO3.ofVec w).R := by
      by_cases h' : vnorm w < Real.pi / 2
      · exact Or.inl h'
      · exact Or.inr fun h'' => hax ⟨not_lt.mp h', hb.mp h''⟩
    have hd' : 0 < cosOf (SO3.ofVec w).R ∨ ¬ BadAxis (SO3.ofVec w).R := by
      rwa [cosOf_pos_iff hrot, ha]
    rw [so3Ln_eq hrot (by rw [ha]; exact h5) (by rw [ha]; linarith) hd', ha, (vMat_mul_vInv h1 hpi).2,
      one_mulVec]

example : 5e-3 < len (![1, 0, 1] : Vec3) ∧ len (![1, 0, 1] : Vec3) ≤ Real.pi - 6e-8 ∧
    ¬ (Real.pi / 2 ≤ len (![1, 0, 1] : Vec3) ∧ (![1, 0, 1] : Vec3) 2 = 0 ∧
      |(![1, 0, 1] : Vec3) 0| = |(![1, 0, 1] : Vec3) 1|) := by
  have e : len (![1, 0, 1] : Vec3) = Real.sqrt 2 := by rw [len_vec3]; norm_num
  have h1 : 1 ≤ Real.sqrt 2 := by rw [Real.one_le_sqrt]; norm_num
  have h2 : Real.sqrt 2 ≤ 1.5 := by rw [Real.sqrt_le_left (by norm_num)]; norm_num
  have hp := Real.two_le_pi
  rw [e]
  norm_num at h2 ⊢
  exact ⟨by linarith, by linarith⟩

/-- Below `1e-5` the logarithm of the exponential rescales the vector by almost one. -/
theorem lnVee_ofVec_tiny {w : Vec3} (h : vnorm w < 1e-5) :
    ∃ s : ℝ, (SO3.ofVec w).lnVee = s • w ∧ |s - 1| ≤ 1e-10 ∧ 0 ≤ (so3Ln (SO3.ofVec w).R).2 ∧
      (so3Ln (SO3.ofVec w).R).2 < 1e-5 := by
  have hn := vnorm_nonneg w
  set R := (SO3.ofVec w).R with hR
  have e : R = rod (1 - vnorm w ^ 2 / 6) (0.5 - vnorm w ^ 2 / 24) w := by
    rw [hR, ofVec_R, expC1_of_lt h, expC2_of_lt h, ← vnorm_sq]
  have hc : cosOf R = 1 - (0.5 - vnorm w ^ 2 / 24) * vnorm w ^ 2 := by
    rw [e, cosOf_rod, ← vnorm_sq]
  obtain ⟨k1, k2, k3⟩ := arccos_small hn h
  rw [← hc] at k1 k2 k3
  have k4 := Real.arccos_nonneg (cosOf R)
  set o' := Real.arccos (cosOf R) with ho'
  have hlt : o' < 1e-5 := lt_of_le_of_lt k2 h
  have hsnd : (so3Ln R).2 = o' := by
    rw [so3Ln_unfold, k1, if_pos (by linarith), lnSmall, if_pos hlt]
  refine ⟨(1 + o' ^ 2 / 6) * (1 - vnorm w ^ 2 / 6), ?_, ?_, by rw [hsnd]; exact k4, by rw [hsnd]; exact hlt⟩
  · rw [SO3.lnVee, SO3.ln, ← hR, so3Ln_unfold, k1, if_pos (by linarith), lnSmall, if_pos hlt,
      sub_transpose_eq, smul_smul, ← hat3_smul, vee3_hat3, e, skewVec_rod, smul_smul]
    congr 2
    ring
  · set o := vnorm w
    have n2 : 0 ≤ o ^ 2 := by positivity
    have n2' : 0 ≤ o' ^ 2 := by positivity
    have p2 : o ^ 2 ≤ (1e-5) ^ 2 := by gcongr
    have p2' : o' ^ 2 ≤ o ^ 2 := by gcongr
    have d : |(1 + o' ^ 2 / 6) * (1 - o ^ 2 / 6) - 1| ≤ o ^ 2 := by
      rw [_root_.abs_le]; constructor <;> nlinarith
    exact d.trans (p2.trans (by norm_num))

/-- For angular parts up to `5e-3` long the round trip through the group is accurate to `1e-15` in the
angular part and `2e-13` of the length in the linear part. -/
theorem C13_ln_exp_small_partial {w v : Vec3} (h : len w ≤ 5e-3) (i : Fin 3) :
    |(SE3.ofVec (vec6 w v)).lnVee (Sum.inl i) - w i| ≤ 1e-15 ∧
      |(SE3.ofVec (vec6 w v)).lnVee (Sum.inr i) - v i| ≤ 2e-13 * len v := by
  have e : (SE3.ofVec (vec6 w v)).lnVee = vec6 (SO3.ofVec w).lnVee
      ((vInv (so3Ln (SO3.ofVec w).R).2 (SO3.ofVec w).lnVee * vMat w) *ᵥ v) := by
    rw [SE3.lnVee, SE3.ln, se3_ofVec_T, head3_vec6, tail3_vec6, se3Ln_homog, vee6_homog, vee3_hat3,
      mulVec_mulVec]
  have hp := Real.two_le_pi
  have e1 : (SE3.ofVec (vec6 w v)).lnVee (Sum.inl i) = (SO3.ofVec w).lnVee i := by rw [e]; rfl
  have e2 : (SE3.ofVec (vec6 w v)).lnVee (Sum.inr i)
      = ((vInv (so3Ln (SO3.ofVec w).R).2 (SO3.ofVec w).lnVee * vMat w) *ᵥ v) i := by rw [e]; rfl
  have hax : ¬ (Real.pi / 2 ≤ len w ∧ w 2 = 0 ∧ |w 0| = |w 1|) := by
    rintro ⟨h', -⟩; norm_num at h; linarith
  have hv := vnorm_nonneg v
  by_cases hs : len w < 1e-5
  · refine ⟨by rw [e1]; exact C06_small_partial hs i, ?_⟩
    rw [e2, len_eq_vnorm v]
    rw [len_eq_vnorm] at hs
    by_cases hw : w = 0
    · subst hw
      rw [C06_ln_exp_partial (Or.inl rfl) hax, vMat_zero, vInv_zero, one_mul, one_mulVec, sub_self, abs_zero]
      positivity
    obtain ⟨s, hs1, hs2, hs3, hs4⟩ := lnVee_ofVec_tiny hs
    rw [hs1]
    exact (vMat_vInv_band hw hs2 (Or.inr ⟨hs, hs3, hs4⟩) v i).2
  · push Not at hs
    have hln := C06_ln_exp_partial (Or.inr ⟨hs, by norm_num at h ⊢; linarith⟩) hax
    refine ⟨by rw [e1, hln, sub_self, abs_zero]; norm_num, ?_⟩
    rw [e2, hln, len_eq_vnorm v]
    rw [len_eq_vnorm] at hs h
    have hpi : vnorm w ≤ Real.pi := by norm_num at h; linarith
    have hw : w ≠ 0 := by
      rintro rfl
      rw [vnorm_eq_zero.mpr rfl] at hs
      norm_num at hs
    have hrot := ofVec_isRotation_of_ge hs
    obtain ⟨ha, -, -⟩ := ofVec_data hs hpi
    have hc : 0 < cosOf (SO3.ofVec w).R := by
      rw [cosOf_pos_iff hrot, ha]; norm_num at h; linarith
    rw [so3Ln_eq hrot (by rw [ha]; exact hs) (by rw [ha]; norm_num at h ⊢; linarith) (Or.inl hc), ha]
    have := (vMat_vInv_band (w := w) (o := vnorm w) (s := 1) hw
      (by rw [sub_self, abs_zero]; norm_num) (Or.inl ⟨rfl, rfl, h⟩) v i).2
    rwa [one_smul] at this

example : len (![1e-3, 0, 0] : Vec3) ≤ 5e-3 := by
  rw [len_vec3]
  rw [Real.sqrt_le_left (by norm_num)]; norm_num

/-- The full property is false: a half turn about a horizontal diagonal regenerates into a pure
translation. -/
theorem C13_full_fails : ∃ a : SE3, IsRigid a.T ∧ SE3.ofVec a.lnVee ≠ a ∧ a.regenerate ≠ a ∧
    (SE3.ofVec a.lnVee).R = 1 ∧ a.R ≠ 1 := by
  have hang : angle halfDiag = Real.pi := by
    rw [angle, trace_fin_three]; simp [halfDiag]; norm_num
  have hd := C05_diagonal_fails halfDiag_isRotation (Or.inl (by
      funext i; fin_cases i <;> simp [halfDiag, mulVec, dotProduct, Fin.sum_univ_three]))
    (by rw [hang]; have := Real.pi_pos; linarith) (Or.inr hang)
  have hr : IsRigid (SE3.mk (homog halfDiag 0 1)).T := isRigid_homog halfDiag_isRotation 0
  have hRa : (SE3.mk (homog halfDiag 0 1)).R = halfDiag := R_mk_homog _ _ _
  have key : (SE3.ofVec (SE3.mk (homog halfDiag 0 1)).lnVee).R = 1 := by
    rw [SE3.R, ofVec_lnVee hr, tl3_homog, hRa, hd.2.1]
  have hne : SE3.ofVec (SE3.mk (homog halfDiag 0 1)).lnVee ≠ SE3.mk (homog halfDiag 0 1) := by
    intro h'
    rw [h', hRa] at key
    exact hd.2.2 key
  refine ⟨SE3.mk (homog halfDiag 0 1), hr, hne, ?_, key, by rw [hRa]; exact hd.2.2⟩
  rw [C13_regenerate hr]; exact hne

end Mrob
