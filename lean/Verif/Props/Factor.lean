import Verif.Spec.Planar
import Verif.Props.Jacobian3d
import Mathlib.Algebra.Order.Star.Real

/-!
# C27, C28, C29 (single factors), C30, C60
-/

open Matrix

namespace Mrob

open Spec

theorem planar_eq_mul_iff (xt xo o : Vec3) : planar xt = planar xo * planar o ↔
    xt 0 = Real.cos (xo 2) * o 0 - Real.sin (xo 2) * o 1 + xo 0 ∧
    xt 1 = Real.sin (xo 2) * o 0 + Real.cos (xo 2) * o 1 + xo 1 ∧ SameAngle (xt 2) (xo 2 + o 2) := by
  constructor
  · intro h
    have h0 := congrFun (congrFun h 0) 2
    have h1 := congrFun (congrFun h 1) 2
    have h2 := congrFun (congrFun h 0) 0
    have h3 := congrFun (congrFun h 1) 0
    simp [planar, Matrix.mul_apply, Fin.sum_univ_three] at h0 h1 h2 h3
    refine ⟨by linarith, by linarith, sameAngle_of_cos_sin ?_ ?_⟩
    · rw [h2, Real.cos_add, sub_eq_add_neg]
    · rw [h3, Real.sin_add]
  · rintro ⟨h0, h1, h2⟩
    have hc := h2.cos
    have hs := h2.sin
    rw [Real.cos_add] at hc
    rw [Real.sin_add] at hs
    ext i j
    fin_cases i <;> fin_cases j <;>
      simp [planar, Matrix.mul_apply, Fin.sum_univ_three, h0, h1, hc, hs] <;> ring

theorem sq_trig (a : ℝ) : Real.cos a * Real.cos a + Real.sin a * Real.sin a = 1 := by
  nlinarith [Real.sin_sq_add_cos_sq a]

theorem rel2dRes_eq_zero (obs xo xt : Vec3) : rel2dRes obs xo xt = 0 ↔ planar xt = planar xo * planar obs := by
  rw [rel2dRes, wrap2_eq_zero, planar_eq_mul_iff]
  have ht := sq_trig (xo 2)
  set c := Real.cos (xo 2)
  set s := Real.sin (xo 2)
  simp
  constructor
  · rintro ⟨h0, h1, h2⟩
    refine ⟨?_, ?_, ?_⟩
    · linear_combination c * h0 - s * h1 - (xt 0 - xo 0) * ht
    · linear_combination s * h0 + c * h1 - (xt 1 - xo 1) * ht
    · have := h2.add (SameAngle.refl (xo 2 + obs 2)); ring_nf at this ⊢; exact this
  · rintro ⟨h0, h1, h2⟩
    refine ⟨?_, ?_, ?_⟩
    · linear_combination c * h0 + s * h1 + obs 0 * ht
    · linear_combination -s * h0 + c * h1 + obs 1 * ht
    · have := h2.sub (SameAngle.refl (xo 2 + obs 2)); ring_nf at this ⊢; exact this

/-! ## C27 -/

/-- Origin created first: the residual vanishes exactly when the target is the origin composed with the observation. -/
theorem C27_rel2d_forward (obs xo xt : Vec3) {idO idT : ℕ} (h : idO < idT) :
    (Rel2d.new obs idO idT).res xo xt = 0 ↔ planar xt = planar xo * planar obs := by
  rw [Rel2d.new, if_pos h, Rel2d.res]
  exact rel2dRes_eq_zero obs xo xt

/-- Target created first: the meaning is preserved exactly for the observations without translation or without turn. -/
theorem C27_rel2d_reversed_iff (obs : Vec3) {idO idT : ℕ} (h : ¬ idO < idT) :
    (∀ xo xt : Vec3, (Rel2d.new obs idO idT).res xo xt = 0 ↔ planar xt = planar xo * planar obs) ↔
      (obs 0 = 0 ∧ obs 1 = 0) ∨ SameAngle (obs 2) 0 := by
  have hr : ∀ xo xt : Vec3, (Rel2d.new obs idO idT).res xo xt = 0 ↔ planar xo = planar xt * planar (-obs) := by
    intro xo xt
    rw [Rel2d.new, if_neg h, Rel2d.res]
    exact rel2dRes_eq_zero (-obs) xt xo
  simp only [hr]
  constructor
  · intro hall
    have h1 := (hall 0 obs).mpr (by rw [planar_eq_mul_iff]; simp [SameAngle.refl])
    rw [planar_eq_mul_iff] at h1
    obtain ⟨h1, h2, -⟩ := h1
    simp at h1 h2
    have ht := sq_trig (obs 2)
    -- `(R(θ) - 1) p = 0`
    by_contra hcon
    push Not at hcon
    obtain ⟨ha, hb⟩ := hcon
    have hc1 : Real.cos (obs 2) = 1 := by
      have e : (Real.cos (obs 2) - 1) * (obs 0 ^ 2 + obs 1 ^ 2) = 0 := by
        linear_combination obs 0 * h1 + obs 1 * h2
      rcases mul_eq_zero.mp e with e | e
      · linarith
      · exfalso
        have a0 : obs 0 = 0 := by nlinarith [sq_nonneg (obs 0), sq_nonneg (obs 1)]
        have a1 : obs 1 = 0 := by nlinarith [sq_nonneg (obs 0), sq_nonneg (obs 1)]
        exact ha a0 a1
    have hs0 : Real.sin (obs 2) = 0 := by nlinarith
    exact hb (sameAngle_of_cos_sin (by rw [hc1, Real.cos_zero]) (by rw [hs0, Real.sin_zero]))
  · intro hh xo xt
    have key : SameAngle (xt 2) (xo 2 + obs 2) →
        (Real.cos (xt 2) * obs 0 - Real.sin (xt 2) * obs 1 = Real.cos (xo 2) * obs 0 - Real.sin (xo 2) * obs 1 ∧
        Real.sin (xt 2) * obs 0 + Real.cos (xt 2) * obs 1 = Real.sin (xo 2) * obs 0 + Real.cos (xo 2) * obs 1) := by
      intro ha
      rcases hh with ⟨a, b⟩ | hh
      · rw [a, b]; simp
      · have := ha.trans ((SameAngle.refl (xo 2)).add hh)
        rw [add_zero] at this
        rw [this.cos, this.sin]; exact ⟨rfl, rfl⟩
    rw [planar_eq_mul_iff, planar_eq_mul_iff]
    simp only [Pi.neg_apply]
    constructor
    · rintro ⟨h1, h2, h3⟩
      have ha : SameAngle (xt 2) (xo 2 + obs 2) := by
        have := (h3.add (SameAngle.refl (obs 2))).symm
        ring_nf at this ⊢; exact this
      obtain ⟨k1, k2⟩ := key ha
      exact ⟨by linarith, by linarith, ha⟩
    · rintro ⟨h1, h2, h3⟩
      obtain ⟨k1, k2⟩ := key h3
      refine ⟨by linarith, by linarith, ?_⟩
      have := (h3.sub (SameAngle.refl (obs 2))).symm
      ring_nf at this ⊢; exact this

/-- Witness: one metre forward and one radian left, target created first.  The true pose has a non-zero residual. -/
theorem C27_rel2d_reversed_fails : ∃ obs xo xt : Vec3,
    ¬ ((Rel2d.new obs 1 0).res xo xt = 0 ↔ planar xt = planar xo * planar obs) := by
  by_contra hcon
  push Not at hcon
  have := (C27_rel2d_reversed_iff ![1, 0, 1] (idO := 1) (idT := 0) (by norm_num)).mp (hcon _)
  rcases this with ⟨h, -⟩ | h
  · simp at h
  · exact not_sameAngle_one_zero (by simpa using h)

theorem rel3dRes_zero_of_eq {Tobs Xo Xt : SE3} (ht : IsRigid Xt.T) (h : Xt.T = Xo.T * Tobs.T) :
    rel3dRes Tobs Xo Xt = 0 := by
  have hone : rel3dTr Tobs Xo Xt = SE3.default :=
    SE3.ext ((mul_inv_eq_one_iff (a := Xo.mul Tobs) ht).mpr (SE3.ext h).symm)
  rw [rel3dRes, hone, SE3.lnVee, SE3.ln, show SE3.default.T = homog 1 0 1 from homog_one.symm, se3Ln_homog, vee6_homog,
    vee3_hat3, lnVee_one, mulVec_zero]
  funext i; rcases i with i | i <;> rfl

theorem rel3dRes_eq_zero {Tobs Xo Xt : SE3} (ho : IsRigid Xo.T) (hb : IsRigid Tobs.T) (ht : IsRigid Xt.T)
    (hax : angle (rel3dTr Tobs Xo Xt).R < Real.pi / 2 ∨ ¬ FixesDiagonal (rel3dTr Tobs Xo Xt).R) :
    rel3dRes Tobs Xo Xt = 0 ↔ Xt.T = Xo.T * Tobs.T := by
  have hTr : IsRigid (rel3dTr Tobs Xo Xt).T := mul_isRigid (mul_isRigid ho hb) (inv_isRigid ht)
  refine ⟨fun h => ?_, rel3dRes_zero_of_eq ht⟩
  rw [rel3dRes, se3_lnVee hTr] at h
  have hw : (SO3.mk (rel3dTr Tobs Xo Xt).R).lnVee = 0 := congrArg head3 h
  have hR := (C07_zero_iff_partial (rigid_R hTr) hax).mp hw
  have hv := congrArg tail3 h
  rw [tail3_vec6, hw, vInv, rod_at_zero, one_mulVec] at hv
  have hv' : (rel3dTr Tobs Xo Xt).t = 0 := hv
  have h1 : (rel3dTr Tobs Xo Xt).T = 1 := by rw [rigid_T hTr, hR, hv', homog_one]
  exact (congrArg SE3.T ((mul_inv_eq_one_iff (a := Xo.mul Tobs) ht).mp h1)).symm

/-- 3D, origin created first: a zero residual means the poses agree with the observation.
Missing: relative errors of a right angle or more about a horizontal diagonal (see `C27_rel3d_diagonal_fails`). -/
theorem C27_rel3d_forward_partial {Tobs Xo Xt : SE3} (ho : IsRigid Xo.T) (hb : IsRigid Tobs.T) (ht : IsRigid Xt.T)
    {idO idT : ℕ} (h : idO < idT)
    (hax : angle (rel3dTr Tobs Xo Xt).R < Real.pi / 2 ∨ ¬ FixesDiagonal (rel3dTr Tobs Xo Xt).R) :
    (Rel3d.new Tobs idO idT).res Xo Xt = 0 ↔ Xt.T = Xo.T * Tobs.T := by
  rw [Rel3d.new, if_pos h, Rel3d.res]
  exact rel3dRes_eq_zero ho hb ht hax

/-- 3D, target created first: the residual vanishes when the *origin* is the target composed with the observation, i.e.
the observation is read in the opposite direction. -/
theorem C27_rel3d_reversed_partial {Tobs Xo Xt : SE3} (ho : IsRigid Xo.T) (hb : IsRigid Tobs.T) (ht : IsRigid Xt.T)
    {idO idT : ℕ} (h : ¬ idO < idT)
    (hax : angle (rel3dTr Tobs Xt Xo).R < Real.pi / 2 ∨ ¬ FixesDiagonal (rel3dTr Tobs Xt Xo).R) :
    (Rel3d.new Tobs idO idT).res Xo Xt = 0 ↔ Xo.T = Xt.T * Tobs.T := by
  rw [Rel3d.new, if_neg h, Rel3d.res]
  exact rel3dRes_eq_zero ht hb ho hax

theorem isRigid_default : IsRigid SE3.default.T := by
  have := isRigid_homog isRotation_one (0 : Vec3); rwa [homog_one] at this

/-- The hypotheses of the two theorems above are met by pure translations. -/
example (t : Vec3) : IsRigid SE3.default.T ∧ IsRigid (SE3.ofRt 1 t).T ∧
    angle (rel3dTr (SE3.ofRt 1 t) SE3.default (SE3.ofRt 1 t)).R < Real.pi / 2 := by
  refine ⟨isRigid_default, isRigid_homog isRotation_one t, ?_⟩
  have : (rel3dTr (SE3.ofRt 1 t) SE3.default (SE3.ofRt 1 t)).T = 1 := by
    have h := mul_inv_cancel' (a := SE3.ofRt 1 t) (isRigid_homog isRotation_one t)
    change 1 * (SE3.ofRt 1 t).T * _ = 1
    rw [one_mul]; exact h
  rw [SE3.R, this, ← homog_one, tl3_homog, angle, trace_one]
  norm_num [Real.pi_pos]

/-- Witness in 3D: observation one metre along `x`, target created first: the pose that agrees with the observation
has a non-zero residual, and the pose on the wrong side has a zero residual. -/
theorem C27_rel3d_reversed_fails : ∃ Tobs Xo Xt Xt' : SE3, IsRigid Tobs.T ∧ IsRigid Xo.T ∧ IsRigid Xt.T ∧
    IsRigid Xt'.T ∧
    (Xt.T = Xo.T * Tobs.T ∧ (Rel3d.new Tobs 1 0).res Xo Xt ≠ 0) ∧
    (Xt'.T ≠ Xo.T * Tobs.T ∧ (Rel3d.new Tobs 1 0).res Xo Xt' = 0) := by
  set e : Vec3 := ![1, 0, 0] with he
  have hr : ∀ t : Vec3, IsRigid (SE3.ofRt 1 t).T := fun t => isRigid_homog isRotation_one t
  have hm : ∀ t u : Vec3, (SE3.ofRt 1 t).T * (SE3.ofRt 1 u).T = homog 1 (u + t) 1 := by
    intro t u
    rw [SE3.ofRt, SE3.ofRt, homog_mul]; simp
  have hne : ∀ t u : Vec3, homog 1 t 1 = homog 1 u 1 → t = u := by
    intro t u h; rw [← tr3_homog 1 t 1, h, tr3_homog]
  refine ⟨SE3.ofRt 1 e, SE3.ofRt 1 0, SE3.ofRt 1 e, SE3.ofRt 1 (-e), hr _, hr _, hr _, hr _, ⟨?_, ?_⟩, ?_, ?_⟩
  · rw [hm, add_zero]; rfl
  · intro h
    have h2 := (C27_rel3d_reversed_partial (hr 0) (hr e) (hr e) (idO := 1) (idT := 0) (by norm_num) (Or.inl (by
      have : (rel3dTr (SE3.ofRt 1 e) (SE3.ofRt 1 e) (SE3.ofRt 1 0)).R = 1 := by
        change tl3 ((SE3.ofRt 1 e).T * (SE3.ofRt 1 e).T * (SE3.ofRt 1 0).inv.T) = 1
        rw [hm, inv_T, homog_mul, tl3_homog, SE3.ofRt, R_mk_homog, transpose_one, mul_one]
      rw [this, angle, trace_one]; norm_num [Real.pi_pos]))).mp h
    rw [hm] at h2
    have h3 := congrFun (hne _ _ h2) 0
    simp [he] at h3
    norm_num at h3
  · intro h
    rw [hm] at h
    have h3 := congrFun (hne _ _ h) 0
    simp [he] at h3
    norm_num at h3
  · rw [Rel3d.new, if_neg (by norm_num), Rel3d.res]
    refine rel3dRes_zero_of_eq (hr 0) ?_
    rw [hm, add_neg_cancel]; rfl

/-- A relative error of a half turn about a horizontal diagonal has residual zero. -/
theorem C27_rel3d_diagonal_fails : ∃ Tobs Xo Xt : SE3, IsRigid Tobs.T ∧ IsRigid Xo.T ∧ IsRigid Xt.T ∧
    Xt.T ≠ Xo.T * Tobs.T ∧ (Rel3d.new Tobs 0 1).res Xo Xt = 0 := by
  have hang : angle halfDiag = Real.pi := by
    rw [angle, trace_fin_three]; simp [halfDiag]; norm_num
  have hd := C05_diagonal_fails halfDiag_isRotation (Or.inl (by
      funext i; fin_cases i <;> simp [halfDiag, mulVec, dotProduct, Fin.sum_univ_three]))
    (by rw [hang]; have := Real.pi_pos; linarith) (Or.inr hang)
  have hr : IsRigid (SE3.mk (homog halfDiag 0 1)).T := isRigid_homog halfDiag_isRotation 0
  refine ⟨SE3.mk (homog halfDiag 0 1), SE3.default, SE3.default, hr, isRigid_default, isRigid_default, ?_, ?_⟩
  · change (1 : Mat4) ≠ 1 * homog halfDiag 0 1
    rw [one_mul, ← homog_one]
    intro h
    have := congrArg tl3 h
    rw [tl3_homog, tl3_homog] at this
    exact hd.2.2 this.symm
  · rw [Rel3d.new, if_pos (by norm_num), Rel3d.res]
    have hi : SE3.default.inv.T = 1 := by
      have := mul_inv_cancel' isRigid_default
      rwa [show SE3.default.T = 1 from rfl, one_mul] at this
    have : rel3dTr (SE3.mk (homog halfDiag 0 1)) SE3.default SE3.default = SE3.mk (homog halfDiag 0 1) := by
      ext1
      change 1 * homog halfDiag 0 1 * SE3.default.inv.T = _
      rw [hi, one_mul, mul_one]
    change (rel3dTr (SE3.mk (homog halfDiag 0 1)) SE3.default SE3.default).lnVee = 0
    rw [this, se3_lnVee hr, R_mk_homog, hd.1, t_mk_homog, mulVec_zero]
    funext i; rcases i with i | i <;> rfl

/-! ## C28 -/

theorem initTarget_eq (f : Rel2d) (xo xt : Vec3) : f.initTarget xo xt = wrap2 (xo + f.obs) := by
  rw [Rel2d.initTarget]
  change wrap2 (xt + (xo + f.obs - xt)) = _
  congr 1; abel

/-- 2D relative pose, origin first: the initialised target has zero residual exactly when the origin has heading zero
or the observation has no translation (the observation is added without rotating it). -/
theorem C28_rel2d_iff (obs xo xt : Vec3) {idO idT : ℕ} (h : idO < idT) :
    (Rel2d.new obs idO idT).res xo ((Rel2d.new obs idO idT).initTarget xo xt) = 0 ↔
      (obs 0 = 0 ∧ obs 1 = 0) ∨ SameAngle (xo 2) 0 := by
  rw [C27_rel2d_forward _ _ _ h, initTarget_eq, planar_eq_mul_iff, Rel2d.new, if_pos h]
  simp only [wrap2_0, wrap2_1, wrap2_2, Pi.add_apply]
  have ht := sq_trig (xo 2)
  constructor
  · rintro ⟨h0, h1, -⟩
    by_contra hcon
    push Not at hcon
    obtain ⟨ha, hb⟩ := hcon
    have e : (Real.cos (xo 2) - 1) * (obs 0 ^ 2 + obs 1 ^ 2) = 0 := by
      linear_combination -obs 0 * h0 - obs 1 * h1
    rcases mul_eq_zero.mp e with e | e
    · have hc1 : Real.cos (xo 2) = 1 := by linarith
      have hs0 : Real.sin (xo 2) = 0 := by nlinarith
      exact hb (sameAngle_of_cos_sin (by rw [hc1, Real.cos_zero]) (by rw [hs0, Real.sin_zero]))
    · have a0 : obs 0 = 0 := by nlinarith [sq_nonneg (obs 0), sq_nonneg (obs 1)]
      have a1 : obs 1 = 0 := by nlinarith [sq_nonneg (obs 0), sq_nonneg (obs 1)]
      exact ha a0 a1
  · intro hh
    rcases hh with ⟨a, b⟩ | hh
    · rw [a, b]; exact ⟨by ring, by ring, sameAngle_wrap _⟩
    · rw [hh.cos, hh.sin, Real.cos_zero, Real.sin_zero]; exact ⟨by ring, by ring, sameAngle_wrap _⟩

/-- Witness: origin heading one radian, observation one metre forward. -/
theorem C28_rel2d_fails : ∃ obs xo xt : Vec3,
    (Rel2d.new obs 0 1).res xo ((Rel2d.new obs 0 1).initTarget xo xt) ≠ 0 := by
  refine ⟨![1, 0, 0], ![0, 0, 1], 0, fun h => ?_⟩
  rcases (C28_rel2d_iff _ _ _ (by norm_num)).mp h with ⟨h, -⟩ | h
  · simp at h
  · exact not_sameAngle_one_zero (by simpa using h)

/-- Odometry, origin first: the initialised target has zero residual. -/
theorem C28_odom_partial (obs xo xt : Vec3) {idO idT : ℕ} (h : idO < idT) :
    odomNewRes obs idO idT xo (odomInitTarget obs idO idT xo xt) = 0 := by
  rw [odomNewRes, odomInitTarget, Rel2d.new, if_pos h]
  simp only [Bool.false_eq_true, if_false]
  have e : NodeKind.upd .pose2d xt (odomPredict xo obs - xt) = wrap2 (odomPredict xo obs) := by
    change wrap2 (xt + (odomPredict xo obs - xt)) = _
    congr 1; abel
  rw [e, odomRes, wrap2_eq_zero]
  refine ⟨by simp [wrap2_0], by simp [wrap2_1], ?_⟩
  have := ((SameAngle.refl (odomPredict xo obs 2)).sub (sameAngle_wrap (odomPredict xo obs 2)))
  rw [sub_self] at this
  exact this

example : odomNewRes ![1, 2, 3] 0 1 ![4, 5, 6] (odomInitTarget ![1, 2, 3] 0 1 ![4, 5, 6] 0) = 0 :=
  C28_odom_partial _ _ _ (by norm_num)

/-- Odometry with the target created first (in Release builds, where the assert is absent): half a radian, no
translation: the residual is not zero. -/
theorem C28_odom_reversed_fails : ∃ obs xo xt : Vec3, odomNewRes obs 1 0 xo (odomInitTarget obs 1 0 xo xt) ≠ 0 := by
  refine ⟨![1, 0, 0], 0, 0, fun h => ?_⟩
  have hnew : Rel2d.new ![1, 0, 0] 1 0 = ⟨-![1, 0, 0], true⟩ := if_neg (by norm_num)
  rw [odomNewRes, odomInitTarget, hnew] at h
  simp only [if_true] at h
  have e : NodeKind.upd .pose2d (0 : Vec3) (odomPredict 0 (-![1, 0, 0]) - 0) = wrap2 (odomPredict 0 (-![1, 0, 0])) := by
    change wrap2 ((0 : Vec3) + (odomPredict 0 (-![1, 0, 0]) - 0)) = _
    congr 1; simp
  rw [e, odomRes, wrap2_eq_zero] at h
  have h2 := h.2.2
  simp [odomPredict, wrap2_2] at h2
  have h3 : SameAngle (wrapAngle (-1) + -1 - (wrapAngle (-1) + 1)) (0 - (wrapAngle (-1) + 1)) :=
    SameAngle.sub h2 (SameAngle.refl _)
  have h4 := (h2.sub ((sameAngle_wrap (-1)).add (SameAngle.refl (-1)))).symm
  have h5 : SameAngle 2 0 := by
    have : (0 : ℝ) - (-1 + -1) = 2 := by norm_num
    rw [this] at h4
    simpa using h4
  obtain ⟨k, hk⟩ := h5
  have hp := Real.pi_gt_three
  rcases lt_trichotomy k 0 with h | h | h
  · have : (k : ℝ) ≤ -1 := by exact_mod_cast Int.le_sub_one_of_lt h
    nlinarith
  · rw [h] at hk; norm_num at hk
  · have : (1 : ℝ) ≤ k := by exact_mod_cast h
    nlinarith

/-- 3D relative pose, origin first: the initialised target has zero residual. -/
theorem C28_rel3d_partial {Tobs Xo : SE3} (ho : IsRigid Xo.T) (hb : IsRigid Tobs.T) {idO idT : ℕ} (h : idO < idT) :
    (Rel3d.new Tobs idO idT).res Xo ((Rel3d.new Tobs idO idT).initTarget Xo) = 0 := by
  rw [Rel3d.new, if_pos h, Rel3d.res, Rel3d.initTarget]
  exact rel3dRes_zero_of_eq (mul_isRigid ho hb) rfl

/-- 3D relative pose with the target created first: the residual of the initialised target is not zero. -/
theorem C28_rel3d_reversed_fails : ∃ Tobs Xo : SE3, IsRigid Tobs.T ∧ IsRigid Xo.T ∧
    (Rel3d.new Tobs 1 0).res Xo ((Rel3d.new Tobs 1 0).initTarget Xo) ≠ 0 := by
  obtain ⟨Tobs, Xo, Xt, -, h1, h2, -, -, ⟨h3, h4⟩, -⟩ := C27_rel3d_reversed_fails
  refine ⟨Tobs, Xo, h1, h2, ?_⟩
  have : (Rel3d.new Tobs 1 0).initTarget Xo = Xt := by
    rw [Rel3d.new, if_neg (by norm_num)]
    exact SE3.ext h3.symm
  rwa [this]

/-- 2D landmark: the initialised landmark has zero residual for every non-negative range. -/
theorem C28_land2d_partial (obs : Vec2) (x : Vec3) (hr : 0 ≤ obs 0) : land2dRes obs x (land2dInit obs x) = 0 := by
  have e0 : land2dInit obs x 0 - x 0 = obs 0 * Real.cos (obs 1 + x 2) := by
    simp [land2dInit, NodeKind.store]
  have e1 : land2dInit obs x 1 - x 1 = obs 0 * Real.sin (obs 1 + x 2) := by
    simp [land2dInit, NodeKind.store]
  by_cases hq : (land2dInit obs x 0 - x 0) * (land2dInit obs x 0 - x 0) +
      (land2dInit obs x 1 - x 1) * (land2dInit obs x 1 - x 1) < 1e-6
  · exact land2dRes_near hq
  · rw [land2dRes_far hq]
    rw [e0, e1] at *
    have hq2 : obs 0 * Real.cos (obs 1 + x 2) * (obs 0 * Real.cos (obs 1 + x 2)) +
        obs 0 * Real.sin (obs 1 + x 2) * (obs 0 * Real.sin (obs 1 + x 2)) = obs 0 ^ 2 := by
      linear_combination obs 0 ^ 2 * sq_trig (obs 1 + x 2)
    rw [hq2] at hq ⊢
    have hpos : 0 < obs 0 := by
      rcases hr.lt_or_eq with h | h
      · exact h
      · rw [← h] at hq; norm_num at hq
    rw [Real.sqrt_sq hr]
    refine vec2_ext (by simp) ?_
    change wrapAngle _ = 0
    rw [wrapAngle_eq_zero]
    have harg : SameAngle (catan2 (obs 0 * Real.sin (obs 1 + x 2)) (obs 0 * Real.cos (obs 1 + x 2))) (obs 1 + x 2) := by
      have hz : (⟨obs 0 * Real.cos (obs 1 + x 2), obs 0 * Real.sin (obs 1 + x 2)⟩ : ℂ) =
          (obs 0 : ℂ) * Complex.exp (((obs 1 + x 2 : ℝ) : ℂ) * Complex.I) := by
        rw [Complex.exp_mul_I, ← Complex.ofReal_cos, ← Complex.ofReal_sin]
        apply Complex.ext
        · rw [Complex.mul_re]
          simp only [Complex.add_re, Complex.add_im, Complex.ofReal_re, Complex.ofReal_im, Complex.mul_re,
            Complex.mul_im, Complex.I_re, Complex.I_im]
          ring
        · rw [Complex.mul_im]
          simp only [Complex.add_re, Complex.add_im, Complex.ofReal_re, Complex.ofReal_im, Complex.mul_re,
            Complex.mul_im, Complex.I_re, Complex.I_im]
          ring
      rw [catan2, hz, Complex.arg_real_mul _ hpos, sameAngle_iff_angle]
      exact arg_expI_coe _
    have := (harg.sub (SameAngle.refl (x 2))).sub (SameAngle.refl (obs 1))
    ring_nf at this ⊢
    exact this

example : land2dRes ![3, 1] ![1, 2, 3] (land2dInit ![3, 1] ![1, 2, 3]) = 0 := C28_land2d_partial _ _ (by norm_num)

/-- A negative range leaves a residual of twice the range. -/
theorem C28_land2d_negative_fails (x : Vec3) : land2dRes ![-1, 0] x (land2dInit ![-1, 0] x) ≠ 0 := by
  intro h
  have e0 : land2dInit ![-1, 0] x 0 - x 0 = -Real.cos (x 2) := by
    simp [land2dInit, NodeKind.store]
  have e1 : land2dInit ![-1, 0] x 1 - x 1 = -Real.sin (x 2) := by
    simp [land2dInit, NodeKind.store]
  have hq : (land2dInit ![-1, 0] x 0 - x 0) * (land2dInit ![-1, 0] x 0 - x 0) +
      (land2dInit ![-1, 0] x 1 - x 1) * (land2dInit ![-1, 0] x 1 - x 1) = 1 := by
    rw [e0, e1]; linear_combination sq_trig (x 2)
  rw [land2dRes_far (by rw [hq]; norm_num), hq] at h
  have := congrFun h 0
  norm_num at this

/-- 3D landmark: nothing is initialised; the residual is zero only if the landmark already was where the observation
puts it. -/
theorem C28_land3d_iff (obs : Vec3) {X : SE3} (hX : IsRigid X.T) (l : Vec3) :
    land3dRes obs X (land3dInit obs X l) = 0 ↔ l = X.transform obs := by
  rw [land3dRes, land3dInit, sub_eq_zero]
  have ha := C11_action hX hX
  constructor
  · intro h; rw [← h]; exact (ha l l).2.2.2.1.symm
  · rintro rfl; exact (ha obs obs).2.2.1

theorem C28_land3d_fails : ∃ (obs : Vec3) (X : SE3) (l : Vec3), IsRigid X.T ∧
    land3dRes obs X (land3dInit obs X l) ≠ 0 := by
  refine ⟨![1, 0, 0], SE3.default, 0, isRigid_default, fun h => ?_⟩
  rw [C28_land3d_iff _ isRigid_default] at h
  have h1 := (C11_action isRigid_default isRigid_default ![1, 0, 0] 0).2.1
  rw [h1] at h
  have := congrFun h 0
  simp at this

/-! ## C29, one factor -/

/-- The cost of a factor with positive semidefinite information is non-negative, and with positive definite
information it is zero only for a zero residual. -/
theorem C29_factor {ι : Type*} [Fintype ι] (W : Matrix ι ι ℝ) (r : ι → ℝ) :
    (W.PosSemidef → 0 ≤ factorChi2 W r) ∧ (W.PosDef → (factorChi2 W r = 0 ↔ r = 0)) := by
  refine ⟨fun h => ?_, fun h => ⟨fun h0 => ?_, ?_⟩⟩
  · have := h.dotProduct_mulVec_nonneg r
    simp only [star_trivial] at this
    rw [factorChi2]; positivity
  · by_contra hr
    have := h.dotProduct_mulVec_pos hr
    simp only [star_trivial] at this
    rw [factorChi2] at h0
    linarith
  · rintro rfl; simp [factorChi2]

example : (1 : Matrix (Fin 3) (Fin 3) ℝ).PosDef := Matrix.PosDef.one

/-! ## C30 -/

/-- 2D relative pose: the residual is unchanged when both poses move by a common planar motion. -/
theorem C30_rel2d (obs g xo xt xo' xt' : Vec3) (ho : planar xo' = planar g * planar xo)
    (ht : planar xt' = planar g * planar xt) : rel2dRes obs xo' xt' = rel2dRes obs xo xt := by
  rw [planar_eq_mul_iff] at ho ht
  obtain ⟨o0, o1, o2⟩ := ho
  obtain ⟨t0, t1, t2⟩ := ht
  have hc := o2.cos
  have hs := o2.sin
  rw [Real.cos_add] at hc
  rw [Real.sin_add] at hs
  have hg := sq_trig (g 2)
  simp only [rel2dRes]
  refine wrap2_congr ?_ ?_ ?_
  · simp only [Pi.sub_apply, cons_val_zero]
    rw [hc, hs, o0, o1, t0, t1]
    linear_combination (Real.cos (xo 2) * (xt 0 - xo 0) + Real.sin (xo 2) * (xt 1 - xo 1)) * hg
  · change -Real.sin (xo' 2) * (xt' 0 - xo' 0) + Real.cos (xo' 2) * (xt' 1 - xo' 1) - obs 1 =
      -Real.sin (xo 2) * (xt 0 - xo 0) + Real.cos (xo 2) * (xt 1 - xo 1) - obs 1
    rw [hc, hs, o0, o1, t0, t1]
    linear_combination (-Real.sin (xo 2) * (xt 0 - xo 0) + Real.cos (xo 2) * (xt 1 - xo 1)) * hg
  · have := (t2.sub o2).sub (SameAngle.refl (obs 2))
    simp only [Pi.sub_apply]
    change SameAngle (xt' 2 - xo' 2 - obs 2) (xt 2 - xo 2 - obs 2)
    ring_nf at this ⊢
    exact this

/-- 2D landmark: the residual is unchanged by a common planar motion. -/
theorem C30_land2d (obs : Vec2) (g x x' : Vec3) (l : Vec2) (hx : planar x' = planar g * planar x) :
    land2dRes obs x' (planarPoint g l) = land2dRes obs x l := by
  rw [planar_eq_mul_iff] at hx
  obtain ⟨x0, x1, x2⟩ := hx
  have hg := sq_trig (g 2)
  have d0 : planarPoint g l 0 - x' 0 = Real.cos (g 2) * (l 0 - x 0) - Real.sin (g 2) * (l 1 - x 1) := by
    rw [x0]; simp [planarPoint]; ring
  have d1 : planarPoint g l 1 - x' 1 = Real.sin (g 2) * (l 0 - x 0) + Real.cos (g 2) * (l 1 - x 1) := by
    rw [x1]; simp [planarPoint]; ring
  have hq : (planarPoint g l 0 - x' 0) * (planarPoint g l 0 - x' 0) +
      (planarPoint g l 1 - x' 1) * (planarPoint g l 1 - x' 1) =
      (l 0 - x 0) * (l 0 - x 0) + (l 1 - x 1) * (l 1 - x 1) := by
    rw [d0, d1]
    linear_combination ((l 0 - x 0) ^ 2 + (l 1 - x 1) ^ 2) * hg
  by_cases h : (l 0 - x 0) * (l 0 - x 0) + (l 1 - x 1) * (l 1 - x 1) < 1e-6
  · rw [land2dRes_near h, land2dRes_near (by rw [hq]; exact h)]
  · rw [land2dRes_far h, land2dRes_far (by rw [hq]; exact h), hq]
    have hne : (⟨l 0 - x 0, l 1 - x 1⟩ : ℂ) ≠ 0 := by
      intro hz
      have h1 : l 0 - x 0 = 0 := congrArg Complex.re hz
      have h2 : l 1 - x 1 = 0 := congrArg Complex.im hz
      rw [h1, h2] at h; norm_num at h
    have harg : SameAngle (catan2 (planarPoint g l 1 - x' 1) (planarPoint g l 0 - x' 0))
        (g 2 + catan2 (l 1 - x 1) (l 0 - x 0)) := by
      have hz : (⟨planarPoint g l 0 - x' 0, planarPoint g l 1 - x' 1⟩ : ℂ) =
          Complex.exp (((g 2 : ℝ) : ℂ) * Complex.I) * ⟨l 0 - x 0, l 1 - x 1⟩ := by
        rw [Complex.exp_mul_I, ← Complex.ofReal_cos, ← Complex.ofReal_sin]
        apply Complex.ext
        · rw [Complex.mul_re]
          simp only [Complex.add_re, Complex.add_im, Complex.ofReal_re, Complex.ofReal_im, Complex.mul_re,
            Complex.mul_im, Complex.I_re, Complex.I_im, d0]
          ring
        · rw [Complex.mul_im]
          simp only [Complex.add_re, Complex.add_im, Complex.ofReal_re, Complex.ofReal_im, Complex.mul_re,
            Complex.mul_im, Complex.I_re, Complex.I_im, d1]
          ring
      rw [catan2, catan2, hz, sameAngle_iff_angle, Complex.arg_mul_coe_angle (Complex.exp_ne_zero _) hne, arg_expI_coe,
        Real.Angle.coe_add]
    rw [wrapAngle_congr (b := catan2 (l 1 - x 1) (l 0 - x 0) - x 2 - obs 1)]
    have := (harg.sub x2).sub (SameAngle.refl (obs 1))
    ring_nf at this ⊢
    exact this

/-- Every planar motion has such images. -/
example (g x : Vec3) : ∃ x' : Vec3, planar x' = planar g * planar x := by
  refine ⟨![Real.cos (g 2) * x 0 - Real.sin (g 2) * x 1 + g 0, Real.sin (g 2) * x 0 + Real.cos (g 2) * x 1 + g 1,
    g 2 + x 2], ?_⟩
  rw [planar_eq_mul_iff]; exact ⟨rfl, rfl, SameAngle.refl _⟩

/-- 3D landmark: the residual is unchanged by a common rigid motion. -/
theorem C30_land3d (obs : Vec3) {G X : SE3} (hG : IsRigid G.T) (hX : IsRigid X.T) (l : Vec3) :
    land3dRes obs (G.mul X) (G.transform l) = land3dRes obs X l := by
  have hi := (C10_inverse hG hX).2.2.2
  rw [land3dRes, land3dRes, hi, (C11_action (inv_isRigid hX) (inv_isRigid hG) _ l).1, (C11_action hG hG l l).2.2.1]

/-- Plane: the plane coefficients transform with the inverse transpose. -/
theorem C30_plane4d (obs : Vec4) {G X : SE3} (hG : IsRigid G.T) (pl : Vec4) :
    planeRes obs (G.mul X) ((G.T⁻¹)ᵀ *ᵥ pl) = planeRes obs X pl := by
  have hinv : G.T⁻¹ = G.inv.T := Matrix.inv_eq_right_inv (mul_inv_cancel' hG)
  have : planeLocal (G.mul X) ((G.T⁻¹)ᵀ *ᵥ pl) = planeLocal X pl := by
    rw [planeLocal, planeLocal, hinv]
    change (G.T * X.T)ᵀ *ᵥ _ = _
    rw [mulVec_mulVec, transpose_mul, Matrix.mul_assoc, ← transpose_mul, inv_mul_cancel' hG, transpose_one, mul_one]
  rw [planeRes, planeRes, this]

/-- `(T⁻¹)ᵀ pl` is the plane of the moved points. -/
theorem C30_plane_points {G : SE3} (hG : IsRigid G.T) (pl : Vec4) (p : Vec3) :
    ((G.T⁻¹)ᵀ *ᵥ pl) ⬝ᵥ (Sum.elim (G.transform p) fun _ => 1) = pl ⬝ᵥ (Sum.elim p fun _ => 1 : Vec4) := by
  have hinv : G.T⁻¹ = G.inv.T := Matrix.inv_eq_right_inv (mul_inv_cancel' hG)
  have hT : (Sum.elim (G.transform p) fun _ => 1 : Vec4) = G.T *ᵥ (Sum.elim p fun _ => 1 : Vec4) := by
    rw [rigid_T hG, homog, fromBlocks_mulVec]
    funext i
    rcases i with i | i
    · simp [SE3.transform]
      simp [mulVec, dotProduct]
    · simp [mulVec, dotProduct]
  rw [hT, hinv, mulVec_transpose, ← dotProduct_mulVec, mulVec_mulVec, inv_mul_cancel' hG, one_mulVec]

theorem cosOf_conj {R : Mat3} (h : IsRotation R) (A : Mat3) : cosOf (R * A * Rᵀ) = cosOf A := by
  rw [cosOf, cosOf, Matrix.trace_mul_cycle, h.transpose_mul, one_mul]

theorem skewVec_conj {R : Mat3} (h : IsRotation R) (A : Mat3) : skewVec (R * A * Rᵀ) = R *ᵥ skewVec A := by
  have h1 := sub_transpose_eq (R * A * Rᵀ)
  have h2 : R * A * Rᵀ - (R * A * Rᵀ)ᵀ = (2 : ℝ) • hat3 (R *ᵥ skewVec A) := by
    rw [← rot_conj_hat3 h, ← smul_mul_assoc, ← mul_smul_comm, ← sub_transpose_eq, transpose_mul, transpose_mul,
      transpose_transpose, mul_sub, sub_mul, Matrix.mul_assoc, Matrix.mul_assoc]
  rw [h2] at h1
  have h3 := congrArg (fun M => vee3 ((1 / 2 : ℝ) • M)) h1
  simp only [smul_smul] at h3
  norm_num [vee3_hat3] at h3
  exact h3.symm

/-- 3D relative pose: the transformation whose logarithm is the residual is conjugated by the common motion; for
relative errors below a right angle the residual transforms by the adjoint of the motion, in particular it vanishes or
not independently of the gauge. -/
theorem C30_rel3d {Tobs G Xo Xt : SE3} (hG : IsRigid G.T) (ho : IsRigid Xo.T) (hb : IsRigid Tobs.T) (ht : IsRigid Xt.T)
    (hang : angle (rel3dTr Tobs Xo Xt).R < Real.pi / 2) :
    (rel3dTr Tobs (G.mul Xo) (G.mul Xt)).T = G.T * (rel3dTr Tobs Xo Xt).T * G.T⁻¹ ∧
    head3 (rel3dRes Tobs (G.mul Xo) (G.mul Xt)) = G.R *ᵥ head3 (rel3dRes Tobs Xo Xt) ∧
    (rel3dRes Tobs (G.mul Xo) (G.mul Xt) = 0 ↔ rel3dRes Tobs Xo Xt = 0) := by
  have hinv : G.T⁻¹ = G.inv.T := Matrix.inv_eq_right_inv (mul_inv_cancel' hG)
  have h1 : (rel3dTr Tobs (G.mul Xo) (G.mul Xt)).T = G.T * (rel3dTr Tobs Xo Xt).T * G.T⁻¹ := by
    rw [hinv]
    change G.T * Xo.T * Tobs.T * (G.mul Xt).inv.T = G.T * (Xo.T * Tobs.T * Xt.inv.T) * G.inv.T
    rw [(C10_inverse hG ht).2.2.2]
    change _ * (Xt.inv.T * G.inv.T) = _
    simp only [Matrix.mul_assoc]
  have hTr : IsRigid (rel3dTr Tobs Xo Xt).T := mul_isRigid (mul_isRigid ho hb) (inv_isRigid ht)
  have hTr' : IsRigid (rel3dTr Tobs (G.mul Xo) (G.mul Xt)).T :=
    mul_isRigid (mul_isRigid (mul_isRigid hG ho) hb) (inv_isRigid (mul_isRigid hG ht))
  have hR : (rel3dTr Tobs (G.mul Xo) (G.mul Xt)).R = G.R * (rel3dTr Tobs Xo Xt).R * G.Rᵀ := by
    rw [SE3.R, h1, hinv, inv_T, rigid_T hTr, rigid_T hG, homog_mul, homog_mul, tl3_homog]
  have hcpos : 0 < cosOf (rel3dTr Tobs Xo Xt).R := by
    rw [cosOf_pos_iff (rigid_R hTr)]; rwa [angle_eq] at hang
  have hln : (SO3.mk (rel3dTr Tobs (G.mul Xo) (G.mul Xt)).R).lnVee = G.R *ᵥ (SO3.mk (rel3dTr Tobs Xo Xt).R).lnVee := by
    have hsm : ∀ A : Mat3, IsRotation A → 0 < cosOf A → ∃ k : ℝ → ℝ, (SO3.mk A).lnVee = k (cosOf A) • skewVec A ∧
        k = fun c => if Real.arccos c < 1e-5 then (1 + Real.arccos c * Real.arccos c / 6)
          else Real.arccos c / Real.sin (Real.arccos c) := by
      intro A hA hc
      refine ⟨_, ?_, rfl⟩
      rw [SO3.lnVee, SO3.ln, so3Ln_unfold, if_pos (by linarith), cacos_cosOf hA, lnSmall]
      by_cases h5 : Real.arccos (cosOf A) < 1e-5
      · simp only [h5, if_true]
        rw [sub_transpose_eq, smul_smul, ← hat3_smul, vee3_hat3]
        congr 1; ring
      · simp only [h5, if_false]
        rw [sub_transpose_eq, smul_smul, ← hat3_smul, vee3_hat3]
        congr 1; ring
    obtain ⟨k1, e1, d1⟩ := hsm _ (rigid_R hTr) hcpos
    obtain ⟨k2, e2, d2⟩ := hsm _ (rigid_R hTr') (by rw [hR, cosOf_conj (rigid_R hG)]; exact hcpos)
    rw [e1, e2, d1, d2, hR, cosOf_conj (rigid_R hG), skewVec_conj (rigid_R hG), mulVec_smul]
  have hang' : angle (rel3dTr Tobs (G.mul Xo) (G.mul Xt)).R < Real.pi / 2 := by
    rw [angle_eq, hR, cosOf_conj (rigid_R hG), ← angle_eq]; exact hang
  refine ⟨h1, ?_, ?_⟩
  · rw [rel3dRes, rel3dRes, se3_lnVee hTr, se3_lnVee hTr', head3_vec6, head3_vec6]
    exact hln
  · rw [rel3dRes_eq_zero (mul_isRigid hG ho) hb (mul_isRigid hG ht) (Or.inl hang'),
      rel3dRes_eq_zero ho hb ht (Or.inl hang)]
    change G.T * Xt.T = G.T * Xo.T * Tobs.T ↔ _
    rw [Matrix.mul_assoc]
    constructor
    · intro h
      have := congrArg (fun M => G.inv.T * M) h
      simpa [← Matrix.mul_assoc, inv_mul_cancel' hG] using this
    · intro h; rw [h]

/-! ## C60 -/

/-- The second point given by the caller is never used: whatever the caller passes, the residual is the same. -/
theorem C60_ignores_second (mem zx zy zy' : Vec3) (X : SE3) :
    (P2Point.new mem zx zy).res X = (P2Point.new mem zx zy').res X := rfl

/-- Consequently no content of the uninitialised member makes the factor right for every second point. -/
theorem C60_fails (mem zx : Vec3) (X : SE3) : ∃ zy : Vec3, (P2Point.new mem zx zy).res X ≠ X.transform zx - zy := by
  refine ⟨mem + ![1, 0, 0], fun h => ?_⟩
  have h0 : X.transform zx 0 - mem 0 = X.transform zx 0 - (mem 0 + 1) := congrFun h 0
  linarith

/-- What does hold: the first point is used as documented.  Missing: the second point. -/
theorem C60_first_partial (mem zx zx' zy : Vec3) (X : SE3) :
    (P2Point.new mem zx zy).res X - (P2Point.new mem zx' zy).res X = X.transform zx - X.transform zx' := by
  simp [P2Point.res, P2Point.new]

end Mrob
