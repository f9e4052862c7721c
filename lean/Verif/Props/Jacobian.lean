import Verif.Lemmas.Rel3d
import Verif.Props.SE3Ln
import Verif.Props.SO3LnNorm
import Verif.Props.SE3

/-!
# C26: factor Jacobians are the derivatives of the residuals

Every statement is a directional derivative at `s = 0` of the residual evaluated at the states obtained by applying the
node update with the increment `s • ξ`.
-/

open Matrix Filter Topology

namespace Mrob

open Spec

/-! ### 2D factors -/

/-- Prior on a 2D pose: correct at every state, except on the branch cut of the heading. -/
theorem C26_prior2d (obs x : Vec3) (hcut : prior2dRes obs x 2 ≠ -Real.pi) (xi : Vec3) :
    HasDerivAt (fun s : ℝ => prior2dRes obs (NodeKind.upd .pose2d x (s • xi))) (prior2dJac *ᵥ xi) 0 := by
  have e : (fun s : ℝ => prior2dRes obs (NodeKind.upd .pose2d x (s • xi))) = fun s : ℝ => wrap2 (x + s • xi - obs) := by
    funext s; exact prior2dRes_wrap _ _
  rw [e, prior2dJac, one_mulVec]
  refine (wrap2_deriv (((VDeriv.line x xi).sub_const obs)) ?_).hasDerivAt
  simpa [prior2dRes] using hcut

example : prior2dRes ![1, 2, 3] ![1, 2, 3] 2 ≠ -Real.pi := by
  have h : prior2dRes ![1, 2, 3] ![1, 2, 3] = 0 := by
    rw [prior2dRes, sub_self, wrap2_eq_zero]; exact ⟨rfl, rfl, SameAngle.refl 0⟩
  rw [h]; simpa using Real.pi_ne_zero.symm

theorem rel2d_deriv (obs xo xt : Vec3) (hcut : rel2dRes obs xo xt 2 ≠ -Real.pi) (xio xit : Vec3) :
    VDeriv (fun s : ℝ => rel2dRes obs (xo + s • xio) (xt + s • xit))
      ((rel2dJac xo xt).1 *ᵥ xio + (rel2dJac xo xt).2 *ᵥ xit) 0 := by
  have ho := VDeriv.line xo xio
  have ht := VDeriv.line xt xit
  have hc : HasDerivAt (fun s : ℝ => Real.cos ((xo + s • xio) 2)) (-Real.sin (xo 2) * xio 2) 0 :=
    (ho 2).cos.congr_deriv (by simp)
  have hs : HasDerivAt (fun s : ℝ => Real.sin ((xo + s • xio) 2)) (Real.cos (xo 2) * xio 2) 0 :=
    (ho 2).sin.congr_deriv (by simp)
  have hh := ht.sub ho
  have key : VDeriv (fun s : ℝ => ![Real.cos ((xo + s • xio) 2) * (xt + s • xit - (xo + s • xio)) 0
      + Real.sin ((xo + s • xio) 2) * (xt + s • xit - (xo + s • xio)) 1,
      -Real.sin ((xo + s • xio) 2) * (xt + s • xit - (xo + s • xio)) 0
      + Real.cos ((xo + s • xio) 2) * (xt + s • xit - (xo + s • xio)) 1,
      (xt + s • xit - (xo + s • xio)) 2] - obs) ((rel2dJac xo xt).1 *ᵥ xio + (rel2dJac xo xt).2 *ᵥ xit) 0 := by
    refine VDeriv.sub_const (fun i => ?_) obs
    rcases (by decide +revert : i = 0 ∨ i = 1 ∨ i = 2) with rfl | rfl | rfl
    · exact ((hc.mul (hh 0)).add (hs.mul (hh 1))).congr_deriv (by
        simp [rel2dJac, Matrix.mulVec, dotProduct, Fin.sum_univ_three]; ring)
    · exact ((hs.neg.mul (hh 0)).add (hc.mul (hh 1))).congr_deriv (by
        simp [rel2dJac, Matrix.mulVec, dotProduct, Fin.sum_univ_three]; ring)
    · exact (hh 2).congr_deriv (by simp [rel2dJac, Matrix.mulVec, dotProduct, Fin.sum_univ_three]; ring)
  refine wrap2_deriv key ?_
  simpa [rel2dRes] using hcut

/-- Relative 2D pose: both blocks, correct at every state except on the branch cut of the heading. -/
theorem C26_rel2d (obs xo xt : Vec3) (hcut : rel2dRes obs xo xt 2 ≠ -Real.pi) (xio xit : Vec3) :
    HasDerivAt (fun s : ℝ => rel2dRes obs (NodeKind.upd .pose2d xo (s • xio)) (NodeKind.upd .pose2d xt (s • xit)))
      ((rel2dJac xo xt).1 *ᵥ xio + (rel2dJac xo xt).2 *ᵥ xit) 0 := by
  have e : (fun s : ℝ => rel2dRes obs (NodeKind.upd .pose2d xo (s • xio)) (NodeKind.upd .pose2d xt (s • xit))) =
      fun s : ℝ => rel2dRes obs (xo + s • xio) (xt + s • xit) := by
    funext s; exact rel2dRes_wrap _ _ _
  rw [e]
  exact (rel2d_deriv obs xo xt hcut xio xit).hasDerivAt

example : rel2dRes ![1, 0, 0] ![0, 0, 0] ![1, 0, 0] 2 ≠ -Real.pi := by
  have h : rel2dRes ![1, 0, 0] ![0, 0, 0] ![1, 0, 0] = 0 := by
    rw [rel2dRes, wrap2_eq_zero]; simp [SameAngle.refl]
  rw [h]; simpa using Real.pi_ne_zero.symm

/-- The branch cut is a genuine exception: there the residual is not even continuous. -/
theorem C26_cut_fails : ∃ (obs x xi : Vec3),
    ¬ HasDerivAt (fun s : ℝ => prior2dRes obs (NodeKind.upd .pose2d x (s • xi))) (prior2dJac *ᵥ xi) 0 := by
  refine ⟨0, ![0, 0, -Real.pi], ![0, 0, -1], fun h => ?_⟩
  have hp := Real.pi_gt_three
  have e : ∀ s : ℝ, prior2dRes 0 (NodeKind.upd .pose2d ![0, 0, -Real.pi] (s • ![0, 0, -1])) 2 =
      wrapAngle (-Real.pi - s) := by
    intro s
    have := congrFun (prior2dRes_wrap 0 (![0, 0, -Real.pi] + s • ![0, 0, -1])) 2
    refine this.trans ?_
    simp [prior2dRes, wrap2_2, sub_eq_add_neg]
  have hc : ContinuousAt (fun s : ℝ => wrapAngle (-Real.pi - s)) 0 := by
    have := (hasDerivAt_pi.mp h 2).continuousAt
    simpa only [e] using this
  have h0 : wrapAngle (-Real.pi - 0) = -Real.pi := by
    rw [sub_zero]; exact wrapAngle_of_mem le_rfl (by linarith)
  have hlt : ∀ᶠ s in 𝓝 (0 : ℝ), wrapAngle (-Real.pi - s) < 0 := by
    refine hc.eventually_lt continuousAt_const ?_
    simp only [h0]; linarith
  obtain ⟨ε, he, hb⟩ := Metric.eventually_nhds_iff.mp hlt
  have hm : 0 < min (ε / 2) 1 := lt_min (by linarith) one_pos
  have := hb (y := min (ε / 2) 1) (by
    rw [Real.dist_eq, sub_zero, abs_of_pos hm]; exact lt_of_le_of_lt (min_le_left _ _) (by linarith))
  have hw : wrapAngle (-Real.pi - min (ε / 2) 1) = Real.pi - min (ε / 2) 1 := by
    refine wrapAngle_eq_of ⟨?_, by linarith⟩ ?_
    · linarith [min_le_right (ε / 2) 1]
    · exact ⟨-1, by push_cast; ring⟩
  rw [hw] at this
  linarith [min_le_right (ε / 2) 1]

theorem odom_deriv (obs xo xt : Vec3) (hcut : odomRes obs xo xt 2 ≠ -Real.pi) (xio xit : Vec3) :
    VDeriv (fun s : ℝ => odomRes obs (xo + s • xio) (xt + s • xit))
      (![xio 0 - obs 1 * Real.sin (xo 2 + obs 0) * xio 2 - xit 0,
        xio 1 + obs 1 * Real.cos (xo 2 + obs 0) * xio 2 - xit 1, xio 2 - xit 2]) 0 := by
  have ho := VDeriv.line xo xio
  have ht := VDeriv.line xt xit
  have hth := (ho 2).add_const (obs 0)
  refine wrap2_deriv (f := fun s => odomPredict (xo + s • xio) obs - (xt + s • xit)) (fun i => ?_) ?_
  · rcases (by decide +revert : i = 0 ∨ i = 1 ∨ i = 2) with rfl | rfl | rfl
    · exact (((ho 0).add (hth.cos.const_mul (obs 1))).sub (ht 0)).congr_deriv (by simp; ring)
    · exact (((ho 1).add (hth.sin.const_mul (obs 1))).sub (ht 1)).congr_deriv (by simp; ring)
    · exact ((hth.add_const (obs 2)).sub (ht 2)).congr_deriv (by simp)
  · simpa [odomRes] using hcut

/-- Odometry factor: the Jacobian is the derivative exactly when the first turn of the motion is a whole number of
turns or the translation is zero. -/
theorem C26_odom_iff (obs xo xt : Vec3) (hcut : odomRes obs xo xt 2 ≠ -Real.pi) :
    (∀ xio xit : Vec3, HasDerivAt
      (fun s : ℝ => odomRes obs (NodeKind.upd .pose2d xo (s • xio)) (NodeKind.upd .pose2d xt (s • xit)))
      ((odomJac obs xo).1 *ᵥ xio + (odomJac obs xo).2 *ᵥ xit) 0) ↔ obs 1 = 0 ∨ SameAngle (obs 0) 0 := by
  have e : ∀ xio xit : Vec3,
      (fun s : ℝ => odomRes obs (NodeKind.upd .pose2d xo (s • xio)) (NodeKind.upd .pose2d xt (s • xit))) =
      fun s : ℝ => odomRes obs (xo + s • xio) (xt + s • xit) := by
    intro xio xit; funext s; exact odomRes_wrap _ _ _
  constructor
  · intro h
    by_contra hne
    push Not at hne
    have h1 := h ![0, 0, 1] 0
    rw [e] at h1
    have h2 := (odom_deriv obs xo xt hcut ![0, 0, 1] 0).hasDerivAt.unique h1
    have a0 := congrFun h2 0
    have a1 := congrFun h2 1
    simp [odomJac, Matrix.mulVec, dotProduct, Fin.sum_univ_three] at a0 a1
    have b0 : Real.sin (xo 2 + obs 0) = Real.sin (xo 2) := by
      rcases a0 with h | h
      · exact h
      · exact absurd h hne.1
    have b1 : Real.cos (xo 2 + obs 0) = Real.cos (xo 2) := by
      rcases a1 with h | h
      · exact h
      · exact absurd h hne.1
    have := (sameAngle_of_cos_sin b1 b0).sub (SameAngle.refl (xo 2))
    simp at this
    exact hne.2 this
  · intro h xio xit
    rw [e]
    refine (VDeriv.congr (odom_deriv obs xo xt hcut xio xit) ?_).hasDerivAt
    have hs : obs 1 * Real.sin (xo 2 + obs 0) = obs 1 * Real.sin (xo 2) := by
      rcases h with h | h
      · rw [h]; ring
      · have := ((SameAngle.refl (xo 2)).add h).sin; rw [this, add_zero]
    have hc : obs 1 * Real.cos (xo 2 + obs 0) = obs 1 * Real.cos (xo 2) := by
      rcases h with h | h
      · rw [h]; ring
      · have := ((SameAngle.refl (xo 2)).add h).cos; rw [this, add_zero]
    refine vec3_ext ?_ ?_ ?_
    · simp [odomJac, Matrix.mulVec, dotProduct, Fin.sum_univ_three, hs]; ring
    · simp [odomJac, Matrix.mulVec, dotProduct, Fin.sum_univ_three, hc]; ring
    · simp [odomJac, Matrix.mulVec, dotProduct, Fin.sum_univ_three]; ring

theorem not_sameAngle_one_zero : ¬ SameAngle 1 0 := by
  rintro ⟨k, hk⟩
  have hp := Real.pi_gt_three
  rcases lt_trichotomy k 0 with h | h | h
  · have : (k : ℝ) ≤ -1 := by exact_mod_cast Int.le_sub_one_of_lt h
    nlinarith
  · rw [h] at hk; norm_num at hk
  · have : (1 : ℝ) ≤ k := by exact_mod_cast h
    nlinarith

/-- Witness: turn by one radian and advance one metre; the heading column of the Jacobian is wrong even though the
residual is zero. -/
theorem C26_odom_fails : ∃ obs xo xt : Vec3, odomRes obs xo xt = 0 ∧ ∃ xio xit : Vec3, ¬ HasDerivAt
      (fun s : ℝ => odomRes obs (NodeKind.upd .pose2d xo (s • xio)) (NodeKind.upd .pose2d xt (s • xit)))
      ((odomJac obs xo).1 *ᵥ xio + (odomJac obs xo).2 *ᵥ xit) 0 := by
  have h0 : odomRes ![1, 1, 0] 0 (odomPredict 0 ![1, 1, 0]) = 0 := by
    rw [odomRes, sub_self, wrap2_eq_zero]; exact ⟨rfl, rfl, SameAngle.refl 0⟩
  refine ⟨![1, 1, 0], 0, odomPredict 0 ![1, 1, 0], h0, ?_⟩
  have := (C26_odom_iff ![1, 1, 0] 0 (odomPredict 0 ![1, 1, 0]) (by
    rw [h0]; simpa using Real.pi_ne_zero.symm)).not.mpr (by
      push Not; exact ⟨by simp, by simpa using not_sameAngle_one_zero⟩)
  push Not at this
  exact this

/-- Pose and landmark in the plane: correct whenever the landmark is not within a millimetre of the pose, outside the
branch cut of the bearing. -/
theorem C26_land2d (obs : Vec2) (x : Vec3) (l : Vec2)
    (hq : 1e-6 < (l 0 - x 0) ^ 2 + (l 1 - x 1) ^ 2) (hcut : land2dRes obs x l 1 ≠ -Real.pi) (xi : Vec3) (dl : Vec2) :
    HasDerivAt (fun s : ℝ => land2dRes obs (NodeKind.upd .pose2d x (s • xi)) (NodeKind.upd .landmark2d l (s • dl)))
      ((land2dJac x l).1 *ᵥ xi + (land2dJac x l).2 *ᵥ dl) 0 := by
  have e : (fun s : ℝ => land2dRes obs (NodeKind.upd .pose2d x (s • xi)) (NodeKind.upd .landmark2d l (s • dl))) =
      fun s : ℝ => land2dRes obs (x + s • xi) (l + s • dl) := by
    funext s; exact land2dRes_wrap _ _ _
  rw [e]
  have hq' : ¬ (l 0 - x 0) * (l 0 - x 0) + (l 1 - x 1) * (l 1 - x 1) < 1e-6 := by
    intro h; nlinarith
  have hx := VDeriv.line x xi
  have hl := VDeriv.line l dl
  have hdx : HasDerivAt (fun s : ℝ => (l + s • dl) 0 - (x + s • xi) 0) (dl 0 - xi 0) 0 := (hl 0).sub (hx 0)
  have hdy : HasDerivAt (fun s : ℝ => (l + s • dl) 1 - (x + s • xi) 1) (dl 1 - xi 1) 0 := (hl 1).sub (hx 1)
  have hQ : HasDerivAt (fun s : ℝ => ((l + s • dl) 0 - (x + s • xi) 0) * ((l + s • dl) 0 - (x + s • xi) 0) +
      ((l + s • dl) 1 - (x + s • xi) 1) * ((l + s • dl) 1 - (x + s • xi) 1))
      (2 * ((dl 0 - xi 0) * (l 0 - x 0) + (dl 1 - xi 1) * (l 1 - x 1))) 0 :=
    ((hdx.mul hdx).add (hdy.mul hdy)).congr_deriv (by simp; ring)
  have hpos : 0 < (l 0 - x 0) * (l 0 - x 0) + (l 1 - x 1) * (l 1 - x 1) := by
    rw [not_lt] at hq'; norm_num at hq' ⊢; linarith
  have hJ : land2dJac x l = (!![-(l 0 - x 0) / Real.sqrt ((l 0 - x 0) * (l 0 - x 0) + (l 1 - x 1) * (l 1 - x 1)),
      -(l 1 - x 1) / Real.sqrt ((l 0 - x 0) * (l 0 - x 0) + (l 1 - x 1) * (l 1 - x 1)), 0;
      (l 1 - x 1) / ((l 0 - x 0) * (l 0 - x 0) + (l 1 - x 1) * (l 1 - x 1)),
      -(l 0 - x 0) / ((l 0 - x 0) * (l 0 - x 0) + (l 1 - x 1) * (l 1 - x 1)), -1],
      !![(l 0 - x 0) / Real.sqrt ((l 0 - x 0) * (l 0 - x 0) + (l 1 - x 1) * (l 1 - x 1)),
      (l 1 - x 1) / Real.sqrt ((l 0 - x 0) * (l 0 - x 0) + (l 1 - x 1) * (l 1 - x 1));
      -(l 1 - x 1) / ((l 0 - x 0) * (l 0 - x 0) + (l 1 - x 1) * (l 1 - x 1)),
      (l 0 - x 0) / ((l 0 - x 0) * (l 0 - x 0) + (l 1 - x 1) * (l 1 - x 1))]) := if_neg hq'
  rw [land2dRes_far hq'] at hcut
  rw [hJ]
  set q := (l 0 - x 0) * (l 0 - x 0) + (l 1 - x 1) * (l 1 - x 1) with hqdef
  have hsq := Real.sqrt_pos.mpr hpos
  have hev : ∀ᶠ s in 𝓝 (0 : ℝ), land2dRes obs (x + s • xi) (l + s • dl) =
      ![Real.sqrt (((l + s • dl) 0 - (x + s • xi) 0) * ((l + s • dl) 0 - (x + s • xi) 0) +
          ((l + s • dl) 1 - (x + s • xi) 1) * ((l + s • dl) 1 - (x + s • xi) 1)) - obs 0,
        wrapAngle (catan2 ((l + s • dl) 1 - (x + s • xi) 1) ((l + s • dl) 0 - (x + s • xi) 0) -
          ((x + s • xi) 2 + obs 1))] := by
    have hc := hQ.continuousAt
    have := continuousAt_const.eventually_lt hc (show (1e-6 : ℝ) < _ by
      simp only [zero_smul, add_zero]
      rw [← hqdef]; nlinarith)
    filter_upwards [this] with s hs
    rw [land2dRes_far (not_lt.mpr hs.le), sub_sub]
  refine (VDeriv.congr_of_eventuallyEq (fun i => ?_) hev).hasDerivAt
  rcases (by decide +revert : i = 0 ∨ i = 1) with rfl | rfl
  · refine ((hQ.sqrt ?_).sub_const (obs 0)).congr_deriv ?_
    · simp only [zero_smul, add_zero]; rw [← hqdef]; exact hpos.ne'
    · simp only [zero_smul, add_zero, ← hqdef]
      simp [Matrix.mulVec, dotProduct, Fin.sum_univ_three, Fin.sum_univ_two]
      field_simp
      ring
  · have hb := bearing_deriv hdx hdy ((hx 2).add_const (obs 1)) (by simpa [← hqdef] using hpos) (by
      simpa [sub_sub] using hcut)
    refine hb.congr_deriv ?_
    simp only [zero_smul, add_zero, ← hqdef]
    simp [Matrix.mulVec, dotProduct, Fin.sum_univ_three, Fin.sum_univ_two]
    field_simp
    ring

example : (1e-6 : ℝ) < ((![1, 1] : Vec2) 0 - (![0, 0, 0] : Vec3) 0) ^ 2 + ((![1, 1] : Vec2) 1 - (![0, 0, 0] : Vec3) 1) ^ 2 := by
  norm_num

/-- Closer than a millimetre the residual is constant while the Jacobian is the identity. -/
theorem C26_land2d_near_fails (obs : Vec2) (x : Vec3) (l : Vec2)
    (hq : (l 0 - x 0) ^ 2 + (l 1 - x 1) ^ 2 < 1e-6) : ∃ (xi : Vec3) (dl : Vec2), ¬ HasDerivAt
      (fun s : ℝ => land2dRes obs (NodeKind.upd .pose2d x (s • xi)) (NodeKind.upd .landmark2d l (s • dl)))
      ((land2dJac x l).1 *ᵥ xi + (land2dJac x l).2 *ᵥ dl) 0 := by
  have hq' : (l 0 - x 0) * (l 0 - x 0) + (l 1 - x 1) * (l 1 - x 1) < 1e-6 := by nlinarith
  have hJ : land2dJac x l = (!![1, 0, 0; 0, 1, 0], 1) := if_pos hq'
  refine ⟨![0, 0, 0], ![1, 0], fun h => ?_⟩
  have hev : ∀ᶠ s in 𝓝 (0 : ℝ), land2dRes obs (NodeKind.upd .pose2d x (s • ![0, 0, 0]))
      (NodeKind.upd .landmark2d l (s • ![1, 0])) = 0 := by
    have hc : Continuous fun s : ℝ => (l 0 + s - x 0) * (l 0 + s - x 0) + (l 1 - x 1) * (l 1 - x 1) := by fun_prop
    have := hc.continuousAt.eventually_lt (continuousAt_const (x := (0 : ℝ)) (y := (1e-6 : ℝ)))
      (show (l 0 + 0 - x 0) * (l 0 + 0 - x 0) + (l 1 - x 1) * (l 1 - x 1) < 1e-6 by simpa using hq')
    filter_upwards [this] with s hs
    have e1 := land2dRes_wrap obs (x + s • ![0, 0, 0]) (l + s • ![1, 0])
    refine e1.trans (land2dRes_near ?_)
    simpa using hs
  have h0 : HasDerivAt (fun s : ℝ => land2dRes obs (NodeKind.upd .pose2d x (s • ![0, 0, 0]))
      (NodeKind.upd .landmark2d l (s • ![1, 0]))) 0 0 := (hasDerivAt_const (0 : ℝ) (0 : Vec2)).congr_of_eventuallyEq hev
  have := congrFun (h.unique h0) 0
  rw [hJ] at this
  simp [Matrix.mulVec, dotProduct, Fin.sum_univ_three] at this

end Mrob
