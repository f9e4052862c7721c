import Verif.Props.Jacobian

/-!
# C26 for the factors on 3D poses

The pose moves by `update_from_auxiliary`, i.e. by the left update without `regenerate`.
-/

open Matrix Filter Topology

namespace Mrob

open Spec

/-- Pose and landmark in space: both blocks are the derivative at every rigid pose. -/
theorem C26_land3d (obs : Vec3) {X : SE3} (hX : IsRigid X.T) (l : Vec3) (xi : Vec6) (dl : Vec3) :
    HasDerivAt (fun s : ℝ => land3dRes obs (NodeKind.updAux .pose3d X (s • xi)) (NodeKind.updAux .landmark3d l (s • dl)))
      ((land3dJac X l).1 *ᵥ xi + (land3dJac X l).2 *ᵥ dl) 0 := by
  have hR := updateLhs_R_deriv hX xi
  have ht := updateLhs_t_deriv hX xi
  have hl := VDeriv.line l dl
  have key := (hR.transpose.mulVec (hl.sub ht)).sub_const obs
  have e : (fun s : ℝ => land3dRes obs (NodeKind.updAux .pose3d X (s • xi)) (NodeKind.updAux .landmark3d l (s • dl))) =
      fun s : ℝ => (X.updateLhs (s • xi)).Rᵀ *ᵥ (l + s • dl - (X.updateLhs (s • xi)).t) - obs := by
    funext s
    change ((X.updateLhs (s • xi)).inv.R *ᵥ (l + s • dl) + (X.updateLhs (s • xi)).inv.t) - obs = _
    rw [SE3.R, SE3.t, inv_T, tl3_homog, tr3_homog, neg_mulVec, ← sub_eq_add_neg, ← mulVec_sub]
  rw [e]
  refine (key.congr ?_).hasDerivAt
  simp only [updateLhs_zero_smul]
  simp only [zero_smul, add_zero]
  have h2 : (land3dJac X l).2 = X.Rᵀ := by
    rw [land3dJac, SE3.R, inv_T, tl3_homog]
  have h1 : (land3dJac X l).1 *ᵥ xi = X.Rᵀ *ᵥ (hat3 l *ᵥ head3 xi - tail3 xi) := by
    have hx : xi = Sum.elim (head3 xi) (tail3 xi) := (vec6_eta xi).symm
    have : (X.inv.T * land3dJr l) *ᵥ xi = Sum.elim (X.Rᵀ *ᵥ (hat3 l *ᵥ head3 xi - tail3 xi)) 0 := by
      conv_lhs => rw [hx]
      rw [inv_T, land3dJr, homog, ← mulVec_mulVec, fromBlocks_mulVec, fromBlocks_mulVec]
      have h11 : (-1 : Mat3) *ᵥ tail3 xi = -tail3 xi := by rw [neg_mulVec, one_mulVec]
      have e1 : (Sum.elim (head3 xi) (tail3 xi) : Vec6) ∘ Sum.inl = head3 xi := rfl
      have e2 : (Sum.elim (head3 xi) (tail3 xi) : Vec6) ∘ Sum.inr = tail3 xi := rfl
      rw [e1, e2, h11]
      simp [sub_eq_add_neg]
    funext i
    exact congrFun this (Sum.inl i)
  rw [h2, h1, transpose_mul, hat3_transpose, ← mulVec_mulVec, ← mulVec_add, ← mulVec_add]
  congr 1
  rw [neg_mulVec, mulVec_sub, hat3_mulVec_comm l (head3 xi)]
  abel

/-- Point-to-plane: the Jacobian is the derivative at every rigid pose. -/
theorem C26_point2plane (px py ny : Vec3) {X : SE3} (hX : IsRigid X.T) (xi : Vec6) :
    HasDerivAt (fun s : ℝ => p2planeRes px py ny (NodeKind.updAux .pose3d X (s • xi))) (p2planeJac px ny X ⬝ᵥ xi) 0 := by
  have hq := ((updateLhs_R_deriv hX xi).mulVec (VDeriv.const px 0)).add (updateLhs_t_deriv hX xi)
  have key := (VDeriv.const ny 0).dot (hq.sub_const py)
  refine key.congr_deriv ?_
  have hx : xi = Sum.elim (head3 xi) (tail3 xi) := (vec6_eta xi).symm
  have hj : pointJr (X.transform px) *ᵥ xi = hat3 (head3 xi) *ᵥ X.transform px + tail3 xi := by
    rw [pointJr, hx, fromCols_mulVec_sumElim, one_mulVec, neg_mulVec, hat3_mulVec_comm, neg_neg]
    rfl
  rw [p2planeJac, ← dotProduct_mulVec, hj]
  simp only [zero_dotProduct, zero_add, mulVec_zero, SE3.transform, mulVec_add, mulVec_mulVec, add_assoc, add_zero]

/-- Point-to-point: the Jacobian is the derivative at every rigid pose. -/
theorem C26_point2point (f : P2Point) {X : SE3} (hX : IsRigid X.T) (xi : Vec6) :
    HasDerivAt (fun s : ℝ => f.res (NodeKind.updAux .pose3d X (s • xi))) (f.jac X *ᵥ xi) 0 := by
  have hq := (((updateLhs_R_deriv hX xi).mulVec (VDeriv.const f.px 0)).add (updateLhs_t_deriv hX xi)).sub_const f.py
  refine (hq.congr ?_).hasDerivAt
  have hx : xi = Sum.elim (head3 xi) (tail3 xi) := (vec6_eta xi).symm
  have hj : pointJr (X.transform f.px) *ᵥ xi = hat3 (head3 xi) *ᵥ X.transform f.px + tail3 xi := by
    rw [pointJr, hx, fromCols_mulVec_sumElim, one_mulVec, neg_mulVec, hat3_mulVec_comm, neg_neg]
    rfl
  rw [P2Point.jac, hj]
  simp only [SE3.transform, mulVec_add, mulVec_mulVec, add_assoc, mulVec_zero, zero_add]

/-! ### Planes -/

theorem normalizeHead_deriv {pl dp : Vec4} (hn : sqNorm (fun i => pl (Sum.inl i)) = 1) :
    VDeriv (fun s : ℝ => normalizeHead (pl + s • dp))
      (Sum.elim (fun i => dp (Sum.inl i) - ((fun i => pl (Sum.inl i)) ⬝ᵥ (fun i => dp (Sum.inl i)) : ℝ) * pl (Sum.inl i))
        (fun u => dp (Sum.inr u)) : Vec4) 0 := by
  have hl := VDeriv.line pl dp
  have hQ : HasDerivAt (fun s : ℝ => sqNorm (fun i => (pl + s • dp) (Sum.inl i)))
      (2 * ((fun i => pl (Sum.inl i)) ⬝ᵥ (fun i => dp (Sum.inl i)))) 0 := by
    simp only [sqNorm3]
    refine ((((hl (Sum.inl 0)).mul (hl (Sum.inl 0))).add ((hl (Sum.inl 1)).mul (hl (Sum.inl 1)))).add
      ((hl (Sum.inl 2)).mul (hl (Sum.inl 2)))).congr_deriv ?_ |>.congr_of_eventuallyEq (Eventually.of_forall fun s => ?_)
    · simp [dotProduct, Fin.sum_univ_three]; ring
    · simp; try ring
  have hQ0 : sqNorm (fun i => (pl + (0 : ℝ) • dp) (Sum.inl i)) = 1 := by simpa using hn
  have hpos : ∀ᶠ s in 𝓝 (0 : ℝ), 0 < sqNorm (fun i => (pl + s • dp) (Sum.inl i)) :=
    continuousAt_const.eventually_lt hQ.continuousAt (by rw [hQ0]; norm_num)
  have hev : ∀ᶠ s in 𝓝 (0 : ℝ), normalizeHead (pl + s • dp) =
      Sum.elim (fun i => (pl + s • dp) (Sum.inl i) / Real.sqrt (sqNorm (fun i => (pl + s • dp) (Sum.inl i))))
        (fun u => (pl + s • dp) (Sum.inr u)) := by
    filter_upwards [hpos] with s hs
    exact if_pos hs
  refine VDeriv.congr_of_eventuallyEq (fun i => ?_) hev
  rcases i with i | i
  · have hsq := hQ.sqrt (by rw [hQ0]; norm_num)
    have := (hl (Sum.inl i)).div hsq (by rw [hQ0]; norm_num)
    refine this.congr_deriv ?_
    rw [hQ0]; simp; ring
  · exact hl (Sum.inr i)

theorem plane_true_deriv (obs : Vec4) {X : SE3} (hX : IsRigid X.T) (pl : Vec4)
    (hn : sqNorm (fun i => pl (Sum.inl i)) = 1) (hd : planeLocal X pl (Sum.inr ()) ≠ 0) (xi : Vec6) (dp : Vec4) :
    VDeriv (fun s : ℝ => planeRes obs (X.updateLhs (s • xi)) (normalizeHead (pl + s • dp)))
      ((planeJac X pl).1 *ᵥ xi + (planeJac X pl).2 *ᵥ (Sum.elim
        (fun i => dp (Sum.inl i) - ((fun i => pl (Sum.inl i)) ⬝ᵥ (fun i => dp (Sum.inl i)) : ℝ) * pl (Sum.inl i))
        (fun u => dp (Sum.inr u)) : Vec4)) 0 := by
  set tp : Vec4 := Sum.elim
        (fun i => dp (Sum.inl i) - ((fun i => pl (Sum.inl i)) ⬝ᵥ (fun i => dp (Sum.inl i)) : ℝ) * pl (Sum.inl i))
        (fun u => dp (Sum.inr u)) with htp
  have hT := updateLhs_deriv X xi
  have hp := normalizeHead_deriv (dp := dp) hn
  rw [← htp] at hp
  have hp0 : normalizeHead (pl + (0 : ℝ) • dp) = pl := by
    rw [zero_smul, add_zero, normalizeHead]
    simp only [hn]
    rw [if_pos (by norm_num)]
    funext i; rcases i with i | i <;> simp
  have key : VDeriv (fun s : ℝ => planeLocal (X.updateLhs (s • xi)) (normalizeHead (pl + s • dp)))
      ((planeJac X pl).1 *ᵥ xi + (planeJac X pl).2 *ᵥ tp) 0 := by
    refine (hT.transpose.mulVec hp).congr ?_
    rw [hp0, updateLhs_zero_smul, planeJac]
    congr 1
    rw [transpose_mul, ← mulVec_mulVec, ← mulVec_mulVec]
    congr 1
    have hx : xi = Sum.elim (head3 xi) (tail3 xi) := (vec6_eta xi).symm
    have hpl : pl = Sum.elim (fun i => pl (Sum.inl i)) (fun u => pl (Sum.inr u)) := by
      funext i; rcases i with i | i <;> rfl
    have : planeJr (fun i => pl (Sum.inl i)) *ᵥ xi = Sum.elim (hat3 (fun i => pl (Sum.inl i)) *ᵥ head3 xi)
        (fun _ => (fun i => pl (Sum.inl i)) ⬝ᵥ tail3 xi) := by
      conv_lhs => rw [hx]
      rw [planeJr, fromBlocks_mulVec]
      simp only [zero_mulVec, add_zero, zero_add]
      rfl
    rw [this, hat6_eq]
    conv_lhs => rw [hpl]
    rw [homog, fromBlocks_transpose, fromBlocks_mulVec, hat3_transpose, hat3_mulVec_comm]
    simp only [neg_mulVec, transpose_zero, zero_mulVec, add_zero]
    funext i
    rcases i with i | i
    · simp
    · simp [mulVec, dotProduct, mul_comm]
  have hk0 := (key (Sum.inr ())).continuousAt
  have hk00 : planeLocal (X.updateLhs ((0 : ℝ) • xi)) (normalizeHead (pl + (0 : ℝ) • dp)) = planeLocal X pl := by
    rw [hp0, updateLhs_zero_smul]
  rcases lt_or_gt_of_ne hd with h | h
  · refine VDeriv.congr_of_eventuallyEq (key.add_const obs) ?_
    have := hk0.eventually_lt (continuousAt_const (y := (0 : ℝ))) (by beta_reduce; rw [hk00]; exact h)
    filter_upwards [this] with s hs
    exact if_pos hs
  · refine VDeriv.congr_of_eventuallyEq (key.sub_const obs) ?_
    have := continuousAt_const.eventually_lt (f := fun _ => (0 : ℝ)) hk0 (by beta_reduce; rw [hk00]; exact h)
    filter_upwards [this] with s hs
    exact if_neg (not_lt.mpr hs.le)

/-- Pose and plane: correct for the pose, and for the plane exactly along the increments that do not stretch the
normal (the node normalises it after the update); the local plane must not pass through the pose. -/
theorem C26_plane4d_iff (obs : Vec4) {X : SE3} (hX : IsRigid X.T) (pl : Vec4)
    (hn : len (fun i => pl (Sum.inl i)) = 1) (hd : planeLocal X pl (Sum.inr ()) ≠ 0) (xi : Vec6) (dp : Vec4) :
    HasDerivAt (fun s : ℝ => planeRes obs (NodeKind.updAux .pose3d X (s • xi)) (NodeKind.updAux .plane4d pl (s • dp)))
      ((planeJac X pl).1 *ᵥ xi + (planeJac X pl).2 *ᵥ dp) 0 ↔
    (fun i => pl (Sum.inl i)) ⬝ᵥ (fun i => dp (Sum.inl i)) = 0 := by
  have hn' : sqNorm (fun i => pl (Sum.inl i)) = 1 := by
    have h : Real.sqrt (sqNorm (fun i => pl (Sum.inl i))) = 1 := hn
    rwa [Real.sqrt_eq_one] at h
  have key := (plane_true_deriv obs hX pl hn' hd xi dp).hasDerivAt
  constructor
  · intro h
    have hu := add_left_cancel (key.unique h)
    have hinv : ∀ a b : Vec4, (planeJac X pl).2 *ᵥ a = (planeJac X pl).2 *ᵥ b → a = b := by
      intro a b hab
      have hi : (X.inv.T)ᵀ * X.Tᵀ = 1 := by rw [← transpose_mul, mul_inv_cancel' hX, transpose_one]
      have := congrArg (fun z => (X.inv.T)ᵀ *ᵥ z) hab
      simpa [planeJac, mulVec_mulVec, hi] using this
    have he := hinv _ _ hu
    set c : ℝ := (fun i => pl (Sum.inl i)) ⬝ᵥ (fun i => dp (Sum.inl i)) with hc
    have h0 : ∀ i : Fin 3, c * pl (Sum.inl i) = 0 := by
      intro i
      have := congrFun he (Sum.inl i)
      simp only [Sum.elim_inl] at this
      linarith
    have h1 : c * sqNorm (fun i => pl (Sum.inl i)) = 0 := by
      rw [sqNorm3]
      linear_combination pl (Sum.inl 0) * h0 0 + pl (Sum.inl 1) * h0 1 + pl (Sum.inl 2) * h0 2
    rwa [hn', mul_one] at h1
  · intro h
    rw [h] at key
    refine key.congr_deriv ?_
    congr 2
    funext i; rcases i with i | i <;> simp

/-! ### Poses in space -/

/-- The transformation whose logarithm is the residual has the derivative announced by the Jacobian everywhere: prior. -/
theorem C26_prior3d_group (Tobs X : SE3) (xi : Vec6) (i j : I4) :
    HasDerivAt (fun s : ℝ => (prior3dTr Tobs (NodeKind.updAux .pose3d X (s • xi))).T i j)
      ((twist (head3 (prior3dJac *ᵥ xi)) (tail3 (prior3dJac *ᵥ xi)) * (prior3dTr Tobs X).T) i j) 0 := by
  have h := ((updateLhs_deriv X xi).mul (MDeriv.const Tobs.inv.T 0)).congr
    (B' := twist (head3 (prior3dJac *ᵥ xi)) (tail3 (prior3dJac *ᵥ xi)) * (prior3dTr Tobs X).T) (by
      rw [← (C01_hat6_vee6 _ 0).1, prior3dJac, one_mulVec, mul_zero, add_zero, Matrix.mul_assoc]; rfl)
  exact h i j

/-- At zero residual the Jacobian of the prior is the derivative of the residual. -/
theorem prior3d_zero {X : SE3} (hX : IsRigid X.T) (xi : Vec6) :
    VDeriv (fun s : ℝ => prior3dRes X (X.updateLhs (s • xi))) xi 0 := by
  have e : ∀ s : ℝ, prior3dRes X (X.updateLhs (s • xi)) =
      (SE3.mk (homog (SO3.ofVec (s • head3 xi)).R (vMat (s • head3 xi) *ᵥ (s • tail3 xi)) 1)).lnVee := by
    intro s
    rw [prior3dRes]
    congr 1
    ext1
    change (SE3.ofVec (s • xi)).T * X.T * X.inv.T = _
    rw [Matrix.mul_assoc, mul_inv_cancel' hX, mul_one, se3_ofVec_T]
    rfl
  simp only [e]
  have hc := rel_cos_le (head3 xi) 0
  have h0 : (SO3.ofVec (0 : Vec3)).R = 1 := ofVec_zero
  simp only [smul_zero, h0, transpose_one, mul_one] at hc
  have := lnVee_deriv (ofVec_deriv (head3 xi)) (by rw [zero_smul, h0]) (vMat_deriv (head3 xi) (tail3 xi))
    (by simp) hc
  rwa [vec6_eta] at this

/-- If the derivative of the logarithm along left increments is the increment itself, the transformation is the
identity. -/
theorem lnVee_identity_of_deriv {Tr : SE3} (hT : IsRigid Tr.T) (hax : angle Tr.R < Real.pi / 2 ∨ ¬ FixesDiagonal Tr.R)
    (h : ∀ xi : Vec6, HasDerivAt (fun s : ℝ => (SE3.mk ((SE3.ofVec (s • xi)).T * Tr.T)).lnVee) xi 0) : Tr.T = 1 := by
  have hform : ∀ (s : ℝ) (xi : Vec6), (SE3.ofVec (s • xi)).T * Tr.T = homog ((SO3.ofVec (s • head3 xi)).R * Tr.R)
      ((SO3.ofVec (s • head3 xi)).R *ᵥ Tr.t + vMat (s • head3 xi) *ᵥ (s • tail3 xi)) 1 :=
    fun s xi => updateLhs_homog hT s xi
  -- the rotation part
  have hR : Tr.R = 1 := by
    rw [← C07_zero_iff_partial (rigid_R hT) hax]
    set w := (SO3.mk Tr.R).lnVee with hw
    set V := vInv (so3Ln Tr.R).2 w with hV
    have hcurve : ∀ v : Vec3, V *ᵥ v = v := by
      intro v
      have h1 := hasDerivAt_pi.mp (h (vec6 0 v))
      have e : ∀ s : ℝ, (SE3.mk ((SE3.ofVec (s • vec6 0 v)).T * Tr.T)).lnVee = vec6 w (V *ᵥ (Tr.t + s • v)) := by
        intro s
        rw [hform, head3_vec6, tail3_vec6, smul_zero, ofVec_zero, one_mul, one_mulVec, SE3.lnVee, SE3.ln, se3Ln_homog,
          vee6_homog, vee3_hat3]
        congr 2
        have : vMat (0 : Vec3) = 1 := by rw [vMat, rod_at_zero]
        rw [this, one_mulVec]
      simp only [e] at h1
      have h2 : VDeriv (fun s : ℝ => V *ᵥ (Tr.t + s • v)) (V *ᵥ v) 0 :=
        ((MDeriv.const V 0).mulVec (VDeriv.line Tr.t v)).congr (by simp)
      funext i
      exact (h2 i).unique (h1 (Sum.inr i))
    have hsk : ∀ i j, V i j - V j i = 0 := by
      have hV1 : V = 1 := by
        ext i j
        have := congrFun (hcurve (Pi.single j 1)) i
        rw [mulVec_single_one] at this
        rw [show V i j = V.col j i from rfl, this, Matrix.one_apply, Pi.single_apply]
      intro i j; rw [hV1, Matrix.one_apply, Matrix.one_apply]
      by_cases hij : i = j <;> simp [hij, eq_comm]
    have hs : skewVec V = 0 := by
      refine vec3_ext ?_ ?_ ?_ <;> simp [skewVec, hsk]
    rw [hV, vInv, skewVec_rod] at hs
    have : w = 0 := by
      have := congrArg (fun z => (-2 : ℝ) • z) hs
      simp only [smul_smul, smul_zero] at this
      norm_num at this
      exact this
    exact this
  -- the translation part
  have ht : Tr.t = 0 := by
    have hd : ∀ w : Vec3, (0.5 : ℝ) • (hat3 w *ᵥ Tr.t) = 0 := by
      intro w
      have h1 := h (vec6 w 0)
      simp only [hform, head3_vec6, tail3_vec6, smul_zero, mulVec_zero, add_zero, hR, mul_one] at h1
      have hc := rel_cos_le w 0
      have h0 : (SO3.ofVec (0 : Vec3)).R = 1 := ofVec_zero
      simp only [smul_zero, h0, transpose_one, mul_one] at hc
      have h2 := lnVee_deriv_trans (ofVec_deriv w) (by rw [zero_smul, h0])
        ((ofVec_deriv w).mulVec (VDeriv.const Tr.t 0)) hc
      simp only [zero_smul, h0, one_mulVec, mulVec_zero, add_zero] at h2
      have h3 := h2.hasDerivAt.unique h1
      funext i
      have h4 := congrFun h3 (Sum.inr i)
      simp only [vec6, Sum.elim_inr, Pi.sub_apply, Pi.smul_apply, smul_eq_mul, Pi.zero_apply] at h4 ⊢
      linarith
    have a1 := hd ![1, 0, 0]
    have a2 := hd ![0, 1, 0]
    refine vec3_ext ?_ ?_ ?_
    · have := congrFun a2 2
      have h5 : (0.5 : ℝ) ≠ 0 := by norm_num
      simpa [hat3, mulVec, dotProduct, Fin.sum_univ_three, h5] using this
    · have := congrFun a1 2
      have h5 : (0.5 : ℝ) ≠ 0 := by norm_num
      simpa [hat3, mulVec, dotProduct, Fin.sum_univ_three, h5] using this
    · have := congrFun a1 1
      have h5 : (0.5 : ℝ) ≠ 0 := by norm_num
      simpa [hat3, mulVec, dotProduct, Fin.sum_univ_three, h5] using this
  rw [rigid_T hT, hR, ht, homog_one]

theorem mul_inv_eq_one_iff {a b : SE3} (hb : IsRigid b.T) : a.T * b.inv.T = 1 ↔ a = b := by
  constructor
  · intro h
    ext1
    have := congrArg (fun M => M * b.T) h
    simpa [Matrix.mul_assoc, inv_mul_cancel' hb] using this
  · rintro rfl; exact mul_inv_cancel' hb

/-- Prior on a 3D pose: the stored Jacobian (the identity) is the derivative of the residual exactly when the pose
equals the observation. -/
theorem C26_prior3d_iff {Tobs X : SE3} (hb : IsRigid Tobs.T) (hX : IsRigid X.T)
    (hax : angle (prior3dTr Tobs X).R < Real.pi / 2 ∨ ¬ FixesDiagonal (prior3dTr Tobs X).R) :
    (∀ xi : Vec6, HasDerivAt (fun s : ℝ => prior3dRes Tobs (NodeKind.updAux .pose3d X (s • xi))) (prior3dJac *ᵥ xi) 0) ↔
      X = Tobs := by
  constructor
  · intro h
    have hTr : IsRigid (prior3dTr Tobs X).T := mul_isRigid hX (inv_isRigid hb)
    have h1 := lnVee_identity_of_deriv hTr hax fun xi => by
      have := h xi
      rw [prior3dJac, one_mulVec] at this
      refine this.congr_of_eventuallyEq (Eventually.of_forall fun s => ?_)
      change (SE3.mk _).lnVee = (SE3.mk _).lnVee
      congr 2
      exact (Matrix.mul_assoc _ _ _).symm
    exact (mul_inv_eq_one_iff hb).mp h1
  · rintro rfl xi
    rw [prior3dJac, one_mulVec]
    exact (prior3d_zero hX xi).hasDerivAt

/-- The hypotheses are met by a pose a quarter turn away from the observation. -/
example : IsRigid SE3.default.T ∧ IsRigid (SE3.mk (homog (rotZ (Real.pi / 4)) 0 1)).T ∧
    angle (prior3dTr SE3.default (SE3.mk (homog (rotZ (Real.pi / 4)) 0 1))).R < Real.pi / 2 := by
  have hp := Real.pi_pos
  have h1 : IsRigid (homog (rotZ (Real.pi / 4)) 0 1) := isRigid_homog (rotZ_isRotation _) 0
  have hd : SE3.default.inv.T = 1 := by
    have : IsRigid SE3.default.T := by
      have := isRigid_homog isRotation_one (0 : Vec3); rwa [homog_one] at this
    have := mul_inv_cancel' this
    rwa [show SE3.default.T = 1 from rfl, one_mul] at this
  refine ⟨by have := isRigid_homog isRotation_one (0 : Vec3); rwa [homog_one] at this, h1, ?_⟩
  have : (prior3dTr SE3.default (SE3.mk (homog (rotZ (Real.pi / 4)) 0 1))).R = rotZ (Real.pi / 4) := by
    change tl3 (homog (rotZ (Real.pi / 4)) 0 1 * SE3.default.inv.T) = _
    rw [hd, mul_one, tl3_homog]
  rw [this]
  have ht : ((rotZ (Real.pi / 4)).trace - 1) / 2 = Real.cos (Real.pi / 4) := by
    rw [trace_fin_three]; simp [rotZ]
  rw [angle, ht, Real.arccos_cos (by linarith) (by linarith)]
  linarith

/-- Group-valued derivative for the relative pose: correct everywhere. -/
theorem C26_rel3d_group {Tobs Xo Xt : SE3} (ho : IsRigid Xo.T) (hb : IsRigid Tobs.T) (ht : IsRigid Xt.T)
    (xo xt : Vec6) (i j : I4) :
    HasDerivAt (fun s : ℝ => (rel3dTr Tobs (NodeKind.updAux .pose3d Xo (s • xo))
        (NodeKind.updAux .pose3d Xt (s • xt))).T i j)
      ((twist (head3 ((rel3dJac Tobs Xo Xt).1 *ᵥ xo + (rel3dJac Tobs Xo Xt).2 *ᵥ xt))
        (tail3 ((rel3dJac Tobs Xo Xt).1 *ᵥ xo + (rel3dJac Tobs Xo Xt).2 *ᵥ xt)) * (rel3dTr Tobs Xo Xt).T) i j) 0 := by
  have hTr : IsRigid (rel3dTr Tobs Xo Xt).T := mul_isRigid (mul_isRigid ho hb) (inv_isRigid ht)
  have hR := updateLhs_R_deriv ht xt
  have htt := updateLhs_t_deriv ht xt
  have hinv : MDeriv (fun s : ℝ => (Xt.updateLhs (s • xt)).inv.T) (-(Xt.inv.T * hat6 xt)) 0 := by
    have hRt := hR.transpose
    have h2 := (hRt.neg).mulVec htt
    intro i j
    rcases i with i | i <;> rcases j with j | j
    · refine (hRt i j).congr_deriv ?_
      rw [inv_T, hat6_eq, homog_mul, transpose_mul, hat3_transpose]
      simp [homog]
    · refine (h2 i).congr_deriv ?_
      rw [inv_T, hat6_eq, homog_mul, transpose_mul, hat3_transpose, updateLhs_zero_smul]
      simp [homog, neg_mulVec, mulVec_add, mulVec_mulVec]
    · refine (hasDerivAt_const (0 : ℝ) (0 : ℝ)).congr_deriv ?_
      rw [inv_T, hat6_eq, homog_mul]; simp [homog]
    · refine (hasDerivAt_const (0 : ℝ) (1 : ℝ)).congr_deriv ?_
      rw [inv_T, hat6_eq, homog_mul]; simp [homog]
  have key := ((updateLhs_deriv Xo xo).mul (MDeriv.const Tobs.T 0)).mul hinv
  have := key.congr (B' := twist (head3 ((rel3dJac Tobs Xo Xt).1 *ᵥ xo + (rel3dJac Tobs Xo Xt).2 *ᵥ xt))
        (tail3 ((rel3dJac Tobs Xo Xt).1 *ᵥ xo + (rel3dJac Tobs Xo Xt).2 *ᵥ xt)) * (rel3dTr Tobs Xo Xt).T) (by
    rw [← (C01_hat6_vee6 _ 0).1]
    simp only [updateLhs_zero_smul, mul_zero, add_zero, rel3dJac, one_mulVec]
    have hadj : hat6 ((rel3dTr Tobs Xo Xt).adj *ᵥ xt) * (rel3dTr Tobs Xo Xt).T =
        (rel3dTr Tobs Xo Xt).T * hat6 xt := by
      rw [hat6_eq, hat6_eq, (adj_mulVec _ _).1, (adj_mulVec _ _).2]
      set Q := rel3dTr Tobs Xo Xt
      rw [rigid_T hTr, homog_mul, homog_mul]
      have hcr := (rot_mul_hat3 (rigid_R hTr) (head3 xt)).symm
      simp only [zero_mul, mul_zero, one_smul, zero_smul, add_zero, mul_one]
      rw [hcr, hat3_mulVec_comm (Q.R *ᵥ head3 xt)]
      congr 1
      abel
    have hlin : ∀ a b : Vec6, hat6 (a + (-(rel3dTr Tobs Xo Xt).adj) *ᵥ b) = hat6 a - hat6 ((rel3dTr Tobs Xo Xt).adj *ᵥ b) := by
      intro a b
      rw [neg_mulVec, ← sub_eq_add_neg]
      ext i j
      rcases i with i | i <;> rcases j with j | j
      · fin_cases i <;> fin_cases j <;> simp [hat6, homog] <;> ring
      · fin_cases i <;> simp [hat6, homog]
      · simp [hat6, homog]
      · simp [hat6, homog]
    rw [hlin, Matrix.sub_mul, hadj, mul_neg, ← sub_eq_add_neg]
    change hat6 xo * Xo.T * Tobs.T * Xt.inv.T - Xo.T * Tobs.T * (Xt.inv.T * hat6 xt) =
      hat6 xo * (Xo.T * Tobs.T * Xt.inv.T) - Xo.T * Tobs.T * Xt.inv.T * hat6 xt
    simp only [Matrix.mul_assoc])
  exact this i j

/-- Relative 3D pose: the stored Jacobians are the derivative of the residual exactly when the residual
transformation is the identity, i.e. `Xt = Xo * Tobs`. -/
theorem C26_rel3d_iff {Tobs Xo Xt : SE3} (ho : IsRigid Xo.T) (hb : IsRigid Tobs.T) (ht : IsRigid Xt.T)
    (hax : angle (rel3dTr Tobs Xo Xt).R < Real.pi / 2 ∨ ¬ FixesDiagonal (rel3dTr Tobs Xo Xt).R) :
    (∀ xo xt : Vec6, HasDerivAt (fun s : ℝ => rel3dRes Tobs (NodeKind.updAux .pose3d Xo (s • xo))
        (NodeKind.updAux .pose3d Xt (s • xt)))
      ((rel3dJac Tobs Xo Xt).1 *ᵥ xo + (rel3dJac Tobs Xo Xt).2 *ᵥ xt) 0) ↔ Xt.T = Xo.T * Tobs.T := by
  have hTr : IsRigid (rel3dTr Tobs Xo Xt).T := mul_isRigid (mul_isRigid ho hb) (inv_isRigid ht)
  constructor
  · intro h
    have h1 := lnVee_identity_of_deriv hTr hax fun xi => by
      have := h xi 0
      simp only [rel3dJac, one_mulVec, mulVec_zero, add_zero, smul_zero] at this
      refine this.congr_of_eventuallyEq (Eventually.of_forall fun s => ?_)
      have h0 : Xt.updateLhs 0 = Xt := by simpa using updateLhs_zero_smul Xt 0
      change (SE3.mk _).lnVee = rel3dRes Tobs (Xo.updateLhs (s • xi)) (Xt.updateLhs 0)
      rw [h0]
      change (SE3.mk _).lnVee = (SE3.mk _).lnVee
      congr 2
      change (SE3.ofVec (s • xi)).T * (Xo.T * Tobs.T * Xt.inv.T) = (SE3.ofVec (s • xi)).T * Xo.T * Tobs.T * Xt.inv.T
      simp only [Matrix.mul_assoc]
    exact (congrArg SE3.T ((mul_inv_eq_one_iff (a := Xo.mul Tobs) ht).mp h1)).symm
  · intro h xo xt
    have h0 : Xt = Xo.mul Tobs := SE3.ext h
    have hone : rel3dTr Tobs Xo Xt = SE3.default :=
      SE3.ext ((mul_inv_eq_one_iff (a := Xo.mul Tobs) ht).mpr h0.symm)
    have hJ : (rel3dJac Tobs Xo Xt).1 *ᵥ xo + (rel3dJac Tobs Xo Xt).2 *ᵥ xt =
        vec6 (head3 xo - head3 xt) (tail3 xo - tail3 xt) := by
      rw [rel3dJac, hone, adj_one, one_mulVec, neg_mulVec, one_mulVec]
      funext i; rcases i with i | i <;> simp [vec6, head3, tail3, sub_eq_add_neg]
    rw [hJ]
    have e : ∀ s : ℝ, rel3dRes Tobs (NodeKind.updAux .pose3d Xo (s • xo)) (NodeKind.updAux .pose3d Xt (s • xt)) =
      (SE3.mk (homog ((SO3.ofVec (s • head3 xo)).R * (SO3.ofVec (s • head3 xt)).Rᵀ)
        ((SO3.ofVec (s • head3 xo)).R *ᵥ (Xt.t - (SO3.ofVec (s • head3 xt)).Rᵀ *ᵥ
          ((SO3.ofVec (s • head3 xt)).R *ᵥ Xt.t + vMat (s • head3 xt) *ᵥ (s • tail3 xt)))
          + vMat (s • head3 xo) *ᵥ (s • tail3 xo)) 1)).lnVee := by
      intro s
      have := rel3dTr_perturbed ho hb ht h0 xo xt s
      change (rel3dTr Tobs (Xo.updateLhs (s • xo)) (Xt.updateLhs (s • xt))).lnVee = _
      rw [this]
    simp only [e]
    have hz : (SO3.ofVec (0 : Vec3)).R = 1 := ofVec_zero
    have hA := ofVec_deriv (head3 xo)
    have hB := ofVec_deriv (head3 xt)
    have hvA := vMat_deriv (head3 xo) (tail3 xo)
    have hvB := vMat_deriv (head3 xt) (tail3 xt)
    have hlin : ∀ a b : Vec3, hat3 (a - b) = hat3 a - hat3 b := by
      intro a b; ext i j; fin_cases i <;> fin_cases j <;> simp [hat3] <;> ring
    refine (lnVee_deriv ?_ ?_ ?_ ?_ (rel_cos_le (head3 xo) (head3 xt))).hasDerivAt
    · refine (hA.mul hB.transpose).congr ?_
      rw [zero_smul, zero_smul, hz, hat3_transpose, transpose_one, one_mul, mul_one, hlin, ← sub_eq_add_neg]
    · rw [zero_smul, zero_smul, hz, transpose_one, one_mul]
    · refine ((hA.mulVec ((VDeriv.const Xt.t 0).sub (hB.transpose.mulVec
        ((hB.mulVec (VDeriv.const Xt.t 0)).add hvB)))).add hvA).congr ?_
      simp only [zero_smul, hz, transpose_one, one_mulVec, mulVec_zero, add_zero, sub_self, hat3_transpose, neg_mulVec]
      abel
    · simp [hz]

/-! ### Satisfiability and witnesses -/

theorem default_inv_T : SE3.default.inv.T = 1 := by
  have : IsRigid SE3.default.T := by
    have := isRigid_homog isRotation_one (0 : Vec3); rwa [homog_one] at this
  have := mul_inv_cancel' this
  rwa [show SE3.default.T = 1 from rfl, one_mul] at this

/-- Every elementary rotation with any translation is a rigid pose. -/
example (a : ℝ) (t : Vec3) : IsRigid (SE3.ofRt (rotZ a) t).T := isRigid_homog (rotZ_isRotation a) t

/-- The hypotheses of `C26_plane4d_iff` are met by the plane `z + 2 = 0` seen from the origin. -/
example : len (fun i => (Sum.elim ![0, 0, 1] (fun _ => 2) : Vec4) (Sum.inl i)) = 1 ∧
    planeLocal SE3.default (Sum.elim ![0, 0, 1] fun _ => 2) (Sum.inr ()) ≠ 0 := by
  constructor
  · simp [len, dotProduct, Fin.sum_univ_three]
  · change ((1 : Mat4)ᵀ *ᵥ _) _ ≠ 0
    rw [transpose_one, one_mulVec]; simp

/-- Witness for the plane factor: stretching the normal. -/
theorem C26_plane4d_fails : ∃ (obs : Vec4) (X : SE3) (pl dp : Vec4), IsRigid X.T ∧ ¬ HasDerivAt
    (fun s : ℝ => planeRes obs (NodeKind.updAux .pose3d X (s • (0 : Vec6))) (NodeKind.updAux .plane4d pl (s • dp)))
      ((planeJac X pl).1 *ᵥ (0 : Vec6) + (planeJac X pl).2 *ᵥ dp) 0 := by
  have hr : IsRigid SE3.default.T := by
    have := isRigid_homog isRotation_one (0 : Vec3); rwa [homog_one] at this
  refine ⟨0, SE3.default, Sum.elim ![0, 0, 1] fun _ => 2, Sum.elim ![0, 0, 1] fun _ => 0, hr, ?_⟩
  rw [C26_plane4d_iff 0 hr _ (by simp [len, dotProduct, Fin.sum_univ_three]) (by
    change ((1 : Mat4)ᵀ *ᵥ _) _ ≠ 0
    rw [transpose_one, one_mulVec]; simp)]
  simp [dotProduct, Fin.sum_univ_three]

theorem rotZ_quarter_angle : angle (rotZ (Real.pi / 4)) < Real.pi / 2 := by
  have hp := Real.pi_pos
  have ht : ((rotZ (Real.pi / 4)).trace - 1) / 2 = Real.cos (Real.pi / 4) := by
    rw [trace_fin_three]; simp [rotZ]
  rw [angle, ht, Real.arccos_cos (by linarith) (by linarith)]
  linarith

theorem rotZ_quarter_ne_one : rotZ (Real.pi / 4) ≠ 1 := by
  intro h
  have := congrFun (congrFun h 0) 0
  simp [rotZ] at this
  have h2 := Real.sq_sqrt (show (0 : ℝ) ≤ 2 by norm_num)
  have h3 : Real.sqrt 2 = 2 := by linarith
  rw [h3] at h2; norm_num at h2

/-- Witness for the prior: an eighth of a turn away from the observation the identity is not the derivative. -/
theorem C26_prior3d_fails : ∃ (Tobs X : SE3) (xi : Vec6), IsRigid Tobs.T ∧ IsRigid X.T ∧
    ¬ HasDerivAt (fun s : ℝ => prior3dRes Tobs (NodeKind.updAux .pose3d X (s • xi))) (prior3dJac *ᵥ xi) 0 := by
  have hr : IsRigid SE3.default.T := by
    have := isRigid_homog isRotation_one (0 : Vec3); rwa [homog_one] at this
  have h1 : IsRigid (SE3.ofRt (rotZ (Real.pi / 4)) 0).T := isRigid_homog (rotZ_isRotation _) 0
  have hR : (prior3dTr SE3.default (SE3.ofRt (rotZ (Real.pi / 4)) 0)).R = rotZ (Real.pi / 4) := by
    change tl3 (homog (rotZ (Real.pi / 4)) 0 1 * SE3.default.inv.T) = _
    rw [default_inv_T, mul_one, tl3_homog]
  by_contra hcon
  push Not at hcon
  have := (C26_prior3d_iff hr h1 (Or.inl (by rw [hR]; exact rotZ_quarter_angle))).mp fun xi => hcon _ _ xi hr h1
  have h2 := congrArg (fun a : SE3 => tl3 a.T) this
  simp only [SE3.ofRt, tl3_homog] at h2
  rw [show SE3.default.T = homog 1 0 1 from homog_one.symm, tl3_homog] at h2
  exact rotZ_quarter_ne_one h2

/-- Witness for the relative pose. -/
theorem C26_rel3d_fails : ∃ (Tobs Xo Xt : SE3) (xo xt : Vec6), IsRigid Tobs.T ∧ IsRigid Xo.T ∧ IsRigid Xt.T ∧
    ¬ HasDerivAt (fun s : ℝ => rel3dRes Tobs (NodeKind.updAux .pose3d Xo (s • xo))
        (NodeKind.updAux .pose3d Xt (s • xt)))
      ((rel3dJac Tobs Xo Xt).1 *ᵥ xo + (rel3dJac Tobs Xo Xt).2 *ᵥ xt) 0 := by
  have hr : IsRigid SE3.default.T := by
    have := isRigid_homog isRotation_one (0 : Vec3); rwa [homog_one] at this
  have h1 : IsRigid (SE3.ofRt (rotZ (Real.pi / 4)) 0).T := isRigid_homog (rotZ_isRotation _) 0
  have hR : (rel3dTr SE3.default (SE3.ofRt (rotZ (Real.pi / 4)) 0) SE3.default).R = rotZ (Real.pi / 4) := by
    change tl3 (homog (rotZ (Real.pi / 4)) 0 1 * 1 * SE3.default.inv.T) = _
    rw [default_inv_T, mul_one, mul_one, tl3_homog]
  by_contra hcon
  push Not at hcon
  have := (C26_rel3d_iff h1 hr hr (Or.inl (by rw [hR]; exact rotZ_quarter_angle))).mp
    fun xo xt => hcon _ _ _ xo xt hr h1 hr
  have h2 := congrArg tl3 this
  change tl3 (1 : Mat4) = tl3 (homog (rotZ (Real.pi / 4)) 0 1 * 1) at h2
  rw [mul_one, tl3_homog, ← homog_one, tl3_homog] at h2
  exact rotZ_quarter_ne_one h2.symm

end Mrob
