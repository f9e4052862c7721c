import Verif.Lemmas.StoredFirst
import Verif.Props.Jacobian3d

/-!
# C26: derivatives along the update that the solver carries out
-/

open Matrix Filter Topology Asymptotics

namespace Mrob

open Spec

attribute [local instance] Matrix.linftyOpNormedAddCommGroup Matrix.linftyOpNormedSpace Matrix.linftyOpNormedRing

/-- C26, the update of the nodes: along every twist the entries of the stored pose, after `update` has regenerated it, have the
derivative of the left multiplication by the exponential.  Regenerating does not disturb the first order, at all poses that
logarithm and exponential keep and that are not turned by exactly half a turn (false there: `C26_stored_half_fails`). -/
theorem C26_stored_partial {X : SE3} (hX : IsRigid X.T) (hT : SafeTurn X.R) (hpi : angle X.R ≠ Real.pi) (w v : Vec3) (i j : I4) :
    HasDerivAt (fun s : ℝ => (NodeKind.upd .pose3d X (s • vec6 w v) : SE3).T i j) ((twist w v * X.T) i j) 0 := by
  have hsmall := stored_small hX hT hpi (vec6 w v) i j
  have hd : HasDerivAt (fun s : ℝ => (X.updateLhs (s • vec6 w v)).regenerate.T i j - (X.updateLhs (s • vec6 w v)).T i j) 0 0 := by
    rw [hasDerivAt_iff_isLittleO]
    refine hsmall.congr (fun s => ?_) (fun s => (sub_zero s).symm)
    rw [stored_zero hX hT hpi, updateLhs_zero_smul]; simp
  have := hd.add (updateLhs_deriv X (vec6 w v) i j)
  refine (this.congr_deriv ?_).congr_of_eventuallyEq (Eventually.of_forall fun s => ?_)
  · rw [zero_add, twist_eq_hat6]
  · exact (sub_add_cancel _ _).symm

/-- C26, every quantity that depends differentiably on the entries of a pose and on other curves has the same derivatives along the
update with and without regenerating. -/
theorem C26_stored_iff_partial {E G : Type} [NormedAddCommGroup E] [NormedSpace ℝ E] [NormedAddCommGroup G] [NormedSpace ℝ G] {X : SE3}
    (hX : IsRigid X.T) (hT : SafeTurn X.R) (hpi : angle X.R ≠ Real.pi) {γ : ℝ → G} {γ' : G} (hγ : HasDerivAt γ γ' 0)
    {f : (I4 → I4 → ℝ) × G → E} (hf : DifferentiableAt ℝ f (X.T, γ 0)) (xi : Vec6) (d : E) :
    HasDerivAt (fun s : ℝ => f ((NodeKind.upd .pose3d X (s • xi) : SE3).T, γ s)) d 0 ↔
      HasDerivAt (fun s : ℝ => f ((NodeKind.updAux .pose3d X (s • xi) : SE3).T, γ s)) d 0 := by
  have hx : xi = vec6 (head3 xi) (tail3 xi) := (vec6_eta xi).symm
  have h1 : HasDerivAt (fun s : ℝ => ((NodeKind.upd .pose3d X (s • xi) : SE3).T : I4 → I4 → ℝ)) (hat6 xi * X.T : Mat4) 0 := by
    refine hasDerivAt_pi.mpr fun i => hasDerivAt_pi.mpr fun j => ?_
    have := C26_stored_partial hX hT hpi (head3 xi) (tail3 xi) i j
    rw [← hx] at this
    exact this.congr_deriv (by rw [twist_eq_hat6, vec6_eta])
  have h2 : HasDerivAt (fun s : ℝ => ((NodeKind.updAux .pose3d X (s • xi) : SE3).T : I4 → I4 → ℝ)) (hat6 xi * X.T : Mat4) 0 :=
    hasDerivAt_pi.mpr fun i => hasDerivAt_pi.mpr fun j => updateLhs_deriv X xi i j
  have e2 : ((NodeKind.updAux .pose3d X ((0 : ℝ) • xi) : SE3).T : I4 → I4 → ℝ) = X.T :=
    congrArg SE3.T (updateLhs_zero_smul X xi)
  have e1 : ((NodeKind.upd .pose3d X ((0 : ℝ) • xi) : SE3).T : I4 → I4 → ℝ) = X.T :=
    funext fun i => funext fun j => stored_zero hX hT hpi xi i j
  have f1 : HasFDerivAt f (fderiv ℝ f (X.T, γ 0)) ((NodeKind.upd .pose3d X ((0 : ℝ) • xi) : SE3).T, γ 0) := by
    rw [e1]; exact hf.hasFDerivAt
  have k1 := f1.comp_hasDerivAt (0 : ℝ) (h1.prodMk hγ)
  have f2 : HasFDerivAt f (fderiv ℝ f (X.T, γ 0)) ((NodeKind.updAux .pose3d X ((0 : ℝ) • xi) : SE3).T, γ 0) := by
    rw [e2]; exact hf.hasFDerivAt
  have k2 := f2.comp_hasDerivAt (0 : ℝ) (h2.prodMk hγ)
  constructor
  · intro h
    rw [h.unique k1]; exact k2
  · intro h
    rw [h.unique k2]; exact k1

/-- C26, landmarks seen from a pose, along the update of the solver. -/
theorem C26_land3d_stored_partial (obs : Vec3) {X : SE3} (hX : IsRigid X.T) (hT : SafeTurn X.R) (hpi : angle X.R ≠ Real.pi)
    (l : Vec3) (xi : Vec6) (dl : Vec3) :
    HasDerivAt (fun s : ℝ => land3dRes obs (NodeKind.upd .pose3d X (s • xi)) (NodeKind.upd .landmark3d l (s • dl)))
      ((land3dJac X l).1 *ᵥ xi + (land3dJac X l).2 *ᵥ dl) 0 := by
  have hγ : HasDerivAt (fun s : ℝ => l + s • dl) dl 0 := by
    have := ((hasDerivAt_id (0 : ℝ)).smul_const dl).const_add l
    rwa [one_smul] at this
  have e : ∀ (P : SE3) (m : Vec3), land3dRes obs P m = fun i => ∑ j, P.T (.inl j) (.inl i) * (m j - P.T (.inl j) (.inr ())) - obs i := by
    intro P m
    have e1 : land3dRes obs P m = P.Rᵀ *ᵥ (m - P.t) - obs := by
      change (P.inv.R *ᵥ m + P.inv.t) - obs = _
      rw [SE3.R, SE3.t, inv_T, tl3_homog, tr3_homog, neg_mulVec, ← sub_eq_add_neg, ← mulVec_sub]
    rw [e1]; rfl
  have hf : DifferentiableAt ℝ (fun p : (I4 → I4 → ℝ) × Vec3 => (fun i => ∑ j, p.1 (.inl j) (.inl i) * (p.2 j - p.1 (.inl j) (.inr ())) - obs i : Vec3))
      (X.T, (fun s : ℝ => l + s • dl) 0) := by
    fun_prop
  have h := C26_land3d obs hX l xi dl
  simp only [e] at h ⊢
  exact (C26_stored_iff_partial hX hT hpi hγ hf xi _).mpr h

/-- C26, points on planes, along the update of the solver. -/
theorem C26_point2plane_stored_partial (px py ny : Vec3) {X : SE3} (hX : IsRigid X.T) (hT : SafeTurn X.R) (hpi : angle X.R ≠ Real.pi)
    (xi : Vec6) : HasDerivAt (fun s : ℝ => p2planeRes px py ny (NodeKind.upd .pose3d X (s • xi))) (p2planeJac px ny X ⬝ᵥ xi) 0 := by
  have e : ∀ P : SE3, p2planeRes px py ny P = ∑ i, ny i * (∑ j, P.T (.inl i) (.inl j) * px j + P.T (.inl i) (.inr ()) - py i) := by
    intro P
    rfl
  have hf : DifferentiableAt ℝ (fun p : (I4 → I4 → ℝ) × ℝ => ∑ i, ny i * (∑ j, p.1 (.inl i) (.inl j) * px j + p.1 (.inl i) (.inr ()) - py i))
      (X.T, (fun s : ℝ => s) 0) := by
    fun_prop
  have h := C26_point2plane px py ny hX xi
  simp only [e] at h ⊢
  exact (C26_stored_iff_partial hX hT hpi (hasDerivAt_id (0 : ℝ)) hf xi _).mpr h

/-- C26, at a half turn the update loses the first order: the stored pose does not move at all under small turns about the axis. -/
theorem C26_stored_half_fails : ∃ X : SE3, IsRigid X.T ∧ SafeTurn X.R ∧ ∃ (w v : Vec3) (i j : I4),
    ¬ HasDerivAt (fun s : ℝ => (NodeKind.upd .pose3d X (s • vec6 w v) : SE3).T i j) ((twist w v * X.T) i j) 0 := by
  have hrot := rotZ_isRotation Real.pi
  have hz : rotZ Real.pi = !![-1, 0, 0; 0, -1, 0; 0, 0, 1] := by rw [rotZ, Real.cos_pi, Real.sin_pi, neg_zero]
  have hang : angle (rotZ Real.pi) = Real.pi := by
    rw [angle, hz, trace_fin_three]; simp; norm_num
  have hXr : IsRigid (homog (rotZ Real.pi) 0 1) := isRigid_homog hrot 0
  set X : SE3 := ⟨homog (rotZ Real.pi) 0 1⟩ with hX
  have hXR : X.R = rotZ Real.pi := tl3_homog _ _ _
  refine ⟨X, hXr, ?_, ![0, 0, 1], 0, .inl 0, .inl 1, fun h => ?_⟩
  · rw [hXR]
    refine ⟨hrot, Or.inr ⟨by rw [hang]; linarith [Real.pi_gt_three], Or.inr hang, Or.inr ?_⟩⟩
    rintro (h | h)
    · have := congrFun h 0; rw [hz] at this; simp [mulVec, dotProduct, Fin.sum_univ_three] at this; norm_num at this
    · have := congrFun h 0; rw [hz] at this; simp [mulVec, dotProduct, Fin.sum_univ_three] at this; norm_num at this
  · have hval : (twist ![0, 0, 1] 0 * X.T) (.inl 0) (.inl 1) = 1 := by
      rw [twist_eq_hat6, hat6_eq, hX, hz, homog_mul]
      simp [homog, hat3, vec6, head3, mul_apply, Fin.sum_univ_three]
    rw [hval] at h
    set xi : Vec6 := vec6 ![0, 0, 1] 0 with hxi
    set P : ℝ → ℝ := fun s => -((X.updateLhs (s • xi)).R 0 0) with hP
    have hform : ∀ s : ℝ, (X.updateLhs (s • xi)).R = !![-P s, (X.updateLhs (s • xi)).R 0 1, 0; -(X.updateLhs (s • xi)).R 0 1, -P s, 0; 0, 0, 1] := by
      intro s
      have e : (X.updateLhs (s • xi)).R = (SO3.ofVec ![0, 0, s]).R * !![-1, 0, 0; 0, -1, 0; 0, 0, 1] := by
        rw [updateLhs_R (X := X) hXr, hXR, hz]
        congr 3
        rw [hxi]
        funext i; fin_cases i <;> simp [vec6, head3]
      have hP' : P s = -((X.updateLhs (s • xi)).R 0 0) := rfl
      rw [hP', e, ofVec_R, rod]
      ext i j
      fin_cases i <;> fin_cases j <;> simp [hat3, mul_apply, Fin.sum_univ_three]
    have hcont : Tendsto P (𝓝 0) (𝓝 1) := by
      have h1 := (updateLhs_deriv X xi (.inl 0) (.inl 0)).continuousAt.tendsto
      have h2 : (X.updateLhs ((0 : ℝ) • xi)).T (.inl 0) (.inl 0) = -1 := by
        rw [updateLhs_zero_smul, hX, hz]; rfl
      have h3 := h1.neg
      simp only [h2, neg_neg] at h3
      exact h3
    have hnear : ∀ᶠ s in 𝓝 (0 : ℝ), 1 / 2 < P s ∧ lnLargeAngle (cacos (-P s)) = Real.pi := by
      have a1 := hcont.eventually (lt_mem_nhds (show (1 / 2 : ℝ) < 1 by norm_num))
      have a2 : Tendsto (fun s => Real.arccos (-P s)) (𝓝 0) (𝓝 Real.pi) := by
        have := (Real.continuous_arccos.tendsto (-1)).comp hcont.neg
        rwa [Real.arccos_neg_one] at this
      filter_upwards [a1, a2.eventually (lt_mem_nhds (show Real.pi - 6e-8 < Real.pi by norm_num))] with s b1 b2
      refine ⟨b1, ?_⟩
      rw [cacos]
      split
      · exact if_pos (by linarith)
      · rfl
    have hconst : ∀ᶠ s in 𝓝 (0 : ℝ), (NodeKind.upd .pose3d X (s • xi) : SE3).T (.inl 0) (.inl 1) = 0 := by
      filter_upwards [hnear] with s hs
      have e := (regenerate_eq (lastRow_updateLhs hXr.lastRow (s • xi))).1
      have l := ln_near_half (q := (X.updateLhs (s • xi)).R 0 1) hs.1 hs.2
      rw [← hform s] at l
      have e01 := congrFun (congrFun e 0) 1
      refine e01.trans ?_
      change (SO3.ofVec (SO3.mk (X.updateLhs (s • xi)).R).lnVee).R 0 1 = 0
      have hpi := Real.pi_gt_three
      have hv : ∀ w : ℝ, sqNorm ![0, 0, w] = w ^ 2 := fun w => by simp [sqNorm, dotProduct, Fin.sum_univ_three, sq]
      have hn : ∀ w : ℝ, |w| = Real.pi → expC1 (vnorm ![0, 0, w]) (sqNorm ![0, 0, w]) = 0 := by
        intro w hw
        rw [vnorm, hv, Real.sqrt_sq_eq_abs, hw, expC1, if_neg (by linarith), Real.sin_pi, zero_div]
      rcases l with l | l
      · rw [l, ofVec_R, hn _ (abs_of_pos Real.pi_pos), rod]
        simp [hat3, mul_apply, Fin.sum_univ_three]
      · rw [l, ofVec_R, hn _ (by rw [abs_neg, abs_of_pos Real.pi_pos]), rod]
        simp [hat3, mul_apply, Fin.sum_univ_three]
    exact one_ne_zero (h.unique ((hasDerivAt_const (0 : ℝ) (0 : ℝ)).congr_of_eventuallyEq hconst))

/-- Poses that meet the hypotheses: a turn by half a radian. -/
example : IsRigid (homog (rotX (1 / 2)) ![1, 2, 3] 1) ∧ SafeTurn (rotX (1 / 2)) ∧ angle (rotX (1 / 2)) ≠ Real.pi := by
  have hp := Real.pi_gt_three
  have ha := angle_rotX (show (0 : ℝ) ≤ 1 / 2 by norm_num) (by linarith)
  have hr := rotX_isRotation (1 / 2)
  refine ⟨isRigid_homog hr _, ⟨hr, Or.inr ?_⟩, by rw [ha]; linarith⟩
  rw [ha]
  exact ⟨by norm_num, Or.inl (by linarith), Or.inl (by linarith)⟩

end Mrob
