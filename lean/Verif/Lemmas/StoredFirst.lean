import Verif.Lemmas.UpdateFirst

/-!
# The stored pose to first order
-/

open Matrix Filter Topology Asymptotics

namespace Mrob

open Spec

attribute [local instance] Matrix.linftyOpNormedAddCommGroup Matrix.linftyOpNormedSpace Matrix.linftyOpNormedRing

theorem poseNear_const {X : SE3} (hX : IsRigid X.T) : PoseNear (𝓝 (0 : ℝ)) (fun s => s) (fun _ => X) X (fun _ => 1) fun _ => 0 := by
  refine ⟨hX, Eventually.of_forall fun _ => ?_, ⟨tendsto_const_nhds, ?_, ?_, ?_⟩, isBigO_zero _ _⟩
  · rw [homog_one, one_mul]
  · have : skewVec (1 : Mat3) = 0 := by funext i; fin_cases i <;> simp [skewVec]
    simp only [this]; exact isBigO_zero _ _
  · simp only [transpose_one, mul_one, sub_self]; exact isLittleO_zero _ _
  · simp only [transpose_one, mul_one, sub_self]; exact isLittleO_zero _ _

theorem lineO (xi : Vec6) (i : I6) : (fun s : ℝ => (-(s • xi)) i) =O[𝓝 0] fun s => s := by
  refine (IsBigO.const_mul_left (isBigO_refl (fun s : ℝ => s) (𝓝 0)) (-xi i)).congr_left fun s => ?_
  simp [mul_comm]

theorem stored_small {X : SE3} (hX : IsRigid X.T) (hT : SafeTurn X.R) (hpi : angle X.R ≠ Real.pi) (xi : Vec6) (i j : I4) :
    (fun s : ℝ => (X.updateLhs (s • xi)).regenerate.T i j - (X.updateLhs (s • xi)).T i j) =o[𝓝 0] fun s : ℝ => s := by
  have h := (poseNear_const hX).regenerate_first tendsto_id (lineO xi) hT hpi (Eventually.of_forall fun _ => Or.inl (rigid_R hX))
  simp only [neg_neg] at h
  have hrow : ∀ s : ℝ, LastRow (X.updateLhs (s • xi)).T := fun s => lastRow_updateLhs hX.lastRow _
  rcases i with i | i <;> rcases j with j | j
  · exact mat_littleO.mp h.1 i j
  · exact isLittleO_pi.mp h.2 i
  · refine (isLittleO_zero (fun s : ℝ => s) (𝓝 0) (E' := ℝ)).congr_left fun s => ?_
    rw [(regenerate_eq (hrow s)).2.2.1 j, (hrow s).1 j, sub_zero]
  · refine (isLittleO_zero (fun s : ℝ => s) (𝓝 0) (E' := ℝ)).congr_left fun s => ?_
    exact (sub_eq_zero.mpr ((regenerate_eq (hrow s)).2.2.2.trans (hrow s).2.symm)).symm

theorem stored_zero {X : SE3} (hX : IsRigid X.T) (hT : SafeTurn X.R) (hpi : angle X.R ≠ Real.pi) (xi : Vec6) (i j : I4) :
    (X.updateLhs ((0 : ℝ) • xi)).regenerate.T i j = X.T i j := by
  have := ((stored_small hX hT hpi xi i j).def one_pos).self_of_nhds
  rw [norm_zero, mul_zero, norm_le_zero_iff, sub_eq_zero, updateLhs_zero_smul] at this
  rw [updateLhs_zero_smul]; exact this

/-- The logarithm of turns about the vertical axis close to a half turn is that of the half turn. -/
theorem ln_near_half {p q : ℝ} (hp : 1 / 2 < p) (h : lnLargeAngle (cacos (-p)) = Real.pi) :
    (SO3.mk !![-p, q, 0; -q, -p, 0; 0, 0, 1]).lnVee = ![0, 0, Real.pi] ∨ (SO3.mk !![-p, q, 0; -q, -p, 0; 0, 0, 1]).lnVee = ![0, 0, -Real.pi] := by
  set R : Mat3 := !![-p, q, 0; -q, -p, 0; 0, 0, 1] with hR
  have hc : cosOf R = -p := by
    rw [cosOf, trace_fin_three]; simp [hR]; ring
  have hw : lnNormalize (lnColumn R (Real.cos Real.pi)) Real.pi = ![0, 0, Real.pi] := by
    have e : lnColumn R (Real.cos Real.pi) = ![0, 0, 2] := by
      rw [lnColumn, if_neg, if_neg]
      · rw [Real.cos_pi]; funext i; fin_cases i <;> simp [hR] <;> norm_num
      · rintro ⟨-, h⟩; simp [hR] at h; linarith
      · rintro ⟨-, h⟩; simp [hR] at h; linarith
    have en : vnorm ![(0 : ℝ), 0, 2] = 2 := by
      rw [vnorm, show sqNorm ![(0 : ℝ), 0, 2] = 2 ^ 2 by simp [sqNorm, dotProduct, Fin.sum_univ_three]; norm_num]
      exact Real.sqrt_sq (by norm_num)
    rw [e, lnNormalize, en, if_pos (by norm_num)]
    funext i; fin_cases i <;> simp
  have hl : so3Ln R = (lnSign R (hat3 ![0, 0, Real.pi]), Real.pi) := by
    rw [so3Ln_unfold, hc, if_neg (by linarith)]
    simp only [lnLarge, h]
    rw [hw]
  have e : (SO3.mk R).lnVee = vee3 (so3Ln R).1 := rfl
  rw [e, hl, lnSign_hat3]
  split
  · right; rw [vee3_hat3]; funext i; fin_cases i <;> simp
  · left; rw [vee3_hat3]

end Mrob
