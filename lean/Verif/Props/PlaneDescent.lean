import Verif.Lemmas.PlaneDescent
import Verif.Props.PlaneLast

/-! # Property C90: the gradient modes of the plane registration reduce the error -/

open Matrix

namespace Mrob

open Spec PlaneReg

/-- C90 for `solve_gradient_all_poses`: with a small step size, a step of the loop does not increase the registration error,
and reduces it when it changes the trajectory. -/
theorem C90_all_poses (e : EigSolver) (he : e.Sound) (s : PlaneReg) (hi : s.PoseInv) (hp : s.Prepared)
    (ht : ∀ T ∈ s.traj, IsRigid T.T) (hn : 2 ≤ s.numberPoses) : ∃ a₀ > 0, ∀ a, 0 < a → a < a₀ →
      ∀ err s1 err' s2, allPosesStep e { s with alpha := a } = .ok (err, s1) → s1.error e = .ok (err', s2) →
        err' ≤ err ∧ (s1.traj ≠ s.traj → err' < err) := by
  have hl := hi.len (by omega)
  have ht' : ∀ T ∈ s.traj, LastRow T.T := fun T hT => (ht T hT).lastRow
  set d : ℕ → Vec6 := fun t => if t = 0 then 0 else
    -(((s.seen (s.numberPoses - 1) : ℝ)⁻¹ * (s.numberPoses : ℝ)⁻¹) • s.poseGrad e t) with hd
  have key : ∀ a err s1 err' s2, allPosesStep e { s with alpha := a } = .ok (err, s1) → s1.error e = .ok (err', s2) →
      err = errOf e s.planes s.traj ∧ s1.traj = s.movedTraj (a • d) ∧ err' = errOf e s.planes (s.movedTraj (a • d)) ∧
        s.seen (s.numberPoses - 1) ≠ 0 := by
    intro a err s1 err' s2 h1 h2
    obtain ⟨k1, k2, k3, k4, k5⟩ := allPosesStep_value (s := { s with alpha := a }) (hi.frame rfl rfl rfl) hp hn h1
    have k6 : s1.traj = s.movedTraj (a • d) := by
      rw [k5]
      change s.movedTraj _ = _
      congr 1
      funext t
      rw [Pi.smul_apply, hd]
      dsimp only
      split_ifs with h0
      · rw [smul_zero]
      · rw [smul_neg, smul_smul]
        congr 2
        change a / s.seen (s.numberPoses - 1) / s.numberPoses = _
        rw [div_eq_mul_inv, div_eq_mul_inv, mul_assoc]
    refine ⟨k1, k6, ?_, k2⟩
    have k7 : err' = errOf e s1.planes s1.traj := (error_ok k3.wf h2).1
    rw [k7, k3.errOf, k6]
  have hmv : ∀ a : ℝ, ∀ T ∈ s.movedTraj (a • d), LastRow T.T := by
    intro a T hT
    obtain ⟨t, -, rfl⟩ := List.mem_map.mp hT
    exact lastRow_updateLhs (lastRow_poseNow ht' t) _
  have h0 : s.movedTraj ((0 : ℝ) • d) = s.traj := by rw [zero_smul, movedTraj_zero hl]
  by_cases hz : ∀ t < s.numberPoses, d t = 0
  · refine ⟨1, one_pos, fun a _ _ err s1 err' s2 h1 h2 => ?_⟩
    obtain ⟨k1, k2, k3, -⟩ := key a err s1 err' s2 h1 h2
    have : s.movedTraj (a • d) = s.traj := by
      rw [← movedTraj_zero hl]
      refine List.map_congr_left fun t ht => ?_
      rw [Pi.smul_apply, hz t (List.mem_range.mp ht), smul_zero, Pi.zero_apply]
    rw [this] at k2 k3
    exact ⟨by rw [k3, k1], fun h => absurd k2 h⟩
  have hc : 0 < (s.seen (s.numberPoses - 1) : ℝ)⁻¹ * (s.numberPoses : ℝ)⁻¹ := by
    have h1 : s.seen (s.numberPoses - 1) ≠ 0 := by
      intro hs
      apply hz
      intro t _
      rw [hd]
      dsimp only
      rw [hs]
      simp
    have h2 : (0 : ℝ) < s.seen (s.numberPoses - 1) := by exact_mod_cast Nat.pos_of_ne_zero h1
    have h3 : (0 : ℝ) < s.numberPoses := by exact_mod_cast (by omega : 0 < s.numberPoses)
    positivity
  have hneg : ∑ t ∈ Finset.range s.numberPoses, s.poseGrad e t ⬝ᵥ d t < 0 := by
    have hG : ∀ t, s.poseGrad e t ⬝ᵥ d t =
        if t = 0 then 0 else -(((s.seen (s.numberPoses - 1) : ℝ)⁻¹ * (s.numberPoses : ℝ)⁻¹) * (s.poseGrad e t ⬝ᵥ s.poseGrad e t)) := by
      intro t
      rw [hd]
      dsimp only
      split_ifs
      · rw [dotProduct_zero]
      · rw [dotProduct_neg, dotProduct_smul, smul_eq_mul]
    push Not at hz
    obtain ⟨t, htn, htd⟩ := hz
    refine Finset.sum_neg' (fun t _ => ?_) ⟨t, Finset.mem_range.mpr htn, ?_⟩
    · rw [hG]
      split_ifs
      · exact le_rfl
      · exact neg_nonpos.mpr (mul_nonneg hc.le (dot_self_nonneg6 _))
    · rw [hG]
      have h00 : t ≠ 0 := fun h => htd (by rw [hd]; exact if_pos h)
      rw [if_neg h00]
      refine neg_lt_zero.mpr (mul_pos hc (lt_of_le_of_ne (dot_self_nonneg6 _) fun h => htd ?_))
      rw [hd]
      dsimp only
      rw [if_neg h00, dotProduct_self_eq_zero.mp h.symm, smul_zero, neg_zero]
  obtain ⟨a₀, ha, hlt⟩ := decrease (moved_deriv (e := e) hp hl ht' d) hneg
  refine ⟨a₀, ha, fun a h1 h2 err s1 err' s2 h3 h4 => ?_⟩
  obtain ⟨k1, k2, k3, -⟩ := key a err s1 err' s2 h3 h4
  have h5 := hlt a h1 h2
  rw [h0, ← errOf_eq he hp ht', ← k1] at h5
  have h6 := (errOf_le he hp (hmv a)).trans_lt h5
  rw [← k3] at h6
  exact ⟨h6.le, fun _ => h6⟩

/-- C90 for `solve_interpolate_gradient`, when all poses after the first see the same number of points, and there are two
poses or the trajectory is the initial one: with a small step size, a step without momentum does not increase the registration
error, and reduces it when it changes the trajectory.  Missing: poses which see different numbers of points
(`C90_interpolated_fails`), later steps on more than two poses, steps with momentum. -/
theorem C90_interpolated_partial (e : EigSolver) (he : e.Sound) (s : PlaneReg) (T : SE3) (h : s.Ready T)
    (hT : s.numberPoses = 2 ∧ IsRigid T.T ∨ T = SE3.default)
    (hk : ∀ t, 0 < t → t < s.numberPoses → s.seen t = s.seen 1)
    (hm : s.mode = .gradient ∨ s.mode = .gradientBengiosNag ∧ -1 < s.beta ∧ s.prev.getLast? = some 0) :
    ∃ a₀ > 0, ∀ a, 0 < a → a < a₀ → ∀ err s1 err' s2, gradStep e { s with alpha := a } = .ok (err, s1) →
      s1.error e = .ok (err', s2) → err' ≤ err ∧ (s1.traj ≠ s.traj → err' < err) := by
  have hn := h.two
  have hl := h.pose.len (by omega)
  have hp := h.prepared
  have hk' : ∀ t ∈ s.times, s.seen t = s.seen 1 := fun t ht => by
    rw [times, List.mem_range'_1] at ht
    exact hk t (by omega) (by omega)
  have hTr : LastRow T.T := by
    rcases hT with h | h
    · exact h.2.lastRow
    · rw [h]; exact rigid_default.lastRow
  have htr : s.traj = trajTo s.numberPoses T := interpolated_traj h.pose h.two h.interp h.last
  obtain ⟨g, H, s', hg⟩ : ∃ g H s', s.gradHess6 e = .ok ((g, H), s') := by
    obtain ⟨s', hg, -⟩ := gradHess6_value (e := e) h.wf hl.ge h.time
    exact ⟨_, _, s', hg⟩
  have hderiv : ∀ xi : Vec6, ∃ E : ℝ → ℝ, (∀ k : ℝ, s'.lastCost (k • xi) = .ok (E k)) ∧ HasDerivAt E (g ⬝ᵥ xi) 0 := by
    intro xi
    rcases hT with h2 | h2
    · exact C65_gradient_two_poses_partial e s T h h2.1 h2.2 g H s' hg xi
    · have e1 : SE3.default = ⟨homog 1 0 1⟩ := by rw [SE3.default, homog_one]
      rw [h2, e1] at h
      exact C65_gradient_translation_partial e s 0 h g H s' hg xi (mulVec_zero _)
  set m : ℝ := if s.mode = .gradient then 1 else 1 + s.beta with hmd
  have hm0 : 0 < m := by
    rw [hmd]
    split_ifs with h1
    · exact one_pos
    · have := (hm.resolve_left h1).2.1
      linarith
  set c : ℝ := m * ((s.seen 1 : ℝ)⁻¹ * (s.numberPoses : ℝ)⁻¹) with hc
  have key : ∀ a err s1 err' s2, gradStep e { s with alpha := a } = .ok (err, s1) → s1.error e = .ok (err', s2) →
      err = errOf e s.planes s.traj ∧ s1.traj = trajTo s.numberPoses (T.updateLhs (a • (-(c • g)))) ∧
        err' = errOf e s.planes (trajTo s.numberPoses (T.updateLhs (a • (-(c • g))))) ∧ 0 < c := by
    intro a err s1 err' s2 h1 h2
    obtain ⟨k1, k2, k3, dxi, ps, prev, k4, k5⟩ := gradStep_value (s := { s with alpha := a }) (h.pose.frame rfl rfl rfl) hp hn
      h.last h1
    have k6 : dxi = a • (-(c • g)) := by
      have hacc : accOf e { s with alpha := a } = ((s.seen 1 : ℝ)⁻¹ * (s.numberPoses : ℝ)⁻¹) • g := accOf_eq h hg hk'
      rcases k5 with ⟨q1, q2, -⟩ | ⟨q1, v, q2, q3, -⟩
      · have q1 : s.mode = .gradient := q1
        rw [q2, hacc, hc, hmd, if_pos q1, one_mul, smul_neg]
      · have q1 : s.mode = .gradientBengiosNag := q1
        have hne : s.mode ≠ .gradient := by rw [q1]; decide
        have q2 : s.prev.getLast? = some v := q2
        rw [(hm.resolve_left hne).2.2] at q2
        cases q2
        rw [q3, hacc, hc, hmd, if_neg hne, smul_zero, zero_sub, smul_neg, smul_smul, smul_smul]
        congr 2
        change (1 + s.beta) * a * _ = _
        ring
    have k7 : s1.traj = trajTo s.numberPoses (T.updateLhs (a • (-(c • g)))) := by rw [k4, ← k6]
    have k8 : err' = errOf e s1.planes s1.traj := (error_ok k3.wf h2).1
    refine ⟨k1, k7, by rw [k8, k3.errOf, k7], ?_⟩
    have h1 : s.seen 1 ≠ 0 := k2 1 (by rw [times, List.mem_range'_1]; exact ⟨le_rfl, by change 1 < 1 + (s.numberPoses - 1); omega⟩)
    have h2 : (0 : ℝ) < s.seen 1 := by exact_mod_cast Nat.pos_of_ne_zero h1
    have h3 : (0 : ℝ) < s.numberPoses := by exact_mod_cast (by omega : 0 < s.numberPoses)
    positivity
  by_cases hz : c • g = 0
  · refine ⟨1, one_pos, fun a _ _ err s1 err' s2 h1 h2 => ?_⟩
    obtain ⟨k1, k2, k3, -⟩ := key a err s1 err' s2 h1 h2
    rw [hz, neg_zero, smul_zero, updateLhs_zero', ← htr] at k2 k3
    exact ⟨by rw [k3, k1], fun h => absurd k2 h⟩
  obtain ⟨E, hE, hd⟩ := hderiv (-(c • g))
  have hg0 : 0 < g ⬝ᵥ g := lt_of_le_of_ne (dot_self_nonneg6 g) fun h0 => hz (by rw [dotProduct_self_eq_zero.mp h0.symm, smul_zero])
  have hcpos : 0 < c := by
    refine lt_of_le_of_ne ?_ fun h0 => hz (by rw [← h0, zero_smul])
    exact mul_nonneg hm0.le (mul_nonneg (inv_nonneg.mpr (Nat.cast_nonneg _)) (inv_nonneg.mpr (Nat.cast_nonneg _)))
  obtain ⟨a₀, ha, hlt⟩ := decrease hd (by
    rw [dotProduct_neg, dotProduct_smul, smul_eq_mul]
    exact neg_lt_zero.mpr (mul_pos hcpos hg0))
  have hEa : ∀ a, E a = (s.planes.map fun q => planeCost (planeOf e s q.2)
      ((trajTo s.numberPoses (T.updateLhs (a • (-(c • g))))).map SE3.T) q.2.points).sum := by
    intro a
    have := hE a
    rw [h.cost hg, Out.ok.injEq] at this
    exact this.symm
  refine ⟨a₀, ha, fun a h1 h2 err s1 err' s2 h3 h4 => ?_⟩
  obtain ⟨k1, k2, k3, -⟩ := key a err s1 err' s2 h3 h4
  have h5 := hlt a h1 h2
  have h0 : E 0 = errOf e s.planes s.traj := by
    rw [hEa, zero_smul, updateLhs_zero', ← htr, errOf_eq he hp]
    rw [htr, trajTo_eq]
    intro X hX
    obtain ⟨t, -, rfl⟩ := List.mem_map.mp hX
    exact lastRow_poseAt hTr t
  rw [hEa, h0, ← k1] at h5
  have h6 := (errOf_le he hp (traj := trajTo s.numberPoses (T.updateLhs (a • (-(c • g))))) (by
    intro X hX
    rw [trajTo_eq] at hX
    obtain ⟨t, -, rfl⟩ := List.mem_map.mp hX
    exact lastRow_poseAt (lastRow_updateLhs hTr _) t)).trans_lt h5
  rw [← k3] at h6
  exact ⟨h6.le, fun _ => h6⟩

end Mrob
