import Verif.Lemmas.ExpCurve
import Verif.Lemmas.PlaneReg
import Verif.Props.SE3Ln
import Verif.Props.SE3
import Verif.Props.PlaneGrad
import Verif.Spec.Registration

/-! # Property C67: the distance between a trajectory and the ground truth -/

open Matrix NormedSpace

namespace Mrob

open Spec

namespace PlaneReg

/-- The traversal behind `calculate_poses_rmse`. -/
theorem rmse_terms {n : ℕ} (hn : n ≠ 0) (traj : List SE3) : ∀ (gt : List SE3) (k : ℕ), k + gt.length ≤ traj.length →
    Out.traverse (fun (pose, t) => Out.atT traj t >>= fun T =>
      let dxi := (T.mul pose.inv).lnVee
      if n = 0 then .nan else .ok (dxi ⬝ᵥ dxi / n)) (gt.zipIdx k) =
      .ok (List.zipWith (fun T G => (T.mul G.inv).lnVee ⬝ᵥ (T.mul G.inv).lnVee / n) (traj.drop k) gt)
  | [], k, _ => by rw [List.zipIdx_nil, List.zipWith_nil_right]; rfl
  | G :: gt, k, h => by
    rw [List.length_cons] at h
    have hk : k < traj.length := by omega
    have ih := rmse_terms hn traj gt (k + 1) (by omega)
    rw [List.zipIdx_cons, List.drop_eq_getElem_cons hk, List.zipWith_cons_cons]
    rw [Out.traverse, ih]
    dsimp only
    rw [Out.atT_ok hk, Out.ok_bind, if_neg hn, Out.ok_bind, Out.ok_bind]

theorem rmse_late {n : ℕ} (traj : List SE3) : ∀ (gt : List SE3) (k : ℕ), traj.length < k + gt.length →
    k ≤ traj.length → n ≠ 0 →
    Out.traverse (fun (pose, t) => Out.atT traj t >>= fun T =>
      let dxi := (T.mul pose.inv).lnVee
      if n = 0 then .nan else .ok (dxi ⬝ᵥ dxi / n)) (gt.zipIdx k) = .throw
  | [], k, h, hk, _ => by rw [List.length_nil] at h; omega
  | G :: gt, k, h, hk, hn => by
    rw [List.length_cons] at h
    rw [List.zipIdx_cons, Out.traverse]
    dsimp only
    rcases Nat.lt_or_ge k traj.length with h1 | h1
    · rw [Out.atT_ok h1, Out.ok_bind, if_neg hn, Out.ok_bind, rmse_late traj gt (k + 1) (by omega) h1 hn]
      rfl
    · rw [Out.atT, List.getElem?_eq_none h1]
      rfl

end PlaneReg

open PlaneReg

/-- The logarithm of a rigid motion vanishes for the identity only, away from half turns about horizontal diagonals. -/
theorem lnVee_eq_zero {a : SE3} (ha : IsRigid a.T) (hax : angle a.R < Real.pi / 2 ∨ ¬ FixesDiagonal a.R) :
    a.lnVee = 0 ↔ a.T = 1 := by
  constructor
  · intro h
    rw [se3_lnVee ha] at h
    have h1 : (SO3.mk a.R).lnVee = 0 := by
      have := congrArg head3 h
      rw [head3_vec6] at this
      exact this
    have h2 := congrArg tail3 h
    rw [tail3_vec6, h1, vInv_zero, one_mulVec] at h2
    have h2 : a.t = 0 := h2
    rw [rigid_T ha, (C07_zero_iff_partial (rigid_R ha) hax).mp h1, h2, homog_one]
  · intro h
    have : a = ⟨homog 1 0 1⟩ := by ext1; rw [h, homog_one]
    rw [this, lnVee_translation]
    funext i; rcases i with i | i <;> rfl

theorem sq_nonneg' {ι : Type*} [Fintype ι] (x : ι → ℝ) : 0 ≤ x ⬝ᵥ x := by
  exact Finset.sum_nonneg fun i _ => mul_self_nonneg _

namespace PlaneReg

/-- The value of `calculate_poses_rmse` for lists of the same length. -/
theorem posesRmse_eq {s : PlaneReg} {gt : List SE3} (hn : s.numberPoses ≠ 0) (hg : gt.length ≤ s.traj.length) :
    s.posesRmse gt = .ok (Real.sqrt (List.zipWith (fun T G => (SE3.mul T G.inv).lnVee ⬝ᵥ (SE3.mul T G.inv).lnVee /
      s.numberPoses) s.traj gt).sum) := by
  rw [posesRmse, rmse_terms hn s.traj gt 0 (by omega), Out.ok_bind, List.drop_zero]

end PlaneReg

/-- C67: when the poses are obtained from the true poses `G` by screw motions `exp (w, v)`, `calculate_poses_rmse` is the root
mean square of the lengths of the twists `(w, v)`; for translations this is the root mean square of the distances.  Missing:
angles below `5e-3`, angles near a half turn and the diagonals (`C67_zero_fails`). -/
theorem C67_rms_partial (s : PlaneReg) (l : List (Vec3 × Vec3 × SE3)) (hn : l.length = s.numberPoses) (h0 : l ≠ [])
    (hG : ∀ p ∈ l, IsRigid p.2.2.T)
    (hw : ∀ p ∈ l, p.1 = 0 ∨ (5e-3 < len p.1 ∧ len p.1 ≤ Real.pi - 6e-8))
    (hax : ∀ p ∈ l, ¬ (Real.pi / 2 ≤ len p.1 ∧ p.1 2 = 0 ∧ |p.1 0| = |p.1 1|))
    (ht : s.traj = l.map fun p => ⟨exp (twist p.1 p.2.1) * p.2.2.T⟩) :
    s.posesRmse (l.map fun p => p.2.2) = .ok (rms (l.map fun p => Real.sqrt (len p.1 ^ 2 + len p.2.1 ^ 2))) := by
  have hne : s.numberPoses ≠ 0 := by
    rw [← hn]
    exact fun h => h0 (List.length_eq_zero_iff.mp h)
  rw [posesRmse_eq hne (by rw [ht, List.length_map, List.length_map]), ht, rms, List.length_map, hn]
  congr 2
  rw [List.zipWith_map, List.map_map, div_eq_mul_inv, ← List.sum_map_mul_right, List.zipWith_self]
  refine congrArg List.sum (List.map_congr_left fun p hp => ?_)
  have h1 : SE3.mul ⟨exp (twist p.1 p.2.1) * p.2.2.T⟩ p.2.2.inv = SE3.ofVec (vec6 p.1 p.2.1) := by
    ext1
    change exp (twist p.1 p.2.1) * p.2.2.T * p.2.2.inv.T = _
    rw [mul_assoc, mul_inv_cancel' (hG p hp), mul_one, C08_exp_exact _ _ ((hw p hp).symm.imp_left fun h => lt_trans (by norm_num) h.1)]
  rw [h1, C13_ln_exp_partial (hw p hp) (hax p hp)]
  have h2 : vec6 p.1 p.2.1 ⬝ᵥ vec6 p.1 p.2.1 = len p.1 ^ 2 + len p.2.1 ^ 2 := by
    rw [len, len, Real.sq_sqrt (sq_nonneg' _), Real.sq_sqrt (sq_nonneg' _)]
    simp [dotProduct, vec6, Fintype.sum_sum_type]
  rw [h2, Function.comp_apply, Real.sq_sqrt (by positivity), div_eq_mul_inv]

/-- C67: for rigid poses which do not differ by a right angle or more about a horizontal diagonal, the value is zero exactly
when every pose is the true one.  Missing: the diagonals, where it fails (`C67_zero_fails`). -/
theorem C67_zero_partial (s : PlaneReg) (gt : List SE3) (hn : s.numberPoses ≠ 0) (hl : s.traj.length = s.numberPoses)
    (hg : gt.length = s.numberPoses) (hr : ∀ p ∈ s.traj.zip gt, IsRigid p.1.T ∧ IsRigid p.2.T)
    (hax : ∀ p ∈ s.traj.zip gt, angle (p.1.R * p.2.Rᵀ) < Real.pi / 2 ∨ ¬ FixesDiagonal (p.1.R * p.2.Rᵀ)) :
    ∃ r, s.posesRmse gt = .ok r ∧ 0 ≤ r ∧ (r = 0 ↔ s.traj = gt) := by
  refine ⟨_, posesRmse_eq hn (by rw [hg, hl]), Real.sqrt_nonneg _, ?_⟩
  have hpos : (0 : ℝ) < s.numberPoses := by exact_mod_cast Nat.pos_of_ne_zero hn
  have hlen : s.traj.length = gt.length := by rw [hl, hg]
  generalize s.traj = tr at *
  generalize (s.numberPoses : ℝ) = n at *
  clear hl hg hn
  have key : 0 ≤ (List.zipWith (fun T G => (SE3.mul T G.inv).lnVee ⬝ᵥ (SE3.mul T G.inv).lnVee / n) tr gt).sum ∧
      ((List.zipWith (fun T G => (SE3.mul T G.inv).lnVee ⬝ᵥ (SE3.mul T G.inv).lnVee / n) tr gt).sum = 0 ↔ tr = gt) := by
    induction tr generalizing gt with
    | nil => cases gt with
      | nil => simp
      | cons a l => simp at hlen
    | cons T tr ih => cases gt with
      | nil => simp at hlen
      | cons G gt =>
        have ih := ih gt (fun p hp => hr p (List.mem_cons_of_mem _ hp)) (fun p hp => hax p (List.mem_cons_of_mem _ hp))
          (by simpa using hlen)
        obtain ⟨r1, r2⟩ := hr (T, G) List.mem_cons_self
        have hGi := inv_isRigid r2
        have hd : (SE3.mul T G.inv).lnVee ⬝ᵥ (SE3.mul T G.inv).lnVee / n = 0 ↔ T = G := by
          rw [div_eq_zero_iff, or_iff_left hpos.ne', dotProduct_self_eq_zero, lnVee_eq_zero (mul_isRigid r1 hGi)
            (by rw [mul_R r1 hGi]; exact hax (T, G) List.mem_cons_self)]
          constructor
          · intro h
            have h : T.T * G.inv.T = 1 := h
            ext1
            calc T.T = T.T * (G.inv.T * G.T) := by rw [inv_mul_cancel' r2, mul_one]
              _ = G.T := by rw [← mul_assoc, h, one_mul]
          · rintro rfl
            exact mul_inv_cancel' r2
        have hp := div_nonneg (sq_nonneg' (SE3.mul T G.inv).lnVee) hpos.le
        rw [List.zipWith_cons_cons, List.sum_cons]
        refine ⟨add_nonneg hp ih.1, ?_⟩
        rw [add_eq_zero_iff_of_nonneg hp ih.1, hd, ih.2, List.cons.injEq]
  rw [Real.sqrt_eq_zero key.1, key.2]

/-- C67 fails at a half turn about a horizontal diagonal: the error is reported as zero. -/
theorem C67_zero_fails (e : EigSolver) (svd : Mat3 → SVD3) : ∃ s gt,
    PlaneReg.run e svd [.setNumbers 0 2] (OptDense.new PlaneReg.new) = .ok s ∧ s.obj.numberPoses = 2 ∧
      gt.length = 2 ∧ (∀ G ∈ gt, IsRigid G.T) ∧ s.obj.posesRmse gt = .ok 0 ∧ s.obj.traj ≠ gt := by
  have hH : IsRigid (SE3.mk (homog halfDiag 0 1)).T := isRigid_homog halfDiag_isRotation 0
  have hang : angle halfDiag = Real.pi := by
    rw [angle, trace_fin_three]; simp [halfDiag]; norm_num
  have hz : (SE3.mk (homog halfDiag 0 1)).lnVee = 0 := by
    have := (C05_diagonal_fails halfDiag_isRotation (Or.inl (by
      funext i; fin_cases i <;> simp [halfDiag, mulVec, dotProduct, Fin.sum_univ_three]))
      (by rw [hang]; have := Real.pi_pos; linarith) (Or.inr hang)).1
    have h2 : (SE3.mk (homog halfDiag 0 1)).R = halfDiag := tl3_homog _ _ _
    have h3 : (SE3.mk (homog halfDiag 0 1)).t = 0 := tr3_homog _ _ _
    rw [se3_lnVee hH, h2, h3, this, mulVec_zero]
    funext i; rcases i with i | i <;> rfl
  have hinv : SE3.mul SE3.default (SE3.mk (homog halfDiag 0 1)).inv = SE3.mk (homog halfDiag 0 1) := by
    have h2 : (SE3.mk (homog halfDiag 0 1)).R = halfDiag := tl3_homog _ _ _
    have h3 : (SE3.mk (homog halfDiag 0 1)).t = 0 := tr3_homog _ _ _
    ext1
    change (1 : Mat4) * homog _ _ 1 = _
    rw [one_mul, h2, h3, mulVec_zero]
    congr 1
    ext i j; fin_cases i <;> fin_cases j <;> rfl
  have h1 : (SE3.mul SE3.default SE3.default.inv).lnVee = 0 := by
    have : SE3.mul SE3.default SE3.default.inv = ⟨homog 1 0 1⟩ := by
      ext1
      rw [homog_one]
      exact mul_inv_cancel' rigid_default
    rw [this, lnVee_translation]
    funext i; rcases i with i | i <;> rfl
  refine ⟨_, [SE3.default, ⟨homog halfDiag 0 1⟩], rfl, rfl, rfl, ?_, ?_, ?_⟩
  · intro G hG
    rcases List.mem_cons.mp hG with rfl | hG
    · exact rigid_default
    · rw [List.mem_singleton.mp hG]; exact hH
  · rw [posesRmse_eq (by exact two_ne_zero) (by exact le_refl 2)]
    change Out.ok (Real.sqrt (List.zipWith _ [SE3.default, SE3.default] _).sum) = _
    rw [List.zipWith_cons_cons, List.zipWith_cons_cons, h1, hinv, hz]
    simp
  · intro h
    have h : [SE3.default, SE3.default] = [SE3.default, (⟨homog halfDiag 0 1⟩ : SE3)] := h
    have h := congrArg SE3.R (List.cons.inj (List.cons.inj h).2).1
    have h2 : (SE3.mk (homog halfDiag 0 1)).R = halfDiag := tl3_homog _ _ _
    rw [h2] at h
    have h := congrFun (congrFun h 2) 2
    have e1 : SE3.default.R 2 2 = 1 := by
      change (1 : Mat4) (Sum.inl 2) (Sum.inl 2) = 1
      exact Matrix.one_apply_eq _
    rw [e1] at h
    have h : (1 : ℝ) = -1 := h
    norm_num at h

/-- C67: the assertion allows more true poses than poses, but then the function throws. -/
theorem C67_longer_fails (s : PlaneReg) (gt : List SE3) (hn : s.numberPoses ≠ 0) (hl : s.traj.length = s.numberPoses)
    (hg : s.numberPoses < gt.length) : s.posesRmse gt = .throw := by
  rw [posesRmse, rmse_late s.traj gt 0 (by omega) (Nat.zero_le _) hn]
  rfl

/-- Two poses: the identity, and a quarter turn about `z` with a translation, which meet the hypotheses of `C67_rms_partial`. -/
example : ∃ l : List (Vec3 × Vec3 × SE3), l.length = 2 ∧ (∀ p ∈ l, IsRigid p.2.2.T) ∧
    (∀ p ∈ l, p.1 = 0 ∨ (5e-3 < len p.1 ∧ len p.1 ≤ Real.pi - 6e-8)) ∧
    (∀ p ∈ l, ¬ (Real.pi / 2 ≤ len p.1 ∧ p.1 2 = 0 ∧ |p.1 0| = |p.1 1|)) ∧ ∃ p ∈ l, p.1 ≠ 0 ∧ p.2.1 ≠ 0 := by
  have hl : len (![0, 0, 1] : Vec3) = 1 := by
    rw [len]; simp [dotProduct, Fin.sum_univ_three]
  have h0 : len (0 : Vec3) = 0 := by rw [len]; simp
  have hp := Real.pi_gt_three
  refine ⟨[(0, 0, SE3.default), (![0, 0, 1], ![1, 2, 3], SE3.default)], rfl, ?_, ?_, ?_, ?_⟩
  · intro p hp
    rcases List.mem_cons.mp hp with rfl | hp
    · exact rigid_default
    · rw [List.mem_singleton.mp hp]; exact rigid_default
  · intro p hp
    rcases List.mem_cons.mp hp with rfl | hp
    · exact Or.inl rfl
    · rw [List.mem_singleton.mp hp]
      refine Or.inr ?_
      rw [hl]
      constructor <;> norm_num <;> linarith
  · intro p hp
    rcases List.mem_cons.mp hp with rfl | hp
    · rintro ⟨h, -⟩
      rw [h0] at h; linarith
    · rw [List.mem_singleton.mp hp]
      rintro ⟨-, h, -⟩
      exact one_ne_zero h
  · refine ⟨_, List.mem_cons_of_mem _ List.mem_cons_self, fun h => ?_, fun h => ?_⟩
    · exact one_ne_zero (congrFun h 2)
    · exact one_ne_zero (congrFun h 0)

end Mrob
