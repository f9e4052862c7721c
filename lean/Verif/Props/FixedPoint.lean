import Verif.Lemmas.FixedPoint
import Verif.Props.GaussNewton

/-!
# C86: solving a graph whose measurements are already met
-/

open Matrix

namespace Mrob

open World Spec

/-- C86: Gauss-Newton leaves a graph alone at a stationary point of the weighted cost, in particular when all measurements
are met.  Partial: the unknown states have to be such that `update(0)` keeps them (`Settled`); see `C86_fails`. -/
theorem C86_gn_partial (env : Env) (henv : env.Sound) (s s' : FGraphSolve) (hw : WellPosed s.w)
    (hpd : (infoMatrix (graphTerms s.w)).PosDef) (hc : Consistent s.w ∨ infoVector (graphTerms s.w) = 0)
    (hset : AllSettled s.w) (maxIters : ℕ) (lambda tol : ℝ) (h : s.solve env .GN maxIters lambda tol = .ok s') (n : NRef) :
    (s'.w.nh n).val = (s.w.nh n).val := by
  have hst : infoVector (graphTerms s.w) = 0 := hc.elim Consistent.stationary id
  rw [FGraphSolve.gn_stationary henv hw hpd hst h, hset.moved_zero]

/-- C86: Levenberg-Marquardt leaves a graph alone when all measurements are met, whatever the tolerance and the number of
iterations, also when the information matrix is singular.  Partial: as above. -/
theorem C86_lm_partial (env : Env) (henv : env.Sound) (s s' : FGraphSolve) (hw : WellPosed s.w) (hc : Consistent s.w)
    (hset : AllSettled s.w) (maxIters : ℕ) (lambda tol : ℝ) (h : s.solve env .LM maxIters lambda tol = .ok s') (n : NRef) :
    (s'.w.nh n).val = (s.w.nh n).val := by
  change (FGraphSolve.levenbergMarquardt env maxIters _ >>= fun r => Out.ok r.s) = _ at h
  obtain ⟨r, h1, h⟩ := Out.bind_eq_ok.mp h
  rw [Out.ok.injEq] at h
  subst h
  exact (FGraphSolve.lmLoop_run _ _ _ _ rfl h1).fixed henv hw (by norm_num) hc hset n

/-- C86: at a stationary point, with a positive tolerance, Levenberg-Marquardt reports convergence after one iteration. -/
theorem C86_lm_stops_partial (env : Env) (henv : env.Sound) (s : FGraphSolve) (r : FGraphSolve.LMResult) (hw : WellPosed s.w)
    (hst : infoVector (graphTerms s.w) = 0) (hset : AllSettled s.w) (htol : 0 < s.tol) (maxIters : ℕ)
    (h : s.levenbergMarquardt env maxIters = .ok r) :
    r.ret = 1 ∧ r.iters = 1 ∧ ∀ n, (r.s.w.nh n).val = (s.w.nh n).val := by
  have key : ∀ {iter : ℕ} {s : FGraphSolve}, FGraphSolve.LMRun env maxIters iter s r → WellPosed s.w → 0 < s.lambda →
      infoVector (graphTerms s.w) = 0 → AllSettled s.w → 0 < s.tol →
      r.ret = iter + 1 ∧ r.iters = iter + 1 ∧ ∀ n, (r.s.w.nh n).val = (s.w.nh n).val := by
    intro iter s h hw hl hst hs ht
    cases h with
    | rejectLast h1 h2 => have := (FGraphSolve.trial_fixed henv hw hl hst hs h1).1; linarith
    | rejectNext h1 h2 => have := (FGraphSolve.trial_fixed henv hw hl hst hs h1).1; linarith
    | converged h1 h2 => exact ⟨rfl, rfl, (FGraphSolve.trial_fixed henv hw hl hst hs h1).2.1⟩
    | acceptLast h1 h2 h3 => have := (FGraphSolve.trial_fixed henv hw hl hst hs h1).1; linarith
    | acceptNext h1 h2 h3 => have := (FGraphSolve.trial_fixed henv hw hl hst hs h1).1; linarith
  have h' : FGraphSolve.lmLoop env maxIters 0 ⟨s.w, 1e-5, s.tol, s.sys, s.mats⟩ = .ok r := h
  have hrun := key (FGraphSolve.lmLoop_run _ _ _ _ rfl h')
  exact hrun hw (by norm_num) hst hset htol

/-- A pose turned by half a radian, with a prior at that pose, meets the hypotheses. -/
example : ∃ s : FGraphSolve, WellPosed s.w ∧ (infoMatrix (graphTerms s.w)).PosDef ∧ Consistent s.w ∧ AllSettled s.w ∧
    0 < s.tol ∧ (∃ s', s.solve Env.exact .GN 20 1e-6 1e-2 = .ok s') ∧
    (∃ r, s.levenbergMarquardt Env.exact 20 = .ok r) ∧ ∃ s', s.solve Env.exact .LM 20 1e-6 1e-2 = .ok s' := by
  have hp := Real.two_le_pi
  have hr : IsRigid (SE3.mk (homog (rotX (1 / 2)) ![1, 2, 3] 1)).T := isRigid_homog (rotX_isRotation _) _
  have hw := Demo.at_wellPosed (SE3.mk (homog (rotX (1 / 2)) ![1, 2, 3] 1))
  have hpd := Demo.at_posDef (SE3.mk (homog (rotX (1 / 2)) ![1, 2, 3] 1))
  have hlm : ∀ t : ℝ, ∃ r, FGraphSolve.levenbergMarquardt Env.exact 20
      ⟨Demo.atWorld (SE3.mk (homog (rotX (1 / 2)) ![1, 2, 3] 1)), 1e-6, t, ⟨0, 0, 0, 0⟩, ⟨0, 0, 0, 0, 0⟩⟩ = .ok r := fun t =>
    FGraphSolve.lmLoop_total Env.exact_complete 20 _ 0
      ⟨Demo.atWorld (SE3.mk (homog (rotX (1 / 2)) ![1, 2, 3] 1)), 1e-5, t, ⟨0, 0, 0, 0⟩, ⟨0, 0, 0, 0, 0⟩⟩ rfl hw (by norm_num)
  refine ⟨Demo.atSolver (SE3.mk (homog (rotX (1 / 2)) ![1, 2, 3] 1)), hw, hpd, Demo.at_consistent hr, ?_, ?_,
    C36_returns _ Env.exact_complete _ hw hpd _ _ _, hlm 1e-2, ?_⟩
  · intro n hn
    have hn' : n ∈ (Demo.atWorld (SE3.mk (homog (rotX (1 / 2)) ![1, 2, 3] 1))).g.active := hn
    rw [Demo.at_active, List.mem_singleton] at hn'
    subst hn'
    have e : (SE3.mk (homog (rotX (1 / 2)) ![1, 2, 3] 1)).R = rotX (1 / 2) := R_mk_homog _ _ _
    have e' : angle (SE3.mk (homog (rotX (1 / 2)) ![1, 2, 3] 1)).R = 1 / 2 := by
      rw [e, angle_rotX (by norm_num) (by linarith)]
    have key : ∀ X : SE3, IsRigid X.T → angle X.R = 1 / 2 → Settled .pose3d X := by
      intro X h1 h2
      refine ⟨h1, ?_⟩
      rw [h2]
      exact ⟨Or.inr (by norm_num), Or.inl (by norm_num; linarith), Or.inl (by linarith)⟩
    exact key _ hr e'
  · change (0 : ℝ) < 1e-2; norm_num
  · obtain ⟨r, hr⟩ := hlm 1e-2
    refine ⟨r.s, ?_⟩
    change (FGraphSolve.levenbergMarquardt Env.exact 20
      ⟨Demo.atWorld (SE3.mk (homog (rotX (1 / 2)) ![1, 2, 3] 1)), 1e-6, 1e-2, ⟨0, 0, 0, 0⟩, ⟨0, 0, 0, 0, 0⟩⟩ >>= fun r => Out.ok r.s) = _
    rw [hr]; rfl

/-- The full property is false: a 3D pose that is a half turn about the diagonal `(1,1,0)`, with a prior at exactly that
pose.  The measurement is met and the cost is zero, but both methods return with the rotation replaced by the identity,
and the cost reported afterwards is zero again. -/
theorem C86_fails (env : Env) (henv : env.Sound) (hcomp : env.Complete) : ∃ (s : FGraphSolve) (X : SE3), WellPosed s.w ∧
    (infoMatrix (graphTerms s.w)).PosDef ∧ Consistent s.w ∧ s.w.g.active = [0] ∧ IsRigid X.T ∧ X.R ≠ 1 ∧
    (s.w.nh 0).val = ⟨.pose3d, X⟩ ∧
    ∀ (method : FGraphSolve.Method) (maxIters : ℕ) (lambda tol : ℝ), 0 < tol → ∃ (s' : FGraphSolve) (Y : SE3),
      s.solve env method maxIters lambda tol = .ok s' ∧ (s'.w.nh 0).val = ⟨.pose3d, Y⟩ ∧ Y.R = 1 ∧
      ∃ u, s'.w.chi2Eval = .ok (0, u) := by
  have hang : angle halfDiag = Real.pi := by
    rw [angle, trace_fin_three]; simp [halfDiag]; norm_num
  have hd := C05_diagonal_fails halfDiag_isRotation (Or.inl (by
      funext i; fin_cases i <;> simp [halfDiag, mulVec, dotProduct, Fin.sum_univ_three]))
    (by rw [hang]; have := Real.pi_pos; linarith) (Or.inr hang)
  obtain ⟨a, ha⟩ : ∃ a, a = SE3.mk (homog halfDiag 0 1) := ⟨_, rfl⟩
  have hr : IsRigid a.T := by rw [ha]; exact isRigid_homog halfDiag_isRotation 0
  have hRa : a.R = halfDiag := by rw [ha]; exact R_mk_homog _ _ _
  have hta : a.t = 0 := by rw [ha]; exact t_mk_homog _ _ _
  have hln : a.lnVee = 0 := by
    rw [se3_lnVee hr, hRa, hd.1, hta, mulVec_zero]
    funext i; rcases i with i | i <;> rfl
  have hreg : a.regenerate = SE3.default := by
    rw [C13_regenerate hr, hln]
    ext1
    exact se3_ofVec_zero
  have hinv : a.inv = a := by
    have hs : halfDiagᵀ = halfDiag := by
      ext i j; fin_cases i <;> fin_cases j <;> rfl
    have : a.inv = SE3.mk (homog a.Rᵀ (-a.Rᵀ *ᵥ a.t) 1) := rfl
    rw [this, hRa, hta, hs, mulVec_zero, ha]
  have hres : prior3dRes a SE3.default = 0 := by
    have e : prior3dTr a SE3.default = a := by
      ext1
      change (1 : Mat4) * a.inv.T = a.T
      rw [hinv, one_mul]
    rw [prior3dRes, e, hln]
  have hone : SE3.default.R = 1 := by
    change tl3 (1 : Mat4) = 1
    rw [← homog_one, tl3_homog]
  have hw := Demo.at_wellPosed a
  have hpd := Demo.at_posDef a
  have hcons := Demo.at_consistent hr
  have hz : (((Demo.atWorld a).moved ((Demo.atWorld a).spread 0)).nh 0).val = ⟨.pose3d, SE3.default⟩ := by
    rw [moved_zero_val, if_pos (by rw [Demo.at_active]; simp), ofFlat_zero]
    change (⟨.pose3d, a.regenerate⟩ : NodeVal) = _
    rw [hreg]
  have hcost : (Demo.atWorld a).cost = 0 := by
    refine Demo.at_cost a (Frame.refl _) (Demo.at_val a) ?_
    have e : prior3dTr a a = SE3.default := by
      ext1
      exact mul_inv_cancel' hr
    rw [prior3dRes, e, lnVee_default]
  have hchi : ∀ w : World, Frame (Demo.atWorld a) w → (w.nh 0).val = ⟨.pose3d, SE3.default⟩ → ∃ u, w.chi2Eval = .ok (0, u) := by
    intro w hF hv
    have h := chi2Eval_eq w (hF.wellTyped hw.wired.typed)
    rw [Demo.at_cost a hF hv hres] at h
    exact ⟨_, h⟩
  refine ⟨Demo.atSolver a, a, hw, hpd, hcons, rfl, hr, by rw [hRa]; exact hd.2.2, rfl, fun method maxIters lambda tol htol => ?_⟩
  cases method with
  | GN =>
    obtain ⟨s', h⟩ := C36_returns env hcomp (Demo.atSolver a) hw hpd maxIters lambda tol
    have hv := (FGraphSolve.gn_stationary henv hw hpd hcons.stationary h 0).trans hz
    exact ⟨s', SE3.default, h, hv, hone, hchi _ (FGraphSolve.solve_frame h) hv⟩
  | LM =>
    obtain ⟨s0, hs0⟩ : ∃ s0 : FGraphSolve, s0 = ⟨Demo.atWorld a, 1e-5, tol, ⟨0, 0, 0, 0⟩, ⟨0, 0, 0, 0, 0⟩⟩ := ⟨_, rfl⟩
    have hw0 : WellPosed s0.w := by rw [hs0]; exact hw
    have hl0 : 0 < s0.lambda := by rw [hs0]; norm_num
    obtain ⟨delta, s1, h1, -⟩ := FGraphSolve.trial_total hcomp hw0 hl0
    have hst : infoVector (graphTerms s0.w) = 0 := by rw [hs0]; exact hcons.stationary
    have hv : (s1.w.nh 0).val = ⟨.pose3d, SE3.default⟩ := by
      refine ((FGraphSolve.trial_stationary henv hw0 hl0 hst h1).1 0).trans ?_
      rw [hs0]; exact hz
    have hF : Frame (Demo.atWorld a) s1.w := by
      have := FGraphSolve.trial_frame h1
      rwa [hs0] at this
    have hdel : delta = 0 := by
      have := (FGraphSolve.trial_ok h1).2.2.2.2.2.1
      have e : s0.w.cost = 0 := by rw [hs0]; exact hcost
      rw [this, e, Demo.at_cost a hF hv hres, sub_zero]
    have htl : s1.tol = tol := by rw [(FGraphSolve.trial_ok h1).2.2.1, hs0]
    refine ⟨s1, SE3.default, ?_, hv, hone, hchi _ hF hv⟩
    have hloop : FGraphSolve.lmLoop env maxIters 0 s0 = .ok ⟨1, 1, s1⟩ := by
      rw [FGraphSolve.lmLoop, h1, Out.ok_bind]
      dsimp only
      rw [hdel, htl, if_neg (lt_irrefl _), if_pos htol]
    change (FGraphSolve.lmLoop env maxIters 0 ⟨Demo.atWorld a, 1e-5, tol, ⟨0, 0, 0, 0⟩, ⟨0, 0, 0, 0, 0⟩⟩ >>= fun r => Out.ok r.s) = _
    rw [← hs0, hloop]
    rfl

end Mrob
