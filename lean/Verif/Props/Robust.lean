import Verif.Lemmas.DemoRobust
import Verif.Props.Gradient

/-!
# C73: robust costs and the optimisers
-/

open Matrix

namespace Mrob

open World Spec

/-- C73, Gauss-Newton: with a positive definite information matrix, the step of `solve(GN)` is zero exactly where the sum of
the robust costs is stationary.  Missing for the full property: that the repeated steps get there. -/
theorem C73_stationary_partial (env : Env) (henv : env.Sound) (s s' : FGraphSolve) (hw : WellPosed s.w)
    (hsm : Smooth s.w) (hr : ∀ f ∈ s.w.g.factors, (s.w.fh f).virt.robust ≠ .ransac)
    (hpd : (Spec.infoMatrix (graphTerms s.w)).PosDef) (maxIters : ℕ) (lambda tol : ℝ)
    (h : s.solve env .GN maxIters lambda tol = .ok s') : ∃ step : Cols s.w → ℝ,
      (∀ n, (s'.w.nh n).val = if n ∈ s.w.g.active then
        ⟨(s.w.nh n).kind, (s.w.nh n).kind.upd (s.w.nh n).obj.state ((s.w.nh n).kind.ofFlat (s.w.spread step n))⟩
        else (s.w.nh n).val) ∧
      (step = 0 ↔ ∀ δ : Cols s.w → ℝ, HasDerivAt (fun t : ℝ => s.w.objective (s.w.perturbed (t • δ))) 0 0) := by
  obtain ⟨dx, h5, h6⟩ := FGraphSolve.gn_ok hw h
  have h7 := FGraphSolve.normal_solution henv hw h5
  have hstep : World.step hw.wired dx = -(fun c => dx (colEquiv hw.wired c)) := rfl
  refine ⟨World.step hw.wired dx, FGraphSolve.gn_val hw h6, fun h0 δ => ?_, fun h0 => ?_⟩
  · have h8 : (fun c => dx (colEquiv hw.wired c)) = 0 := by rw [hstep, neg_eq_zero] at h0; exact h0
    have h9 := objective_deriv hw hsm hr δ
    rw [← h7, h8, mulVec_zero, zero_dotProduct, zero_div] at h9
    exact h9
  · have hb : Spec.infoVector (graphTerms s.w) = 0 := by
      funext c
      have := (objective_deriv hw hsm hr (Pi.single c 1)).unique (h0 (Pi.single c 1))
      rw [dotProduct_single, mul_one] at this
      simpa using this
    rw [hb] at h7
    by_contra hne
    have h8 : (fun c => dx (colEquiv hw.wired c)) ≠ 0 := fun h => hne (by rw [hstep, h, neg_zero])
    have := hpd.dotProduct_mulVec_pos h8
    rw [h7, dotProduct_zero] at this
    exact lt_irrefl _ this

/-- The landmark graph of `Demo` meets the hypotheses (the others are shown in the example of C72). -/
example : Env.exact.Sound ∧ WellPosed Demo.laSolver.w ∧ (Spec.infoMatrix (graphTerms Demo.laSolver.w)).PosDef ∧
    ∃ s', Demo.laSolver.solve Env.exact .GN 30 1e-6 1e-2 = .ok s' :=
  ⟨Env.exact_sound, Demo.la_wellPosed, Demo.la_posDef, C36_returns _ Env.exact_complete _ Demo.la_wellPosed Demo.la_posDef _ _ _⟩

/-- C73 is false for `solve(LM)`: its test whether a step is an improvement uses the sum of the plain `chi2`.  Three Huber
factors, one of them an outlier, with the landmark at the mean of the observations: the sum of the robust costs is not
stationary and can be reduced, but `solve(LM)`, whatever its parameters, returns with all nodes where they were. -/
theorem C73_lm_fails : ∃ s : FGraphSolve, WellPosed s.w ∧ Smooth s.w ∧
    (∀ f ∈ s.w.g.factors, (s.w.fh f).virt.robust = .huber ∧ (s.w.fh f).virt.W.PosDef) ∧
    (∃ δ : Cols s.w → ℝ, s.w.objective (s.w.perturbed δ) < s.w.objective fun n => (s.w.nh n).val) ∧
    (∃ (δ : Cols s.w → ℝ) (c : ℝ), HasDerivAt (fun t : ℝ => s.w.objective (s.w.perturbed (t • δ))) c 0 ∧ c < 0) ∧
    ∀ env : Env, env.Complete → ∀ (maxIters : ℕ) (lambda tol : ℝ), ∃ s', s.solve env .LM maxIters lambda tol = .ok s' ∧
      ∀ n, (s'.w.nh n).val = (s.w.nh n).val := by
  have hwp : WellPosed Demo.roSolver.w := Demo.ro_wellPosed
  have hm : ∀ f ∈ Demo.roSolver.w.g.factors, (Demo.roSolver.w.fh f).virt = .land3d (Demo.roObs f) 1 false .huber :=
    Demo.ro_virt
  refine ⟨Demo.roSolver, hwp, Demo.ro_smooth, fun f hf => ?_, ⟨(3 : ℝ) • Demo.roDir, Demo.ro_better⟩,
    ⟨Demo.roDir, _, Demo.ro_deriv, ?_⟩, fun env henv maxIters lambda tol => ?_⟩
  · rw [hm f hf]; exact ⟨rfl, Matrix.PosDef.one⟩
  · exact div_neg_of_neg_of_pos (by norm_num) (Real.sqrt_pos.mpr (by norm_num))
  · obtain ⟨s', hs'⟩ := C37_returns env henv Demo.roSolver Demo.ro_wellPosed maxIters lambda tol
    have hF := FGraphSolve.solve_frame hs'
    refine ⟨s', hs', fun n => ?_⟩
    by_cases hn : n ∈ Demo.roWorld.g.active
    swap
    · rw [hF.inactive n hn]
    rw [Demo.ro_active, List.mem_singleton] at hn
    subst hn
    obtain ⟨c, c', w, w', h1, h2, h3⟩ := C37_never_worse env Demo.roSolver s' maxIters lambda tol
      (fun f hf => by rw [hm f hf]; exact .land3d _ _ _ _) hs'
    rw [chi2Eval_eq _ hwp.wired.typed, Out.ok.injEq, Prod.mk.injEq] at h1
    rw [chi2Eval_eq _ (hF.wellTyped hwp.wired.typed), Out.ok.injEq, Prod.mk.injEq] at h2
    have e1 : c = Demo.roWorld.chi2At fun n => (Demo.roWorld.nh n).val := h1.1.symm
    have e2 : c' = Demo.roWorld.chi2At fun n => (s'.w.nh n).val := by
      rw [← h2.1]
      have hc : ∀ f ∈ Demo.roWorld.g.factors, factorChi2 (s'.w.fh f).virt.W ((s'.w.fh f).virt.res ((s'.w.fh f).vals s'.w.nh)) =
          factorChi2 (Demo.roWorld.fh f).virt.W
            ((Demo.roWorld.fh f).virt.res ((Demo.roWorld.fh f).nbrs.map fun n => (s'.w.nh n).val)) := by
        intro f _
        rw [FactorCell.vals, hF.factors.nbrs]
        have := hF.factors.virt f
        rw [this]
        rfl
      rw [cost, hF.factors.g, chi2At]
      exact congrArg List.sum (List.map_congr_left hc)
    have hk : (s'.w.nh 1).kind = .landmark3d := (hF.active 1).kind
    obtain ⟨p, hp⟩ := val_of_kind hk
    have h0 : (s'.w.nh 0).val = ⟨.pose3d, SE3.default⟩ := by
      have h00 : (0 : NRef) ∉ Demo.roWorld.g.active := by rw [Demo.ro_active]; simp
      have := congrArg NodeCell.val (hF.inactive 0 h00)
      exact this.trans Demo.ro_pose
    rw [e1, e2, Demo.ro_chi2 _ h0 hp, Demo.ro_chi2 _ Demo.ro_pose Demo.ro_landmark, sub_self] at h3
    have h4 : (p - ![3, 0, 0]) ⬝ᵥ (p - ![3, 0, 0]) ≤ 0 := by
      have : (0 : Vec3) ⬝ᵥ (0 : Vec3) = 0 := by simp
      rw [this] at h3
      norm_num at h3 ⊢
      linarith
    have h5 : (p - ![3, 0, 0]) ⬝ᵥ (p - ![3, 0, 0]) = 0 :=
      le_antisymm h4 (Finset.sum_nonneg fun i _ => mul_self_nonneg _)
    have h6 : p = ![3, 0, 0] := sub_eq_zero.mp (dotProduct_self_eq_zero.mp h5)
    rw [hp, h6]
    exact Demo.ro_landmark.symm

end Mrob
