import Verif.Lemmas.DemoPrior3d
import Verif.Lemmas.DemoLandmarks
import Verif.Props.GaussNewton

/-!
# C72: the right-hand side is the gradient of the cost
-/

open Matrix

namespace Mrob

open World Spec

/-- C72, classes: at the states listed in `Regular`, the Jacobians of a graph of planar factors, 3D landmark observations
and point-to-plane factors, with the nodes of every factor in either order, are the derivatives of the residuals. -/
theorem C72_regular_partial (w : World) (h : ∀ f ∈ w.g.factors, Regular w.nh (w.fh f).virt (w.fh f).nbrs) : Smooth w :=
  smooth_of_regular h

/-- C72: without robust costs, the vector `b_` assembled by `build_adjacency` is the gradient of `chi2` with respect to the
increments of the unknown nodes. -/
theorem C72_gradient_partial (w : World) (hw : WellPosed w) (hsm : Smooth w)
    (hq : ∀ f ∈ w.g.factors, (w.fh f).virt.robust = .quadratic) (env : Env) :
    ∃ (w' : World) (a : Assembly) (e : Cols w ≃ Fin a.N), w.buildAdjacency env = .ok (w', a) ∧
      (∀ c, (e c : ℕ) = offset (fun n => (w.nh n).dim) w.g.active c.1 + c.2) ∧
      ∀ δ : Cols w → ℝ, HasDerivAt (fun s : ℝ => w.chi2At (w.perturbed (s • δ))) (∑ c, a.b (e c) * δ c) 0 := by
  refine ⟨w.built, w.assembly env, colEquiv hw.wired, buildAdjacency_wired hw.wired hw.weightable env,
    colEquiv_val hw.wired, fun δ => ?_⟩
  have hb := assembly_b_terms hw.wired env hw.symm
  have hd : ∑ c, (w.assembly env).b (colEquiv hw.wired c) * δ c = Spec.infoVector (graphTerms w) ⬝ᵥ δ := by
    rw [← hb]; rfl
  rw [hd, infoVector_dot]
  refine list_sum_deriv w.g.factors _ _ fun f hf => ?_
  refine (chi2_deriv (hw.symm f hf) (hsm f hf δ).2).congr_deriv ?_
  have h1 : (factorTerm w f).W = (w.fh f).virt.W := by
    change factorWeight w f • (w.fh f).virt.W = _
    rw [factorWeight, hq f hf]
    exact one_smul _ _
  rw [h1]
  exact congrArg (fun r => ((factorTerm w f).J *ᵥ δ) ⬝ᵥ ((w.fh f).virt.W *ᵥ r)) (hsm f hf δ).1

theorem objective_deriv {w : World} (hw : WellPosed w) (hsm : Smooth w)
    (hr : ∀ f ∈ w.g.factors, (w.fh f).virt.robust ≠ .ransac) (δ : Cols w → ℝ) :
    HasDerivAt (fun s : ℝ => w.objective (w.perturbed (s • δ))) (Spec.infoVector (graphTerms w) ⬝ᵥ δ / 2) 0 := by
  have hsum : Spec.infoVector (graphTerms w) ⬝ᵥ δ / 2 = (w.g.factors.map fun f =>
      ((factorTerm w f).J *ᵥ δ) ⬝ᵥ ((factorTerm w f).W *ᵥ (factorTerm w f).r) / 2).sum := by
    rw [infoVector_dot]
    induction w.g.factors with
    | nil => simp
    | cons f fs ih => simp only [List.map_cons, List.sum_cons, add_div, ih]
  rw [hsum]
  refine list_sum_deriv w.g.factors _ _ fun f hf => ?_
  have h1 := chi2_deriv (hw.symm f hf) (hsm f hf δ).2
  have h2 := robustCost_deriv (hr f hf) (w.fh f).weight
    (fun s => (C29_factor (w.fh f).virt.W
      ((w.fh f).virt.res ((w.fh f).nbrs.map (w.perturbed (s • δ))))).1 (hw.psd f hf)) h1
  refine h2.congr_deriv ?_
  have h3 : (w.fh f).virt.res ((w.fh f).nbrs.map (w.perturbed ((0 : ℝ) • δ))) = (w.fh f).virt.res ((w.fh f).vals w.nh) :=
    (hsm f hf δ).1
  rw [h3]
  change _ = ((factorTerm w f).J *ᵥ δ) ⬝ᵥ ((factorWeight w f • (w.fh f).virt.W) *ᵥ (w.fh f).virt.res ((w.fh f).vals w.nh)) / 2
  rw [smul_mulVec, dotProduct_smul, smul_eq_mul]
  rfl

/-- C72, robust costs: `b_` is twice the gradient of the sum of the documented robust costs of the square roots of the
`chi2` of the factors. -/
theorem C72_robust_partial (w : World) (hw : WellPosed w) (hsm : Smooth w)
    (hr : ∀ f ∈ w.g.factors, (w.fh f).virt.robust ≠ .ransac) (env : Env) :
    ∃ (w' : World) (a : Assembly) (e : Cols w ≃ Fin a.N), w.buildAdjacency env = .ok (w', a) ∧
      (∀ c, (e c : ℕ) = offset (fun n => (w.nh n).dim) w.g.active c.1 + c.2) ∧
      ∀ δ : Cols w → ℝ, HasDerivAt (fun s : ℝ => w.objective (w.perturbed (s • δ))) ((∑ c, a.b (e c) * δ c) / 2) 0 := by
  refine ⟨w.built, w.assembly env, colEquiv hw.wired, buildAdjacency_wired hw.wired hw.weightable env,
    colEquiv_val hw.wired, fun δ => ?_⟩
  have hb := assembly_b_terms hw.wired env hw.symm
  have hd : ∑ c, (w.assembly env).b (colEquiv hw.wired c) * δ c = Spec.infoVector (graphTerms w) ⬝ᵥ δ := by
    rw [← hb]; rfl
  rw [hd]
  exact objective_deriv hw hsm hr δ

/-- C72, descent: the step taken by `solve(GN)` is a direction in which the cost decreases: the derivative of the cost along
the step is `-½ stepᵀ L step`, negative unless the step is zero or the information matrix is singular. -/
theorem C72_descent_partial (env : Env) (henv : env.Sound) (s s' : FGraphSolve) (hw : WellPosed s.w) (hsm : Smooth s.w)
    (hr : ∀ f ∈ s.w.g.factors, (s.w.fh f).virt.robust ≠ .ransac) (maxIters : ℕ) (lambda tol : ℝ)
    (h : s.solve env .GN maxIters lambda tol = .ok s') : ∃ step : Cols s.w → ℝ,
      (∀ n, (s'.w.nh n).val = if n ∈ s.w.g.active then
        ⟨(s.w.nh n).kind, (s.w.nh n).kind.upd (s.w.nh n).obj.state ((s.w.nh n).kind.ofFlat (s.w.spread step n))⟩
        else (s.w.nh n).val) ∧
      ∃ c : ℝ, HasDerivAt (fun t : ℝ => s.w.objective (s.w.perturbed (t • step))) c 0 ∧ c ≤ 0 ∧
        ((Spec.infoMatrix (graphTerms s.w)).PosDef → step ≠ 0 → c < 0) := by
  obtain ⟨dx, h1, h2⟩ := FGraphSolve.gn_ok hw h
  have h3 := FGraphSolve.normal_solution henv hw h1
  have hstep : World.step hw.wired dx = -(fun c => dx (colEquiv hw.wired c)) := rfl
  have hpsd : (Spec.infoMatrix (graphTerms s.w)).PosSemidef := by
    rw [← assembly_L_terms hw.wired env hw.symm]
    exact (hw.assembly_psd env).submatrix _
  have hval : Spec.infoVector (graphTerms s.w) ⬝ᵥ World.step hw.wired dx =
      -(World.step hw.wired dx ⬝ᵥ (Spec.infoMatrix (graphTerms s.w) *ᵥ World.step hw.wired dx)) := by
    rw [← h3, hstep, mulVec_neg, dotProduct_neg, neg_dotProduct, dotProduct_neg, neg_neg, dotProduct_comm]
  refine ⟨World.step hw.wired dx, FGraphSolve.gn_val hw h2, _, objective_deriv hw hsm hr _, ?_, fun hpd hne => ?_⟩
  · rw [hval]
    have := hpsd.dotProduct_mulVec_nonneg (World.step hw.wired dx)
    rw [star_trivial] at this
    linarith
  · rw [hval]
    have := hpd.dotProduct_mulVec_pos hne
    rw [star_trivial] at this
    linarith

/-- The landmark graph of `Demo` meets the hypotheses. -/
example : WellPosed Demo.laSolver.w ∧ Smooth Demo.laSolver.w ∧
    (∀ f ∈ Demo.laSolver.w.g.factors, (Demo.laSolver.w.fh f).virt.robust = .quadratic) ∧
    (∃ s', Demo.laSolver.solve Env.exact .GN 30 1e-6 1e-2 = .ok s') ∧
    (Spec.infoMatrix (graphTerms Demo.laSolver.w)).PosDef := by
  have hr : IsRigid SE3.default.T := by
    have := isRigid_homog isRotation_one (0 : Vec3); rwa [homog_one] at this
  refine ⟨Demo.la_wellPosed, C72_regular_partial _ fun f hf => ?_, fun f hf => ?_, ?_, Demo.la_posDef⟩
  · have hf' : f ∈ Demo.laWorld.g.factors := hf
    rw [Demo.la_factors] at hf'
    simp at hf'
    rcases hf' with rfl | rfl
    · exact Regular.land3d (n := 0) (m := 1) (X := SE3.default) (y := 0) rfl rfl hr
    · exact Regular.land3d (n := 0) (m := 2) (X := SE3.default) (y := 0) rfl rfl hr
  · have hf' : f ∈ Demo.laWorld.g.factors := hf
    rw [Demo.la_factors] at hf'
    simp at hf'
    rcases hf' with rfl | rfl <;> rfl
  · exact C36_returns _ Env.exact_complete _ Demo.la_wellPosed Demo.la_posDef _ _ _

/-- The full property is false: for a prior on a 3D pose turned by two radians away from the observation, `b_` is not the
gradient of `chi2` (the Jacobian used is that at zero residual). -/
theorem C72_fails (env : Env) : ∃ w : World, WellPosed w ∧
    (∀ f ∈ w.g.factors, (w.fh f).virt.robust = .quadratic ∧ (w.fh f).virt.W.PosDef) ∧
    (∀ n ∈ w.g.active, ∀ X, (w.nh n).val = ⟨.pose3d, X⟩ → IsRigid X.T) ∧
    ∃ (w' : World) (a : Assembly) (e : Cols w ≃ Fin a.N), w.buildAdjacency env = .ok (w', a) ∧
      (∀ c, (e c : ℕ) = offset (fun n => (w.nh n).dim) w.g.active c.1 + c.2) ∧
      ∃ δ : Cols w → ℝ, ¬ HasDerivAt (fun s : ℝ => w.chi2At (w.perturbed (s • δ))) (∑ c, a.b (e c) * δ c) 0 := by
  have hw := Demo.p3_wellPosed
  refine ⟨Demo.p3World, hw, fun f hf => ?_, fun n hn X hX => ?_, Demo.p3World.built, Demo.p3World.assembly env,
    colEquiv hw.wired, buildAdjacency_wired hw.wired hw.weightable env, colEquiv_val hw.wired, Demo.p3Dir, fun h => ?_⟩
  · rw [Demo.p3_factors, List.mem_singleton] at hf
    subst hf
    exact ⟨rfl, Matrix.PosDef.one⟩
  · rw [Demo.p3_active, List.mem_singleton] at hn
    subst hn
    rw [Demo.p3_val] at hX
    rw [← eq_of_heq (Sigma.mk.inj hX).2]
    exact Demo.turned_rigid
  · have hb := assembly_b_terms hw.wired env hw.symm
    have hd : ∑ c, (Demo.p3World.assembly env).b (colEquiv hw.wired c) * Demo.p3Dir c =
        Spec.infoVector (graphTerms Demo.p3World) ⬝ᵥ Demo.p3Dir := by
      rw [← hb]; rfl
    rw [hd, infoVector_dot, Demo.p3_factors] at h
    set u : Vec3 := Demo.turnedV *ᵥ ![1, 0, 0] with hu
    -- the residual along the direction
    have hres : ∀ s : ℝ, (Demo.p3World.fh 0).virt.res
        ((Demo.p3World.fh 0).nbrs.map (Demo.p3World.perturbed (s • Demo.p3Dir))) =
        (fun i : Fin 6 => vec6 ![0, 0, 2] (Demo.turnedV *ᵥ (![1, 0, 0] + s • ![1, 0, 0])) (at6 i)) := by
      intro s
      have hn : (Demo.p3World.fh 0).nbrs = [0] := rfl
      rw [hn, List.map_cons, List.map_nil, pert_pose3d Demo.p3Dir Demo.p3_val s, Demo.p3_inc]
      funext i
      exact congrFun (Demo.turned_res s) (at6 i)
    have hder : HasDerivAt (fun s : ℝ => (Demo.p3World.fh 0).virt.res
        ((Demo.p3World.fh 0).nbrs.map (Demo.p3World.perturbed (s • Demo.p3Dir))))
        (fun i : Fin 6 => vec6 0 u (at6 i)) 0 := by
      have h2 : VDeriv (fun s : ℝ => Demo.turnedV *ᵥ (![1, 0, 0] + s • ![1, 0, 0])) (Demo.turnedV *ᵥ ![1, 0, 0]) 0 :=
        ((MDeriv.const Demo.turnedV 0).mulVec (VDeriv.line ![1, 0, 0] ![1, 0, 0])).congr (by simp)
      have h3 : ∀ j : I6, HasDerivAt (fun s : ℝ => vec6 ![0, 0, 2] (Demo.turnedV *ᵥ (![1, 0, 0] + s • ![1, 0, 0])) j)
          (vec6 0 u j) 0 := by
        intro j
        rcases j with j | j
        · exact hasDerivAt_const (0 : ℝ) _
        · exact h2 j
      simp only [hres]
      exact hasDerivAt_pi.mpr fun i => h3 (at6 i)
    have hW : (Demo.p3World.fh 0).virt.W.IsSymm := hw.symm 0 (by rw [Demo.p3_factors]; simp)
    have h4 := (list_sum_deriv [(0 : FRef)] (fun _ s => factorChi2 (Demo.p3World.fh 0).virt.W
      ((Demo.p3World.fh 0).virt.res ((Demo.p3World.fh 0).nbrs.map (Demo.p3World.perturbed (s • Demo.p3Dir))))) _
      fun _ _ => chi2_deriv hW hder).unique h
    have h0 : (factorTerm Demo.p3World 0).r = fun i : Fin 6 => vec6 ![0, 0, 2] u (at6 i) := by
      have := Demo.turned_res 0
      rw [updateLhs_zero_smul, zero_smul, add_zero] at this
      exact funext fun i => congrFun this (at6 i)
    have hJ : (factorTerm Demo.p3World 0).J *ᵥ Demo.p3Dir = fun i : Fin 6 => vec6 0 ![1, 0, 0] (at6 i) := by
      funext l
      rw [term_mulVec]
      refine (row1 (d := 6) (n := 0) Demo.p3Dir rfl (prior3dJac.submatrix at6 at6) l).trans ?_
      have h6 := at6_sum (prior3dJac.submatrix at6 id) (Demo.p3World.spread Demo.p3Dir 0) l
      rw [submatrix_submatrix] at h6
      refine h6.trans ?_
      have h7 : NodeKind.ofFlat .pose3d (Demo.p3World.spread Demo.p3Dir 0) = vec6 0 ![1, 0, 0] := Demo.p3_inc
      rw [h7]
      change (prior3dJac *ᵥ vec6 0 ![1, 0, 0]) (at6 l) = _
      rw [prior3dJac, one_mulVec]
    have hWf : (factorTerm Demo.p3World 0).W = (1 : Matrix (Fin 6) (Fin 6) ℝ) := one_smul ℝ (1 : Matrix (Fin 6) (Fin 6) ℝ)
    have hW1 : (Demo.p3World.fh 0).virt.W = (1 : Matrix (Fin 6) (Fin 6) ℝ) := rfl
    simp only [List.map_cons, List.map_nil, List.sum_cons, List.sum_nil, add_zero] at h4
    rw [hres 0, zero_smul, add_zero, hJ] at h4
    have h0' : (Demo.p3World.fh 0).virt.res ((Demo.p3World.fh 0).vals Demo.p3World.nh) = _ := h0
    rw [h0'] at h4
    have h5 : (fun i : Fin 6 => vec6 0 u (at6 i)) ⬝ᵥ ((1 : Matrix (Fin 6) (Fin 6) ℝ) *ᵥ fun i : Fin 6 => vec6 ![0, 0, 2] u (at6 i)) =
        (fun i : Fin 6 => vec6 0 ![1, 0, 0] (at6 i)) ⬝ᵥ
          (((1 : ℝ) • (1 : Matrix (Fin 6) (Fin 6) ℝ)) *ᵥ fun i : Fin 6 => vec6 ![0, 0, 2] u (at6 i)) := h4
    rw [one_smul, one_mulVec] at h5
    have hu1 : u 1 = -1 := by
      rw [hu, mulVec, dotProduct, Fin.sum_univ_three, ← Demo.turnedV_10]
      simp
    simp [dotProduct, Fin.sum_univ_six, at6, vec6, hu1] at h5
    nlinarith [sq_nonneg (u 0 - 1 / 2), sq_nonneg (u 2)]

end Mrob
