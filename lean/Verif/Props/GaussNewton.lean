import Verif.Lemmas.DemoLandmarks
import Verif.Props.Solve

/-!
# C36: the Gauss-Newton step
-/

open Matrix

namespace Mrob

open World

/-- C36: `solve(GN)` moves every unknown node by an increment that minimises the linearised weighted cost, over all
increments; it is the only minimiser when the information matrix is positive definite. -/
theorem C36_step (env : Env) (henv : env.Sound) (s s' : FGraphSolve) (hw : WellPosed s.w) (maxIters : ℕ) (lambda tol : ℝ)
    (h : s.solve env .GN maxIters lambda tol = .ok s') : ∃ step : Cols s.w → ℝ,
      (∀ n, (s'.w.nh n).val = if n ∈ s.w.g.active then
        ⟨(s.w.nh n).kind, (s.w.nh n).kind.upd (s.w.nh n).obj.state ((s.w.nh n).kind.ofFlat (s.w.spread step n))⟩
        else (s.w.nh n).val) ∧
      (∀ δ, Spec.linearCost (graphTerms s.w) step ≤ Spec.linearCost (graphTerms s.w) δ) ∧
      ((Spec.infoMatrix (graphTerms s.w)).PosDef → ∀ δ, δ ≠ step →
        Spec.linearCost (graphTerms s.w) step < Spec.linearCost (graphTerms s.w) δ) := by
  obtain ⟨dx, h1, h2⟩ := FGraphSolve.gn_ok hw h
  have h3 := FGraphSolve.normal_solution henv hw h1
  have hsym : ∀ t ∈ graphTerms s.w, t.W.IsSymm := by
    intro t ht
    obtain ⟨f, hf, rfl⟩ := List.mem_map.mp ht
    exact (hw.symm f hf).smul _
  have hpsd : (Spec.infoMatrix (graphTerms s.w)).PosSemidef := by
    rw [← assembly_L_terms hw.wired env hw.symm]
    exact (hw.assembly_psd env).submatrix _
  have hstep : -(fun c => dx (colEquiv hw.wired c)) = World.step hw.wired dx := rfl
  have hcost := fun δ => Spec.linearCost_eq (graphTerms s.w) hsym _ h3 δ
  rw [hstep] at hcost
  refine ⟨World.step hw.wired dx, fun n => ?_, fun δ => ?_, fun hpd δ hδ => ?_⟩
  · rw [h2]
    change (if n ∈ s.w.g.active then (s.w.nh n).update (s.w.unstack dx n) else s.w.nh n).val = _
    split
    · rename_i hn
      have h4 := congrArg (fun w : World => w.nh n) (moved_step hw.wired dx)
      have h5 : (if n ∈ s.w.g.active then (s.w.nh n).update (s.w.unstack dx n) else s.w.nh n) =
          if n ∈ s.w.g.active then (s.w.nh n).update (s.w.spread (World.step hw.wired dx) n) else s.w.nh n := h4
      rw [if_pos hn, if_pos hn] at h5
      rw [h5]
      rfl
    · rfl
  · rw [hcost δ]
    have := hpsd.dotProduct_mulVec_nonneg (δ + fun c => dx (colEquiv hw.wired c))
    rw [star_trivial] at this
    linarith
  · rw [hcost δ]
    have hne : (δ + fun c => dx (colEquiv hw.wired c)) ≠ 0 := by
      intro h0
      exact hδ (by rw [← hstep]; exact eq_neg_of_add_eq_zero_left h0)
    have := hpd.dotProduct_mulVec_pos hne
    rw [star_trivial] at this
    linarith

/-- C36: with a positive definite information matrix, and a linear solver that succeeds on positive definite matrices,
`solve(GN)` returns. -/
theorem C36_returns (env : Env) (henv : env.Complete) (s : FGraphSolve) (hw : WellPosed s.w)
    (hpd : (Spec.infoMatrix (graphTerms s.w)).PosDef) (maxIters : ℕ) (lambda tol : ℝ) :
    ∃ s', s.solve env .GN maxIters lambda tol = .ok s' := by
  rw [← assembly_L_terms hw.wired env hw.symm] at hpd
  have hL : (s.w.assembly env).L.PosDef := by
    have h := hpd.submatrix (colEquiv hw.wired).symm.injective
    rwa [submatrix_submatrix, Equiv.self_comp_symm, submatrix_id_id] at h
  obtain ⟨dx, hdx⟩ := henv _ _ (s.w.assembly env).b hL
  exact FGraphSolve.gn_eq hw hdx

/-- C36: when the residuals are affine in the increments and no robust weights are used, the cost after one step is the
smallest over all increments. -/
theorem C36_exact (env : Env) (henv : env.Sound) (s s' : FGraphSolve) (hw : WellPosed s.w) (ha : Affine s.w)
    (hq : ∀ f ∈ s.w.g.factors, (s.w.fh f).virt.robust = .quadratic) (maxIters : ℕ) (lambda tol : ℝ)
    (h : s.solve env .GN maxIters lambda tol = .ok s') (δ : Cols s.w → ℝ) :
    s'.w.cost ≤ (s.w.moved (s.w.spread δ)).cost := by
  obtain ⟨dx, h1, h2⟩ := FGraphSolve.gn_ok hw h
  have h3 := FGraphSolve.normal_solution henv hw h1
  have hsym : ∀ t ∈ graphTerms s.w, t.W.IsSymm := by
    intro t ht
    obtain ⟨f, hf, rfl⟩ := List.mem_map.mp ht
    exact (hw.symm f hf).smul _
  have hpsd : (Spec.infoMatrix (graphTerms s.w)).PosSemidef := by
    rw [← assembly_L_terms hw.wired env hw.symm]
    exact (hw.assembly_psd env).submatrix _
  have hc : s'.w.cost = (s.w.moved (s.w.spread (World.step hw.wired dx))).cost := by
    rw [← moved_step, h2]
    have hsf := sameFactors_built s.w
    exact cost_congr_nh (w := s.w.moved (s.w.unstack dx)) (w' := s.w.built.moved (s.w.unstack dx))
      ⟨hsf.g, hsf.virt, hsf.nbrs, hsf.id⟩ fun _ => rfl
  rw [hc, cost_moved ha hq, cost_moved ha hq]
  have hstep : -(fun c => dx (colEquiv hw.wired c)) = World.step hw.wired dx := rfl
  rw [Spec.linearCost_eq (graphTerms s.w) hsym _ h3 δ, hstep]
  have := hpsd.dotProduct_mulVec_nonneg (δ + fun c => dx (colEquiv hw.wired c))
  rw [star_trivial] at this
  linarith

/-- C36 for a class of graphs with affine residuals: any number of 3D landmarks observed from any number of known poses.
After one step from any start, `chi2(true)` is not larger than at any other placement of the landmarks. -/
theorem C36_landmarks (env : Env) (henv : env.Sound) (s s' : FGraphSolve) (hw : WellPosed s.w) (hl : LandmarkGraph s.w)
    (maxIters : ℕ) (lambda tol : ℝ) (h : s.solve env .GN maxIters lambda tol = .ok s') (w' : World) (hF : Frame s.w w') :
    ∃ c c' u u', s'.w.chi2Eval = .ok (c, u) ∧ w'.chi2Eval = .ok (c', u') ∧ c ≤ c' := by
  refine ⟨_, _, _, _, chi2Eval_eq _ ((FGraphSolve.solve_frame h).wellTyped hw.wired.typed),
    chi2Eval_eq _ (hF.wellTyped hw.wired.typed), ?_⟩
  obtain ⟨δ, hδ⟩ := hl.reach hF
  have h1 : w'.cost = (s.w.moved (s.w.spread δ)).cost :=
    cost_congr_nh (w := s.w.moved (s.w.spread δ))
      ⟨hF.factors.g, hF.factors.virt, hF.factors.nbrs, hF.factors.id⟩ hδ
  rw [h1]
  refine C36_exact env henv s s' hw (hl.affine hw.wired) (fun f hf => ?_) maxIters lambda tol h δ
  obtain ⟨obs, W, rev, hv⟩ := hl.factors f hf
  rw [hv]; rfl

/-- The graph of `Demo` meets all hypotheses: two landmarks seen from a known pose. -/
example : Env.exact.Sound ∧ Env.exact.Complete ∧ WellPosed Demo.laSolver.w ∧ LandmarkGraph Demo.laSolver.w ∧
    Affine Demo.laSolver.w ∧ (Spec.infoMatrix (graphTerms Demo.laSolver.w)).PosDef ∧
    ∃ s', Demo.laSolver.solve Env.exact .GN 30 1e-6 1e-2 = .ok s' :=
  ⟨Env.exact_sound, Env.exact_complete, Demo.la_wellPosed, Demo.la_landmarks,
    Demo.la_landmarks.affine Demo.la_wellPosed.wired, Demo.la_posDef,
    C36_returns _ Env.exact_complete _ Demo.la_wellPosed Demo.la_posDef _ _ _⟩

/-- C37: when the residuals are affine and no robust weights are used, no step of `solve(LM)` is rejected. -/
theorem C37_affine_accepted (env : Env) (henv : env.Sound) (s s' : FGraphSolve) (delta : ℝ) (hw : WellPosed s.w)
    (ha : Affine s.w) (hq : ∀ f ∈ s.w.g.factors, (s.w.fh f).virt.robust = .quadratic) (hl : 0 ≤ s.lambda)
    (h : s.trial env = .ok (delta, s')) : 0 ≤ delta := by
  have h0 := h
  rw [FGraphSolve.trial] at h0
  obtain ⟨s1, h1, -⟩ := Out.bind_eq_ok.mp h0
  obtain ⟨a, dx, h2, h3, -, -⟩ := FGraphSolve.gaussNewton_ok h1
  rw [buildAdjacency_wired hw.wired hw.weightable env, Out.ok.injEq, Prod.mk.injEq] at h2
  obtain ⟨-, rfl⟩ := h2
  obtain ⟨s2, h4, h5, -, -⟩ := FGraphSolve.trial_eq hw h3
  rw [h, Out.ok.injEq, Prod.mk.injEq] at h4
  obtain ⟨rfl, rfl⟩ := h4
  have hF := FGraphSolve.trial_frame h
  have hsym : ∀ t ∈ graphTerms s.w, t.W.IsSymm := by
    intro t ht
    obtain ⟨f, hf, rfl⟩ := List.mem_map.mp ht
    exact (hw.symm f hf).smul _
  have hpsd : (Spec.infoMatrix (graphTerms s.w)).PosSemidef := by
    rw [← assembly_L_terms hw.wired env hw.symm]
    exact (hw.assembly_psd env).submatrix _
  have h6 := Spec.linearCost_damped _ hsym hpsd hl _ (FGraphSolve.damped_solution henv hw h3)
  have hstep : -(fun c => dx (colEquiv hw.wired c)) = World.step hw.wired dx := rfl
  rw [hstep, ← cost_moved ha hq, ← moved_step] at h6
  have e1 : s'.w.cost = (s.w.moved (s.w.unstack dx)).cost :=
    cost_congr_nh (w := s.w.moved (s.w.unstack dx))
      ⟨hF.factors.g, hF.factors.virt, hF.factors.nbrs, hF.factors.id⟩ h5
  have e2 : Spec.linearCost (graphTerms s.w) 0 = s.w.cost := by
    rw [← cost_moved ha hq]
    have hsf : SameFactors s.w (s.w.moved (s.w.spread 0)) := ⟨rfl, fun _ => rfl, fun _ => rfl, fun _ => rfl⟩
    refine cost_congr hsf fun f hf => ?_
    rw [ha f hf 0, mulVec_zero, add_zero]
    rfl
  rw [e2, ← e1] at h6
  linarith

/-- The first step on the graph of `Demo` meets the hypotheses of C40 and C37. -/
example : ∃ delta s1, FGraphSolve.trial Env.exact { Demo.laSolver with lambda := 1e-5 } = .ok (delta, s1) ∧ 0 ≤ delta := by
  obtain ⟨delta, s1, h, -⟩ := FGraphSolve.trial_total Env.exact_complete
    (s := { Demo.laSolver with lambda := 1e-5 }) Demo.la_wellPosed (by norm_num)
  refine ⟨delta, s1, h, C37_affine_accepted _ Env.exact_sound _ _ _ Demo.la_wellPosed
    (Demo.la_landmarks.affine Demo.la_wellPosed.wired) (fun f hf => ?_) (by norm_num) h⟩
  obtain ⟨obs, W, rev, hv⟩ := Demo.la_landmarks.factors f hf
  change (Demo.laWorld.fh f).virt.robust = _
  rw [hv]; rfl

/-- A call that meets its tolerance in the first iteration (C38, C42). -/
example : ∃ r, FGraphSolve.levenbergMarquardt Env.exact 10 { Demo.laSolver with tol := 2 } = .ok r ∧ r.ret = 1 := by
  obtain ⟨delta, s1, h, hw1⟩ := FGraphSolve.trial_total Env.exact_complete
    (s := ⟨Demo.laWorld, 1e-5, 2, ⟨0, 0, 0, 0⟩, ⟨0, 0, 0, 0, 0⟩⟩) Demo.la_wellPosed (by norm_num)
  have h1 := C37_affine_accepted _ Env.exact_sound _ _ _ Demo.la_wellPosed
    (Demo.la_landmarks.affine Demo.la_wellPosed.wired) (fun f hf => by
      obtain ⟨obs, W, rev, hv⟩ := Demo.la_landmarks.factors f hf
      change (Demo.laWorld.fh f).virt.robust = _
      rw [hv]; rfl) (by norm_num) h
  have h2 : delta = Demo.laWorld.cost - s1.w.cost := (FGraphSolve.trial_ok h).2.2.2.2.2.1
  have h3 : 0 ≤ s1.w.cost := by
    obtain ⟨c, w', hc, h3, -⟩ := C29_graph s1.w hw1.wired.typed
    rw [chi2Eval_eq _ hw1.wired.typed, Out.ok.injEq, Prod.mk.injEq] at hc
    rw [hc.1]
    exact h3 hw1.psd
  rw [Demo.la_cost] at h2
  have h4 : s1.tol = 2 := (FGraphSolve.trial_ok h).2.2.1
  refine ⟨⟨1, 1, s1⟩, ?_, rfl⟩
  change FGraphSolve.lmLoop Env.exact 10 0 ⟨Demo.laWorld, 1e-5, 2, ⟨0, 0, 0, 0⟩, ⟨0, 0, 0, 0, 0⟩⟩ = _
  rw [FGraphSolve.lmLoop, h, Out.ok_bind]
  dsimp only
  rw [if_neg (not_lt.mpr h1), if_pos (by rw [h4]; linarith)]

/-- C42 is false after `solve(GN)`: here the step reaches cost 0, but the array still sums to the cost 1 before the step. -/
theorem C42_gn_fails : ∃ (env : Env) (s s' : FGraphSolve), env.Sound ∧ env.Complete ∧ WellPosed s.w ∧
    s.solve env .GN 30 1e-6 1e-2 = .ok s' ∧ s'.w.chi2Array.sum = 1 ∧ ∃ w, s'.w.chi2Eval = .ok (0, w) := by
  have hw := Demo.la_wellPosed
  obtain ⟨s', hs⟩ := C36_returns Env.exact Env.exact_complete Demo.laSolver hw Demo.la_posDef 30 1e-6 1e-2
  have hF := FGraphSolve.solve_frame hs
  refine ⟨Env.exact, Demo.laSolver, s', Env.exact_sound, Env.exact_complete, hw, hs, ?_, ?_⟩
  · rw [C42_gn_stale _ _ _ _ _ _ hs]
    exact Demo.la_cost
  · have hq : ∀ f ∈ Demo.laSolver.w.g.factors, (Demo.laSolver.w.fh f).virt.robust = .quadratic := by
      intro f hf
      obtain ⟨obs, W, rev, hv⟩ := Demo.la_landmarks.factors f hf
      change (Demo.laWorld.fh f).virt.robust = _
      rw [hv]; rfl
    have ha := Demo.la_landmarks.affine hw.wired
    have h1 := C36_exact Env.exact Env.exact_sound Demo.laSolver s' hw ha hq 30 1e-6 1e-2 hs Demo.laBest
    have h2 : s'.w.cost ≤ 0 := h1.trans (le_of_eq ((cost_moved (w := Demo.laWorld) ha hq _).trans Demo.la_best))
    have ht := hF.wellTyped hw.wired.typed
    obtain ⟨c, w', hc, h3, -⟩ := C29_graph s'.w ht
    have h4 := h3 fun f hf => by
      rw [hF.factors.virt]
      have hf' : f ∈ Demo.laSolver.w.g.factors := by rw [← hF.factors.g]; exact hf
      exact hw.psd f hf'
    rw [chi2Eval_eq _ ht, Out.ok.injEq, Prod.mk.injEq] at hc
    refine ⟨w', ?_⟩
    rw [chi2Eval_eq _ ht, hc.2, le_antisymm h2 (by rw [hc.1]; exact h4)]

end Mrob
