import Verif.Lemmas.Getters
import Verif.Lemmas.DemoLandmarks
import Verif.Props.GaussNewton

/-!
# C92: the matrices returned after solving
-/

open Matrix

namespace Mrob

open World Spec

/-- C92: after `solve(GN)` the matrix of `get_information_matrix` and the vector of `get_vector_b` are those of the problem
linearised at the states *before* the step; the matrices of `get_adjacency_matrix` and `get_W_matrix` belong to them, but the
latter holds only the upper triangle of the information of the observations. -/
theorem C92_gn (env : Env) (s s' : FGraphSolve) (hw : WellPosed s.w) (maxIters : ℕ) (lambda tol : ℝ)
    (h : s.solve env .GN maxIters lambda tol = .ok s') :
    InfoAt s.w s'.sys.L ∧ RhsAt s.w s'.sys.b ∧
    (∃ dx, s'.sys = ⟨s'.mats.N, s'.mats.Aᵀ * symUpper s'.mats.W * s'.mats.A,
      (s'.mats.Aᵀ * symUpper s'.mats.W) *ᵥ s'.mats.r, dx⟩) ∧
    ∀ i j : Fin s'.mats.M, j < i → s'.mats.W i j = 0 := by
  obtain ⟨h1, dx, h2⟩ := FGraphSolve.gn_sys hw h
  rw [h2, h1]
  exact ⟨infoAt_assembly hw env, rhsAt_assembly hw env, ⟨dx, rfl⟩, assembly_upper env⟩

/-- C92 for graphs of landmarks seen from known poses: the information matrix after `solve(GN)` is that at the returned
estimate.  Missing: graphs whose Jacobians depend on the states, for which it is wrong (`C92_gn_fails`). -/
theorem C92_landmarks_partial (env : Env) (s s' : FGraphSolve) (hw : WellPosed s.w) (hL : LandmarkGraph s.w) (maxIters : ℕ)
    (lambda tol : ℝ) (h : s.solve env .GN maxIters lambda tol = .ok s') : InfoAt s'.w s'.sys.L :=
  infoAt_frame (FGraphSolve.solve_frame h) (info_landmarks hw.wired hL (FGraphSolve.solve_frame h))
    (C92_gn env s s' hw maxIters lambda tol h).1

/-- C92: after `solve(LM)` the matrix is that at the states before the last trial step, plus the damping of that step on the
diagonal. -/
theorem C92_lm (env : Env) (henv : env.Sound) (s s' : FGraphSolve) (hw : WellPosed s.w) (maxIters : ℕ) (lambda tol : ℝ)
    (h : s.solve env .LM maxIters lambda tol = .ok s') : ∃ (s0 s1 : FGraphSolve) (delta : ℝ),
      Frame s.w s0.w ∧ s0.trial env = .ok (delta, s1) ∧ 0 < s0.lambda ∧
      InfoAt s0.w (s'.sys.L - s0.lambda • 1) ∧ RhsAt s0.w s'.sys.b ∧
      (delta < 0 → s'.w = s1.reject.w) ∧ (0 ≤ delta → s'.w = s1.w) := by
  change (FGraphSolve.lmLoop env maxIters 0 _ >>= fun r => Out.ok r.s) = _ at h
  obtain ⟨r, h1, h2⟩ := Out.bind_eq_ok.mp h
  rw [Out.ok.injEq] at h2
  subst h2
  obtain ⟨s0, s1, delta, k1, k2, k3, k4, k5, k6, k7⟩ :=
    (FGraphSolve.lmLoop_run _ _ _ _ rfl h1).lastTrial henv hw (by change (0 : ℝ) < 1e-5; norm_num)
  obtain ⟨dx, k8⟩ := FGraphSolve.trial_sys k1 k4
  refine ⟨s0, s1, delta, k2, k4, k3, ?_, ?_, k6, k7⟩
  · rw [k5, k8]
    dsimp only
    rw [FGraphSolve.damped, if_pos rfl, add_sub_cancel_right]
    exact infoAt_assembly k1 env
  · rw [k5, k8]
    exact rhsAt_assembly k1 env

/-- C92 is false for `solve(LM)`: on every graph of landmarks seen from known poses (where the linearisation point does not
matter) with an unknown landmark, the returned matrix is not the information matrix at the returned estimate. -/
theorem C92_lm_fails (env : Env) (henv : env.Sound) (s s' : FGraphSolve) (hw : WellPosed s.w) (hL : LandmarkGraph s.w)
    (hn : s.w.g.active ≠ []) (maxIters : ℕ) (lambda tol : ℝ) (h : s.solve env .LM maxIters lambda tol = .ok s') :
    ¬ InfoAt s'.w s'.sys.L := by
  rintro ⟨e, h1, h2⟩
  obtain ⟨s0, s1, delta, hF, -, hl, ⟨e0, k1, k2⟩, -⟩ := C92_lm env henv s s' hw maxIters lambda tol h
  have hF' := FGraphSolve.solve_frame h
  obtain ⟨n, ns, hns⟩ := List.exists_cons_of_ne_nil hn
  have hmem : n ∈ s.w.g.active := by rw [hns]; exact List.mem_cons_self
  have hdim : 0 < (s.w.nh n).dim := by
    have : (s.w.nh n).dim = 3 := congrArg NodeKind.dim (hL.nodes n hmem)
    omega
  set c : Cols s.w := ⟨⟨n, hmem⟩, ⟨0, hdim⟩⟩ with hc
  have d1 : infoMatrix (graphTerms s'.w) (frameCols hF' c) (frameCols hF' c) =
      infoMatrix (graphTerms s0.w) (frameCols hF c) (frameCols hF c) := by
    rw [info_landmarks hw.wired hL hF', info_landmarks hw.wired hL hF]
  rw [← h2, ← k2] at d1
  have he : e (frameCols hF' c) = e0 (frameCols hF c) := by
    refine Fin.ext ?_
    rw [h1, k1]
    have hd : (fun n => (s'.w.nh n).dim) = fun n => (s0.w.nh n).dim := funext fun n =>
      (congrArg NodeKind.dim (hF'.active n).kind).trans (congrArg NodeKind.dim (hF.active n).kind).symm
    rw [hd]
    change offset _ s'.w.g.active n + 0 = offset _ s0.w.g.active n + 0
    rw [hF'.factors.g, hF.factors.g]
  rw [submatrix_apply, submatrix_apply, he, Matrix.sub_apply, Matrix.smul_apply, Matrix.one_apply_eq, smul_eq_mul,
    mul_one] at d1
  linarith

example : Env.exact.Sound ∧ WellPosed Demo.laSolver.w ∧ LandmarkGraph Demo.laSolver.w ∧ Demo.laSolver.w.g.active ≠ [] ∧
    (∃ s', Demo.laSolver.solve Env.exact .GN 30 1e-6 1e-2 = .ok s') ∧
    ∃ s', Demo.laSolver.solve Env.exact .LM 30 1e-6 1e-2 = .ok s' := by
  refine ⟨Env.exact_sound, Demo.la_wellPosed, Demo.la_landmarks, List.cons_ne_nil _ _,
    C36_returns _ Env.exact_complete _ Demo.la_wellPosed Demo.la_posDef _ _ _, ?_⟩
  obtain ⟨r, h⟩ := FGraphSolve.lmLoop_total Env.exact_complete 30 _ 0
    (⟨Demo.laWorld, 1e-5, 1e-2, ⟨0, 0, 0, 0⟩, ⟨0, 0, 0, 0, 0⟩⟩ : FGraphSolve) rfl Demo.la_wellPosed (by norm_num)
  exact ⟨r.s, Out.bind_eq_ok.mpr ⟨r, h, rfl⟩⟩

namespace Demo

/-- Node 0 is a known planar pose at the origin, the others are planar landmarks at `(2, 0)`. -/
noncomputable def brNodes : NRef → NodeCell := fun n =>
  if n = 0 then NodeCell.new .pose2d 0 .anchor else NodeCell.new .landmark2d ![2, 0] .standard

/-- The landmark is seen at distance 1, straight ahead. -/
noncomputable def brFactors : FRef → FactorCell := fun _ => FactorCell.new (.land2d ![1, 0] 1 false .quadratic) [0, 1] 0 0

/-- Objects before any call. -/
noncomputable def brWorld₀ : World := ⟨brNodes, brFactors, emptyGraph⟩
/-- The calls. -/
def brOps : List GraphOp := [.addNode 0, .addNode 1, .addFactor 0]
/-- The graph. -/
noncomputable def brWorld : World := World.run brOps brWorld₀
/-- The object. -/
noncomputable def brSolver : FGraphSolve := ⟨brWorld, 1e-6, 1e-2, ⟨0, 0, 0, 0⟩, ⟨0, 0, 0, 0, 0⟩⟩

theorem br_proper : Proper brWorld₀ brOps := by
  constructor
  · intro op hop n m; simp [brOps] at hop; rcases hop with rfl | rfl | rfl <;> simp
  · simp [addedNodes, brOps]
  · intro n hn; simp [addedNodes, brOps] at hn; rcases hn with rfl | rfl <;> simp [brWorld₀, brNodes, NodeCell.new]
  · intro f hf n hn
    simp [addedFactors, brOps] at hf
    subst hf
    simp [brWorld₀, brFactors, FactorCell.new] at hn; left; rcases hn with rfl | rfl <;> simp [addedNodes, brOps]
  · intro f hf
    simp [addedFactors, brOps] at hf
    subst hf
    simp [brWorld₀, brFactors, brNodes, FactorCell.new, NodeCell.new]
  · intro f hf
    simp [addedFactors, brOps] at hf
    subst hf
    simp [brWorld₀, brFactors, brNodes, FactorCell.new, NodeCell.new, FactorCell.wellTyped, FactorVirt.land2d]

theorem br_factors : brWorld.g.factors = [0] := rfl
theorem br_active : brWorld.g.active = [1] := rfl

theorem br_wellPosed : WellPosed brWorld := by
  refine ⟨C44_wired_partial _ rfl _ br_proper, fun f hf => ?_, fun f hf => ?_⟩
  · rw [br_factors] at hf
    simp at hf
    subst hf
    exact Matrix.PosSemidef.one
  · rw [br_factors] at hf
    simp at hf
    subst hf
    exact le_refl (0 : ℝ)

theorem br_jac {d : ℝ} (hd : 1 ≤ d) : land2dJac 0 ![d, 0] = (!![-1, 0, 0; 0, -1 / d, -1], !![1, 0; 0, 1 / d]) := by
  have h0 : d ≠ 0 := by positivity
  have hs : Real.sqrt (d * d) = d := Real.sqrt_mul_self (by linarith)
  have hq : ¬ d * d < 1e-6 := by norm_num; nlinarith
  simp only [land2dJac, Pi.zero_apply, sub_zero, Matrix.cons_val_zero, Matrix.cons_val_one, mul_zero, add_zero, hs, if_neg hq]
  rw [Prod.mk.injEq]
  constructor
  · ext i j; fin_cases i <;> fin_cases j <;> simp [h0] <;> field_simp
  · ext i j; fin_cases i <;> fin_cases j <;> simp [h0] <;> field_simp

theorem br_node {w : World} (hF : Frame brWorld w) (c : Cols w) : (c.1 : NRef) = 1 ∧ (c.2 : ℕ) < 2 := by
  have h1 : (c.1 : NRef) = 1 := by
    have h : ∀ n ∈ w.g.active, n = 1 := by
      rw [hF.factors.g, br_active]
      intro n hn
      simpa using hn
    exact h _ c.1.2
  refine ⟨h1, ?_⟩
  have h2 : (w.nh c.1).dim = 2 := by
    rw [h1]
    exact congrArg NodeKind.dim (hF.active 1).kind
  have := c.2.2
  omega

theorem br_ext {w : World} (hF : Frame brWorld w) {c d : Cols w} (h : (c.2 : ℕ) = d.2) : c = d := by
  obtain ⟨⟨n, hn⟩, i⟩ := c
  obtain ⟨⟨m, hm⟩, j⟩ := d
  have h1 : n = 1 := (br_node hF ⟨⟨n, hn⟩, i⟩).1
  have h2 : m = 1 := (br_node hF ⟨⟨m, hm⟩, j⟩).1
  subst h1 h2
  exact congrArg (Sigma.mk _) (Fin.ext h)

/-- The Jacobian at a state in which the landmark is at `(d, 0)`. -/
theorem br_J {w : World} (hF : Frame brWorld w) {d : ℝ} (hd : 1 ≤ d) (hv : (w.nh 1).val = ⟨.landmark2d, ![d, 0]⟩) (c : Cols w) :
    jacRow (fun n => (w.nh n).val) c.1 c.2 (FactorVirt.land2d ![1, 0] 0 false .quadratic) [0, 1] =
      fun l : Fin 2 => if (c.2 : ℕ) = l then (if l = 0 then 1 else 1 / d) else 0 := by
  obtain ⟨h1, h2⟩ := br_node hF c
  have h0 : (w.nh 0).val = ⟨.pose2d, 0⟩ := by rw [hF.inactive 0 (by rw [br_active]; simp)]; rfl
  generalize (c.2 : ℕ) = k at h2 ⊢
  funext l
  change blockEntry (fun n => ((w.nh n).val).1.dim)
    ((FactorVirt.land2d ![1, 0] 0 false .quadratic).jac [(w.nh 0).val, (w.nh 1).val] l) c.1 k 0 [0, 1] = _
  rw [h1, h0, hv]
  change (if (0 : NRef) = 1 then _ else (0 : ℝ)) +
    ((if (1 : NRef) = 1 then blk2 (land2dJac 0 ![d, 0]).1 (land2dJac 0 ![d, 0]).2 l (0 + ((w.nh 0).val).1.dim + k) else 0) +
      0) = _
  rw [if_neg (show (0 : NRef) ≠ 1 by decide), if_pos rfl, zero_add, add_zero, zero_add, h0]
  change blk2 (land2dJac 0 ![d, 0]).1 (land2dJac 0 ![d, 0]).2 l (3 + k) = _
  unfold blk2
  rw [br_jac hd]
  revert l
  intro (l : Fin 2)
  rcases (show k = 0 ∨ k = 1 by omega) with rfl | rfl <;> fin_cases l <;> simp [blk]

/-- The information matrix at such a state. -/
theorem br_info {w : World} (hF : Frame brWorld w) {d : ℝ} (hd : 1 ≤ d) (hv : (w.nh 1).val = ⟨.landmark2d, ![d, 0]⟩)
    (c c' : Cols w) : infoMatrix (graphTerms w) c c' =
      if (c.2 : ℕ) = c'.2 then (if (c.2 : ℕ) = 0 then 1 else (1 / d) ^ 2) else 0 := by
  have hr : NoRansac w := by
    intro f hf
    rw [hF.factors.g, br_factors] at hf
    rw [hF.factors.virt, show f = 0 by simpa using hf]
    decide
  obtain ⟨-, h2⟩ := br_node hF c
  obtain ⟨-, h2'⟩ := br_node hF c'
  rw [infoMatrix_quad hr, SameFactors.quadSum hF.factors, quadSum, br_factors]
  change 1 * (jacRow (fun n => (w.nh n).val) c.1 c.2 (FactorVirt.land2d ![1, 0] 0 false .quadratic) [0, 1] ⬝ᵥ
    ((1 : Matrix (Fin 2) (Fin 2) ℝ) *ᵥ jacRow (fun n => (w.nh n).val) c'.1 c'.2
      (FactorVirt.land2d ![1, 0] 0 false .quadratic) [0, 1])) + 0 = _
  rw [br_J hF hd hv, br_J hF hd hv]
  refine (congrArg (fun x => 1 * (_ ⬝ᵥ x) + 0) (one_mulVec (m := Fin 2) _)).trans ?_
  refine (congrArg (1 * · + 0) (Fin.sum_univ_two _)).trans ?_
  rcases (show (c.2 : ℕ) = 0 ∨ (c.2 : ℕ) = 1 by omega) with hc | hc <;>
    rcases (show (c'.2 : ℕ) = 0 ∨ (c'.2 : ℕ) = 1 by omega) with hc' | hc' <;> simp [hc, hc'] <;> ring

theorem br_val : (brWorld.nh 1).val = ⟨.landmark2d, ![2, 0]⟩ := rfl

theorem br_res : land2dRes ![1, 0] 0 ![2, 0] = ![1, 0] := by
  have hs : Real.sqrt (2 * 2) = 2 := Real.sqrt_mul_self (by norm_num)
  have hc : catan2 0 2 = 0 := Complex.arg_ofReal_of_nonneg (x := 2) (by norm_num)
  have hw : wrapAngle 0 = 0 := wrapAngle_eq_zero.mpr ⟨0, by simp⟩
  simp only [land2dRes, Pi.zero_apply, sub_zero, Matrix.cons_val_zero, Matrix.cons_val_one, mul_zero, add_zero, hs, hc, hw]
  rw [if_neg (by norm_num)]
  norm_num

theorem br_rhs (c : Cols brWorld) : infoVector (graphTerms brWorld) c = if (c.2 : ℕ) = 0 then 1 else 0 := by
  have hr : NoRansac brWorld := by
    intro f hf
    rw [br_factors] at hf
    rw [show f = 0 by simpa using hf]
    decide
  obtain ⟨-, h2⟩ := br_node (.refl _) c
  rw [infoVector_quad hr, quadSum, br_factors]
  change 1 * (jacRow (fun n => (brWorld.nh n).val) c.1 c.2 (FactorVirt.land2d ![1, 0] 0 false .quadratic) [0, 1] ⬝ᵥ
    ((1 : Matrix (Fin 2) (Fin 2) ℝ) *ᵥ land2dRes ![1, 0] 0 ![2, 0])) + 0 = _
  rw [br_J (.refl _) (by norm_num) br_val, br_res]
  refine (congrArg (fun x => 1 * (_ ⬝ᵥ x) + 0) (one_mulVec (m := Fin 2) _)).trans ?_
  refine (congrArg (1 * · + 0) (Fin.sum_univ_two _)).trans ?_
  rcases (show (c.2 : ℕ) = 0 ∨ (c.2 : ℕ) = 1 by omega) with hc | hc <;> simp [hc]

theorem br_posDef : (infoMatrix (graphTerms brWorld)).PosDef := by
  have : infoMatrix (graphTerms brWorld) = Matrix.diagonal fun c => if (c.2 : ℕ) = 0 then (1 : ℝ) else (1 / 2) ^ 2 := by
    ext c c'
    rw [br_info (.refl _) (by norm_num) br_val, Matrix.diagonal_apply]
    by_cases h : c = c'
    · subst h; simp
    · rw [if_neg h, if_neg fun e => h (br_ext (.refl _) e)]
  rw [this]
  refine Matrix.PosDef.diagonal fun c => ?_
  split <;> norm_num

end Demo

/-- C92 is false for `solve(GN)`: a landmark seen at distance and bearing is moved to the right place, but the returned matrix
is that of its old place. -/
theorem C92_gn_fails (env : Env) (henv : env.Sound) (hcomp : env.Complete) (maxIters : ℕ) (lambda tol : ℝ) :
    ∃ s', Demo.brSolver.solve env .GN maxIters lambda tol = .ok s' ∧ (s'.w.nh 1).val = ⟨.landmark2d, ![1, 0]⟩ ∧
      ¬ InfoAt s'.w s'.sys.L := by
  have hw : WellPosed Demo.brSolver.w := Demo.br_wellPosed
  obtain ⟨s', h⟩ := C36_returns env hcomp Demo.brSolver hw Demo.br_posDef maxIters lambda tol
  have hF : Frame Demo.brWorld s'.w := FGraphSolve.solve_frame h
  obtain ⟨dx, h1, h2⟩ := FGraphSolve.gn_ok hw h
  have h3 := FGraphSolve.normal_solution henv hw h1
  have hx : ∀ c : Cols Demo.brWorld, (if (c.2 : ℕ) = 0 then (1 : ℝ) else (1 / 2) ^ 2) * dx (colEquiv hw.wired c) =
      if (c.2 : ℕ) = 0 then 1 else 0 := by
    intro c
    rw [← Demo.br_rhs c]
    refine Eq.trans ?_ (congrFun h3 c)
    change _ = ∑ d, infoMatrix (graphTerms Demo.brWorld) c d * dx (colEquiv hw.wired d)
    refine Eq.symm ((Finset.sum_eq_single c ?_ ?_).trans ?_)
    rotate_left 2
    · refine congrArg (· * _) ?_
      refine (Demo.br_info (.refl _) (by norm_num) Demo.br_val c c).trans ?_
      rw [if_pos rfl]
    · intro d _ hd
      refine mul_eq_zero_of_left ?_ _
      refine (Demo.br_info (.refl _) (by norm_num) Demo.br_val c d).trans ?_
      rw [if_neg fun e => hd (Demo.br_ext (.refl _) e).symm]
    · intro hc; exact absurd (Finset.mem_univ _) hc
  have hm : (1 : NRef) ∈ Demo.brWorld.g.active := by rw [Demo.br_active]; simp
  have hv : (s'.w.nh 1).val = ⟨.landmark2d, ![1, 0]⟩ := by
    have h0 := hx ⟨⟨1, hm⟩, ⟨0, by change 0 < 2; norm_num⟩⟩
    have h1 := hx ⟨⟨1, hm⟩, ⟨1, by change 1 < 2; norm_num⟩⟩
    norm_num at h0 h1
    rw [h2]
    have h4 := moved_step hw.wired dx
    change ((Demo.brWorld.moved (Demo.brWorld.unstack dx)).nh 1).val = _
    have h5 : Demo.brWorld.moved (Demo.brWorld.unstack dx) = Demo.brWorld.moved (Demo.brWorld.spread (step hw.wired dx)) := h4
    rw [h5]
    change NodeCell.val (if (1 : NRef) ∈ Demo.brWorld.g.active then
      (Demo.brWorld.nh 1).update (Demo.brWorld.spread (step hw.wired dx) 1) else Demo.brWorld.nh 1) = _
    rw [if_pos hm]
    refine congrArg (Sigma.mk NodeKind.landmark2d) ?_
    funext i
    fin_cases i
    · refine Eq.trans (congrArg ((2 : ℝ) + ·) (spread_apply _ (⟨⟨1, hm⟩, ⟨0, by change 0 < 2; norm_num⟩⟩ : Cols Demo.brWorld))) ?_
      exact (congrArg (fun x : ℝ => 2 + -x) h0).trans (by norm_num)
    · refine Eq.trans (congrArg ((0 : ℝ) + ·) (spread_apply _ (⟨⟨1, hm⟩, ⟨1, by change 1 < 2; norm_num⟩⟩ : Cols Demo.brWorld))) ?_
      exact (congrArg (fun x : ℝ => 0 + -x) h1).trans (by norm_num)
  refine ⟨s', h, hv, ?_⟩
  rintro ⟨e, k1, k2⟩
  obtain ⟨⟨e', k1', k2'⟩, -⟩ := C92_gn env Demo.brSolver s' hw maxIters lambda tol h
  obtain ⟨c, hc⟩ : ∃ c : Cols Demo.brWorld, (c.2 : ℕ) = 1 := ⟨⟨⟨1, hm⟩, ⟨1, by change 1 < 2; norm_num⟩⟩, rfl⟩
  have h5 := congrFun (congrFun k2 (frameCols hF c)) (frameCols hF c)
  have h6 := congrFun (congrFun k2' c) c
  have hcc : ((frameCols hF c).2 : ℕ) = 1 := hc
  rw [Demo.br_info hF (le_refl 1) hv, hcc] at h5
  have h6' := h6.trans (Demo.br_info (.refl _) (by norm_num) Demo.br_val c c)
  rw [hc] at h6'
  have he : e (frameCols hF c) = e' c := by
    refine Fin.ext ?_
    refine (k1 _).trans (Eq.trans ?_ (k1' c).symm)
    refine congrArg₂ _ ?_ rfl
    have hd : (fun n => (s'.w.nh n).dim) = fun n => (Demo.brWorld.nh n).dim := funext fun n =>
      congrArg NodeKind.dim (hF.active n).kind
    rw [hd]
    exact congrArg (fun g : Graph => offset _ g.active c.1) hF.factors.g
  rw [submatrix_apply, he] at h5
  have h7 := h5.symm.trans h6'
  norm_num at h7

example : Env.exact.Sound ∧ Env.exact.Complete := ⟨Env.exact_sound, Env.exact_complete⟩

end Mrob
