import Verif.Lemmas.GaugeVisited
import Verif.Lemmas.DemoDamped
import Verif.Props.Mirror

/-!
# C93, C112: Levenberg-Marquardt, with assumptions on the estimates it comes to
-/

open Matrix

namespace Mrob

open World Spec

theorem mirror_orth (κ : NodeKind) : mirrorSym.Orth κ := by
  intro i hi j _
  change ∑ k ∈ Finset.range κ.dim, (if k = i then flipSign k else 0) * (if k = j then flipSign k else 0) = _
  rw [Finset.sum_eq_single i]
  · rw [if_pos rfl, mul_ite, flipSign_sq, mul_zero]
  · intro k _ hk
    rw [if_neg hk, zero_mul]
  · intro h; exact absurd (Finset.mem_range.mpr hi) h

/-- C112, Levenberg-Marquardt: if no angular error is exactly a half turn at the start and at the estimates the loop comes to,
the mirror image takes the same number of iterations, with the same returned number and cost, and the estimates are the
mirror images.  Missing: errors of exactly a half turn (`C112_half_fails`: false). -/
theorem C112_lm_partial (ops : List GraphOp) (w₀ w₀' : World) (h₀ : w₀.g = emptyGraph) (h₀' : w₀'.g = emptyGraph)
    (hp : Proper w₀ ops) (hm : Restated Mirrored FactorMirrored ops w₀ w₀')
    (hpsd : ∀ f ∈ addedFactors ops, (w₀.fh f).virt.W.PosSemidef) (hwt : ∀ f ∈ addedFactors ops, 0 ≤ (w₀.fh f).weight)
    (hpsd' : ∀ f ∈ addedFactors ops, (w₀'.fh f).virt.W.PosSemidef) (hwt' : ∀ f ∈ addedFactors ops, 0 ≤ (w₀'.fh f).weight)
    (hr : ∀ f ∈ addedFactors ops, (w₀.fh f).virt.robust ≠ .ransac)
    (hok : ∀ f ∈ addedFactors ops, NotOpposite (w₀.fh f).virt ((w₀.fh f).nbrs.map fun n => (w₀.nh n).val))
    (env env' : Env) (henv : env.Sound) (henv' : env'.Sound)
    (s s' : FGraphSolve) (hs : s.w = World.run ops w₀) (hs' : s'.w = World.run ops w₀') (maxIters : ℕ) (tol : ℝ)
    (hvis : ∀ t, LMVisited env maxIters 0 { s with tol := tol, lambda := 1e-5 } t → ∀ f ∈ addedFactors ops,
      NotOpposite (w₀.fh f).virt ((w₀.fh f).nbrs.map fun n => (t.w.nh n).val))
    (r r' : FGraphSolve.LMResult) (h1 : FGraphSolve.levenbergMarquardt env maxIters { s with tol := tol } = .ok r)
    (h1' : FGraphSolve.levenbergMarquardt env' maxIters { s' with tol := tol } = .ok r') :
    r'.ret = r.ret ∧ r'.iters = r.iters ∧ r'.s.w.cost = r.s.w.cost ∧
    ∀ n, (n ∈ s.w.g.active ∨ ∃ f ∈ addedFactors ops, n ∈ (w₀.fh f).nbrs) → Mirrored (r.s.w.nh n).val (r'.s.w.nh n).val := by
  have hp' := Restated.proper (fun _ _ h => mirrorSym.kind h) (fun _ _ h => by cases h <;> rfl) hm hp
  have hw := run_wellPosed h₀ hp hpsd hwt
  have hw' := run_wellPosed h₀' hp' hpsd' hwt'
  have hr1 := run_noRansac h₀ hr
  have hr1' := run_noRansac h₀' fun f hf => by
    rw [(factor_mirrored (hm.virt f hf)).1]; exact hr f hf
  have hG := mirror_gauge h₀ h₀' hp hm hok
  rw [← hs] at hw hr1 hG
  rw [← hs'] at hw' hr1' hG
  have hfac : s.w.g.factors = addedFactors ops := by rw [hs, run_factors, h₀]; rfl
  obtain ⟨k1, k2, k3, k4⟩ := FGraphSolve.lmLoop_now (S := mirrorSym) henv henv' _ 0 rfl
    (s := ⟨s.w, 1e-5, tol, s.sys, s.mats⟩) (s' := ⟨s'.w, 1e-5, tol, s'.sys, s'.mats⟩)
    ⟨hG, rfl, rfl, fun n hn => mirror_orth _⟩ hw hw' hr1 hr1' (by norm_num)
    (fun t ht f hf => by
      have := hvis t ht f (hfac ▸ hf)
      change mirrorSym.ok (s.w.fh f).virt ((s.w.fh f).nbrs.map fun n => (t.w.nh n).val)
      rw [hs, (run_fh_static ops w₀ f).1, (run_fh_static ops w₀ f).2]
      exact this) (fun _ _ _ h => FGraphSolve.followsAt_of h mirror_follows) h1 h1'
  have hF := (FGraphSolve.lmLoop_run _ 0 ⟨s.w, 1e-5, tol, s.sys, s.mats⟩ r rfl h1).frame
  refine ⟨k1, k2, k3.cost_eq k4.wired, fun n hn => k3.val n ?_⟩
  rw [hF.factors.g]
  refine hn.imp id fun ⟨f, hf, hn⟩ => ⟨f, hfac ▸ hf, ?_⟩
  rw [hF.factors.nbrs]
  change n ∈ (s.w.fh f).nbrs
  rw [hs, (run_fh_static ops w₀ f).2]; exact hn

/-- With one iteration the loop comes to the first trial and, if it is worse, back to the start. -/
theorem visited_one {env : Env} {s t : FGraphSolve} (h : LMVisited env 1 0 s t) :
    ∃ d s1, s.trial env = .ok (d, s1) ∧ (t = s1 ∨ t = s1.reject) := by
  cases h with
  | tried h => exact ⟨_, _, h, .inl rfl⟩
  | restored h _ => exact ⟨_, _, h, .inr rfl⟩
  | afterReject _ _ h => exact absurd h (by omega)
  | afterAccept _ _ _ h => exact absurd h (by omega)

namespace Demo

/-- The first trial. -/
theorem swerve_trial (o0 o1 : Vec3) {env : Env} (henv : env.Sound) {s s1 : FGraphSolve} {d : ℝ}
    (hs : s.w = World.run twiceOps (swerveWorld₀ o0 o1)) (hm : 2 + s.lambda ≠ 0) (h1 : s.trial env = .ok (d, s1)) :
    (s1.w.nh 0).val = ⟨.pose2d, 0⟩ ∧ (s1.w.nh 1).val = ⟨.pose2d, 0⟩ ∧
      (s1.w.nh 2).val = ⟨.pose2d, wrap2 ((2 + s.lambda)⁻¹ • (odomRes o0 0 0 + odomRes o1 0 0))⟩ := by
  have key : ∀ (M M' : Mat3) (r r' : Vec3), M = -1 → M' = -1 → Mᵀ * 1 * M + M'ᵀ * 1 * M' = (2 : ℝ) • (1 : Mat3) ∧
      Mᵀ *ᵥ ((1 : Mat3) *ᵥ r) + M'ᵀ *ᵥ ((1 : Mat3) *ᵥ r') = -(r + r') := by
    rintro _ _ r r' rfl rfl
    have e : ((-1 : Mat3)ᵀ * 1 * -1 + (-1 : Mat3)ᵀ * 1 * -1) = 1 + 1 := by simp
    rw [e, transpose_neg, transpose_one, neg_mulVec, neg_mulVec, one_mulVec, one_mulVec, one_mulVec, one_mulVec]
    exact ⟨(two_smul ℝ _).symm, by abel⟩
  obtain ⟨k1, k2⟩ := key _ _ (odomRes o0 0 0) (odomRes o1 0 0) (odom_twiceJac o0 1 0 0) (odom_twiceJac o1 1 0 0)
  obtain ⟨g0, g1, g2⟩ := twice_trial (swerve_pair o0 o1) k1 k2 henv hs hm h1
  refine ⟨g0, g1, g2.trans ?_⟩
  change (⟨.pose2d, wrap2 ((0 : Vec3) + fun i : Fin 3 => _)⟩ : NodeVal) = _
  congr 2
  funext i
  change (0 : ℝ) + (if hk : (i : ℕ) < 3 then -((2 + s.lambda)⁻¹ * (-(odomRes o0 0 0 + odomRes o1 0 0)) ⟨i, hk⟩) else 0) = _
  rw [dif_pos i.2, Pi.neg_apply, mul_neg, neg_neg, zero_add]
  rfl

end Demo

/-- One motion straight ahead and one to the left, one iteration. -/
example (env : Env) (henv : env.Sound) (s : FGraphSolve)
    (hs : s.w = World.run Demo.twiceOps (Demo.swerveWorld₀ ![0, 1, 0] ![Real.pi / 2, 1, 0])) :
    ∀ t, LMVisited env 1 0 { s with tol := 1e-2, lambda := 1e-5 } t → ∀ f ∈ addedFactors Demo.twiceOps,
      NotOpposite ((Demo.swerveWorld₀ ![0, 1, 0] ![Real.pi / 2, 1, 0]).fh f).virt
        (((Demo.swerveWorld₀ ![0, 1, 0] ![Real.pi / 2, 1, 0]).fh f).nbrs.map fun n => (t.w.nh n).val) := by
  have hpi := Real.pi_pos
  intro t ht
  obtain ⟨d, s1, h1, hts⟩ := visited_one ht
  obtain ⟨e0, e1, e2⟩ := Demo.swerve_trial _ _ henv (s := { s with tol := 1e-2, lambda := 1e-5 }) hs (by norm_num) h1
  have hsv := Demo.twice_val (Demo.swerve_pair ![0, 1, 0] ![Real.pi / 2, 1, 0])
  have hval : ∀ n, (s.w.nh n).val = ((Demo.twiceWorld (Demo.drivenFrom 0) ⟨.pose2d, 0⟩ (Demo.swerve ![0, 1, 0] ![Real.pi / 2, 1, 0])).nh n).val := by
    intro n; rw [hs]; rfl
  have hact : s.w.g.active = [2] := by rw [hs]; exact Demo.twice_active
  have hw0 : wrapAngle 0 = 0 := wrapAngle_of_mem (by linarith) hpi
  have hwp : wrapAngle (Real.pi / 2) = Real.pi / 2 := wrapAngle_of_mem (by linarith) (by linarith)
  have hc : (0 : ℝ) < (2 + 1e-5)⁻¹ ∧ ((2 : ℝ) + 1e-5)⁻¹ ≤ 1 := by norm_num
  have h2 : ∃ y : Vec3, (t.w.nh 0).val = ⟨.pose2d, 0⟩ ∧ (t.w.nh 1).val = ⟨.pose2d, 0⟩ ∧ (t.w.nh 2).val = ⟨.pose2d, y⟩ ∧
      0 ≤ y 2 ∧ y 2 ≤ Real.pi / 2 := by
    rcases hts with rfl | rfl
    · refine ⟨_, e0, e1, e2, ?_⟩
      have e : wrap2 (((2 : ℝ) + 1e-5)⁻¹ • (odomRes ![0, 1, 0] 0 0 + odomRes ![Real.pi / 2, 1, 0] 0 0)) 2 =
          (2 + 1e-5)⁻¹ * (Real.pi / 2) := by
        change wrapAngle (((2 : ℝ) + 1e-5)⁻¹ * (wrapAngle ((0 : ℝ) + 0 + 0 - 0) + wrapAngle ((0 : ℝ) + Real.pi / 2 + 0 - 0))) = _
        have a1 : (0 : ℝ) + 0 + 0 - 0 = 0 := by ring
        have a2 : (0 : ℝ) + Real.pi / 2 + 0 - 0 = Real.pi / 2 := by ring
        rw [a1, a2, hw0, hwp, zero_add]
        exact wrapAngle_of_mem (by nlinarith [hc.1]) (by nlinarith [hc.2])
      rw [e]
      exact ⟨by nlinarith [hc.1], by nlinarith [hc.2]⟩
    · refine ⟨wrap2 0, ?_, ?_, ?_, ?_⟩
      · rw [FGraphSolve.reject_val h1, if_neg (by change (0 : NRef) ∉ s.w.g.active; rw [hact]; simp)]
        exact (hval 0).trans hsv.1
      · rw [FGraphSolve.reject_val h1, if_neg (by change (1 : NRef) ∉ s.w.g.active; rw [hact]; simp)]
        exact (hval 1).trans hsv.2.1
      · rw [FGraphSolve.reject_val h1, if_pos (by change (2 : NRef) ∈ s.w.g.active; rw [hact]; simp)]
        exact congrArg NodeVal.stored ((hval 2).trans hsv.2.2)
      · change 0 ≤ wrapAngle 0 ∧ wrapAngle 0 ≤ _
        rw [hw0]
        exact ⟨le_refl _, by linarith⟩
  obtain ⟨y, k0, k1, k2, k3, k4⟩ := h2
  have key : ∀ o : Vec3, 0 ≤ o 0 → o 0 ≤ Real.pi / 2 → o 2 = 0 → ∀ i : Fin 3, (i : ℕ) + 1 = 3 → odomRes o 0 y i ≠ -Real.pi := by
    intro o ho ho' ho2 i hi
    obtain rfl : i = 2 := by ext; change (i : ℕ) = 2; omega
    change wrapAngle ((0 : ℝ) + o 0 + o 2 - y 2) ≠ _
    rw [ho2, zero_add, add_zero, wrapAngle_of_mem (by linarith) (by linarith)]
    linarith
  intro f hf
  simp [addedFactors, Demo.twiceOps] at hf
  rcases hf with rfl | rfl
  · change NotOpposite (.odom ![0, 1, 0] 1 .quadratic) [(t.w.nh 0).val, (t.w.nh 2).val]
    rw [k0, k2]
    exact key ![0, 1, 0] (le_refl _) (by change (0 : ℝ) ≤ _; linarith) rfl
  · change NotOpposite (.odom ![Real.pi / 2, 1, 0] 1 .quadratic) [(t.w.nh 1).val, (t.w.nh 2).val]
    rw [k1, k2]
    exact key ![Real.pi / 2, 1, 0] (by change (0 : ℝ) ≤ Real.pi / 2; linarith) (le_refl _) rfl

/-- C93, planar graphs with landmarks, Levenberg-Marquardt: if no landmark is closer than 1e-3 to a pose that sees it, at the
start and at the estimates the loop comes to, the number of iterations, the returned number and the cost do not depend on
the frame, and the estimates are moved.  Missing: as for `C93_gn_partial`. -/
theorem C93_lm_landmarks_partial (g : Vec3) (ops : List GraphOp) (w₀ w₀' : World) (h₀ : w₀.g = emptyGraph)
    (h₀' : w₀'.g = emptyGraph) (hp : Proper w₀ ops) (hm : Restated (PlanarMoved g) (FactorMoved g) ops w₀ w₀')
    (hpsd : ∀ f ∈ addedFactors ops, (w₀.fh f).virt.W.PosSemidef) (hwt : ∀ f ∈ addedFactors ops, 0 ≤ (w₀.fh f).weight)
    (hpsd' : ∀ f ∈ addedFactors ops, (w₀'.fh f).virt.W.PosSemidef) (hwt' : ∀ f ∈ addedFactors ops, 0 ≤ (w₀'.fh f).weight)
    (hr : ∀ f ∈ addedFactors ops, (w₀.fh f).virt.robust ≠ .ransac)
    (hfar : ∀ f ∈ addedFactors ops, FarLandmarks ((w₀.fh f).nbrs.map fun n => (w₀.nh n).val))
    (env env' : Env) (henv : env.Sound) (henv' : env'.Sound)
    (s s' : FGraphSolve) (hs : s.w = World.run ops w₀) (hs' : s'.w = World.run ops w₀') (maxIters : ℕ) (tol : ℝ)
    (hvis : ∀ t, LMVisited env maxIters 0 { s with tol := tol, lambda := 1e-5 } t → ∀ f ∈ addedFactors ops,
      FarLandmarks ((w₀.fh f).nbrs.map fun n => (t.w.nh n).val))
    (r r' : FGraphSolve.LMResult) (h1 : FGraphSolve.levenbergMarquardt env maxIters { s with tol := tol } = .ok r)
    (h1' : FGraphSolve.levenbergMarquardt env' maxIters { s' with tol := tol } = .ok r') :
    r'.ret = r.ret ∧ r'.iters = r.iters ∧ r'.s.w.cost = r.s.w.cost ∧
    ∀ n, (n ∈ s.w.g.active ∨ ∃ f ∈ addedFactors ops, n ∈ (w₀.fh f).nbrs) →
      PlanarMoved g (r.s.w.nh n).val (r'.s.w.nh n).val := by
  have hp' := Restated.proper (fun _ _ h => (planarSym g).kind h) (fun _ _ h => by cases h <;> rfl) hm hp
  have hw := run_wellPosed h₀ hp hpsd hwt
  have hw' := run_wellPosed h₀' hp' hpsd' hwt'
  have hr1 := run_noRansac h₀ hr
  have hr1' := run_noRansac h₀' fun f hf => by
    rw [(factor_moved (hm.virt f hf)).1]; exact hr f hf
  have hG := Restated.gauge (S := planarSym g) (fun _ _ h => factor_moved h) hm hp.noSetMode h₀ h₀'
    (fun n hn => planar_moves _ (planarMoved_kind (hm.val n (.inl hn)))) hfar
  rw [← hs] at hw hr1 hG
  rw [← hs'] at hw' hr1' hG
  have hfac : s.w.g.factors = addedFactors ops := by rw [hs, run_factors, h₀]; rfl
  have hk : ∀ n ∈ s.w.g.active, (s.w.nh n).kind = .pose2d ∨ (s.w.nh n).kind = .landmark2d :=
    fun n hn => planarMoved_kind (hG.val n (.inl hn))
  obtain ⟨k1, k2, k3, k4⟩ := FGraphSolve.lmLoop_now (S := planarSym g) henv henv' _ 0 rfl
    (s := ⟨s.w, 1e-5, tol, s.sys, s.mats⟩) (s' := ⟨s'.w, 1e-5, tol, s'.sys, s'.mats⟩)
    ⟨hG, rfl, rfl, fun n hn => planar_orth _ (hk n hn)⟩ hw hw' hr1 hr1' (by norm_num)
    (fun t ht f hf => by
      have := hvis t ht f (hfac ▸ hf)
      change (planarSym g).ok (s.w.fh f).virt ((s.w.fh f).nbrs.map fun n => (t.w.nh n).val)
      rw [hs, (run_fh_static ops w₀ f).1, (run_fh_static ops w₀ f).2]
      exact this) (fun _ _ _ h => FGraphSolve.followsAt_of h planar_follows) h1 h1'
  have hF := (FGraphSolve.lmLoop_run _ 0 ⟨s.w, 1e-5, tol, s.sys, s.mats⟩ r rfl h1).frame
  refine ⟨k1, k2, k3.cost_eq k4.wired, fun n hn => k3.val n ?_⟩
  rw [hF.factors.g]
  refine hn.imp id fun ⟨f, hf, hn⟩ => ⟨f, hfac ▸ hf, ?_⟩
  rw [hF.factors.nbrs]
  change n ∈ (s.w.fh f).nbrs
  rw [hs, (run_fh_static ops w₀ f).2]; exact hn

/-- The landmark seen from two anchored poses, one iteration: it moves away along the first axis. -/
example (env : Env) (henv : env.Sound) (s : FGraphSolve)
    (hs : s.w = World.run Demo.twiceOps (Demo.twiceWorld₀ Demo.seenFrom Demo.seenAt Demo.seenObs)) :
    ∀ t, LMVisited env 1 0 { s with tol := 1e-2, lambda := 1e-5 } t → ∀ f ∈ addedFactors Demo.twiceOps,
      FarLandmarks (((Demo.twiceWorld₀ Demo.seenFrom Demo.seenAt Demo.seenObs).fh f).nbrs.map fun n => (t.w.nh n).val) := by
  have hpi := Real.pi_pos
  have hpi2 := Real.two_le_pi
  have hP : Demo.Measured Demo.seenFrom Demo.seenAt Demo.seenObs :=
    ⟨rfl, rfl, rfl, rfl, rfl, Matrix.PosSemidef.one, Matrix.PosSemidef.one, rfl, rfl⟩
  intro t ht
  obtain ⟨d, s1, h1, hts⟩ := visited_one ht
  have q0 : ((![1, 0] : Vec2) 0 - (0 : Vec3) 0) * ((![1, 0] : Vec2) 0 - (0 : Vec3) 0) +
      ((![1, 0] : Vec2) 1 - (0 : Vec3) 1) * ((![1, 0] : Vec2) 1 - (0 : Vec3) 1) = 1 := by simp
  have q1 : ((![1, 0] : Vec2) 0 - (![1, -1, 0] : Vec3) 0) * ((![1, 0] : Vec2) 0 - (![1, -1, 0] : Vec3) 0) +
      ((![1, 0] : Vec2) 1 - (![1, -1, 0] : Vec3) 1) * ((![1, 0] : Vec2) 1 - (![1, -1, 0] : Vec3) 1) = 1 := by simp
  have r0 : land2dRes ![2, 0] 0 ![1, 0] = ![-1, 0] := by
    have ha : catan2 0 1 = 0 := by
      have : (⟨1, 0⟩ : ℂ) = 1 := rfl
      rw [catan2, this, Complex.arg_one]
    have hw : wrapAngle 0 = 0 := wrapAngle_of_mem (by linarith) hpi
    rw [land2dRes]
    simp only [q0]
    rw [if_neg (by norm_num)]
    funext i
    fin_cases i
    · simp; norm_num
    · simp [ha, hw]
  have r1 : land2dRes ![1, 1] ![1, -1, 0] ![1, 0] = ![0, Real.pi / 2 - 1] := by
    have ha : catan2 1 0 = Real.pi / 2 := by
      have : (⟨0, 1⟩ : ℂ) = Complex.I := rfl
      rw [catan2, this, Complex.arg_I]
    have hw : wrapAngle (Real.pi / 2 - 1) = Real.pi / 2 - 1 := wrapAngle_of_mem (by linarith) (by linarith)
    rw [land2dRes]
    simp only [q1]
    rw [if_neg (by norm_num)]
    funext i
    fin_cases i
    · simp
    · simp [ha, hw]
  have key : ∀ (M M' : Matrix (Fin 2) (Fin 2) ℝ) (u u' : Vec2), M = (land2dJac 0 ![1, 0]).2 → M' = (land2dJac ![1, -1, 0] ![1, 0]).2 →
      u = ![-1, 0] → u' = ![0, Real.pi / 2 - 1] →
      Mᵀ * 1 * M + M'ᵀ * 1 * M' = (2 : ℝ) • (1 : Matrix (Fin 2) (Fin 2) ℝ) ∧
      Mᵀ *ᵥ ((1 : Matrix (Fin 2) (Fin 2) ℝ) *ᵥ u) + M'ᵀ *ᵥ ((1 : Matrix (Fin 2) (Fin 2) ℝ) *ᵥ u') = ![-(Real.pi / 2), 0] := by
    rintro _ _ _ _ rfl rfl rfl rfl
    refine ⟨?_, ?_⟩
    · rw [Demo.unit_info q0, Demo.unit_info q1, two_smul]
    · rw [Demo.unit_jac q0, Demo.unit_jac q1, one_mulVec, one_mulVec]
      funext i
      fin_cases i
      · simp [mulVec, dotProduct, Fin.sum_univ_two]; ring
      · simp [mulVec, dotProduct, Fin.sum_univ_two]
  obtain ⟨k1, k2⟩ := key _ _ _ _ (Demo.land_twiceJac ![2, 0] 1 0 ![1, 0]) (Demo.land_twiceJac ![1, 1] 1 ![1, -1, 0] ![1, 0]) r0 r1
  obtain ⟨e0, e1, e2⟩ := Demo.twice_trial hP (m := 2) k1 k2 henv (s := { s with tol := 1e-2, lambda := 1e-5 }) hs (by norm_num) h1
  have hsv := Demo.twice_val hP
  have hval : ∀ n, (s.w.nh n).val = ((Demo.twiceWorld Demo.seenFrom Demo.seenAt Demo.seenObs).nh n).val := by
    intro n; rw [hs]; rfl
  have hact : s.w.g.active = [2] := by rw [hs]; exact Demo.twice_active
  have hc : (0 : ℝ) < (2 + 1e-5)⁻¹ := by norm_num
  have h2 : ∃ y : Vec2, (t.w.nh 0).val = ⟨.pose2d, 0⟩ ∧ (t.w.nh 1).val = ⟨.pose2d, ![1, -1, 0]⟩ ∧
      (t.w.nh 2).val = ⟨.landmark2d, y⟩ ∧ 1 ≤ y 0 ∧ y 1 = 0 := by
    rcases hts with rfl | rfl
    · refine ⟨fun i => (![1, 0] : Vec2) i + -((2 + 1e-5)⁻¹ * (![-(Real.pi / 2), 0] : Vec2) i), e0, e1, e2.trans ?_, ?_, ?_⟩
      · change (⟨.landmark2d, (![1, 0] : Vec2) + fun i : Fin 2 => _⟩ : NodeVal) = _
        congr 1
        funext i
        change (![1, 0] : Vec2) i + (if hk : (i : ℕ) < 2 then -((2 + 1e-5)⁻¹ * (![-(Real.pi / 2), 0] : Vec2) ⟨i, hk⟩) else 0) = _
        rw [dif_pos i.2]
      · change (1 : ℝ) ≤ 1 + -((2 + 1e-5)⁻¹ * -(Real.pi / 2))
        nlinarith
      · simp
    · refine ⟨![1, 0], ?_, ?_, ?_, le_refl _, rfl⟩
      · rw [FGraphSolve.reject_val h1, if_neg (by change (0 : NRef) ∉ s.w.g.active; rw [hact]; simp)]
        exact (hval 0).trans hsv.1
      · rw [FGraphSolve.reject_val h1, if_neg (by change (1 : NRef) ∉ s.w.g.active; rw [hact]; simp)]
        exact (hval 1).trans hsv.2.1
      · rw [FGraphSolve.reject_val h1, if_pos (by change (2 : NRef) ∈ s.w.g.active; rw [hact]; simp)]
        exact congrArg NodeVal.stored ((hval 2).trans hsv.2.2)
  obtain ⟨y, k0, k1, k2, k3, k4⟩ := h2
  intro f hf
  simp [addedFactors, Demo.twiceOps] at hf
  rcases hf with rfl | rfl
  · change FarLandmarks [(t.w.nh 0).val, (t.w.nh 2).val]
    rw [k0, k2]
    intro x l hx hl
    simp at hx hl
    subst hx hl
    simp only [Pi.zero_apply]
    nlinarith
  · change FarLandmarks [(t.w.nh 1).val, (t.w.nh 2).val]
    rw [k1, k2]
    intro x l hx hl
    simp at hx hl
    subst hx hl
    rw [k4]
    simp
    nlinarith [sq_nonneg (l 0 - 1)]

end Mrob
