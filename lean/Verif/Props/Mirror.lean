import Verif.Lemmas.Mirror
import Verif.Props.WorldFrame

/-!
# C112: left and right
-/

open Matrix

namespace Mrob

open World Spec

theorem mirror_gauge {ops : List GraphOp} {w₀ w₀' : World} (h₀ : w₀.g = emptyGraph) (h₀' : w₀'.g = emptyGraph)
    (hp : Proper w₀ ops) (hm : Restated Mirrored FactorMirrored ops w₀ w₀')
    (hok : ∀ f ∈ addedFactors ops, NotOpposite (w₀.fh f).virt ((w₀.fh f).nbrs.map fun n => (w₀.nh n).val)) :
    World.Gauge mirrorSym (World.run ops w₀) (World.run ops w₀') :=
  Restated.gauge (S := mirrorSym) (fun _ _ h => factor_mirrored h) hm hp.noSetMode h₀ h₀' (fun _ _ => mirror_moves _) hok

/-- C112, the error: the mirror image of a planar graph has the same error.  Missing: errors of exactly a half turn. -/
theorem C112_cost_partial (ops : List GraphOp) (w₀ w₀' : World) (h₀ : w₀.g = emptyGraph) (h₀' : w₀'.g = emptyGraph)
    (hp : Proper w₀ ops) (hm : Restated Mirrored FactorMirrored ops w₀ w₀')
    (hpsd : ∀ f ∈ addedFactors ops, (w₀.fh f).virt.W.PosSemidef) (hwt : ∀ f ∈ addedFactors ops, 0 ≤ (w₀.fh f).weight)
    (hok : ∀ f ∈ addedFactors ops, NotOpposite (w₀.fh f).virt ((w₀.fh f).nbrs.map fun n => (w₀.nh n).val)) :
    (World.run ops w₀').cost = (World.run ops w₀).cost :=
  (mirror_gauge h₀ h₀' hp hm hok).cost_eq (run_wellPosed h₀ hp hpsd hwt).wired

/-- C112, Gauss-Newton: the estimates of the mirror image are the mirror images of the estimates.  Landmarks may be as close
to the poses as they like.  Missing: errors of exactly a half turn (`C112_half_fails`: false).  Levenberg-Marquardt: `C112_lm_partial`. -/
theorem C112_gn_partial (ops : List GraphOp) (w₀ w₀' : World) (h₀ : w₀.g = emptyGraph) (h₀' : w₀'.g = emptyGraph)
    (hp : Proper w₀ ops) (hm : Restated Mirrored FactorMirrored ops w₀ w₀')
    (hpsd : ∀ f ∈ addedFactors ops, (w₀.fh f).virt.W.PosSemidef) (hwt : ∀ f ∈ addedFactors ops, 0 ≤ (w₀.fh f).weight)
    (hpsd' : ∀ f ∈ addedFactors ops, (w₀'.fh f).virt.W.PosSemidef) (hwt' : ∀ f ∈ addedFactors ops, 0 ≤ (w₀'.fh f).weight)
    (hr : ∀ f ∈ addedFactors ops, (w₀.fh f).virt.robust ≠ .ransac)
    (hok : ∀ f ∈ addedFactors ops, NotOpposite (w₀.fh f).virt ((w₀.fh f).nbrs.map fun n => (w₀.nh n).val))
    (env env' : Env) (henv : env.Sound) (henv' : env'.Sound)
    (s s' s1 s1' : FGraphSolve) (hs : s.w = World.run ops w₀) (hs' : s'.w = World.run ops w₀')
    (hpd : (infoMatrix (graphTerms s.w)).PosDef) (maxIters maxIters' : ℕ) (lambda lambda' tol tol' : ℝ)
    (h1 : s.solve env .GN maxIters lambda tol = .ok s1) (h1' : s'.solve env' .GN maxIters' lambda' tol' = .ok s1') :
    ∀ n, (n ∈ s.w.g.active ∨ ∃ f ∈ addedFactors ops, n ∈ (w₀.fh f).nbrs) → Mirrored (s1.w.nh n).val (s1'.w.nh n).val := by
  have hp' := Restated.proper (fun _ _ h => mirrorSym.kind h) (fun _ _ h => by cases h <;> rfl) hm hp
  have hw := run_wellPosed h₀ hp hpsd hwt
  have hw' := run_wellPosed h₀' hp' hpsd' hwt'
  have hr1 := run_noRansac h₀ hr
  have hr1' := run_noRansac h₀' fun f hf => by
    rw [(factor_mirrored (hm.virt f hf)).1]; exact hr f hf
  have hG := mirror_gauge h₀ h₀' hp hm hok
  rw [← hs] at hw hr1 hG
  rw [← hs'] at hw' hr1' hG
  have hfac : s.w.g.factors = addedFactors ops := by rw [hs, run_factors, h₀]; rfl
  intro n hn
  refine FGraphSolve.gn_gauge (S := mirrorSym) henv henv' hG hw hw' hr1 hr1' hpd h1 h1' (fun x _ n _ => mirror_follows _ _) n ?_
  refine hn.imp id fun ⟨f, hf, hn⟩ => ⟨f, hfac ▸ hf, ?_⟩
  rw [hs, (run_fh_static ops w₀ f).2]; exact hn

namespace Demo

/-- Two motions from the origin. -/
noncomputable def swerve (o0 o1 : Vec3) : FRef → FactorVirt := fun f => .odom (if f = 0 then o0 else o1) 1 .quadratic

/-- All nodes at the origin. -/
noncomputable def swerveWorld₀ (o0 o1 : Vec3) : World := twiceWorld₀ (drivenFrom 0) ⟨.pose2d, 0⟩ (swerve o0 o1)

theorem swerve_pair (o0 o1 : Vec3) : Measured (drivenFrom 0) ⟨.pose2d, 0⟩ (swerve o0 o1) :=
  ⟨rfl, rfl, rfl, rfl, rfl, Matrix.PosSemidef.one, Matrix.PosSemidef.one, rfl, rfl⟩

/-- The estimate is the mean. -/
theorem swerve_gn (o0 o1 : Vec3) (s : FGraphSolve) (hs : s.w = World.run twiceOps (swerveWorld₀ o0 o1)) :
    (infoMatrix (graphTerms s.w)).PosDef ∧ ∃ s1, s.solve Env.exact .GN 20 1e-6 1e-2 = .ok s1 ∧
      (s1.w.nh 2).val = ⟨.pose2d, wrap2 ((1 / 2 : ℝ) • (odomRes o0 0 0 + odomRes o1 0 0))⟩ := by
  have key : ∀ (M M' : Mat3) (r r' : Vec3), M = -1 → M' = -1 → (Mᵀ * 1 * M + M'ᵀ * 1 * M').PosDef ∧
      (Mᵀ * 1 * M + M'ᵀ * 1 * M') *ᵥ (-((1 / 2 : ℝ) • (r + r'))) = Mᵀ *ᵥ ((1 : Mat3) *ᵥ r) + M'ᵀ *ᵥ ((1 : Mat3) *ᵥ r') := by
    rintro _ _ r r' rfl rfl
    have e : ((-1 : Mat3)ᵀ * 1 * -1 + (-1 : Mat3)ᵀ * 1 * -1) = 1 + 1 := by simp
    rw [e, transpose_neg, transpose_one, neg_mulVec, neg_mulVec, one_mulVec, one_mulVec, one_mulVec, one_mulVec, add_mulVec, one_mulVec]
    refine ⟨Matrix.PosDef.one.add Matrix.PosDef.one, ?_⟩
    funext i
    simp; ring
  obtain ⟨k1, k2⟩ := key _ _ (odomRes o0 0 0) (odomRes o1 0 0) (odom_twiceJac o0 1 0 0) (odom_twiceJac o1 1 0 0)
  obtain ⟨hpd, s1, g1, g2⟩ := twice_gn (swerve_pair o0 o1) k1 _ k2 s hs
  refine ⟨hpd, s1, g1, g2.trans ?_⟩
  change (⟨.pose2d, wrap2 ((0 : Vec3) + fun i : Fin 3 => _)⟩ : NodeVal) = _
  congr 2
  funext i
  change (0 : ℝ) + (if hk : (i : ℕ) < 3 then -(-((1 / 2 : ℝ) • (odomRes o0 0 0 + odomRes o1 0 0))) ⟨i, hk⟩ else 0) = _
  rw [dif_pos i.2, Pi.neg_apply, neg_neg, zero_add]

theorem flip3_one : (1 : Mat3) = flip3ᵀ * 1 * flip3 := by
  ext i j
  fin_cases i <;> fin_cases j <;> simp [flip3]

theorem swerve_restated {o0 o1 o0' o1' : Vec3}
    (h0 : SameAngle (o0' 0) (-o0 0) ∧ o0' 1 = o0 1 ∧ SameAngle (o0' 2) (-o0 2))
    (h1 : SameAngle (o1' 0) (-o1 0) ∧ o1' 1 = o1 1 ∧ SameAngle (o1' 2) (-o1 2)) :
    Restated Mirrored FactorMirrored twiceOps (swerveWorld₀ o0 o1) (swerveWorld₀ o0' o1') := by
  have hn : ∀ (a : NRef → NodeVal) (x : NodeVal) (v : FRef → FactorVirt) (f : FRef),
      ((twiceWorld₀ a x v).fh f).nbrs = [if f = 0 then 0 else 1, 2] := fun _ _ _ _ => rfl
  have e : Mirrored ⟨.pose2d, (0 : Vec3)⟩ ⟨.pose2d, (0 : Vec3)⟩ := by
    exact ⟨rfl, by simp, by simpa using SameAngle.refl _⟩
  refine ⟨fun n _ => ?_, fun n _ => ?_, fun f _ => (hn _ _ _ f).trans (hn _ _ _ f).symm, fun f _ => ?_⟩
  · by_cases h : n = 2 <;> simp [swerveWorld₀, twiceWorld₀, twiceNodes, h, NodeCell.new]
  · by_cases h : n = 2
    · subst h; exact e
    · have e1 : ∀ o o', (swerveWorld₀ o o').nh n = NodeCell.new .pose2d 0 .anchor := fun _ _ => if_neg h
      rw [e1, e1]; exact e
  · change FactorMirrored (.odom (if f = 0 then o0 else o1) 1 .quadratic) (.odom (if f = 0 then o0' else o1') 1 .quadratic)
    by_cases hf : f = 0
    · rw [if_pos hf, if_pos hf]
      exact .odom _ _ _ _ _ h0.1 h0.2.1 h0.2.2 flip3_one
    · rw [if_neg hf, if_neg hf]
      exact .odom _ _ _ _ _ h1.1 h1.2.1 h1.2.2 flip3_one

end Demo

/-- One motion straight ahead and one to the left; in the mirror image it is to the right.  Both calls return. -/
example : Proper (Demo.swerveWorld₀ ![0, 1, 0] ![Real.pi / 2, 1, 0]) Demo.twiceOps ∧
    Restated Mirrored FactorMirrored Demo.twiceOps (Demo.swerveWorld₀ ![0, 1, 0] ![Real.pi / 2, 1, 0])
      (Demo.swerveWorld₀ ![0, 1, 0] ![-(Real.pi / 2), 1, 0]) ∧
    (∀ f ∈ addedFactors Demo.twiceOps, NotOpposite ((Demo.swerveWorld₀ ![0, 1, 0] ![Real.pi / 2, 1, 0]).fh f).virt
      (((Demo.swerveWorld₀ ![0, 1, 0] ![Real.pi / 2, 1, 0]).fh f).nbrs.map fun n =>
        ((Demo.swerveWorld₀ ![0, 1, 0] ![Real.pi / 2, 1, 0]).nh n).val)) ∧
    ∀ s s' : FGraphSolve, s.w = World.run Demo.twiceOps (Demo.swerveWorld₀ ![0, 1, 0] ![Real.pi / 2, 1, 0]) →
      s'.w = World.run Demo.twiceOps (Demo.swerveWorld₀ ![0, 1, 0] ![-(Real.pi / 2), 1, 0]) →
      (infoMatrix (graphTerms s.w)).PosDef ∧ (∃ s1, s.solve Env.exact .GN 20 1e-6 1e-2 = .ok s1) ∧
        ∃ s1', s'.solve Env.exact .GN 20 1e-6 1e-2 = .ok s1' := by
  have hpi := Real.pi_pos
  refine ⟨Demo.twice_proper (Demo.swerve_pair _ _), Demo.swerve_restated ?_ ?_, fun f hf => ?_, fun s s' hs hs' => ?_⟩
  · simpa using SameAngle.refl 0
  · exact ⟨SameAngle.refl _, rfl, by simpa using SameAngle.refl 0⟩
  · have key : ∀ o : Vec3, wrapAngle (o 0 + o 2) ≠ -Real.pi → ∀ i : Fin 3, (i : ℕ) + 1 = 3 → odomRes o 0 0 i ≠ -Real.pi := by
      intro o ho i hi
      obtain rfl : i = 2 := by ext; change (i : ℕ) = 2; omega
      change wrapAngle ((0 : ℝ) + o 0 + o 2 - 0) ≠ _
      rw [zero_add, sub_zero]; exact ho
    simp [addedFactors, Demo.twiceOps] at hf
    rcases hf with rfl | rfl
    · refine key ![0, 1, 0] ?_
      rw [wrapAngle_of_mem (by simpa using hpi.le) (by simpa using hpi)]
      simpa using hpi.ne'
    · refine key ![Real.pi / 2, 1, 0] ?_
      rw [wrapAngle_of_mem (by simp; linarith) (by simp; linarith)]
      simp; linarith
  · obtain ⟨k1, s1, k2, -⟩ := Demo.swerve_gn _ _ s hs
    obtain ⟨-, s1', k3, -⟩ := Demo.swerve_gn _ _ s' hs'
    exact ⟨k1, ⟨s1, k2⟩, s1', k3⟩

/-- C112 is false at a half turn: one motion turns by a half turn and the other stays, so the graph is its own mirror image;
the estimate turns right by a quarter, because an error of a half turn always counts as a turn to the same side. -/
theorem C112_half_fails : ∃ (ops : List GraphOp) (w₀ : World), w₀.g = emptyGraph ∧ Proper w₀ ops ∧
    Restated Mirrored FactorMirrored ops w₀ w₀ ∧ (∀ f ∈ addedFactors ops, (w₀.fh f).virt.W.PosDef) ∧
    ∀ s : FGraphSolve, s.w = World.run ops w₀ → (infoMatrix (graphTerms s.w)).PosDef ∧
      ∃ s1, s.solve Env.exact .GN 20 1e-6 1e-2 = .ok s1 ∧
        ∃ n ∈ s.w.g.active, (s1.w.nh n).val = ⟨.pose2d, ![0, 0, -(Real.pi / 2)]⟩ ∧ ¬ Mirrored (s1.w.nh n).val (s1.w.nh n).val := by
  have hpi := Real.pi_pos
  refine ⟨Demo.twiceOps, Demo.swerveWorld₀ ![0, 0, Real.pi] 0, rfl, Demo.twice_proper (Demo.swerve_pair _ _),
    Demo.swerve_restated ?_ ?_, fun f _ => Matrix.PosDef.one, fun s hs => ?_⟩
  · refine ⟨by simpa using SameAngle.refl 0, rfl, 1, ?_⟩
    simp; ring
  · refine ⟨by simpa using SameAngle.refl 0, rfl, by simpa using SameAngle.refl 0⟩
  · obtain ⟨k1, s1, k2, k3⟩ := Demo.swerve_gn _ _ s hs
    have hw : wrapAngle Real.pi = -Real.pi := wrapAngle_eq_of ⟨le_refl _, by linarith⟩ ⟨1, by push_cast; ring⟩
    have hz : wrap2 (0 : Vec3) = 0 := wrap2_of_mem (by simpa using hpi.le) (by simpa using hpi)
    have r0 : odomRes ![0, 0, Real.pi] 0 0 = ![0, 0, -Real.pi] := by
      funext i
      fin_cases i <;> simp [odomRes, odomPredict, wrap2, hw]
    have r1 : odomRes 0 0 0 = 0 := by
      refine Eq.trans (congrArg wrap2 ?_) hz
      funext i
      fin_cases i <;> simp [odomPredict]
    have hv : wrap2 ((1 / 2 : ℝ) • (odomRes ![0, 0, Real.pi] 0 0 + odomRes 0 0 0)) = ![0, 0, -(Real.pi / 2)] := by
      rw [r0, r1, add_zero]
      funext i
      fin_cases i
      · simp [wrap2]
      · simp [wrap2]
      · change wrapAngle ((1 / 2 : ℝ) * -Real.pi) = -(Real.pi / 2)
        rw [wrapAngle_of_mem (by linarith) (by linarith)]; ring
    rw [hv] at k3
    refine ⟨k1, s1, k2, 2, ?_, k3, ?_⟩
    · rw [hs]
      change 2 ∈ (Demo.twiceWorld _ _ _).g.active
      rw [Demo.twice_active]; simp
    · rw [k3]
      rintro ⟨-, -, k, hk⟩
      change -(Real.pi / 2) = - -(Real.pi / 2) + k * (2 * Real.pi) at hk
      have h1 : (2 * (k : ℝ) + 1) * Real.pi = 0 := by linarith
      have h2 : (2 * (k : ℝ) + 1) = 0 := (mul_eq_zero.mp h1).resolve_right hpi.ne'
      have h3 : 2 * k + 1 = 0 := by exact_mod_cast h2
      omega

end Mrob
