import Verif.Lemmas.GaugePlanar
import Verif.Lemmas.Restated
import Verif.Lemmas.DemoPair
import Verif.Lemmas.DemoLM

/-!
# C93: the choice of the world frame
-/

open Matrix

namespace Mrob

open World Spec

/-- C93, planar graphs, Gauss-Newton: move all poses and landmarks by one planar motion (and with them what is measured in
the world frame, see `FactorMoved`); then the estimates are moved by the same motion.  No landmark may be closer than 1e-3
to a pose it is seen from (`C93_near_fails`).  Missing: measurements between poses whose information is not restated
(`C93_odom_fails`, `C93_rel3d_fails`: false).  Spatial graphs: `C93_spatial_partial`. -/
theorem C93_gn_partial (g : Vec3) (ops : List GraphOp) (w₀ w₀' : World) (h₀ : w₀.g = emptyGraph) (h₀' : w₀'.g = emptyGraph)
    (hp : Proper w₀ ops) (hm : Restated (PlanarMoved g) (FactorMoved g) ops w₀ w₀')
    (hpsd : ∀ f ∈ addedFactors ops, (w₀.fh f).virt.W.PosSemidef) (hwt : ∀ f ∈ addedFactors ops, 0 ≤ (w₀.fh f).weight)
    (hpsd' : ∀ f ∈ addedFactors ops, (w₀'.fh f).virt.W.PosSemidef) (hwt' : ∀ f ∈ addedFactors ops, 0 ≤ (w₀'.fh f).weight)
    (hr : ∀ f ∈ addedFactors ops, (w₀.fh f).virt.robust ≠ .ransac)
    (hfar : ∀ f ∈ addedFactors ops, FarLandmarks ((w₀.fh f).nbrs.map fun n => (w₀.nh n).val))
    (env env' : Env) (henv : env.Sound) (henv' : env'.Sound)
    (s s' s1 s1' : FGraphSolve) (hs : s.w = World.run ops w₀) (hs' : s'.w = World.run ops w₀')
    (hpd : (infoMatrix (graphTerms s.w)).PosDef) (maxIters maxIters' : ℕ) (lambda lambda' tol tol' : ℝ)
    (h1 : s.solve env .GN maxIters lambda tol = .ok s1) (h1' : s'.solve env' .GN maxIters' lambda' tol' = .ok s1') :
    ∀ n, (n ∈ s.w.g.active ∨ ∃ f ∈ addedFactors ops, n ∈ (w₀.fh f).nbrs) →
      PlanarMoved g (s1.w.nh n).val (s1'.w.nh n).val := by
  have hp' := Restated.proper (fun _ _ h => (planarSym g).kind h) (fun _ _ h => by cases h <;> rfl) hm hp
  have hw := run_wellPosed h₀ hp hpsd hwt
  have hw' := run_wellPosed h₀' hp' hpsd' hwt'
  have hr1 := run_noRansac h₀ hr
  have hr1' := run_noRansac h₀' fun f hf => by
    rw [(factor_moved (hm.virt f hf)).1]; exact hr f hf
  have hG := Restated.gauge (S := planarSym g) (fun _ _ h => factor_moved h) hm hp.noSetMode h₀ h₀'
    (fun n hn => planar_moves _ (planarMoved_kind (hm.val n (.inl hn)))) hfar
  rw [← hs] at hw hr1 hG
  rw [← hs'] at hw' hr1' hG
  have hfac : s.w.g.factors = addedFactors ops := by rw [hs, run_factors, h₀]; rfl
  intro n hn
  refine FGraphSolve.gn_gauge (S := planarSym g) henv henv' hG hw hw' hr1 hr1' hpd h1 h1' (fun x _ n _ => planar_follows _ _) n ?_
  refine hn.imp id fun ⟨f, hf, hn⟩ => ⟨f, hfac ▸ hf, ?_⟩
  rw [hs, (run_fh_static ops w₀ f).2]; exact hn

/-- C93, planar graphs of poses, Levenberg-Marquardt: the number of iterations, the returned number and the cost are the
same, and the estimates are moved.  Missing: as for `C93_gn_partial`; for landmarks see `C93_lm_landmarks_partial`. -/
theorem C93_lm_partial (g : Vec3) (ops : List GraphOp) (w₀ w₀' : World) (h₀ : w₀.g = emptyGraph) (h₀' : w₀'.g = emptyGraph)
    (hp : Proper w₀ ops) (hm : Restated (PlanarMoved g) (FactorMoved g) ops w₀ w₀')
    (hpsd : ∀ f ∈ addedFactors ops, (w₀.fh f).virt.W.PosSemidef) (hwt : ∀ f ∈ addedFactors ops, 0 ≤ (w₀.fh f).weight)
    (hpsd' : ∀ f ∈ addedFactors ops, (w₀'.fh f).virt.W.PosSemidef) (hwt' : ∀ f ∈ addedFactors ops, 0 ≤ (w₀'.fh f).weight)
    (hr : ∀ f ∈ addedFactors ops, (w₀.fh f).virt.robust ≠ .ransac)
    (hposes : ∀ f ∈ addedFactors ops, ∀ n ∈ (w₀.fh f).nbrs, (w₀.nh n).kind = .pose2d)
    (env env' : Env) (henv : env.Sound) (henv' : env'.Sound)
    (s s' : FGraphSolve) (hs : s.w = World.run ops w₀) (hs' : s'.w = World.run ops w₀') (maxIters : ℕ) (tol : ℝ)
    (r r' : FGraphSolve.LMResult) (h1 : FGraphSolve.levenbergMarquardt env maxIters { s with tol := tol } = .ok r)
    (h1' : FGraphSolve.levenbergMarquardt env' maxIters { s' with tol := tol } = .ok r') :
    r'.ret = r.ret ∧ r'.iters = r.iters ∧ r'.s.w.cost = r.s.w.cost ∧
    ∀ n, (n ∈ s.w.g.active ∨ ∃ f ∈ addedFactors ops, n ∈ (w₀.fh f).nbrs) →
      PlanarMoved g (r.s.w.nh n).val (r'.s.w.nh n).val := by
  have hp' := Restated.proper (fun _ _ h => (planarSym g).kind h) (fun _ _ h => by cases h <;> rfl) hm hp
  have hw := run_wellPosed h₀ hp hpsd hwt
  have hw' := run_wellPosed h₀' hp' hpsd' hwt'
  have hr1 := run_noRansac h₀ hr
  have hr1' := run_noRansac h₀' fun f hf => by
    rw [(factor_moved (hm.virt f hf)).1]; exact hr f hf
  have hpos : ∀ f ∈ addedFactors ops, ∀ κ ∈ (w₀.fh f).virt.kinds, κ = .pose2d := by
    intro f hf κ hκ
    rw [← hp.typed f hf] at hκ
    obtain ⟨n, hn, rfl⟩ := List.mem_map.mp hκ
    exact hposes f hf n hn
  have hany : ∀ f ∈ addedFactors ops, ∀ vals : List NodeVal, vals.map Sigma.fst = (w₀.fh f).virt.kinds → FarLandmarks vals := by
    intro f hf vals hv x l _ hl
    have := hpos f hf .landmark2d (by rw [← hv]; exact List.mem_map_of_mem (f := Sigma.fst) hl)
    cases this
  have hG := Restated.gauge (S := planarSym g) (fun _ _ h => factor_moved h) hm hp.noSetMode h₀ h₀'
    (fun n hn => planar_moves _ (planarMoved_kind (hm.val n (.inl hn)))) fun f hf => hany f hf _ (by
      rw [List.map_map, ← hp.typed f hf]; rfl)
  rw [← hs] at hw hr1 hG
  rw [← hs'] at hw' hr1' hG
  have hfac : s.w.g.factors = addedFactors ops := by rw [hs, run_factors, h₀]; rfl
  have hk : ∀ n ∈ s.w.g.active, (s.w.nh n).kind = .pose2d ∨ (s.w.nh n).kind = .landmark2d :=
    fun n hn => planarMoved_kind (hG.val n (.inl hn))
  obtain ⟨k1, k2, k3, k4⟩ := FGraphSolve.lmLoop_gauge henv henv' _ 0 rfl
    (s := ⟨s.w, 1e-5, tol, s.sys, s.mats⟩) (s' := ⟨s'.w, 1e-5, tol, s'.sys, s'.mats⟩)
    ⟨hG, rfl, rfl, fun _ _ δ => planar_follows _ δ, fun n hn => planar_orth _ (hk n hn), fun f hf => by
      rw [hfac] at hf
      change ∀ vals : List NodeVal, vals.map Sigma.fst = (s.w.fh f).virt.kinds → _
      rw [hs, (run_fh_static ops w₀ f).1]
      exact hany f hf⟩ hw hw' hr1 hr1' (by norm_num) h1 h1'
  have hF := (FGraphSolve.lmLoop_run _ 0 ⟨s.w, 1e-5, tol, s.sys, s.mats⟩ r rfl h1).frame
  refine ⟨k1, k2, k3.w.cost_eq k4.wired, fun n hn => k3.w.val n ?_⟩
  rw [hF.factors.g]
  refine hn.imp id fun ⟨f, hf, hn⟩ => ⟨f, hfac ▸ hf, ?_⟩
  rw [hF.factors.nbrs]
  change n ∈ (s.w.fh f).nbrs
  rw [hs, (run_fh_static ops w₀ f).2]; exact hn

namespace Demo

/-- `lmWorld₀` seen from another frame. -/
noncomputable def lmMoved₀ (g : Vec3) : World :=
  ⟨fun n => if n = 0 then NodeCell.new .pose2d g .standard
    else NodeCell.new .pose2d ![Real.cos (g 2) + g 0, Real.sin (g 2) + g 1, g 2] .anchor,
   fun f => if f = 0 then FactorCell.new (.prior2d g posW .quadratic) [0] 0 0
    else FactorCell.new (.rel2d ![1, 4, 0] posW .quadratic) [0, 1] 0 0, emptyGraph⟩

theorem posW_turn (g : Vec3) : posW = (turn g)ᵀ * posW * turn g := by
  have h := Real.sin_sq_add_cos_sq (g 2)
  ext i j
  fin_cases i <;> fin_cases j <;> simp [posW, turn, Matrix.mul_apply, Fin.sum_univ_three, diagonal_apply] <;> grind

theorem lm_restated (g : Vec3) : Restated (PlanarMoved g) (FactorMoved g) lmOps lmWorld₀ (lmMoved₀ g) := by
  refine ⟨fun n _ => ?_, fun n _ => ?_, fun f _ => ?_, fun f _ => ?_⟩
  · by_cases h : n = 0 <;> simp [lmMoved₀, lmWorld₀, lmNodes, h, NodeCell.new]
  · by_cases h : n = 0
    · subst h
      change planar g = planar g * planar ![0, 0, 2 * Real.pi]
      rw [planar_eq_mul_iff]
      refine ⟨by simp, by simp, ?_⟩
      change SameAngle (g 2) (g 2 + 2 * Real.pi)
      exact ⟨-1, by push_cast; ring⟩
    · have e1 : (lmMoved₀ g).nh n = NodeCell.new .pose2d ![Real.cos (g 2) + g 0, Real.sin (g 2) + g 1, g 2] .anchor := if_neg h
      have e2 : lmWorld₀.nh n = NodeCell.new .pose2d ![1, 0, 0] .anchor := if_neg h
      rw [e1, e2]
      change planar ![Real.cos (g 2) + g 0, Real.sin (g 2) + g 1, g 2] = planar g * planar ![1, 0, 0]
      rw [planar_eq_mul_iff]
      refine ⟨by simp, by simp, ?_⟩
      change SameAngle (g 2) (g 2 + 0)
      rw [add_zero]; exact .refl _
  · by_cases h : f = 0 <;> simp [lmMoved₀, lmWorld₀, lmFactors, h, FactorCell.new]
  · by_cases h : f = 0
    · subst h
      refine .prior2d _ _ _ _ _ ?_ (posW_turn g)
      rw [planar_eq_mul_iff]
      exact ⟨by simp, by simp, by simpa using SameAngle.refl _⟩
    · have e1 : (lmMoved₀ g).fh f = FactorCell.new (.rel2d ![1, 4, 0] posW .quadratic) [0, 1] 0 0 := if_neg h
      have e2 : lmWorld₀.fh f = FactorCell.new (.rel2d ![1, 4, 0] posW .quadratic) [0, 1] 0 0 := if_neg h
      rw [e1, e2]
      exact .rel2d _ _ _

end Demo

/-- A pose with a prior and a relative measurement, seen from any frame; Levenberg-Marquardt returns in both (its first step
is rejected). -/
example (g : Vec3) : Proper Demo.lmWorld₀ Demo.lmOps ∧
    Restated (PlanarMoved g) (FactorMoved g) Demo.lmOps Demo.lmWorld₀ (Demo.lmMoved₀ g) ∧
    (∀ f ∈ addedFactors Demo.lmOps, (Demo.lmWorld₀.fh f).virt.W.PosSemidef) ∧
    (∀ f ∈ addedFactors Demo.lmOps, ((Demo.lmMoved₀ g).fh f).virt.W.PosSemidef) ∧
    (∀ f ∈ addedFactors Demo.lmOps, ∀ n ∈ (Demo.lmWorld₀.fh f).nbrs, (Demo.lmWorld₀.nh n).kind = .pose2d) ∧
    ∀ s s' : FGraphSolve, s.w = World.run Demo.lmOps Demo.lmWorld₀ → s'.w = World.run Demo.lmOps (Demo.lmMoved₀ g) →
      ∃ r r', FGraphSolve.levenbergMarquardt Env.exact 20 { s with tol := 1e-2 } = .ok r ∧
        FGraphSolve.levenbergMarquardt Env.exact 20 { s' with tol := 1e-2 } = .ok r' := by
  have hp' : Proper (Demo.lmMoved₀ g) Demo.lmOps :=
    Restated.proper (fun _ _ h => (planarSym g).kind h) (fun _ _ h => by cases h <;> rfl) (Demo.lm_restated g) Demo.lm_proper
  have hpsd : ∀ f, (Demo.lmWorld₀.fh f).virt.W.PosSemidef := by
    intro f
    by_cases h : f = 0
    · subst h; exact Demo.posW_psd
    · rw [show Demo.lmWorld₀.fh f = FactorCell.new (.rel2d ![1, 4, 0] Demo.posW .quadratic) [0, 1] 0 0 from if_neg h]
      exact Demo.posW_psd
  have hpsd' : ∀ f, ((Demo.lmMoved₀ g).fh f).virt.W.PosSemidef := by
    intro f
    by_cases h : f = 0
    · subst h; exact Demo.posW_psd
    · rw [show (Demo.lmMoved₀ g).fh f = FactorCell.new (.rel2d ![1, 4, 0] Demo.posW .quadratic) [0, 1] 0 0 from if_neg h]
      exact Demo.posW_psd
  have hwt' : ∀ f, 0 ≤ ((Demo.lmMoved₀ g).fh f).weight := by
    intro f
    unfold Demo.lmMoved₀
    dsimp only
    split <;> exact le_refl (0 : ℝ)
  refine ⟨Demo.lm_proper, Demo.lm_restated g, fun f _ => hpsd f, fun f _ => hpsd' f, fun f _ n _ => ?_, fun s s' hs hs' => ?_⟩
  · change (Demo.lmNodes n).kind = _
    unfold Demo.lmNodes
    split <;> rfl
  · have hw : WellPosed s.w := by rw [hs]; exact Demo.lm_wellPosed
    have hw' : WellPosed s'.w := by rw [hs']; exact run_wellPosed rfl hp' (fun f _ => hpsd' f) fun f _ => hwt' f
    obtain ⟨r, hr⟩ := FGraphSolve.lmLoop_total Env.exact_complete 20 _ 0 ⟨s.w, 1e-5, 1e-2, s.sys, s.mats⟩ rfl hw (by norm_num)
    obtain ⟨r', hr'⟩ := FGraphSolve.lmLoop_total Env.exact_complete 20 _ 0 ⟨s'.w, 1e-5, 1e-2, s'.sys, s'.mats⟩ rfl hw' (by norm_num)
    exact ⟨r, r', hr, hr'⟩

namespace Demo

/-- Two poses that see a landmark. -/
noncomputable def seenFrom : NRef → NodeVal := fun n => ⟨.pose2d, if n = 0 then 0 else ![1, -1, 0]⟩
/-- The landmark. -/
noncomputable def seenAt : NodeVal := ⟨.landmark2d, ![1, 0]⟩
/-- The observations. -/
noncomputable def seenObs : FRef → FactorVirt := fun f => .land2d (if f = 0 then ![2, 0] else ![1, 1]) 1 false .quadratic

/-- The same from another frame. -/
noncomputable def seenFrom' (g : Vec3) : NRef → NodeVal := fun n =>
  ⟨.pose2d, if n = 0 then g else ![Real.cos (g 2) + Real.sin (g 2) + g 0, Real.sin (g 2) - Real.cos (g 2) + g 1, g 2]⟩
/-- The same from another frame. -/
noncomputable def seenAt' (g : Vec3) : NodeVal := ⟨.landmark2d, ![Real.cos (g 2) + g 0, Real.sin (g 2) + g 1]⟩

theorem seen_restated (g : Vec3) : Restated (PlanarMoved g) (FactorMoved g) twiceOps (twiceWorld₀ seenFrom seenAt seenObs)
    (twiceWorld₀ (seenFrom' g) (seenAt' g) seenObs) := by
  refine ⟨fun n _ => ?_, fun n _ => ?_, fun f _ => rfl, fun f _ => .land2d _ _ _ _⟩
  · by_cases h : n = 2 <;> simp [twiceWorld₀, twiceNodes, h, NodeCell.new]
  · by_cases h : n = 2
    · subst h
      change ![Real.cos (g 2) + g 0, Real.sin (g 2) + g 1] = planarPoint g ![1, 0]
      funext i
      fin_cases i <;> simp [planarPoint]
    · have e1 : (twiceWorld₀ seenFrom seenAt seenObs).nh n = NodeCell.new .pose2d (seenFrom n).2 .anchor := if_neg h
      have e2 : (twiceWorld₀ (seenFrom' g) (seenAt' g) seenObs).nh n = NodeCell.new .pose2d (seenFrom' g n).2 .anchor := if_neg h
      rw [e1, e2]
      change planar (if n = 0 then g else _) = planar g * planar (if n = 0 then 0 else ![1, -1, 0])
      rw [planar_eq_mul_iff]
      by_cases h0 : n = 0
      · rw [if_pos h0, if_pos h0]
        exact ⟨by simp, by simp, by simpa using SameAngle.refl _⟩
      · rw [if_neg h0, if_neg h0]
        refine ⟨by simp, by simp; ring, ?_⟩
        change SameAngle (g 2) (g 2 + 0)
        rw [add_zero]; exact .refl _

theorem land_twiceJac (obs : Vec2) (W : Matrix (Fin 2) (Fin 2) ℝ) (x : Vec3) (l : Vec2) :
    twiceJac ⟨.pose2d, x⟩ ⟨.landmark2d, l⟩ (.land2d obs W false .quadratic) = (land2dJac x l).2 := by
  have key : ∀ (i k : Fin 2), blk2 (land2dJac x l).1 (land2dJac x l).2 i (3 + k) = (land2dJac x l).2 i k := by
    intro i k
    unfold blk2 blk
    rw [if_neg (by omega), Nat.add_sub_cancel_left, dif_pos k.2]
  exact Matrix.ext key

theorem unit_jac {x : Vec3} {l : Vec2} (h : (l 0 - x 0) * (l 0 - x 0) + (l 1 - x 1) * (l 1 - x 1) = 1) :
    (land2dJac x l).2 = !![l 0 - x 0, l 1 - x 1; -(l 1 - x 1), l 0 - x 0] := by
  rw [land2dJac]
  simp only [h]
  rw [if_neg (by norm_num)]
  simp

theorem unit_info {x : Vec3} {l : Vec2} (h : (l 0 - x 0) * (l 0 - x 0) + (l 1 - x 1) * (l 1 - x 1) = 1) :
    (land2dJac x l).2ᵀ * 1 * (land2dJac x l).2 = 1 := by
  rw [unit_jac h, Matrix.mul_one]
  ext i j
  fin_cases i <;> fin_cases j <;> simp [Matrix.mul_apply] <;> linarith

theorem seen_gn {a : NRef → NodeVal} {l : Vec2} (x0 x1 : Vec3) (h0 : a 0 = ⟨.pose2d, x0⟩) (h1 : a 1 = ⟨.pose2d, x1⟩)
    (q0 : (l 0 - x0 0) * (l 0 - x0 0) + (l 1 - x0 1) * (l 1 - x0 1) = 1)
    (q1 : (l 0 - x1 0) * (l 0 - x1 0) + (l 1 - x1 1) * (l 1 - x1 1) = 1) (s : FGraphSolve)
    (hs : s.w = twiceWorld a ⟨.landmark2d, l⟩ seenObs) :
    (infoMatrix (graphTerms s.w)).PosDef ∧ ∃ s1, s.solve Env.exact .GN 20 1e-6 1e-2 = .ok s1 := by
  have hP : Measured a ⟨.landmark2d, l⟩ seenObs :=
    ⟨rfl, by rw [h0]; rfl, by rw [h1]; rfl, by rw [h0]; rfl, by rw [h1]; rfl, Matrix.PosSemidef.one, Matrix.PosSemidef.one, rfl, rfl⟩
  have hH : (twiceJac (a 0) ⟨.landmark2d, l⟩ (seenObs 0))ᵀ * (seenObs 0).W * twiceJac (a 0) ⟨.landmark2d, l⟩ (seenObs 0) +
      (twiceJac (a 1) ⟨.landmark2d, l⟩ (seenObs 1))ᵀ * (seenObs 1).W * twiceJac (a 1) ⟨.landmark2d, l⟩ (seenObs 1) =
      (1 + 1 : Matrix (Fin 2) (Fin 2) ℝ) := by
    rw [h0, h1]
    have key : ∀ (M M' : Matrix (Fin 2) (Fin 2) ℝ), M = (land2dJac x0 l).2 → M' = (land2dJac x1 l).2 →
        Mᵀ * 1 * M + M'ᵀ * 1 * M' = 1 + 1 := by
      rintro _ _ rfl rfl
      rw [unit_info q0, unit_info q1]
    exact key _ _ (land_twiceJac _ _ _ _) (land_twiceJac _ _ _ _)
  have hpd : (1 + 1 : Matrix (Fin 2) (Fin 2) ℝ).PosDef := Matrix.PosDef.one.add Matrix.PosDef.one
  obtain ⟨k1, s1, k2, -⟩ := twice_gn hP (by rw [hH]; exact hpd)
    ((1 / 2 : ℝ) • ((twiceJac (a 0) ⟨.landmark2d, l⟩ (seenObs 0))ᵀ *ᵥ ((seenObs 0).W *ᵥ (seenObs 0).res [a 0, ⟨.landmark2d, l⟩]) +
      (twiceJac (a 1) ⟨.landmark2d, l⟩ (seenObs 1))ᵀ *ᵥ ((seenObs 1).W *ᵥ (seenObs 1).res [a 1, ⟨.landmark2d, l⟩]))) (by
    rw [hH]
    have key : ∀ b : Vec2, (1 + 1 : Matrix (Fin 2) (Fin 2) ℝ) *ᵥ ((1 / 2 : ℝ) • b) = b := by
      intro b
      rw [mulVec_smul, add_mulVec, one_mulVec, ← two_smul ℝ, smul_smul]
      norm_num
    exact key _) s hs
  exact ⟨k1, s1, k2⟩

end Demo

/-- A landmark that is observed from two anchored poses, seen from any frame; both calls return. -/
example (g : Vec3) : Proper (Demo.twiceWorld₀ Demo.seenFrom Demo.seenAt Demo.seenObs) Demo.twiceOps ∧
    Restated (PlanarMoved g) (FactorMoved g) Demo.twiceOps (Demo.twiceWorld₀ Demo.seenFrom Demo.seenAt Demo.seenObs)
      (Demo.twiceWorld₀ (Demo.seenFrom' g) (Demo.seenAt' g) Demo.seenObs) ∧
    (∀ f ∈ addedFactors Demo.twiceOps, FarLandmarks
      (((Demo.twiceWorld₀ Demo.seenFrom Demo.seenAt Demo.seenObs).fh f).nbrs.map fun n =>
        ((Demo.twiceWorld₀ Demo.seenFrom Demo.seenAt Demo.seenObs).nh n).val)) ∧
    ∀ s s' : FGraphSolve, s.w = World.run Demo.twiceOps (Demo.twiceWorld₀ Demo.seenFrom Demo.seenAt Demo.seenObs) →
      s'.w = World.run Demo.twiceOps (Demo.twiceWorld₀ (Demo.seenFrom' g) (Demo.seenAt' g) Demo.seenObs) →
      (infoMatrix (graphTerms s.w)).PosDef ∧ (∃ s1, s.solve Env.exact .GN 20 1e-6 1e-2 = .ok s1) ∧
        ∃ s1', s'.solve Env.exact .GN 20 1e-6 1e-2 = .ok s1' := by
  have hP : Demo.Measured Demo.seenFrom Demo.seenAt Demo.seenObs :=
    ⟨rfl, rfl, rfl, rfl, rfl, Matrix.PosSemidef.one, Matrix.PosSemidef.one, rfl, rfl⟩
  refine ⟨Demo.twice_proper hP, Demo.seen_restated g, fun f hf x l hx hl => ?_, fun s s' hs hs' => ?_⟩
  · simp [addedFactors, Demo.twiceOps] at hf
    rcases hf with rfl | rfl
    · have hx' : (⟨.pose2d, x⟩ : NodeVal) ∈ [(⟨.pose2d, 0⟩ : NodeVal), ⟨.landmark2d, ![1, 0]⟩] := by
        have : (if (0 : NRef) = 0 then (0 : Vec3) else ![1, -1, 0]) = 0 := if_pos rfl
        rw [← this]; exact hx
      have hl' : (⟨.landmark2d, l⟩ : NodeVal) ∈ [(⟨.pose2d, 0⟩ : NodeVal), ⟨.landmark2d, ![1, 0]⟩] := by
        have : (if (0 : NRef) = 0 then (0 : Vec3) else ![1, -1, 0]) = 0 := if_pos rfl
        rw [← this]; exact hl
      simp at hx' hl'
      subst hx' hl'
      norm_num
    · have e : (if (1 : NRef) = 0 then (0 : Vec3) else ![1, -1, 0]) = ![1, -1, 0] := if_neg (by simp)
      have hx' : (⟨.pose2d, x⟩ : NodeVal) ∈ [(⟨.pose2d, ![1, -1, 0]⟩ : NodeVal), ⟨.landmark2d, ![1, 0]⟩] := by
        rw [← e]; exact hx
      have hl' : (⟨.landmark2d, l⟩ : NodeVal) ∈ [(⟨.pose2d, ![1, -1, 0]⟩ : NodeVal), ⟨.landmark2d, ![1, 0]⟩] := by
        rw [← e]; exact hl
      simp at hx' hl'
      subst hx' hl'
      norm_num
  · have hg := Real.sin_sq_add_cos_sq (g 2)
    obtain ⟨k1, k2⟩ := Demo.seen_gn (a := Demo.seenFrom) (l := ![1, 0]) 0 ![1, -1, 0] rfl rfl (by simp) (by simp) s hs
    obtain ⟨-, k3⟩ := Demo.seen_gn (a := Demo.seenFrom' g) (l := ![Real.cos (g 2) + g 0, Real.sin (g 2) + g 1]) g
      ![Real.cos (g 2) + Real.sin (g 2) + g 0, Real.sin (g 2) - Real.cos (g 2) + g 1, g 2] rfl rfl
      (by simp; linarith) (by simp; linarith) s' hs'
    exact ⟨k1, k2, k3⟩

/-! ### Measurements between nodes whose information depends on the frame -/

namespace Demo

/-- Both anchors. -/
noncomputable def drivenFrom (x : Vec3) : NRef → NodeVal := fun _ => ⟨.pose2d, x⟩
/-- Information: the first coordinate is known better. -/
noncomputable def stiffW : Mat3 := Matrix.diagonal ![4, 1, 1]
/-- One metre ahead, and one metre back. -/
noncomputable def driven : FRef → FactorVirt := fun f =>
  if f = 0 then .odom ![0, 1, 0] stiffW .quadratic else .odom ![0, -1, 0] 1 .quadratic

theorem stiffW_posDef : stiffW.PosDef := by
  refine Matrix.PosDef.diagonal fun i => ?_
  fin_cases i <;> simp

theorem stiffW_mulVec (v : Vec3) : stiffW *ᵥ v = ![4 * v 0, v 1, v 2] := by
  funext i
  rw [stiffW, mulVec_diagonal]
  fin_cases i <;> simp

theorem driven_pair (x : Vec3) : Measured (drivenFrom x) ⟨.pose2d, x⟩ driven :=
  ⟨rfl, rfl, rfl, rfl, rfl, stiffW_posDef.posSemidef, Matrix.PosSemidef.one, rfl, rfl⟩

theorem odom_twiceJac (obs : Vec3) (W : Mat3) (x y : Vec3) :
    twiceJac ⟨.pose2d, x⟩ ⟨.pose2d, y⟩ (.odom obs W .quadratic) = (-1 : Mat3) := by
  have e : (odomJac obs x).2 = -1 := by
    rw [odomJac]
    ext i j
    fin_cases i <;> fin_cases j <;> simp
  have key : ∀ (i k : Fin 3), blk2 (odomJac obs x).1 (odomJac obs x).2 i (3 + k) = (-1 : Mat3) i k := by
    intro i k
    unfold blk2 blk
    rw [if_neg (by omega), Nat.add_sub_cancel_left, dif_pos k.2, e]
  exact Matrix.ext key

/-- The estimate, from the errors of the two measurements. -/
theorem driven_gn {x : Vec3} (r0 r1 y : Vec3) (h0 : odomRes ![0, 1, 0] x x = r0) (h1 : odomRes ![0, -1, 0] x x = r1)
    (hy : (stiffW + 1) *ᵥ y = -(stiffW *ᵥ r0 + r1)) (s : FGraphSolve) (hs : s.w = twiceWorld (drivenFrom x) ⟨.pose2d, x⟩ driven) :
    ∃ s1, s.solve Env.exact .GN 20 1e-6 1e-2 = .ok s1 ∧ (s1.w.nh 2).val = ⟨.pose2d, wrap2 (x - y)⟩ := by
  subst h0 h1
  have key : ∀ (M M' : Mat3), M = -1 → M' = -1 → (Mᵀ * stiffW * M + M'ᵀ * 1 * M').PosDef ∧
      (Mᵀ * stiffW * M + M'ᵀ * 1 * M') *ᵥ y = Mᵀ *ᵥ (stiffW *ᵥ odomRes ![0, 1, 0] x x) +
        M'ᵀ *ᵥ ((1 : Mat3) *ᵥ odomRes ![0, -1, 0] x x) := by
    rintro _ _ rfl rfl
    have e : ((-1 : Mat3)ᵀ * stiffW * -1 + (-1 : Mat3)ᵀ * 1 * -1) = stiffW + 1 := by
      simp
    rw [e, hy, one_mulVec, transpose_neg, transpose_one, neg_mulVec, neg_mulVec, one_mulVec, one_mulVec]
    exact ⟨stiffW_posDef.add Matrix.PosDef.one, by abel⟩
  obtain ⟨k1, k2⟩ := key _ _ (odom_twiceJac ![0, 1, 0] stiffW x x) (odom_twiceJac ![0, -1, 0] 1 x x)
  obtain ⟨-, s1, g1, g2⟩ := twice_gn (driven_pair x) k1 y k2 s hs
  refine ⟨s1, g1, g2.trans ?_⟩
  change (⟨.pose2d, wrap2 (x + fun i : Fin 3 => _)⟩ : NodeVal) = _
  congr 2
  funext i
  change x i + (if hk : (i : ℕ) < 3 then -y ⟨i, hk⟩ else 0) = x i - y i
  rw [dif_pos i.2]; ring

end Demo

/-- C93 fails for odometry with a fixed information matrix: the error is expressed in the world frame, so the information of
a measurement between two poses is too.  Two contradicting measurements of which one is better known along the first axis:
the same measurements, with everything turned by a right angle, give an estimate that is not the turned one. -/
theorem C93_odom_fails : ∃ (g : Vec3) (ops : List GraphOp) (w₀ w₀' : World), w₀.g = emptyGraph ∧ w₀'.g = emptyGraph ∧
    Proper w₀ ops ∧ Restated (PlanarMoved g) (fun v v' => v' = v) ops w₀ w₀' ∧
    (∀ f ∈ addedFactors ops, (w₀.fh f).virt.W.PosDef) ∧
    ∀ s s' : FGraphSolve, s.w = World.run ops w₀ → s'.w = World.run ops w₀' →
      ∃ s1 s1', s.solve Env.exact .GN 20 1e-6 1e-2 = .ok s1 ∧ s'.solve Env.exact .GN 20 1e-6 1e-2 = .ok s1' ∧
        ∃ n ∈ s.w.g.active, ¬ PlanarMoved g (s1.w.nh n).val (s1'.w.nh n).val := by
  have hpi := Real.pi_pos
  set g : Vec3 := ![0, 0, Real.pi / 2] with hg
  have hc : Real.cos (Real.pi / 2) = 0 := Real.cos_pi_div_two
  have hs : Real.sin (Real.pi / 2) = 1 := Real.sin_pi_div_two
  refine ⟨g, Demo.twiceOps, Demo.twiceWorld₀ (Demo.drivenFrom 0) ⟨.pose2d, 0⟩ Demo.driven,
    Demo.twiceWorld₀ (Demo.drivenFrom g) ⟨.pose2d, g⟩ Demo.driven, rfl, rfl, Demo.twice_proper (Demo.driven_pair 0), ?_, ?_, ?_⟩
  · have e : planar g = planar g * planar 0 := by
      rw [planar_eq_mul_iff]
      exact ⟨by simp, by simp, by simpa using SameAngle.refl _⟩
    refine ⟨fun n _ => ?_, fun n _ => ?_, fun f _ => rfl, fun f _ => rfl⟩
    · by_cases h : n = 2 <;> simp [Demo.twiceWorld₀, Demo.twiceNodes, h, NodeCell.new]
    · by_cases h : n = 2
      · subst h; exact e
      · have e1 : (Demo.twiceWorld₀ (Demo.drivenFrom 0) ⟨.pose2d, 0⟩ Demo.driven).nh n = NodeCell.new .pose2d 0 .anchor := if_neg h
        have e2 : (Demo.twiceWorld₀ (Demo.drivenFrom g) ⟨.pose2d, g⟩ Demo.driven).nh n = NodeCell.new .pose2d g .anchor := if_neg h
        rw [e1, e2]; exact e
  · intro f hf
    simp [addedFactors, Demo.twiceOps] at hf
    rcases hf with rfl | rfl
    · exact Demo.stiffW_posDef
    · exact Matrix.PosDef.one
  · intro s s' hs1 hs1'
    have wrap_small : ∀ a b : ℝ, wrap2 ![a, b, 0] = ![a, b, 0] := fun a b =>
      wrap2_of_mem (x := ![a, b, 0]) (by simpa using hpi.le) (by simpa using hpi)
    have r0 : odomRes ![0, 1, 0] 0 0 = ![1, 0, 0] := by
      refine Eq.trans (congrArg wrap2 ?_) (wrap_small (1) (0))
      funext i; fin_cases i <;> simp [odomPredict]
    have r1 : odomRes ![0, -1, 0] 0 0 = ![-1, 0, 0] := by
      refine Eq.trans (congrArg wrap2 ?_) (wrap_small (-1) (0))
      funext i; fin_cases i <;> simp [odomPredict]
    have r0' : odomRes ![0, 1, 0] g g = ![0, 1, 0] := by
      refine Eq.trans (congrArg wrap2 ?_) (wrap_small (0) (1))
      funext i; fin_cases i <;> simp [odomPredict, hg]
    have r1' : odomRes ![0, -1, 0] g g = ![0, -1, 0] := by
      refine Eq.trans (congrArg wrap2 ?_) (wrap_small (0) (-1))
      funext i; fin_cases i <;> simp [odomPredict, hg]
    obtain ⟨s1, k1, k2⟩ := Demo.driven_gn _ _ ![-3 / 5, 0, 0] r0 r1 (by
      rw [add_mulVec, one_mulVec, Demo.stiffW_mulVec, Demo.stiffW_mulVec]
      funext i; fin_cases i <;> simp <;> norm_num) s hs1
    obtain ⟨s1', k1', k2'⟩ := Demo.driven_gn _ _ 0 r0' r1' (by
      rw [mulVec_zero, Demo.stiffW_mulVec]
      funext i; fin_cases i <;> simp) s' hs1'
    refine ⟨s1, s1', k1, k1', 2, ?_, ?_⟩
    · rw [hs1]
      change (2 : NRef) ∈ (Demo.twiceWorld _ _ _).g.active
      rw [Demo.twice_active]; simp
    · rw [k2, k2']
      change ¬ planar _ = planar g * planar _
      rw [planar_eq_mul_iff]
      rintro ⟨-, h1, -⟩
      rw [sub_zero] at h1
      simp [hg, wrap2] at h1

end Mrob
