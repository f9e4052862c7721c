import Verif.Lemmas.GaugeSpatial
import Verif.Lemmas.Restated
import Verif.Props.WorldFrame3d

/-!
# C93: the choice of the world frame, spatial graphs
-/

open Matrix

namespace Mrob

open World Spec

/-- C93, spatial graphs, Gauss-Newton: move all poses, landmarks and planes by one rigid motion (and with them what is measured
in the world frame, see `SpatialFactorMoved`); then the estimates are moved by the same motion, whatever the motion.  Planes may
be observed; unless the motion is a rotation they must be anchored (`C93_plane_fails`).  Logarithms and exponentials must not be used in the intervals in which they are approximated
(`MildErrors` for the errors of measured poses, `MildStep` for the poses that are estimated).  Missing: measurements
whose information is not restated (`C93_rel3d_fails`: false), estimated planes with translations (false), and the
excluded intervals. -/
theorem C93_spatial_partial (G : Mat4) (hG : IsRigid G) (ops : List GraphOp) (w₀ w₀' : World) (h₀ : w₀.g = emptyGraph)
    (h₀' : w₀'.g = emptyGraph) (hp : Proper w₀ ops) (hm : Restated (SpatialMoved G) (SpatialFactorMoved G) ops w₀ w₀')
    (hpsd : ∀ f ∈ addedFactors ops, (w₀.fh f).virt.W.PosSemidef) (hwt : ∀ f ∈ addedFactors ops, 0 ≤ (w₀.fh f).weight)
    (hpsd' : ∀ f ∈ addedFactors ops, (w₀'.fh f).virt.W.PosSemidef) (hwt' : ∀ f ∈ addedFactors ops, 0 ≤ (w₀'.fh f).weight)
    (hr : ∀ f ∈ addedFactors ops, (w₀.fh f).virt.robust ≠ .ransac)
    (hok : ∀ f ∈ addedFactors ops, MildErrors (w₀.fh f).virt ((w₀.fh f).nbrs.map fun n => (w₀.nh n).val))
    (hpl : ∀ n ∈ addedNodes ops, (w₀.nh n).kind = .plane4d → (w₀.nh n).mode = .anchor ∨ ∀ i, G (Sum.inl i) (Sum.inr ()) = 0)
    (env env' : Env) (henv : env.Sound) (henv' : env'.Sound)
    (s s' s1 s1' : FGraphSolve) (hs : s.w = World.run ops w₀) (hs' : s'.w = World.run ops w₀')
    (hpd : (infoMatrix (graphTerms s.w)).PosDef)
    (hstep : ∀ x : Cols s.w → ℝ, infoMatrix (graphTerms s.w) *ᵥ x = infoVector (graphTerms s.w) →
      ∀ n ∈ s.w.g.active, MildStep G (s.w.nh n).val (s.w.spread (-x) n))
    (maxIters maxIters' : ℕ) (lambda lambda' tol tol' : ℝ)
    (h1 : s.solve env .GN maxIters lambda tol = .ok s1) (h1' : s'.solve env' .GN maxIters' lambda' tol' = .ok s1') :
    ∀ n, (n ∈ s.w.g.active ∨ ∃ f ∈ addedFactors ops, n ∈ (w₀.fh f).nbrs) →
      SpatialMoved G (s1.w.nh n).val (s1'.w.nh n).val := by
  have hp' := Restated.proper (fun _ _ h => (spatialSym G).kind h) (fun _ _ h => by cases h <;> rfl) hm hp
  have hw := run_wellPosed h₀ hp hpsd hwt
  have hw' := run_wellPosed h₀' hp' hpsd' hwt'
  have hr1 := run_noRansac h₀ hr
  have hr1' := run_noRansac h₀' fun f hf => by
    rw [(spatial_factor hG (hm.virt f hf)).1]; exact hr f hf
  have hG0 := Restated.gauge (S := spatialSym G) (fun _ _ h => spatial_factor hG h) hm hp.noSetMode h₀ h₀'
    (fun n hn => spatial_moves hG _ (spatialMoved_kind (hm.val n (.inl hn)))) hok
  have hact : ∀ n ∈ s.w.g.active, (s.w.nh n).kind = .plane4d → (SE3.mk G).t = 0 := by
    intro n hn hk
    rw [hs, run_active ops hp.noSetMode, h₀] at hn
    have hn' : n ∈ (addedNodes ops).filter fun n => (w₀.nh n).mode = .standard := hn
    rw [List.mem_filter] at hn'
    rw [hs, run_kind] at hk
    rcases hpl n hn'.1 hk with this | this
    · rw [this] at hn'
      simp at hn'
    · exact funext this
  rw [← hs] at hw hr1 hG0
  rw [← hs'] at hw' hr1' hG0
  have hfac : s.w.g.factors = addedFactors ops := by rw [hs, run_factors, h₀]; rfl
  intro n hn
  refine FGraphSolve.gn_gauge_at (S := spatialSym G) henv henv' hG0 hw hw' hr1 hr1' hpd h1 h1'
    (fun x hx n hn => spatial_upd hG (hG0.val n (.inl hn)) (hact n hn) (hstep x hx n hn)) n ?_
  refine hn.imp id fun ⟨f, hf, hn⟩ => ⟨f, hfac ▸ hf, ?_⟩
  rw [hs, (run_fh_static ops w₀ f).2]; exact hn

namespace Demo

/-- A quarter turn and a translation. -/
noncomputable def moveBy (t : Vec3) : Mat4 := homog quarter t 1

theorem moveBy_isRigid (t : Vec3) : IsRigid (moveBy t) := isRigid_homog quarter_isRotation t

theorem adjoint6_det (t : Vec3) : IsUnit (adjoint6 (moveBy t)).det := by
  have e : (adjoint6 (moveBy t)).det = (Spec.adjoint (moveBy t)).det := by
    have := det_submatrix_equiv_self e6 (Spec.adjoint (moveBy t))
    rwa [e6_apply] at this
  have hq : (moveBy t).toBlocks₁₁ = quarter := toBlocks_fromBlocks₁₁ _ _ _ _
  rw [e, Spec.adjoint, det_fromBlocks_zero₁₂, hq, quarter_isRotation.2]
  simp

/-- An information matrix expressed in the moved frame. -/
noncomputable def movedInfo (t : Vec3) (W : Matrix (Fin 6) (Fin 6) ℝ) : Matrix (Fin 6) (Fin 6) ℝ :=
  ((adjoint6 (moveBy t))⁻¹)ᵀ * W * (adjoint6 (moveBy t))⁻¹

theorem movedInfo_spec (t : Vec3) (W : Matrix (Fin 6) (Fin 6) ℝ) :
    W = (adjoint6 (moveBy t))ᵀ * movedInfo t W * adjoint6 (moveBy t) := by
  have h := nonsing_inv_mul _ (adjoint6_det t)
  have h' := congrArg transpose h
  rw [transpose_mul, transpose_one] at h'
  rw [movedInfo, Matrix.mul_assoc, Matrix.mul_assoc, Matrix.mul_assoc, h, Matrix.mul_one, ← Matrix.mul_assoc, h', Matrix.one_mul]

theorem movedInfo_psd (t : Vec3) {W : Matrix (Fin 6) (Fin 6) ℝ} (h : W.PosSemidef) : (movedInfo t W).PosSemidef := by
  have := h.conjTranspose_mul_mul_same (adjoint6 (moveBy t))⁻¹
  rwa [conjTranspose_eq_transpose_of_trivial] at this

/-- The measurements of `shifted` with the information expressed in the moved frame. -/
noncomputable def shiftedMoved (t : Vec3) : FRef → FactorVirt := fun f =>
  if f = 0 then .rel3d ⟨homog 1 ![1, 0, 0] 1⟩ (movedInfo t (stiffW6.submatrix at6 at6)) .quadratic
  else .rel3d ⟨homog 1 (-![1, 0, 0]) 1⟩ (movedInfo t 1) .quadratic

/-- All poses start at the origin. -/
noncomputable def atOrigin : World := twiceWorld₀ (fun _ => ⟨.pose3d, ⟨homog 1 0 1⟩⟩) ⟨.pose3d, ⟨homog 1 0 1⟩⟩ shifted

/-- The same in the moved frame. -/
noncomputable def atMoved (t : Vec3) : World :=
  twiceWorld₀ (fun _ => ⟨.pose3d, ⟨moveBy t⟩⟩) ⟨.pose3d, ⟨moveBy t⟩⟩ (shiftedMoved t)

theorem atMoved_restated (t : Vec3) :
    Restated (SpatialMoved (moveBy t)) (SpatialFactorMoved (moveBy t)) twiceOps atOrigin (atMoved t) := by
  have e : moveBy t = moveBy t * homog 1 0 1 := by
    rw [homog_one, Matrix.mul_one]
  refine ⟨fun n _ => ?_, fun n _ => ?_, fun f _ => rfl, fun f _ => ?_⟩
  · by_cases h : n = 2 <;> simp [atOrigin, atMoved, twiceWorld₀, twiceNodes, h, NodeCell.new]
  · by_cases h : n = 2
    · subst h; exact e
    · have e1 : atOrigin.nh n = NodeCell.new .pose3d ⟨homog 1 0 1⟩ .anchor := if_neg h
      have e2 : (atMoved t).nh n = NodeCell.new .pose3d ⟨moveBy t⟩ .anchor := if_neg h
      rw [e1, e2]; exact e
  · change SpatialFactorMoved (moveBy t) (shifted f) (shiftedMoved t f)
    by_cases h : f = 0
    · rw [shifted, shiftedMoved, if_pos h, if_pos h]
      exact .rel3d _ _ _ _ (isRigid_homog isRotation_one _) (movedInfo_spec t _)
    · rw [shifted, shiftedMoved, if_neg h, if_neg h]
      exact .rel3d _ _ _ _ (isRigid_homog isRotation_one _) (movedInfo_spec t _)

theorem mild_one : Mild (1 : Mat3) := by
  have e : angle (1 : Mat3) = 0 := by
    rw [angle, trace_one]; norm_num
  rw [Mild, e]
  exact ⟨.inl rfl, by positivity⟩

theorem plain_one : Spec.Plain (1 : Mat3) := by
  have e : angle (1 : Mat3) = 0 := by
    rw [angle, trace_one]; norm_num
  rw [Spec.Plain, e]
  exact ⟨.inl rfl, .inl (by have := Real.pi_gt_three; linarith), .inl (by positivity)⟩

theorem plain_quarter : Spec.Plain quarter := by
  have e : angle quarter = Real.pi / 2 := by
    rw [angle, quarter, trace_fin_three]; simp
  have h3 := Real.pi_gt_three
  rw [Spec.Plain, e]
  refine ⟨.inr (by linarith), .inl (by linarith), .inr ?_⟩
  rintro (h | h)
  · have := congrFun h 0
    simp [quarter, mulVec, dotProduct, Fin.sum_univ_three] at this
    norm_num at this
  · have := congrFun h 1
    simp [quarter, mulVec, dotProduct, Fin.sum_univ_three] at this
    norm_num at this

/-- The measured rotation can be read off the Jacobian. -/
theorem rel3d_angular {o o' : SE3} {W W' : Matrix (Fin 6) (Fin 6) ℝ} {ty ty' : Robust}
    (h : FactorVirt.rel3d o W ty = .rel3d o' W' ty') : o.T.toBlocks₁₁ = o'.T.toBlocks₁₁ := by
  have key : ∀ (o : SE3) (W : Matrix (Fin 6) (Fin 6) ℝ) (ty : Robust) (i j : Fin 3),
      (FactorVirt.rel3d o W ty).jac [⟨.pose3d, ⟨homog 1 0 1⟩⟩, ⟨.pose3d, ⟨homog 1 0 1⟩⟩] (⟨i, by omega⟩ : Fin 6) (6 + j) =
        -o.T.toBlocks₁₁ i j := by
    intro o W ty i j
    have e : (rel3dJac o ⟨homog 1 0 1⟩ ⟨homog 1 0 1⟩).2 = -o.adj := by
      rw [rel3dJac]
      refine congrArg (fun T : SE3 => -T.adj) (SE3.ext ?_)
      change homog 1 0 1 * o.T * (SE3.mk (homog 1 0 1)).inv.T = o.T
      rw [show (SE3.mk (homog 1 0 1)).inv.T = 1 from ?_, homog_one, Matrix.one_mul, Matrix.mul_one]
      simp only [SE3.inv, SE3.R, SE3.t, tl3_homog, tr3_homog, transpose_one, mulVec_zero]
      exact homog_one
    have key : ∀ (i k : Fin 6), blk2 ((rel3dJac o ⟨homog 1 0 1⟩ ⟨homog 1 0 1⟩).1.submatrix at6 at6)
        ((rel3dJac o ⟨homog 1 0 1⟩ ⟨homog 1 0 1⟩).2.submatrix at6 at6) i (6 + k) = (-o.adj) (at6 i) (at6 k) := by
      intro i k
      unfold blk2 blk
      rw [if_neg (by omega), Nat.add_sub_cancel_left, dif_pos k.2, e]
      rfl
    refine (key ⟨i, by omega⟩ ⟨j, by omega⟩).trans ?_
    rw [show at6 ⟨i, by omega⟩ = Sum.inl i from dif_pos i.2, show at6 ⟨j, by omega⟩ = Sum.inl j from dif_pos j.2]
    rfl
  ext i j
  have := congrArg (fun v : FactorVirt => if h : (i : ℕ) < v.dim then
    v.jac [⟨.pose3d, ⟨homog 1 0 1⟩⟩, ⟨.pose3d, ⟨homog 1 0 1⟩⟩] ⟨i, h⟩ (6 + j) else 0) h
  have hd : ∀ (o : SE3) (W : Matrix (Fin 6) (Fin 6) ℝ) (ty : Robust), (i : ℕ) < (FactorVirt.rel3d o W ty).dim := fun _ _ _ =>
    lt_of_lt_of_le i.2 (by decide : 3 ≤ 6)
  have hl := ((dif_pos (hd o W ty)).symm.trans this).trans (dif_pos (hd o' W' ty'))
  exact neg_injective (((key o W ty i j).symm.trans hl).trans (key o' W' ty' i j))

theorem atOrigin_errors : ∀ f ∈ addedFactors twiceOps,
    MildErrors (atOrigin.fh f).virt ((atOrigin.fh f).nbrs.map fun n => (atOrigin.nh n).val) := by
  intro f hf
  have hv : ∀ n : NRef, (atOrigin.nh n).val = ⟨.pose3d, ⟨homog 1 0 1⟩⟩ := by
    intro n
    by_cases h : n = 2
    · subst h; rfl
    · rw [show atOrigin.nh n = NodeCell.new .pose3d ⟨homog 1 0 1⟩ .anchor from if_neg h]; rfl
  simp only [hv]
  have hX : ∀ X : SE3, (⟨.pose3d, X⟩ : NodeVal) = ⟨.pose3d, ⟨homog 1 0 1⟩⟩ → X.T = homog 1 0 1 := fun X h =>
    congrArg SE3.T (eq_of_heq (Sigma.mk.inj h).2)
  have key : ∀ (u : Vec3) (W : Matrix (Fin 6) (Fin 6) ℝ) (n m : NRef),
      MildErrors (.rel3d ⟨homog 1 u 1⟩ W .quadratic) ([n, m].map fun _ => ⟨.pose3d, ⟨homog 1 0 1⟩⟩) := by
    intro u W n m
    refine ⟨fun X h => ?_, fun obs W' ty X h => ?_, fun obs W' ty X Y h hXY => ?_⟩
    · have h' : (⟨.pose3d, X⟩ : NodeVal) = ⟨.pose3d, ⟨homog 1 0 1⟩⟩ := by simpa using h
      rw [hX X h']; exact isRigid_homog isRotation_one 0
    · exact absurd (congrArg (fun v : FactorVirt => v.kinds.length) h) (by simp [FactorVirt.rel3d, FactorVirt.prior3d])
    · have hobs := (rel3d_angular h).symm
      simp only [List.map_cons, List.map_nil, List.cons.injEq, and_true] at hXY
      rw [hX X hXY.1.symm, hX Y hXY.2.symm, homog_one, inv_one, Matrix.one_mul, Matrix.mul_one]
      rw [show (SE3.mk (homog 1 u 1)).T.toBlocks₁₁ = 1 from toBlocks_fromBlocks₁₁ _ _ _ _] at hobs
      rw [hobs]
      exact mild_one
  simp [addedFactors, twiceOps] at hf
  rcases hf with rfl | rfl
  · exact key _ _ _ _
  · exact key _ _ _ _

/-- The displaced pose has no rotation. -/
theorem atOrigin_step (t τ : Vec3) (δ : ℕ → ℝ) (hδ : (fun i : Fin 3 => δ i) = 0) (hτ : (fun i : Fin 3 => δ (3 + i)) = τ) :
    MildStep (moveBy t) ⟨.pose3d, ⟨homog 1 0 1⟩⟩ δ := by
  intro X hX
  obtain rfl : (⟨homog 1 0 1⟩ : SE3) = X := eq_of_heq (Sigma.mk.inj hX).2
  have h1 : NormedSpace.exp (twist (fun i => δ i) fun i => δ (3 + i)) = homog 1 τ 1 := by
    rw [hδ, hτ, ← C08_exp_exact 0 τ (.inr rfl)]
    have := ofVec_translation 1 τ
    rw [one_smul, one_smul, hat6_eq, head3_vec6, tail3_vec6, hat3_at_zero, ← homog_one, homog_add] at this
    simpa using this
  have e1 : (homog 1 τ 1 * (SE3.mk (homog 1 0 1)).T).toBlocks₁₁ = 1 := by
    change (homog 1 τ 1 * homog 1 0 1).toBlocks₁₁ = 1
    rw [homog_one, Matrix.mul_one]
    exact toBlocks_fromBlocks₁₁ _ _ _ _
  have e2 : (moveBy t * (homog 1 τ 1 * (SE3.mk (homog 1 0 1)).T)).toBlocks₁₁ = quarter := by
    change (homog quarter t 1 * (homog 1 τ 1 * homog 1 0 1)).toBlocks₁₁ = quarter
    rw [homog_one, Matrix.mul_one, homog_mul, Matrix.mul_one]
    exact toBlocks_fromBlocks₁₁ _ _ _ _
  rw [h1, e1, e2]
  exact ⟨isRigid_homog isRotation_one 0, .inl fun i => congrFun hδ i, plain_one, plain_quarter⟩

/-- The graph at the origin. -/
noncomputable def originGraph : World := twiceWorld (fun _ => ⟨.pose3d, ⟨homog 1 0 1⟩⟩) ⟨.pose3d, ⟨homog 1 0 1⟩⟩ shifted

theorem run_atOrigin : originGraph = World.run twiceOps atOrigin := rfl

theorem atMoved_posDef (t : Vec3) (hp : Proper atOrigin twiceOps) (hw : WellPosed originGraph)
    (hw' : WellPosed (World.run twiceOps (atMoved t))) (h : (infoMatrix (graphTerms originGraph)).PosDef) :
    (infoMatrix (graphTerms (World.run twiceOps (atMoved t)))).PosDef := by
  rw [run_atOrigin] at hw h
  have hm := atMoved_restated t
  have hG0 : World.Gauge (spatialSym (moveBy t)) (World.run twiceOps atOrigin) (World.run twiceOps (atMoved t)) :=
    Restated.gauge (S := spatialSym (moveBy t)) (fun _ _ h => spatial_factor (moveBy_isRigid t) h) hm
      hp.noSetMode rfl rfl (fun n hn => spatial_moves (moveBy_isRigid t) _ (spatialMoved_kind (hm.val n (.inl hn))))
      atOrigin_errors
  have hr : ∀ f ∈ addedFactors twiceOps, (atOrigin.fh f).virt.robust ≠ .ransac := by
    intro f hf
    simp [addedFactors, twiceOps] at hf
    rcases hf with rfl | rfl
    · exact fun h => Robust.noConfusion (show Robust.quadratic = .ransac from h)
    · exact fun h => Robust.noConfusion (show Robust.quadratic = .ransac from h)
  have hr' : ∀ f ∈ addedFactors twiceOps, ((atMoved t).fh f).virt.robust ≠ .ransac := fun f hf => by
    rw [(spatial_factor (moveBy_isRigid t) (hm.virt f hf)).1]; exact hr f hf
  exact hG0.posDef hw.wired (run_noRansac rfl hr) (run_noRansac rfl hr') (FGraphSolve.terms_psd hw') h

/-- The increment of the estimated pose. -/
noncomputable def increment : ℕ → ℝ := fun k => if hk : k < 6 then -(vec6 0 ![-3 / 5, 0, 0] (at6 ⟨k, hk⟩)) else 0

theorem increment_head : (fun i : Fin 3 => increment i) = 0 := by
  funext i; fin_cases i <;> simp [increment, at6, vec6]

theorem increment_tail : (fun i : Fin 3 => increment (3 + i)) = ![3 / 5, 0, 0] := by
  funext i; fin_cases i <;> simp [increment, at6, vec6] <;> norm_num

theorem atOrigin_psd : ∀ f ∈ addedFactors twiceOps, (atOrigin.fh f).virt.W.PosSemidef := by
  intro f hf
  simp [addedFactors, twiceOps] at hf
  rcases hf with rfl | rfl
  · exact stiffW6_sub.posSemidef
  · exact Matrix.PosSemidef.one

theorem atMoved_psd (t : Vec3) : ∀ f ∈ addedFactors twiceOps, ((atMoved t).fh f).virt.W.PosSemidef := by
  intro f hf
  simp [addedFactors, twiceOps] at hf
  rcases hf with rfl | rfl
  · exact movedInfo_psd t stiffW6_sub.posSemidef
  · exact movedInfo_psd t Matrix.PosSemidef.one

theorem atOrigin_proper : Proper atOrigin twiceOps := twice_proper (shifted_pair _)

theorem origin_wellPosed : WellPosed originGraph := twice_wellPosed (shifted_pair ⟨homog 1 0 1⟩)

theorem origin_normal : (infoMatrix (graphTerms originGraph)).PosDef ∧ ∀ X : Cols originGraph → ℝ,
    infoMatrix (graphTerms originGraph) *ᵥ X = infoVector (graphTerms originGraph) → originGraph.spread (-X) 2 = increment := by
  obtain ⟨k1, k2⟩ := shifted_normal isRotation_one ![1, 0, 0] ![-3 / 5, 0, 0] (one_mulVec _)
      (by funext i; fin_cases i <;> simp <;> norm_num)
      (by funext i; fin_cases i <;> simp [hat3, mulVec, dotProduct, Fin.sum_univ_three])
  exact twice_normal (shifted_pair ⟨homog 1 0 1⟩) k1 _ k2

theorem moved_wellPosed (t : Vec3) : WellPosed (World.run twiceOps (atMoved t)) :=
  run_wellPosed rfl (Restated.proper (fun _ _ h => (spatialSym (moveBy t)).kind h) (fun _ _ h => by cases h <;> rfl)
    (atMoved_restated t) atOrigin_proper) (atMoved_psd t) fun _ _ => le_refl (0 : ℝ)

theorem returns_of {w : World} (hw : WellPosed w) (h : (infoMatrix (graphTerms w)).PosDef) (s : FGraphSolve) (hs : s.w = w) :
    ∃ s1, s.solve Env.exact .GN 20 1e-6 1e-2 = .ok s1 := by
  subst hs
  exact C36_returns Env.exact Env.exact_complete s hw h 20 1e-6 1e-2

theorem origin_step (t : Vec3) (s : FGraphSolve) (hs : s.w = originGraph) (x : Cols s.w → ℝ)
    (hx : infoMatrix (graphTerms s.w) *ᵥ x = infoVector (graphTerms s.w)) :
    (∀ n ∈ s.w.g.active, MildStep (moveBy t) (s.w.nh n).val (s.w.spread (-x) n)) ∧ s.w.spread (-x) 2 3 = 3 / 5 := by
  obtain ⟨w, lambda, tol, sys, mats⟩ := s
  obtain rfl : w = originGraph := hs
  have h := origin_normal.2 x hx
  refine ⟨fun n hn => ?_, (congrFun h 3).trans (congrFun increment_tail 0)⟩
  have hn' : n ∈ originGraph.g.active := hn
  rw [originGraph, twice_active, List.mem_singleton] at hn'
  subst hn'
  have hv : (originGraph.nh 2).val = ⟨.pose3d, ⟨homog 1 0 1⟩⟩ := (twice_val (shifted_pair ⟨homog 1 0 1⟩)).2.2
  change MildStep (moveBy t) (originGraph.nh 2).val (originGraph.spread (-x) 2)
  rw [h, hv]
  exact atOrigin_step t ![3 / 5, 0, 0] _ increment_head increment_tail

end Demo

/-- The hypotheses are met with every translation, and the estimated pose is displaced (by 3/5 along the first axis). -/
example (t : Vec3) : Proper Demo.atOrigin Demo.twiceOps ∧
    Restated (SpatialMoved (Demo.moveBy t)) (SpatialFactorMoved (Demo.moveBy t)) Demo.twiceOps Demo.atOrigin (Demo.atMoved t) ∧
    (∀ f ∈ addedFactors Demo.twiceOps, (Demo.atOrigin.fh f).virt.W.PosSemidef) ∧
    (∀ f ∈ addedFactors Demo.twiceOps, ((Demo.atMoved t).fh f).virt.W.PosSemidef) ∧
    (∀ f ∈ addedFactors Demo.twiceOps, MildErrors (Demo.atOrigin.fh f).virt
      ((Demo.atOrigin.fh f).nbrs.map fun n => (Demo.atOrigin.nh n).val)) ∧
    (∀ s : FGraphSolve, s.w = World.run Demo.twiceOps Demo.atOrigin → (infoMatrix (graphTerms s.w)).PosDef ∧
      (∀ x : Cols s.w → ℝ, infoMatrix (graphTerms s.w) *ᵥ x = infoVector (graphTerms s.w) →
        ∀ n ∈ s.w.g.active, MildStep (Demo.moveBy t) (s.w.nh n).val (s.w.spread (-x) n)) ∧
      (∃ s1, s.solve Env.exact .GN 20 1e-6 1e-2 = .ok s1) ∧
      ∀ x : Cols s.w → ℝ, infoMatrix (graphTerms s.w) *ᵥ x = infoVector (graphTerms s.w) → s.w.spread (-x) 2 3 = 3 / 5) ∧
    ∀ s' : FGraphSolve, s'.w = World.run Demo.twiceOps (Demo.atMoved t) →
      ∃ s1', s'.solve Env.exact .GN 20 1e-6 1e-2 = .ok s1' :=
  ⟨Demo.atOrigin_proper, Demo.atMoved_restated t, Demo.atOrigin_psd, Demo.atMoved_psd t, Demo.atOrigin_errors,
    fun s hs => ⟨hs ▸ Demo.origin_normal.1, fun x hx => (Demo.origin_step t s hs x hx).1,
      Demo.returns_of Demo.origin_wellPosed Demo.origin_normal.1 s hs, fun x hx => (Demo.origin_step t s hs x hx).2⟩,
    fun s' hs' => Demo.returns_of (Demo.moved_wellPosed t)
      (Demo.atMoved_posDef t Demo.atOrigin_proper Demo.origin_wellPosed (Demo.moved_wellPosed t) Demo.origin_normal.1) s' hs'⟩

end Mrob
