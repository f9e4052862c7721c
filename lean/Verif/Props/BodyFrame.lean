import Verif.Lemmas.BodyFrame
import Verif.Props.WorldFrameSpatial

/-!
# C111: the choice of the frame fixed to the vehicle
-/

open Matrix

namespace Mrob

open World Spec

theorem body_gauge {G : Mat4} (hG : IsRigid G) {ops : List GraphOp} {w₀ w₀' : World} (h₀ : w₀.g = emptyGraph)
    (h₀' : w₀'.g = emptyGraph) (hp : Proper w₀ ops) (hm : Restated (BodyMoved G) (BodyFactorMoved G) ops w₀ w₀')
    (hok : ∀ f ∈ addedFactors ops, SameSide G (w₀.fh f).virt ((w₀.fh f).nbrs.map fun n => (w₀.nh n).val)) :
    World.Gauge (bodySym G) (World.run ops w₀) (World.run ops w₀') :=
  Restated.gauge (S := bodySym G) (fun _ _ h => body_factor hG h) hm hp.noSetMode h₀ h₀'
    (fun n hn => body_moves _ (bodyMoved_kind (hm.val n (.inl hn)))) hok

/-- C111, the error: let the poses be those of another frame of the vehicle, and express what the vehicle measures in that
frame; then the error of the graph is the same.  Missing: planes of which only the
prediction or only the observation separates the origins of the two frames (`C111_plane_fails`: false), planar poses (`C111_planar_fails`: false). -/
theorem C111_cost_partial (G : Mat4) (hG : IsRigid G) (ops : List GraphOp) (w₀ w₀' : World) (h₀ : w₀.g = emptyGraph)
    (h₀' : w₀'.g = emptyGraph) (hp : Proper w₀ ops) (hm : Restated (BodyMoved G) (BodyFactorMoved G) ops w₀ w₀')
    (hpsd : ∀ f ∈ addedFactors ops, (w₀.fh f).virt.W.PosSemidef) (hwt : ∀ f ∈ addedFactors ops, 0 ≤ (w₀.fh f).weight)
    (hok : ∀ f ∈ addedFactors ops, SameSide G (w₀.fh f).virt ((w₀.fh f).nbrs.map fun n => (w₀.nh n).val)) :
    (World.run ops w₀').cost = (World.run ops w₀).cost :=
  (body_gauge hG h₀ h₀' hp hm hok).cost_eq (run_wellPosed h₀ hp hpsd hwt).wired

/-- C111, Gauss-Newton: the estimates with the other frame of the vehicle are the poses of that frame, and the estimated
landmarks and planes are the same.  Missing: as above, and rotations at which `regenerate` changes the pose (`BodyStep`).
Levenberg-Marquardt: `C111_lm_partial`. -/
theorem C111_gn_partial (G : Mat4) (hG : IsRigid G) (ops : List GraphOp) (w₀ w₀' : World) (h₀ : w₀.g = emptyGraph)
    (h₀' : w₀'.g = emptyGraph) (hp : Proper w₀ ops) (hm : Restated (BodyMoved G) (BodyFactorMoved G) ops w₀ w₀')
    (hpsd : ∀ f ∈ addedFactors ops, (w₀.fh f).virt.W.PosSemidef) (hwt : ∀ f ∈ addedFactors ops, 0 ≤ (w₀.fh f).weight)
    (hpsd' : ∀ f ∈ addedFactors ops, (w₀'.fh f).virt.W.PosSemidef) (hwt' : ∀ f ∈ addedFactors ops, 0 ≤ (w₀'.fh f).weight)
    (hr : ∀ f ∈ addedFactors ops, (w₀.fh f).virt.robust ≠ .ransac)
    (hok : ∀ f ∈ addedFactors ops, SameSide G (w₀.fh f).virt ((w₀.fh f).nbrs.map fun n => (w₀.nh n).val))
    (env env' : Env) (henv : env.Sound) (henv' : env'.Sound)
    (s s' s1 s1' : FGraphSolve) (hs : s.w = World.run ops w₀) (hs' : s'.w = World.run ops w₀')
    (hpd : (infoMatrix (graphTerms s.w)).PosDef)
    (hstep : ∀ x : Cols s.w → ℝ, infoMatrix (graphTerms s.w) *ᵥ x = infoVector (graphTerms s.w) →
      ∀ n ∈ s.w.g.active, BodyStep G (s.w.nh n).val (s.w.spread (-x) n))
    (maxIters maxIters' : ℕ) (lambda lambda' tol tol' : ℝ)
    (h1 : s.solve env .GN maxIters lambda tol = .ok s1) (h1' : s'.solve env' .GN maxIters' lambda' tol' = .ok s1') :
    ∀ n, (n ∈ s.w.g.active ∨ ∃ f ∈ addedFactors ops, n ∈ (w₀.fh f).nbrs) →
      BodyMoved G (s1.w.nh n).val (s1'.w.nh n).val := by
  have hp' := Restated.proper (fun _ _ h => (bodySym G).kind h) (fun _ _ h => by cases h <;> rfl) hm hp
  have hw := run_wellPosed h₀ hp hpsd hwt
  have hw' := run_wellPosed h₀' hp' hpsd' hwt'
  have hr1 := run_noRansac h₀ hr
  have hr1' := run_noRansac h₀' fun f hf => by
    rw [(body_factor hG (hm.virt f hf)).1]; exact hr f hf
  have hG0 := body_gauge hG h₀ h₀' hp hm hok
  rw [← hs] at hw hr1 hG0
  rw [← hs'] at hw' hr1' hG0
  have hfac : s.w.g.factors = addedFactors ops := by rw [hs, run_factors, h₀]; rfl
  intro n hn
  refine FGraphSolve.gn_gauge_at (S := bodySym G) henv henv' hG0 hw hw' hr1 hr1' hpd h1 h1'
    (fun x hx n hn => body_upd hG (hG0.val n (.inl hn)) (hstep x hx n hn)) n ?_
  refine hn.imp id fun ⟨f, hf, hn⟩ => ⟨f, hfac ▸ hf, ?_⟩
  rw [hs, (run_fh_static ops w₀ f).2]; exact hn

namespace Demo

/-- The measurements of `shifted` in the frame of the vehicle turned by a quarter. -/
noncomputable def shiftedBody : FRef → FactorVirt := fun f =>
  if f = 0 then .rel3d ⟨homog 1 (quarterᵀ *ᵥ ![1, 0, 0]) 1⟩ (stiffW6.submatrix at6 at6) .quadratic
  else .rel3d ⟨homog 1 (quarterᵀ *ᵥ (-![1, 0, 0])) 1⟩ 1 .quadratic

/-- The poses of the other frame of the vehicle. -/
noncomputable def atMounted (t : Vec3) : World :=
  twiceWorld₀ (fun _ => ⟨.pose3d, ⟨moveBy t⟩⟩) ⟨.pose3d, ⟨moveBy t⟩⟩ shiftedBody

theorem moveBy_obs (t u : Vec3) : moveBy t * homog 1 (quarterᵀ *ᵥ u) 1 = homog 1 u 1 * moveBy t := by
  rw [moveBy, homog_mul, homog_mul, mulVec_mulVec, quarter_isRotation.1, one_mulVec, one_mulVec, one_smul, one_smul, Matrix.mul_one,
    Matrix.one_mul, add_comm]

theorem atMounted_restated (t : Vec3) :
    Restated (BodyMoved (moveBy t)) (BodyFactorMoved (moveBy t)) twiceOps atOrigin (atMounted t) := by
  have e : moveBy t = homog 1 0 1 * moveBy t := by
    rw [homog_one, Matrix.one_mul]
  have hn : ∀ (a : NRef → NodeVal) (x : NodeVal) (v : FRef → FactorVirt) (f : FRef),
      ((twiceWorld₀ a x v).fh f).nbrs = [if f = 0 then 0 else 1, 2] := fun _ _ _ _ => rfl
  refine ⟨fun n _ => ?_, fun n _ => ?_, fun f _ => (hn _ _ _ f).trans (hn _ _ _ f).symm, fun f _ => ?_⟩
  · by_cases h : n = 2 <;> simp [atOrigin, atMounted, twiceWorld₀, twiceNodes, h, NodeCell.new]
  · by_cases h : n = 2
    · subst h; exact e
    · have e1 : atOrigin.nh n = NodeCell.new .pose3d ⟨homog 1 0 1⟩ .anchor := if_neg h
      have e2 : (atMounted t).nh n = NodeCell.new .pose3d ⟨moveBy t⟩ .anchor := if_neg h
      rw [e1, e2]; exact e
  · change BodyFactorMoved (moveBy t) (shifted f) (shiftedBody f)
    by_cases h : f = 0
    · rw [shifted, shiftedBody, if_pos h, if_pos h]
      exact .rel3d _ _ _ _ (moveBy_obs t _)
    · rw [shifted, shiftedBody, if_neg h, if_neg h]
      exact .rel3d _ _ _ _ (moveBy_obs t _)

theorem atOrigin_side (t : Vec3) : ∀ f ∈ addedFactors twiceOps,
    SameSide (moveBy t) (atOrigin.fh f).virt ((atOrigin.fh f).nbrs.map fun n => (atOrigin.nh n).val) := by
  intro f hf
  have hv : ∀ n : NRef, (atOrigin.nh n).val = ⟨.pose3d, ⟨homog 1 0 1⟩⟩ := by
    intro n
    by_cases h : n = 2
    · subst h; rfl
    · rw [show atOrigin.nh n = NodeCell.new .pose3d ⟨homog 1 0 1⟩ .anchor from if_neg h]; rfl
  simp only [hv]
  refine ⟨fun X h => ?_, fun obs W rev ty X p _ _ h => ?_⟩
  · obtain ⟨n, -, e⟩ := List.mem_map.mp h
    obtain rfl : (⟨homog 1 0 1⟩ : SE3) = X := eq_of_heq (Sigma.mk.inj e).2
    exact isRigid_homog isRotation_one 0
  · obtain ⟨n, -, e⟩ := List.mem_map.mp h
    exact absurd (congrArg Sigma.fst e) (by simp)

theorem atOrigin_bodyStep (t τ : Vec3) (δ : ℕ → ℝ) (hδ : (fun i : Fin 3 => δ i) = 0) (hτ : (fun i : Fin 3 => δ (3 + i)) = τ) :
    BodyStep (moveBy t) ⟨.pose3d, ⟨homog 1 0 1⟩⟩ δ := by
  intro X hX
  obtain ⟨a, b, c, -⟩ := atOrigin_step t τ δ hδ hτ X hX
  refine ⟨a, b, c, ?_⟩
  obtain rfl : (⟨homog 1 0 1⟩ : SE3) = X := eq_of_heq (Sigma.mk.inj hX).2
  have h1 : NormedSpace.exp (twist (fun i => δ i) fun i => δ (3 + i)) = homog 1 τ 1 := by
    rw [hδ, hτ, ← C08_exp_exact 0 τ (.inr rfl)]
    have := ofVec_translation 1 τ
    rw [one_smul, one_smul, hat6_eq, head3_vec6, tail3_vec6, hat3_at_zero, ← homog_one, homog_add] at this
    simpa using this
  have e2 : (homog 1 τ 1 * (SE3.mk (homog 1 0 1)).T * moveBy t).toBlocks₁₁ = quarter := by
    change (homog 1 τ 1 * homog 1 0 1 * homog quarter t 1).toBlocks₁₁ = quarter
    rw [homog_one, Matrix.mul_one, homog_mul, Matrix.one_mul]
    exact toBlocks_fromBlocks₁₁ _ _ _ _
  rw [h1, e2]
  exact plain_quarter

theorem origin_bodyStep (t : Vec3) (s : FGraphSolve) (hs : s.w = originGraph) (x : Cols s.w → ℝ)
    (hx : infoMatrix (graphTerms s.w) *ᵥ x = infoVector (graphTerms s.w)) :
    ∀ n ∈ s.w.g.active, BodyStep (moveBy t) (s.w.nh n).val (s.w.spread (-x) n) := by
  obtain ⟨w, lambda, tol, sys, mats⟩ := s
  obtain rfl : w = originGraph := hs
  have h := origin_normal.2 x hx
  intro n hn
  have hn' : n ∈ originGraph.g.active := hn
  rw [originGraph, twice_active, List.mem_singleton] at hn'
  subst hn'
  have hv : (originGraph.nh 2).val = ⟨.pose3d, ⟨homog 1 0 1⟩⟩ := (twice_val (shifted_pair ⟨homog 1 0 1⟩)).2.2
  change BodyStep (moveBy t) (originGraph.nh 2).val (originGraph.spread (-x) 2)
  rw [h, hv]
  exact atOrigin_bodyStep t ![3 / 5, 0, 0] _ increment_head increment_tail

theorem atMounted_psd (t : Vec3) : ∀ f ∈ addedFactors twiceOps, ((atMounted t).fh f).virt.W.PosSemidef := by
  intro f hf
  simp [addedFactors, twiceOps] at hf
  rcases hf with rfl | rfl
  · exact stiffW6_sub.posSemidef
  · exact Matrix.PosSemidef.one

theorem mounted_wellPosed (t : Vec3) : WellPosed (World.run twiceOps (atMounted t)) :=
  run_wellPosed rfl (Restated.proper (fun _ _ h => (bodySym (moveBy t)).kind h) (fun _ _ h => by cases h <;> rfl)
    (atMounted_restated t) atOrigin_proper) (atMounted_psd t) fun _ _ => le_refl (0 : ℝ)

theorem atOrigin_quadratic : ∀ f ∈ addedFactors twiceOps, (atOrigin.fh f).virt.robust ≠ .ransac := by
  intro f hf
  simp [addedFactors, twiceOps] at hf
  rcases hf with rfl | rfl
  · exact fun h => Robust.noConfusion (show Robust.quadratic = .ransac from h)
  · exact fun h => Robust.noConfusion (show Robust.quadratic = .ransac from h)

theorem mounted_posDef (t : Vec3) : (infoMatrix (graphTerms (World.run twiceOps (atMounted t)))).PosDef := by
  have hw := origin_wellPosed
  have h := origin_normal.1
  rw [run_atOrigin] at hw h
  have hG0 := body_gauge (moveBy_isRigid t) rfl rfl atOrigin_proper (atMounted_restated t) (atOrigin_side t)
  have hr' : ∀ f ∈ addedFactors twiceOps, ((atMounted t).fh f).virt.robust ≠ .ransac := fun f hf => by
    rw [(body_factor (moveBy_isRigid t) ((atMounted_restated t).virt f hf)).1]; exact atOrigin_quadratic f hf
  exact hG0.posDef hw.wired (run_noRansac rfl atOrigin_quadratic) (run_noRansac rfl hr') (FGraphSolve.terms_psd (mounted_wellPosed t)) h

end Demo

/-- The hypotheses are met: the new frame is turned by a right angle and displaced by any vector, and the estimated pose moves
(by 3/5 along the first axis). -/
example (t : Vec3) : IsRigid (Demo.moveBy t) ∧ Proper Demo.atOrigin Demo.twiceOps ∧
    Restated (BodyMoved (Demo.moveBy t)) (BodyFactorMoved (Demo.moveBy t)) Demo.twiceOps Demo.atOrigin (Demo.atMounted t) ∧
    (∀ f ∈ addedFactors Demo.twiceOps, (Demo.atOrigin.fh f).virt.W.PosSemidef) ∧
    (∀ f ∈ addedFactors Demo.twiceOps, ((Demo.atMounted t).fh f).virt.W.PosSemidef) ∧
    (∀ f ∈ addedFactors Demo.twiceOps, SameSide (Demo.moveBy t) (Demo.atOrigin.fh f).virt
      ((Demo.atOrigin.fh f).nbrs.map fun n => (Demo.atOrigin.nh n).val)) ∧
    (∀ s : FGraphSolve, s.w = World.run Demo.twiceOps Demo.atOrigin → (infoMatrix (graphTerms s.w)).PosDef ∧
      (∀ x : Cols s.w → ℝ, infoMatrix (graphTerms s.w) *ᵥ x = infoVector (graphTerms s.w) →
        ∀ n ∈ s.w.g.active, BodyStep (Demo.moveBy t) (s.w.nh n).val (s.w.spread (-x) n)) ∧
      (∃ s1, s.solve Env.exact .GN 20 1e-6 1e-2 = .ok s1) ∧
      ∀ x : Cols s.w → ℝ, infoMatrix (graphTerms s.w) *ᵥ x = infoVector (graphTerms s.w) → s.w.spread (-x) 2 3 = 3 / 5) ∧
    ∀ s' : FGraphSolve, s'.w = World.run Demo.twiceOps (Demo.atMounted t) →
      ∃ s1', s'.solve Env.exact .GN 20 1e-6 1e-2 = .ok s1' :=
  ⟨Demo.moveBy_isRigid t, Demo.atOrigin_proper, Demo.atMounted_restated t, Demo.atOrigin_psd, Demo.atMounted_psd t,
    Demo.atOrigin_side t,
    fun s hs => ⟨hs ▸ Demo.origin_normal.1, fun x hx => Demo.origin_bodyStep t s hs x hx,
      Demo.returns_of Demo.origin_wellPosed Demo.origin_normal.1 s hs, fun x hx => (Demo.origin_step t s hs x hx).2⟩,
    fun s' hs' => Demo.returns_of (Demo.mounted_wellPosed t) (Demo.mounted_posDef t) s' hs'⟩

/-- C111 is false for planes if one of prediction and observation separates the origins of the two frames: the vehicle at the
origin predicts the plane `x = -1` and observes `x = -4` (error 9/2); with the same observation expressed in a frame two units
behind, and the information expressed in that frame, the error is 29/2. -/
theorem C111_plane_fails : ∃ (G : Mat4) (X X' : SE3) (obs obs' p : Vec4) (W' : Matrix (Fin 4) (Fin 4) ℝ), IsRigid G ∧ IsRigid X.T ∧
    BodyMoved G ⟨.pose3d, X⟩ ⟨.pose3d, X'⟩ ∧ 0 ≤ obs (Sum.inr ()) ∧ 0 ≤ obs' (Sum.inr ()) ∧
    (∀ rev ty, BodyFactorMoved G (.plane4d obs 1 rev ty) (.plane4d obs' W' rev ty)) ∧
    ∀ rev ty, factorChi2 (1 : Matrix (Fin 4) (Fin 4) ℝ) ((FactorVirt.plane4d obs 1 rev ty).res [⟨.pose3d, X⟩, ⟨.plane4d, p⟩]) = 9 / 2 ∧
      factorChi2 W' ((FactorVirt.plane4d obs' W' rev ty).res [⟨.pose3d, X'⟩, ⟨.plane4d, p⟩]) = 29 / 2 := by
  set t : Vec3 := ![-2, 0, 0] with ht
  set p : Vec4 := Sum.elim ![1, 0, 0] fun _ => 1 with hp
  set z : Vec4 := Sum.elim ![1, 0, 0] fun _ => 4 with hz
  set B : Matrix (Fin 4) (Fin 4) ℝ := !![1, 0, 0, 2; 0, 1, 0, 0; 0, 0, 1, 0; 0, 0, 0, 1] with hB
  have hG : IsRigid (SE3.mk (homog 1 t 1)).T := isRigid_homog isRotation_one t
  have hlen : len (fun i => z (Sum.inl i)) = 1 := by
    simp [len, hz, dotProduct, Fin.sum_univ_three]
  have hobs : (homog 1 t 1)ᵀ *ᵥ z = Sum.elim ![1, 0, 0] fun _ => 2 := by
    funext i
    rcases i with i | i
    · fin_cases i <;> simp [homog, mulVec, dotProduct, hz, ht, Fin.sum_univ_three]
    · simp [homog, mulVec, dotProduct, hz, ht, Fin.sum_univ_three]; norm_num
  have hobs' : nonnegOffset ((homog 1 t 1)ᵀ *ᵥ z) = Sum.elim ![1, 0, 0] fun _ => 2 := by
    rw [nonnegOffset, hobs, if_neg (by simp)]
  have hl : planeLocal ⟨1⟩ p = p := by
    rw [planeLocal]
    change (1 : Mat4)ᵀ *ᵥ p = p
    rw [transpose_one, one_mulVec]
  have hl' : planeLocal ⟨homog 1 t 1⟩ p = Sum.elim ![1, 0, 0] fun _ => -1 := by
    rw [planeLocal]
    funext i
    rcases i with i | i
    · fin_cases i <;> simp [homog, mulVec, dotProduct, hp, ht, Fin.sum_univ_three]
    · simp [homog, mulVec, dotProduct, hp, ht, Fin.sum_univ_three]; norm_num
  have r1 : (fun i : Fin 4 => planeRes (planeObs z) ⟨1⟩ p (at4 i)) = ![0, 0, 0, -3] := by
    rw [planeObs_unit hlen, planeRes, hl, if_neg (by simp [hp])]
    funext i
    fin_cases i <;> simp [at4, hp, hz]; norm_num
  have r2 : (fun i : Fin 4 => planeRes (planeObs (nonnegOffset ((homog 1 t 1)ᵀ *ᵥ z))) ⟨homog 1 t 1⟩ p (at4 i)) = ![2, 0, 0, 1] := by
    have h1 : planeObs (nonnegOffset ((homog 1 t 1)ᵀ *ᵥ z)) = nonnegOffset ((homog 1 t 1)ᵀ *ᵥ z) := offset_unit hG hlen
    rw [h1, planeRes, hl', hobs', if_pos (by simp)]
    funext i
    fin_cases i <;> simp [at4] <;> norm_num
  have hGB : (homog 1 t 1).submatrix at4 at4 = !![1, 0, 0, -2; 0, 1, 0, 0; 0, 0, 1, 0; 0, 0, 0, 1] := by
    ext i j
    fin_cases i <;> fin_cases j <;> simp [homog, at4, ht]
  have hW : (1 : Matrix (Fin 4) (Fin 4) ℝ) =
      (homog 1 t 1).submatrix at4 at4 * (B * Bᵀ) * (homog 1 t 1)ᵀ.submatrix at4 at4 := by
    have e : (homog 1 t 1)ᵀ.submatrix at4 at4 = ((homog 1 t 1).submatrix at4 at4)ᵀ := rfl
    have h1 : (homog 1 t 1).submatrix at4 at4 * B = 1 := by
      rw [hGB, hB]
      ext i j
      fin_cases i <;> fin_cases j <;> simp [Matrix.mul_apply, Fin.sum_univ_four]
    rw [e, ← Matrix.mul_assoc, h1, Matrix.one_mul, ← transpose_mul, h1, transpose_one]
  refine ⟨homog 1 t 1, ⟨1⟩, ⟨homog 1 t 1⟩, z, _, p, B * Bᵀ, hG, ?_, (Matrix.one_mul _).symm, ?_, ?_,
    fun rev ty => .plane4d _ _ _ _ _ _ hlen rfl hW, fun rev ty => ⟨?_, ?_⟩⟩
  · change IsRigid 1
    rw [← homog_one]; exact isRigid_homog isRotation_one 0
  · simp [hz]
  · rw [hobs']; simp
  · have e : (FactorVirt.plane4d z 1 rev ty).res [⟨.pose3d, ⟨1⟩⟩, ⟨.plane4d, p⟩] = ![0, 0, 0, -3] := r1
    have key : factorChi2 (1 : Matrix (Fin 4) (Fin 4) ℝ) ![0, 0, 0, -3] = 9 / 2 := by
      rw [factorChi2, one_mulVec]
      simp [dotProduct, Fin.sum_univ_four]; norm_num
    rw [e]
    exact key
  · have e : (FactorVirt.plane4d (nonnegOffset ((homog 1 t 1)ᵀ *ᵥ z)) (B * Bᵀ) rev ty).res
        [⟨.pose3d, ⟨homog 1 t 1⟩⟩, ⟨.plane4d, p⟩] = ![2, 0, 0, 1] := r2
    have key : factorChi2 (B * Bᵀ) ![2, 0, 0, 1] = 29 / 2 := by
      rw [factorChi2, hB]
      simp [mulVec, dotProduct, Matrix.mul_apply, Fin.sum_univ_four]; norm_num
    rw [e]
    exact key

/-- C111 is false for planar poses: the error of a measured planar pose depends on the frame of the vehicle, because positions
are compared in the world frame: error `(π/2)²/2` in one frame and `(π/2)²/2 + 1` in a frame one unit ahead. -/
theorem C111_planar_fails : ∃ (obs obs' x x' : Vec3) (ahead : ℝ),
    obs' = ![obs 0 + ahead * Real.cos (obs 2), obs 1 + ahead * Real.sin (obs 2), obs 2] ∧
    x' = ![x 0 + ahead * Real.cos (x 2), x 1 + ahead * Real.sin (x 2), x 2] ∧
    ∀ ty, factorChi2 (1 : Mat3) ((FactorVirt.prior2d obs 1 ty).res [⟨.pose2d, x⟩]) = (Real.pi / 2) ^ 2 / 2 ∧
      factorChi2 (1 : Mat3) ((FactorVirt.prior2d obs' 1 ty).res [⟨.pose2d, x'⟩]) = (Real.pi / 2) ^ 2 / 2 + 1 := by
  have hpi := Real.pi_pos
  have hw : wrapAngle (Real.pi / 2) = Real.pi / 2 := wrapAngle_of_mem (by linarith) (by linarith)
  refine ⟨0, _, ![0, 0, Real.pi / 2], _, 1, rfl, rfl, fun ty => ⟨?_, ?_⟩⟩
  · change factorChi2 (1 : Mat3) (prior2dRes _ _) = _
    rw [factorChi2, one_mulVec]
    simp [prior2dRes, wrap2, dotProduct, Fin.sum_univ_three, hw]; ring
  · change factorChi2 (1 : Mat3) (prior2dRes _ _) = _
    rw [factorChi2, one_mulVec]
    simp [prior2dRes, wrap2, dotProduct, Fin.sum_univ_three, hw]; ring

end Mrob
