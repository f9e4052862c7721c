import Verif.Props.WorldFrame

/-!
# C93: the choice of the world frame, landmarks at the position of a pose
-/

open Matrix

namespace Mrob

open World Spec

namespace Demo

/-- Information of the observation of the near landmark. -/
noncomputable def nearW : Matrix (Fin 2) (Fin 2) ℝ := Matrix.diagonal ![3, 1]

theorem nearW_posDef : nearW.PosDef := by
  refine Matrix.PosDef.diagonal fun i => ?_
  fin_cases i <;> simp

/-- The observations: from a pose at the position of the landmark, and from a pose one metre away. -/
noncomputable def nearObs : FRef → FactorVirt := fun f =>
  if f = 0 then .land2d ![0, 0] nearW false .quadratic else .land2d ![2, 0] 1 false .quadratic

/-- The poses. -/
noncomputable def nearFrom (x0 x1 : Vec3) : NRef → NodeVal := fun n => ⟨.pose2d, if n = 0 then x0 else x1⟩

theorem near_pair (x0 x1 : Vec3) : Measured (nearFrom x0 x1) ⟨.landmark2d, 0⟩ nearObs :=
  ⟨rfl, rfl, rfl, rfl, rfl, nearW_posDef.posSemidef, Matrix.PosSemidef.one, rfl, rfl⟩

/-- The estimate. -/
theorem near_gn {x0 x1 : Vec3} (h0 : x0 0 = 0) (h1 : x0 1 = 0) (q : x1 0 * x1 0 + x1 1 * x1 1 = 1)
    (ha : catan2 (-x1 1) (-x1 0) = x1 2) (s : FGraphSolve) (hs : s.w = twiceWorld (nearFrom x0 x1) ⟨.landmark2d, 0⟩ nearObs) :
    ∃ s1, s.solve Env.exact .GN 20 1e-6 1e-2 = .ok s1 ∧ (s1.w.nh 2).val = ⟨.landmark2d, ![-x1 0 / 4, -x1 1 / 2]⟩ := by
  have hpi := Real.pi_pos
  have j0 : (land2dJac x0 0).2 = 1 := by
    rw [land2dJac]
    simp only [h0, h1, Pi.zero_apply]
    rw [if_pos (by norm_num)]
  have r0 : land2dRes ![0, 0] x0 0 = 0 := by
    rw [land2dRes]
    simp only [h0, h1, Pi.zero_apply]
    rw [if_pos (by norm_num)]
  have q' : ((0 : Vec2) 0 - x1 0) * ((0 : Vec2) 0 - x1 0) + ((0 : Vec2) 1 - x1 1) * ((0 : Vec2) 1 - x1 1) = 1 := by
    simpa using q
  have r1 : land2dRes ![2, 0] x1 0 = ![-1, 0] := by
    rw [land2dRes]
    simp only [q']
    rw [if_neg (by norm_num)]
    have e : wrapAngle (catan2 ((0 : Vec2) 1 - x1 1) ((0 : Vec2) 0 - x1 0) - x1 2 - (![2, 0] : Vec2) 1) = 0 := by
      simp only [Pi.zero_apply, zero_sub, ha]
      simp only [sub_self, cons_val_one, cons_val_fin_one]
      exact wrapAngle_of_mem (by linarith) hpi
    rw [e, Real.sqrt_one]
    funext i
    fin_cases i <;> simp <;> norm_num
  have key : ∀ (M M' : Matrix (Fin 2) (Fin 2) ℝ), M = (land2dJac x0 0).2 → M' = (land2dJac x1 0).2 →
      (Mᵀ * nearW * M + M'ᵀ * 1 * M').PosDef ∧ (Mᵀ * nearW * M + M'ᵀ * 1 * M') *ᵥ ![x1 0 / 4, x1 1 / 2] =
        Mᵀ *ᵥ (nearW *ᵥ land2dRes ![0, 0] x0 0) + M'ᵀ *ᵥ ((1 : Matrix (Fin 2) (Fin 2) ℝ) *ᵥ land2dRes ![2, 0] x1 0) := by
    rintro _ _ rfl rfl
    rw [unit_info q', j0, transpose_one, Matrix.one_mul, Matrix.mul_one, r0, r1, unit_jac q']
    refine ⟨nearW_posDef.add Matrix.PosDef.one, ?_⟩
    rw [add_mulVec, one_mulVec, one_mulVec, one_mulVec, mulVec_zero, zero_add, nearW]
    funext i
    rw [Pi.add_apply, mulVec_diagonal]
    fin_cases i <;> simp [mulVec, dotProduct] <;> ring
  obtain ⟨k1, k2⟩ := key _ _ (land_twiceJac ![0, 0] nearW x0 0) (land_twiceJac ![2, 0] 1 x1 0)
  obtain ⟨-, s1, g1, g2⟩ := twice_gn (near_pair x0 x1) k1 _ k2 s hs
  refine ⟨s1, g1, g2.trans ?_⟩
  have e : (0 : Vec2) + NodeKind.ofFlat .landmark2d (fun k => if hk : k < 2 then -(![x1 0 / 4, x1 1 / 2] : Vec2) ⟨k, hk⟩ else 0) =
      ![-x1 0 / 4, -x1 1 / 2] := by
    funext i
    fin_cases i <;> simp [NodeKind.ofFlat] <;> ring
  exact congrArg (fun z => (⟨.landmark2d, z⟩ : NodeVal)) e

end Demo

/-- C93 fails for a landmark that is closer than 1e-3 to a pose it is seen from: the Jacobian used there is a constant, which
acts along the axes of the world frame (the distance condition of `C93_gn_partial` cannot be dropped). -/
theorem C93_near_fails : ∃ (g : Vec3) (ops : List GraphOp) (w₀ w₀' : World), w₀.g = emptyGraph ∧ w₀'.g = emptyGraph ∧
    Proper w₀ ops ∧ Restated (PlanarMoved g) (FactorMoved g) ops w₀ w₀' ∧
    (∀ f ∈ addedFactors ops, (w₀.fh f).virt.W.PosDef) ∧
    ∀ s s' : FGraphSolve, s.w = World.run ops w₀ → s'.w = World.run ops w₀' →
      ∃ s1 s1', s.solve Env.exact .GN 20 1e-6 1e-2 = .ok s1 ∧ s'.solve Env.exact .GN 20 1e-6 1e-2 = .ok s1' ∧
        ∃ n ∈ s.w.g.active, ¬ PlanarMoved g (s1.w.nh n).val (s1'.w.nh n).val := by
  have hpi := Real.pi_pos
  set g : Vec3 := ![0, 0, Real.pi / 2] with hg
  refine ⟨g, Demo.twiceOps, Demo.twiceWorld₀ (Demo.nearFrom 0 ![-1, 0, 0]) ⟨.landmark2d, 0⟩ Demo.nearObs,
    Demo.twiceWorld₀ (Demo.nearFrom g ![0, -1, Real.pi / 2]) ⟨.landmark2d, 0⟩ Demo.nearObs, rfl, rfl,
    Demo.twice_proper (Demo.near_pair _ _), ?_, ?_, ?_⟩
  · refine ⟨fun n _ => ?_, fun n _ => ?_, fun f _ => rfl, fun f _ => ?_⟩
    · by_cases h : n = 2 <;> simp [Demo.twiceWorld₀, Demo.twiceNodes, h, NodeCell.new]
    · by_cases h : n = 2
      · subst h
        change (0 : Vec2) = planarPoint g 0
        funext i
        fin_cases i <;> simp [planarPoint, hg]
      · have e1 : (Demo.twiceWorld₀ (Demo.nearFrom 0 ![-1, 0, 0]) ⟨.landmark2d, 0⟩ Demo.nearObs).nh n =
            NodeCell.new .pose2d (if n = 0 then 0 else ![-1, 0, 0]) .anchor := if_neg h
        have e2 : (Demo.twiceWorld₀ (Demo.nearFrom g ![0, -1, Real.pi / 2]) ⟨.landmark2d, 0⟩ Demo.nearObs).nh n =
            NodeCell.new .pose2d (if n = 0 then g else ![0, -1, Real.pi / 2]) .anchor := if_neg h
        rw [e1, e2]
        change planar (if n = 0 then g else ![0, -1, Real.pi / 2]) = planar g * planar (if n = 0 then 0 else ![-1, 0, 0])
        rw [planar_eq_mul_iff]
        by_cases h0 : n = 0
        · rw [if_pos h0, if_pos h0]
          exact ⟨by simp, by simp, by simpa using SameAngle.refl _⟩
        · rw [if_neg h0, if_neg h0]
          exact ⟨by simp [hg], by simp [hg], by simpa [hg] using SameAngle.refl _⟩
    · by_cases h : f = 0
      · subst h; exact .land2d _ _ _ _
      · have e : ∀ a x, (Demo.twiceWorld₀ a x Demo.nearObs).fh f =
            FactorCell.new (.land2d ![2, 0] 1 false .quadratic) [if f = 0 then 0 else 1, 2] 0 0 := by
          intro a x
          change FactorCell.new (Demo.nearObs f) _ 0 0 = _
          rw [Demo.nearObs, if_neg h]
        rw [e, e]
        exact .land2d _ _ _ _
  · intro f hf
    simp [addedFactors, Demo.twiceOps] at hf
    rcases hf with rfl | rfl
    · exact Demo.nearW_posDef
    · exact Matrix.PosDef.one
  · intro s s' hs1 hs1'
    obtain ⟨s1, k1, k2⟩ := Demo.near_gn (x0 := 0) (x1 := ![-1, 0, 0]) rfl rfl (by simp) (by
      simp only [catan2]
      have : (⟨-(![-1, 0, 0] : Vec3) 0, -(![-1, 0, 0] : Vec3) 1⟩ : ℂ) = 1 := by
        apply Complex.ext <;> simp
      rw [this, Complex.arg_one]; simp) s hs1
    obtain ⟨s1', k1', k2'⟩ := Demo.near_gn (x0 := g) (x1 := ![0, -1, Real.pi / 2]) (by simp [hg]) (by simp [hg]) (by simp) (by
      simp only [catan2]
      have : (⟨-(![0, -1, Real.pi / 2] : Vec3) 0, -(![0, -1, Real.pi / 2] : Vec3) 1⟩ : ℂ) = Complex.I := by
        apply Complex.ext <;> simp
      rw [this, Complex.arg_I]; simp) s' hs1'
    refine ⟨s1, s1', k1, k1', 2, ?_, ?_⟩
    · rw [hs1]
      change (2 : NRef) ∈ (Demo.twiceWorld _ _ _).g.active
      rw [Demo.twice_active]; simp
    · rw [k2, k2']
      change ¬ (_ : Vec2) = planarPoint g _
      intro h
      have h1 := congrFun h 1
      simp [hg, planarPoint] at h1

end Mrob
