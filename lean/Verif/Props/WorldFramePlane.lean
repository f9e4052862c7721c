import Verif.Props.WorldFrameSpatial
import Verif.Lemmas.BodyFrame

/-!
# C93: the choice of the world frame, estimated planes
-/

open Matrix

namespace Mrob

open World Spec

namespace Demo

/-- The first axis is the normal. -/
noncomputable def obsFirst : Vec4 := Sum.elim ![1, 0, 0] fun _ => 2

/-- The second axis is the normal. -/
noncomputable def obsSecond : Vec4 := Sum.elim ![0, 1, 0] fun _ => 2

/-- Two observations of a plane. -/
noncomputable def planePair : FRef → FactorVirt := fun f =>
  if f = 0 then .plane4d obsFirst 1 false .quadratic else .plane4d obsSecond 1 false .quadratic

/-- The vehicle displaced along the first axis. -/
noncomputable def along (a : ℝ) : SE3 := ⟨homog 1 ![a, 0, 0] 1⟩

/-- The plane through the position of the vehicle. -/
noncomputable def planeAt (a : ℝ) : Vec4 := Sum.elim ![1, 0, 0] fun _ => -a

theorem planeAt_unit (a : ℝ) : len (fun i => planeAt a (Sum.inl i)) = 1 := by
  simp [len, planeAt, dotProduct, Fin.sum_univ_three]

theorem obs_unit : len (fun i => obsFirst (Sum.inl i)) = 1 ∧ len (fun i => obsSecond (Sum.inl i)) = 1 := by
  constructor <;> simp [len, obsFirst, obsSecond, dotProduct, Fin.sum_univ_three]

theorem plane_pair (a : ℝ) : Measured (fun _ => ⟨.pose3d, along a⟩) ⟨.plane4d, planeAt a⟩ planePair :=
  ⟨planeObs_unit (planeAt_unit a), rfl, rfl, rfl, rfl, Matrix.PosSemidef.one, Matrix.PosSemidef.one, rfl, rfl⟩

theorem along_plane (a : ℝ) (p : Vec4) : planeLocal (along a) p =
    Sum.elim (fun i => p (Sum.inl i)) fun _ => a * p (Sum.inl 0) + p (Sum.inr ()) := by
  funext i
  rcases i with i | i
  · fin_cases i <;> simp [planeLocal, along, homog, mulVec, dotProduct, Fin.sum_univ_three]
  · simp [planeLocal, along, homog, mulVec, dotProduct, Fin.sum_univ_three]

theorem plane_res (a : ℝ) :
    (fun i : Fin 4 => planeRes (planeObs obsFirst) (along a) (planeAt a) (at4 i)) = ![0, 0, 0, -2] ∧
    (fun i : Fin 4 => planeRes (planeObs obsSecond) (along a) (planeAt a) (at4 i)) = ![1, -1, 0, -2] := by
  rw [planeObs_unit obs_unit.1, planeObs_unit obs_unit.2]
  constructor
  · rw [planeRes, along_plane, if_neg (by simp [planeAt])]
    funext i
    fin_cases i <;> simp [at4, planeAt, obsFirst]
  · rw [planeRes, along_plane, if_neg (by simp [planeAt])]
    funext i
    fin_cases i <;> simp [at4, planeAt, obsSecond]

/-- The block of the plane. -/
noncomputable def planeBlock (a : ℝ) : Matrix (Fin 4) (Fin 4) ℝ := !![1, 0, 0, 0; 0, 1, 0, 0; 0, 0, 1, 0; a, 0, 0, 1]

theorem plane_twiceJac (obs : Vec4) (a : ℝ) :
    twiceJac ⟨.pose3d, along a⟩ ⟨.plane4d, planeAt a⟩ (.plane4d obs 1 false .quadratic) = planeBlock a := by
  have e : (planeJac (along a) (planeAt a)).2.submatrix at4 at4 = planeBlock a := by
    ext i j
    fin_cases i <;> fin_cases j <;> simp [planeJac, along, homog, at4, planeBlock]
  rw [← e]
  ext l k
  have key : ∀ (l k : Fin 4), blk2 ((planeJac (along a) (planeAt a)).1.submatrix at4 at6)
      ((planeJac (along a) (planeAt a)).2.submatrix at4 at4) l (6 + k) = (planeJac (along a) (planeAt a)).2.submatrix at4 at4 l k := by
    intro l k
    unfold blk2 blk
    rw [if_neg (by omega), Nat.add_sub_cancel_left, dif_pos k.2]
  exact key l k

/-- The estimate. -/
theorem plane_gn (a : ℝ) (s : FGraphSolve) (hs : s.w = twiceWorld (fun _ => ⟨.pose3d, along a⟩) ⟨.plane4d, planeAt a⟩ planePair) :
    ∃ s1, s.solve Env.exact .GN 20 1e-6 1e-2 = .ok s1 ∧
      (s1.w.nh 2).val = ⟨.plane4d, normalizeHead (Sum.elim ![1 / 2, 1 / 2, 0] fun _ => 2 - a / 2)⟩ := by
  have hinv : IsUnit (planeBlock a) := by
    rw [isUnit_iff_isUnit_det]
    have : (planeBlock a).det = 1 := by
      simp [planeBlock, det_succ_row_zero, Fin.sum_univ_succ]
    rw [this]; exact isUnit_one
  have key : ∀ (M M' : Matrix (Fin 4) (Fin 4) ℝ) (r r' : Fin 4 → ℝ), M = planeBlock a → M' = planeBlock a →
      r = ![0, 0, 0, -2] → r' = ![1, -1, 0, -2] →
      (Mᵀ * 1 * M + M'ᵀ * 1 * M').PosDef ∧ (Mᵀ * 1 * M + M'ᵀ * 1 * M') *ᵥ ![1 / 2, -1 / 2, 0, -2 - a / 2] =
        Mᵀ *ᵥ ((1 : Matrix (Fin 4) (Fin 4) ℝ) *ᵥ r) + M'ᵀ *ᵥ ((1 : Matrix (Fin 4) (Fin 4) ℝ) *ᵥ r') := by
    rintro _ _ _ _ rfl rfl rfl rfl
    have hp : ((planeBlock a)ᵀ * planeBlock a).PosDef := by
      have := Matrix.PosDef.conjTranspose_mul_self (planeBlock a) (mulVec_injective_iff_isUnit.mpr hinv)
      rwa [conjTranspose_eq_transpose_of_trivial] at this
    rw [Matrix.mul_one]
    refine ⟨hp.add hp, ?_⟩
    rw [one_mulVec, one_mulVec, add_mulVec, ← mulVec_mulVec, ← mulVec_add, ← mulVec_add]
    congr 1
    funext i
    fin_cases i <;> simp [planeBlock, mulVec, dotProduct, Fin.sum_univ_four] <;> ring
  obtain ⟨k1, k2⟩ := key _ _ _ _ (plane_twiceJac obsFirst a) (plane_twiceJac obsSecond a) (plane_res a).1 (plane_res a).2
  obtain ⟨-, s1, g1, g2⟩ := twice_gn (plane_pair a) k1 _ k2 s hs
  refine ⟨s1, g1, g2.trans ?_⟩
  have e : planeAt a + NodeKind.ofFlat .plane4d
      (fun k => if hk : k < 4 then -(![1 / 2, -1 / 2, 0, -2 - a / 2] : Fin 4 → ℝ) ⟨k, hk⟩ else 0) =
      Sum.elim ![1 / 2, 1 / 2, 0] fun _ => 2 - a / 2 := by
    funext i
    rcases i with i | i
    · fin_cases i <;> simp [NodeKind.ofFlat, planeAt] <;> ring
    · simp [NodeKind.ofFlat, planeAt]; ring
  exact congrArg (fun z => (⟨.plane4d, normalizeHead z⟩ : NodeVal)) e

theorem along_rigid (a : ℝ) : IsRigid (along a).T := isRigid_homog isRotation_one _

end Demo

/-- C93 fails for estimated planes when the frame is displaced: `NodePlane4d::update` divides the normal by its length but not
the last coordinate, which is the distance only for unit normals.  Two observations with orthogonal normals give a normal of
length `1/√2` before the normalisation; displacing the frame by one metre changes the estimate to a different plane. -/
theorem C93_plane_fails : ∃ (G : Mat4) (ops : List GraphOp) (w₀ w₀' : World), IsRigid G ∧ w₀.g = emptyGraph ∧
    w₀'.g = emptyGraph ∧ Proper w₀ ops ∧ Restated (SpatialMoved G) (SpatialFactorMoved G) ops w₀ w₀' ∧
    (∀ f ∈ addedFactors ops, (w₀.fh f).virt.W.PosDef) ∧
    ∀ s s' : FGraphSolve, s.w = World.run ops w₀ → s'.w = World.run ops w₀' →
      ∃ s1 s1', s.solve Env.exact .GN 20 1e-6 1e-2 = .ok s1 ∧ s'.solve Env.exact .GN 20 1e-6 1e-2 = .ok s1' ∧
        ∃ n ∈ s.w.g.active, ¬ SpatialMoved G (s1.w.nh n).val (s1'.w.nh n).val := by
  refine ⟨(Demo.along 1).T, Demo.twiceOps,
    Demo.twiceWorld₀ (fun _ => ⟨.pose3d, Demo.along 0⟩) ⟨.plane4d, Demo.planeAt 0⟩ Demo.planePair,
    Demo.twiceWorld₀ (fun _ => ⟨.pose3d, Demo.along 1⟩) ⟨.plane4d, Demo.planeAt 1⟩ Demo.planePair,
    Demo.along_rigid 1, rfl, rfl, Demo.twice_proper (Demo.plane_pair 0), ?_, ?_, ?_⟩
  · refine ⟨fun n _ => ?_, fun n _ => ?_, fun f _ => rfl, fun f _ => ?_⟩
    · by_cases h : n = 2 <;> simp [Demo.twiceWorld₀, Demo.twiceNodes, h, NodeCell.new]
    · by_cases h : n = 2
      · subst h
        change (Demo.along 1).Tᵀ *ᵥ normalizeHead (Demo.planeAt 1) = normalizeHead (Demo.planeAt 0)
        have h1 : normalizeHead (Demo.planeAt 1) = Demo.planeAt 1 := planeObs_unit (Demo.planeAt_unit 1)
        have h0 : normalizeHead (Demo.planeAt 0) = Demo.planeAt 0 := planeObs_unit (Demo.planeAt_unit 0)
        rw [h1, h0]
        refine (Demo.along_plane 1 (Demo.planeAt 1)).trans ?_
        funext i
        rcases i with i | i
        · rfl
        · simp [Demo.planeAt]
      · have e1 : ∀ b, (Demo.twiceWorld₀ (fun _ => ⟨.pose3d, Demo.along b⟩) ⟨.plane4d, Demo.planeAt b⟩ Demo.planePair).nh n =
            NodeCell.new .pose3d (Demo.along b) .anchor := fun b => if_neg h
        rw [e1, e1]
        change (Demo.along 1).T = (Demo.along 1).T * (Demo.along 0).T
        have e0 : (Demo.along 0).T = 1 := by
          have e : (![0, 0, 0] : Vec3) = 0 := by funext i; fin_cases i <;> rfl
          change homog 1 ![0, 0, 0] 1 = 1
          rw [e]; exact homog_one
        rw [e0, Matrix.mul_one]
    · change SpatialFactorMoved _ (Demo.planePair f) (Demo.planePair f)
      rw [Demo.planePair]
      split
      · exact .plane4d _ _ _ _
      · exact .plane4d _ _ _ _
  · intro f hf
    simp [addedFactors, Demo.twiceOps] at hf
    rcases hf with rfl | rfl
    · exact Matrix.PosDef.one
    · exact Matrix.PosDef.one
  · intro s s' hs1 hs1'
    obtain ⟨s1, k1, k2⟩ := Demo.plane_gn 0 s hs1
    obtain ⟨s1', k1', k2'⟩ := Demo.plane_gn 1 s' hs1'
    refine ⟨s1, s1', k1, k1', 2, ?_, ?_⟩
    · rw [hs1]
      change (2 : NRef) ∈ (Demo.twiceWorld _ _ _).g.active
      rw [Demo.twice_active]; simp
    · rw [k2, k2']
      intro h
      have h' : planeLocal (Demo.along 1) (normalizeHead (Sum.elim ![1 / 2, 1 / 2, 0] fun _ => 2 - 1 / 2)) =
        normalizeHead (Sum.elim ![1 / 2, 1 / 2, 0] fun _ => 2 - 0 / 2) := h
      have hn : ∀ d : ℝ, normalizeHead (Sum.elim ![1 / 2, 1 / 2, 0] fun _ => d) =
          Sum.elim (fun i => (![1 / 2, 1 / 2, 0] : Vec3) i / Real.sqrt (1 / 2)) fun _ => d := by
        intro d
        have e : sqNorm (![1 / 2, 1 / 2, 0] : Vec3) = 1 / 2 := by
          simp [sqNorm, Fin.sum_univ_three]; norm_num
        rw [normalizeHead]
        dsimp only
        have e' : sqNorm (fun i => (Sum.elim ![1 / 2, 1 / 2, 0] (fun _ => d) : Vec4) (Sum.inl i)) = 1 / 2 := e
        rw [e', if_pos (by norm_num)]
        rfl
      rw [Demo.along_plane, hn, hn] at h'
      have h3 := congrFun h' (Sum.inr ())
      simp only [Sum.elim_inr, Sum.elim_inl] at h3
      have hs : Real.sqrt (1 / 2) = 1 := by
        have hpos : 0 < Real.sqrt (1 / 2) := Real.sqrt_pos.mpr (by norm_num)
        have : (1 / 2 : ℝ) / Real.sqrt (1 / 2) = 1 / 2 := by
          simp only [cons_val_zero] at h3
          linarith
        field_simp at this
        linarith
      have := Real.sq_sqrt (show (0 : ℝ) ≤ 1 / 2 by norm_num)
      rw [hs] at this
      norm_num at this

end Mrob
