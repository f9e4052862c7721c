import Verif.Props.WorldFrame
import Verif.Lemmas.PlaneGrad
import Verif.Lemmas.SE3Ln
import Verif.Lemmas.ExpCurve

/-!
# C93: the choice of the world frame, spatial poses
-/

open Matrix

namespace Mrob

open World Spec

namespace Demo

/-- The coordinates of a twist. -/
noncomputable def e6 : Fin 6 ≃ I6 := Equiv.ofBijective at6 (by decide)

theorem e6_apply : ⇑e6 = at6 := rfl

/-- Information: the first coordinate of the translation is known better. -/
noncomputable def stiffW6 : Mat6 := Matrix.diagonal (Sum.elim 1 ![4, 1, 1])

/-- One metre ahead, and one metre back. -/
noncomputable def shifted : FRef → FactorVirt := fun f =>
  if f = 0 then .rel3d ⟨homog 1 ![1, 0, 0] 1⟩ (stiffW6.submatrix at6 at6) .quadratic
  else .rel3d ⟨homog 1 (-![1, 0, 0]) 1⟩ 1 .quadratic

theorem stiffW6_posDef : stiffW6.PosDef := by
  refine Matrix.PosDef.diagonal fun i => ?_
  rcases i with i | i <;> fin_cases i <;> simp

theorem stiffW6_sub : (stiffW6.submatrix at6 at6).PosDef := stiffW6_posDef.submatrix e6.injective

theorem shifted_pair (X : SE3) : Measured (fun _ => ⟨.pose3d, X⟩) ⟨.pose3d, X⟩ shifted :=
  ⟨rfl, rfl, rfl, rfl, rfl, stiffW6_sub.posSemidef, Matrix.PosSemidef.one, rfl, rfl⟩

theorem shifted_tr {R : Mat3} (hR : IsRotation R) (u : Vec3) :
    rel3dTr ⟨homog 1 u 1⟩ ⟨homog R 0 1⟩ ⟨homog R 0 1⟩ = ⟨homog 1 (R *ᵥ u) 1⟩ := by
  simp only [rel3dTr, SE3.mul, SE3.inv, SE3.R, SE3.t, tl3_homog, tr3_homog, homog_mul, mulVec_zero, mul_one, hR.1, one_smul,
    smul_zero, zero_add, add_zero]

theorem shifted_twiceJac {R : Mat3} (hR : IsRotation R) (u : Vec3) (W : Matrix (Fin 6) (Fin 6) ℝ) :
    twiceJac ⟨.pose3d, ⟨homog R 0 1⟩⟩ ⟨.pose3d, ⟨homog R 0 1⟩⟩ (.rel3d ⟨homog 1 u 1⟩ W .quadratic) =
      (-(SE3.mk (homog 1 (R *ᵥ u) 1)).adj).submatrix at6 at6 := by
  have e : (rel3dJac ⟨homog 1 u 1⟩ ⟨homog R 0 1⟩ ⟨homog R 0 1⟩).2 = -(SE3.mk (homog 1 (R *ᵥ u) 1)).adj := by
    rw [rel3dJac, shifted_tr hR]
  have key : ∀ (i k : Fin 6), blk2 ((rel3dJac ⟨homog 1 u 1⟩ ⟨homog R 0 1⟩ ⟨homog R 0 1⟩).1.submatrix at6 at6)
      ((rel3dJac ⟨homog 1 u 1⟩ ⟨homog R 0 1⟩ ⟨homog R 0 1⟩).2.submatrix at6 at6) i (6 + k) =
        (-(SE3.mk (homog 1 (R *ᵥ u) 1)).adj).submatrix at6 at6 i k := by
    intro i k
    unfold blk2 blk
    rw [if_neg (by omega), Nat.add_sub_cancel_left, dif_pos k.2, e]
  exact Matrix.ext key

theorem shifted_res {R : Mat3} (hR : IsRotation R) (u : Vec3) :
    rel3dRes ⟨homog 1 u 1⟩ ⟨homog R 0 1⟩ ⟨homog R 0 1⟩ = vec6 0 (R *ᵥ u) := by
  rw [rel3dRes, shifted_tr hR, lnVee_translation]

theorem adj_translation (v : Vec3) : (SE3.mk (homog 1 v 1)).adj = fromBlocks 1 0 (hat3 v) 1 := by
  rw [SE3.adj, SE3.R, SE3.t, tl3_homog, tr3_homog, Matrix.mul_one]

theorem adj_translation_inj (v : Vec3) : Function.Injective (((SE3.mk (homog 1 v 1)).adj).mulVec) := by
  refine Matrix.mulVec_injective_of_isUnit ?_
  rw [Matrix.isUnit_iff_isUnit_det, adj_translation, Matrix.det_fromBlocks_zero₁₂]
  simp

theorem adjT_mulVec (v z : Vec3) : ((SE3.mk (homog 1 v 1)).adj)ᵀ *ᵥ vec6 0 z = vec6 ((hat3 v)ᵀ *ᵥ z) z := by
  rw [adj_translation, fromBlocks_transpose, vec6, fromBlocks_mulVec]
  simp [vec6]

theorem adj_mulVec_translation (v z : Vec3) : (SE3.mk (homog 1 v 1)).adj *ᵥ vec6 0 z = vec6 0 z := by
  rw [adj_translation, vec6, fromBlocks_mulVec]
  simp

theorem stiffW6_mulVec (z : Vec3) : stiffW6 *ᵥ vec6 0 z = vec6 0 ![4 * z 0, z 1, z 2] := by
  funext i
  rw [stiffW6, mulVec_diagonal]
  rcases i with i | i <;> fin_cases i <;> simp [vec6]

/-- The normal equations, from the direction of the measured translation. -/
theorem shifted_normal {R : Mat3} (hR : IsRotation R) (v τ : Vec3) (hv : R *ᵥ ![1, 0, 0] = v)
    (h1 : ![4 * (τ 0 + v 0), τ 1 + v 1, τ 2 + v 2] + (τ - v) = 0)
    (h2 : (hat3 v)ᵀ *ᵥ ![4 * (τ 0 + v 0), τ 1 + v 1, τ 2 + v 2] + (hat3 (-v))ᵀ *ᵥ (τ - v) = 0) :
    let P : NodeVal := ⟨.pose3d, ⟨homog R 0 1⟩⟩
    ((twiceJac P P (shifted 0))ᵀ * (shifted 0).W * twiceJac P P (shifted 0) +
      (twiceJac P P (shifted 1))ᵀ * (shifted 1).W * twiceJac P P (shifted 1)).PosDef ∧
    ((twiceJac P P (shifted 0))ᵀ * (shifted 0).W * twiceJac P P (shifted 0) +
        (twiceJac P P (shifted 1))ᵀ * (shifted 1).W * twiceJac P P (shifted 1)) *ᵥ (fun i : Fin 6 => vec6 0 τ (at6 i)) =
      (twiceJac P P (shifted 0))ᵀ *ᵥ ((shifted 0).W *ᵥ (shifted 0).res [P, P]) +
        (twiceJac P P (shifted 1))ᵀ *ᵥ ((shifted 1).W *ᵥ (shifted 1).res [P, P]) := by
  have hv' : R *ᵥ -![1, 0, 0] = -v := by rw [mulVec_neg, hv]
  set M := (SE3.mk (homog 1 v 1)).adj with hM
  set N := (SE3.mk (homog 1 (-v) 1)).adj with hN
  have key6 : (Mᵀ * stiffW6 * M + Nᵀ * N) *ᵥ vec6 0 τ =
      -(Mᵀ *ᵥ (stiffW6 *ᵥ vec6 0 v) + Nᵀ *ᵥ vec6 0 (-v)) := by
    rw [eq_neg_iff_add_eq_zero, add_mulVec, ← mulVec_mulVec, ← mulVec_mulVec, ← mulVec_mulVec, hM, hN, adj_mulVec_translation,
      adj_mulVec_translation, add_add_add_comm, ← mulVec_add, ← mulVec_add, ← mulVec_add]
    have a1 : vec6 0 τ + vec6 0 v = vec6 0 (τ + v) := by
      funext i; rcases i with i | i <;> simp [vec6]
    have a2 : vec6 0 τ + vec6 0 (-v) = vec6 0 (τ - v) := by
      funext i; rcases i with i | i <;> simp [vec6, sub_eq_add_neg]
    rw [a1, a2, stiffW6_mulVec, adjT_mulVec, adjT_mulVec]
    funext i
    rcases i with i | i
    · exact congrFun h2 i
    · exact congrFun h1 i
  have hpd6 : (Mᵀ * stiffW6 * M + Nᵀ * N).PosDef := by
    have p1 : (Mᵀ * stiffW6 * M).PosDef := by
      have := stiffW6_posDef.conjTranspose_mul_mul_same (B := M) (adj_translation_inj v)
      rwa [conjTranspose_eq_transpose_of_trivial] at this
    have p2 : (Nᵀ * N).PosSemidef := by
      have := Matrix.posSemidef_conjTranspose_mul_self N
      rwa [conjTranspose_eq_transpose_of_trivial] at this
    exact p1.add_posSemidef p2
  have sub1 : ∀ (A : Mat6) (z : Vec6), (A.submatrix at6 at6) *ᵥ (fun i => z (at6 i)) = fun i => (A *ᵥ z) (at6 i) := by
    intro A z
    have := submatrix_mulVec_equiv A (z ∘ at6) at6 e6
    rw [e6_apply] at this
    rw [show (fun i => z (at6 i)) = z ∘ at6 from rfl, this]
    have e : (z ∘ at6) ∘ ⇑e6.symm = z := by
      funext i; exact congrArg z (e6.apply_symm_apply i)
    rw [e]; rfl
  have sub2 : ∀ A B : Mat6, A.submatrix at6 at6 * B.submatrix at6 at6 = (A * B).submatrix at6 at6 := by
    intro A B
    have := submatrix_mul_equiv A B at6 e6 at6
    rwa [e6_apply] at this
  have key : ∀ (J J' : Matrix (Fin 6) (Fin 6) ℝ), J = (-M).submatrix at6 at6 → J' = (-N).submatrix at6 at6 →
      ∀ r r' : Fin 6 → ℝ, (r = fun i => vec6 0 v (at6 i)) → (r' = fun i => vec6 0 (-v) (at6 i)) →
      (Jᵀ * stiffW6.submatrix at6 at6 * J + J'ᵀ * 1 * J').PosDef ∧
      (Jᵀ * stiffW6.submatrix at6 at6 * J + J'ᵀ * 1 * J') *ᵥ (fun i => vec6 0 τ (at6 i)) =
        Jᵀ *ᵥ (stiffW6.submatrix at6 at6 *ᵥ r) + J'ᵀ *ᵥ ((1 : Matrix (Fin 6) (Fin 6) ℝ) *ᵥ r') := by
    rintro _ _ rfl rfl _ _ rfl rfl
    have e : ((-M).submatrix at6 at6)ᵀ * stiffW6.submatrix at6 at6 * (-M).submatrix at6 at6 +
        ((-N).submatrix at6 at6)ᵀ * 1 * (-N).submatrix at6 at6 = (Mᵀ * stiffW6 * M + Nᵀ * N).submatrix at6 at6 := by
      rw [transpose_submatrix, transpose_submatrix, Matrix.mul_one, sub2, sub2, sub2, transpose_neg, transpose_neg, Matrix.neg_mul,
        neg_mul_neg, neg_mul_neg]
      rfl
    rw [e, transpose_submatrix, transpose_submatrix, one_mulVec, sub1, sub1, sub1, sub1, key6]
    refine ⟨hpd6.submatrix e6.injective, ?_⟩
    funext i
    rw [transpose_neg, transpose_neg, neg_mulVec, neg_mulVec, Pi.neg_apply, Pi.add_apply, Pi.add_apply, Pi.neg_apply, Pi.neg_apply]
    ring
  have hr : (fun i => rel3dRes ⟨homog 1 ![1, 0, 0] 1⟩ ⟨homog R 0 1⟩ ⟨homog R 0 1⟩ (at6 i)) = fun i => vec6 0 v (at6 i) := by
    rw [shifted_res hR, hv]
  have hr' : (fun i => rel3dRes ⟨homog 1 (-![1, 0, 0]) 1⟩ ⟨homog R 0 1⟩ ⟨homog R 0 1⟩ (at6 i)) =
      fun i => vec6 0 (-v) (at6 i) := by
    rw [shifted_res hR, hv']
  exact key _ _ ((shifted_twiceJac hR ![1, 0, 0] (stiffW6.submatrix at6 at6)).trans (by rw [hv]))
    ((shifted_twiceJac hR (-![1, 0, 0]) 1).trans (by rw [hv'])) _ _ hr hr'

/-- The estimate, from the direction of the measured translation. -/
theorem shifted_gn {R : Mat3} (hR : IsRotation R) (v τ : Vec3) (hv : R *ᵥ ![1, 0, 0] = v)
    (h1 : ![4 * (τ 0 + v 0), τ 1 + v 1, τ 2 + v 2] + (τ - v) = 0)
    (h2 : (hat3 v)ᵀ *ᵥ ![4 * (τ 0 + v 0), τ 1 + v 1, τ 2 + v 2] + (hat3 (-v))ᵀ *ᵥ (τ - v) = 0)
    (s : FGraphSolve) (hs : s.w = twiceWorld (fun _ => ⟨.pose3d, ⟨homog R 0 1⟩⟩) ⟨.pose3d, ⟨homog R 0 1⟩⟩ shifted) :
    ∃ s1, s.solve Env.exact .GN 20 1e-6 1e-2 = .ok s1 ∧
      (s1.w.nh 2).val = ⟨.pose3d, ((SE3.mk (homog R 0 1)).updateLhs (vec6 0 (-τ))).regenerate⟩ := by
  obtain ⟨k1, k2⟩ := shifted_normal hR v τ hv h1 h2
  obtain ⟨-, s1, g1, g2⟩ := twice_gn (shifted_pair ⟨homog R 0 1⟩) k1 _ k2 s hs
  refine ⟨s1, g1, g2.trans ?_⟩
  have e : NodeKind.ofFlat .pose3d (fun k => if hk : k < 6 then -(vec6 0 τ (at6 ⟨k, hk⟩)) else 0) = vec6 0 (-τ) := by
    funext i
    rcases i with i | i <;> fin_cases i <;> simp [NodeKind.ofFlat, at6, vec6]
  exact congrArg (fun z => (⟨.pose3d, ((SE3.mk (homog R 0 1)).updateLhs z).regenerate⟩ : NodeVal)) e

/-- A right angle about the third axis. -/
def quarter : Mat3 := !![0, -1, 0; 1, 0, 0; 0, 0, 1]

theorem quarter_isRotation : IsRotation quarter := by
  constructor
  · ext i j
    fin_cases i <;> fin_cases j <;> simp [quarter, Matrix.mul_apply, Fin.sum_univ_three]
  · simp [quarter, det_fin_three]

end Demo

/-- C93 fails for relative spatial poses with a fixed information matrix, for the same reason as `C93_odom_fails`: the error
`ln (X_o Z X_t⁻¹)` is expressed in the world frame. -/
theorem C93_rel3d_fails : ∃ (G : Mat4) (ops : List GraphOp) (w₀ w₀' : World), IsRigid G ∧ w₀.g = emptyGraph ∧
    w₀'.g = emptyGraph ∧ Proper w₀ ops ∧ Restated (SpatialMoved G) (fun v v' => v' = v) ops w₀ w₀' ∧
    (∀ f ∈ addedFactors ops, (w₀.fh f).virt.W.PosDef) ∧
    ∀ s s' : FGraphSolve, s.w = World.run ops w₀ → s'.w = World.run ops w₀' →
      ∃ s1 s1', s.solve Env.exact .GN 20 1e-6 1e-2 = .ok s1 ∧ s'.solve Env.exact .GN 20 1e-6 1e-2 = .ok s1' ∧
        ∃ n ∈ s.w.g.active, ¬ SpatialMoved G (s1.w.nh n).val (s1'.w.nh n).val := by
  have hQ := Demo.quarter_isRotation
  refine ⟨homog Demo.quarter 0 1, Demo.twiceOps,
    Demo.twiceWorld₀ (fun _ => ⟨.pose3d, ⟨homog 1 0 1⟩⟩) ⟨.pose3d, ⟨homog 1 0 1⟩⟩ Demo.shifted,
    Demo.twiceWorld₀ (fun _ => ⟨.pose3d, ⟨homog Demo.quarter 0 1⟩⟩) ⟨.pose3d, ⟨homog Demo.quarter 0 1⟩⟩ Demo.shifted,
    isRigid_homog hQ 0, rfl, rfl, Demo.twice_proper (Demo.shifted_pair _), ?_, ?_, ?_⟩
  · have e : homog Demo.quarter 0 1 = homog Demo.quarter 0 1 * homog 1 0 1 := by
      rw [homog_one, Matrix.mul_one]
    refine ⟨fun n _ => ?_, fun n _ => ?_, fun f _ => rfl, fun f _ => rfl⟩
    · by_cases h : n = 2 <;> simp [Demo.twiceWorld₀, Demo.twiceNodes, h, NodeCell.new]
    · by_cases h : n = 2
      · subst h; exact e
      · have e1 : (Demo.twiceWorld₀ (fun _ => ⟨.pose3d, ⟨homog 1 0 1⟩⟩) ⟨.pose3d, ⟨homog 1 0 1⟩⟩ Demo.shifted).nh n =
            NodeCell.new .pose3d ⟨homog 1 0 1⟩ .anchor := if_neg h
        have e2 : (Demo.twiceWorld₀ (fun _ => ⟨.pose3d, ⟨homog Demo.quarter 0 1⟩⟩) ⟨.pose3d, ⟨homog Demo.quarter 0 1⟩⟩
            Demo.shifted).nh n = NodeCell.new .pose3d ⟨homog Demo.quarter 0 1⟩ .anchor := if_neg h
        rw [e1, e2]; exact e
  · intro f hf
    simp [addedFactors, Demo.twiceOps] at hf
    rcases hf with rfl | rfl
    · exact Demo.stiffW6_sub
    · exact Matrix.PosDef.one
  · intro s s' hs1 hs1'
    obtain ⟨s1, k1, k2⟩ := Demo.shifted_gn isRotation_one ![1, 0, 0] ![-3 / 5, 0, 0] (one_mulVec _)
      (by funext i; fin_cases i <;> simp <;> norm_num)
      (by funext i; fin_cases i <;> simp [hat3, mulVec, dotProduct, Fin.sum_univ_three]) s hs1
    obtain ⟨s1', k1', k2'⟩ := Demo.shifted_gn hQ ![0, 1, 0] 0
      (by funext i; fin_cases i <;> simp [Demo.quarter, mulVec, dotProduct, Fin.sum_univ_three])
      (by funext i; fin_cases i <;> simp)
      (by funext i; fin_cases i <;> simp [hat3, mulVec, dotProduct, Fin.sum_univ_three]) s' hs1'
    refine ⟨s1, s1', k1, k1', 2, ?_, ?_⟩
    · rw [hs1]
      change (2 : NRef) ∈ (Demo.twiceWorld _ _ _).g.active
      rw [Demo.twice_active]; simp
    · rw [k2, k2']
      change ¬ ((SE3.mk (homog Demo.quarter 0 1)).updateLhs (vec6 0 (-0))).regenerate.T = homog Demo.quarter 0 1 *
        ((SE3.mk (homog 1 0 1)).updateLhs (vec6 0 (-![-3 / 5, 0, 0]))).regenerate.T
      have t1 : ∀ v : Vec3, (SE3.ofVec (vec6 0 v)).T = homog 1 v 1 := by
        intro v
        have := ofVec_translation 1 v
        rw [one_smul, one_smul, hat6_eq, head3_vec6, tail3_vec6, hat3_at_zero, ← homog_one, homog_add] at this
        simpa using this
      have t2 : ∀ v : Vec3, (SE3.mk (homog 1 v 1)).regenerate.T = homog 1 v 1 := by
        intro v
        rw [C13_regenerate (a := ⟨homog 1 v 1⟩) (isRigid_homog isRotation_one v), lnVee_translation, t1]
      intro h
      rw [SE3.updateLhs, SE3.updateLhs, t1, t1, neg_zero, homog_one, Matrix.one_mul, Matrix.mul_one, t2] at h
      have h3 := congrFun (congrArg tr3 h) 1
      rw [SE3.regenerate, SE3.ln, se3Ln_homog, se3ExpHat_homog, homog_mul, tr3_homog, tr3_homog] at h3
      simp [Demo.quarter, mulVec, dotProduct, Fin.sum_univ_three] at h3

end Mrob
