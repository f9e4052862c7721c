import Verif.Lemmas.Landmarks

/-!
# Two landmarks observed from a known pose
-/

open Matrix

namespace Mrob.Demo

open World

/-- Node 0 is the anchored identity pose, the others are landmarks at the origin. -/
noncomputable def laNodes : NRef → NodeCell := fun n =>
  if n = 0 then NodeCell.new .pose3d SE3.default .anchor else NodeCell.new .landmark3d 0 .standard

/-- Factor `f` observes node `f + 1` at `(1, 0, 0)`. -/
noncomputable def laFactors : FRef → FactorCell := fun f =>
  FactorCell.new (.land3d ![1, 0, 0] 1 false .quadratic) [0, f + 1] 0 0

/-- Objects before any call. -/
noncomputable def laWorld₀ : World := ⟨laNodes, laFactors, emptyGraph⟩
/-- The calls. -/
def laOps : List GraphOp := [.addNode 0, .addNode 1, .addNode 2, .addFactor 0, .addFactor 1]
/-- The graph. -/
noncomputable def laWorld : World := World.run laOps laWorld₀
/-- The object. -/
noncomputable def laSolver : FGraphSolve := ⟨laWorld, 1e-6, 1e-2, ⟨0, 0, 0, 0⟩, ⟨0, 0, 0, 0, 0⟩⟩

theorem la_proper : Proper laWorld₀ laOps := by
  constructor
  · intro op hop n m; simp [laOps] at hop; rcases hop with rfl | rfl | rfl | rfl | rfl <;> simp
  · simp [addedNodes, laOps]
  · intro n hn; simp [addedNodes, laOps] at hn; rcases hn with rfl | rfl | rfl <;> simp [laWorld₀, laNodes, NodeCell.new]
  · intro f hf n hn
    simp [addedFactors, laOps] at hf
    rcases hf with rfl | rfl
    · simp [laWorld₀, laFactors, FactorCell.new] at hn; left; rcases hn with rfl | rfl <;> simp [addedNodes, laOps]
    · simp [laWorld₀, laFactors, FactorCell.new] at hn; left; rcases hn with rfl | rfl <;> simp [addedNodes, laOps]
  · intro f hf
    simp [addedFactors, laOps] at hf
    rcases hf with rfl | rfl <;> simp [laWorld₀, laFactors, laNodes, FactorCell.new, NodeCell.new]
  · intro f hf
    simp [addedFactors, laOps] at hf
    rcases hf with rfl | rfl <;>
      simp [laWorld₀, laFactors, laNodes, FactorCell.new, NodeCell.new, FactorCell.wellTyped, FactorVirt.land3d]

theorem la_factors : laWorld.g.factors = [0, 1] := rfl
theorem la_active : laWorld.g.active = [1, 2] := rfl

theorem la_wellPosed : WellPosed laWorld := by
  refine ⟨C44_wired_partial _ rfl _ la_proper, fun f hf => ?_, fun f hf => ?_⟩
  · rw [la_factors] at hf
    simp at hf
    rcases hf with rfl | rfl <;> exact Matrix.PosSemidef.one
  · rw [la_factors] at hf
    simp at hf
    rcases hf with rfl | rfl <;> exact le_refl (0 : ℝ)

theorem la_landmarks : LandmarkGraph laWorld := by
  refine ⟨fun f hf => ⟨![1, 0, 0], 1, false, ?_⟩, fun n hn => ?_⟩
  · rw [la_factors] at hf
    simp at hf
    rcases hf with rfl | rfl <;> rfl
  · rw [la_active] at hn
    simp at hn
    rcases hn with rfl | rfl <;> rfl

theorem la_R : (land3dJac SE3.default 0).2 = 1 := by
  change tl3 SE3.default.inv.T = 1
  have h : SE3.default.inv.T = homog 1 0 1 := by
    have hR : SE3.default.R = 1 := by
      ext i j
      change (1 : Mat4) (Sum.inl i) (Sum.inl j) = _
      simp [Matrix.one_apply]
    have ht : SE3.default.t = 0 := by
      ext i
      change (1 : Mat4) (Sum.inl i) (Sum.inr ()) = _
      simp [Matrix.one_apply]
    rw [SE3.inv, hR, ht, mulVec_zero, transpose_one]
  rw [h, tl3_homog]

theorem la_row_aux (δ : Cols laWorld → ℝ) (n : NRef) (hn : n = 1 ∨ n = 2) (l : Fin 3) :
    laWorld.rowApply δ (blk2 ((land3dJac SE3.default 0).1.submatrix id at6) (land3dJac SE3.default 0).2 l) 0 [0, n] =
      laWorld.spread δ n l := by
  have h0 : (0 : NRef) ∉ laWorld.g.active := by rw [la_active]; simp
  have hd0 : (laWorld.nh 0).dim = 6 := rfl
  have hdn : (laWorld.nh n).dim = 3 := by rcases hn with rfl | rfl <;> rfl
  rw [rowApply, rowApply, rowApply, Finset.sum_eq_zero fun k _ => by rw [spread_of_notMem δ h0, mul_zero], hd0, zero_add,
    zero_add, add_zero, la_R]
  have : ∀ (d : ℕ), d = 3 → ∑ k : Fin d, blk2 ((land3dJac SE3.default 0).1.submatrix id at6) (1 : Mat3) l (6 + k) *
      laWorld.spread δ n k = ∑ k : Fin 3, blk2 ((land3dJac SE3.default 0).1.submatrix id at6) (1 : Mat3) l (6 + k) *
      laWorld.spread δ n k := by
    rintro _ rfl; rfl
  rw [this _ hdn]
  have h3 : ∀ k : Fin 3, blk2 ((land3dJac SE3.default 0).1.submatrix id at6) (1 : Mat3) l (6 + k) = (1 : Mat3) l k := by
    intro k
    rw [blk2, if_neg (by omega), Nat.add_sub_cancel_left, blk, dif_pos k.2]
  simp only [h3, Matrix.one_apply, ite_mul, one_mul, zero_mul, Finset.sum_ite_eq, Finset.mem_univ, if_true]

theorem la_row0 (δ : Cols laWorld → ℝ) (l : Fin 3) : ((factorTerm laWorld 0).J *ᵥ δ) l = laWorld.spread δ 1 l :=
  (term_mulVec 0 δ l).trans (la_row_aux δ 1 (Or.inl rfl) l)

theorem la_row1 (δ : Cols laWorld → ℝ) (l : Fin 3) : ((factorTerm laWorld 1).J *ᵥ δ) l = laWorld.spread δ 2 l :=
  (term_mulVec 1 δ l).trans (la_row_aux δ 2 (Or.inr rfl) l)

theorem la_posDef : (Spec.infoMatrix (graphTerms laWorld)).PosDef := by
  have hw := la_wellPosed
  have hpsd : (Spec.infoMatrix (graphTerms laWorld)).PosSemidef := by
    rw [← assembly_L_terms hw.wired Env.exact hw.symm]
    exact (hw.assembly_psd Env.exact).submatrix _
  refine Matrix.PosDef.of_dotProduct_mulVec_pos hpsd.isHermitian fun {x} hx => ?_
  rw [star_trivial]
  unfold Spec.infoMatrix
  rw [Spec.sum_mulVec, Spec.dotProduct_list_sum]
  change x ⬝ᵥ (((factorTerm laWorld 0).Jᵀ * (factorTerm laWorld 0).W * (factorTerm laWorld 0).J) *ᵥ x) +
    (x ⬝ᵥ (((factorTerm laWorld 1).Jᵀ * (factorTerm laWorld 1).W * (factorTerm laWorld 1).J) *ᵥ x) + 0) > 0
  have key : ∀ (J : Matrix (Fin 3) (Cols laWorld) ℝ) (v : Vec3), (J *ᵥ x) = v →
      x ⬝ᵥ ((Jᵀ * ((1 : ℝ) • (1 : Mat3)) * J) *ᵥ x) = v ⬝ᵥ v := by
    intro J v hv
    rw [one_smul, Matrix.mul_one, ← mulVec_mulVec, dotProduct_mulVec, vecMul_transpose, hv]
  have k0 := key _ _ (funext (la_row0 x))
  have k1 := key _ _ (funext (la_row1 x))
  have k0' : x ⬝ᵥ (((factorTerm laWorld 0).Jᵀ * (factorTerm laWorld 0).W * (factorTerm laWorld 0).J) *ᵥ x) = _ := k0
  have k1' : x ⬝ᵥ (((factorTerm laWorld 1).Jᵀ * (factorTerm laWorld 1).W * (factorTerm laWorld 1).J) *ᵥ x) = _ := k1
  rw [k0', k1', add_zero]
  have nn : ∀ v : Vec3, 0 ≤ v ⬝ᵥ v := fun v => Finset.sum_nonneg fun i _ => mul_self_nonneg _
  have n0 := nn fun l : Fin 3 => laWorld.spread x 1 l
  have n1 := nn fun l : Fin 3 => laWorld.spread x 2 l
  rcases n0.lt_or_eq with h | h
  · linarith
  rcases n1.lt_or_eq with h' | h'
  · linarith
  exfalso
  have z0 := congrFun (dotProduct_self_eq_zero.mp h.symm)
  have z1 := congrFun (dotProduct_self_eq_zero.mp h'.symm)
  refine hx (funext fun c => ?_)
  rw [← spread_apply x c]
  obtain ⟨⟨n, hn⟩, k⟩ := c
  have hn' := hn
  rw [la_active] at hn'
  simp at hn'
  rcases hn' with rfl | rfl
  · exact z0 k
  · exact z1 k

theorem la_res : land3dRes ![1, 0, 0] SE3.default 0 = ![-1, 0, 0] := by
  have ht : SE3.default.t = 0 := by
    ext i
    change (1 : Mat4) (Sum.inl i) (Sum.inr ()) = _
    simp [Matrix.one_apply]
  have e : SE3.default.inv.transform 0 = 0 := by
    rw [SE3.transform, mulVec_zero, zero_add]
    change tr3 (homog _ (_ *ᵥ SE3.default.t) 1) = 0
    rw [ht, mulVec_zero]
    rfl
  rw [land3dRes, e]
  ext i; fin_cases i <;> simp

theorem la_cost : laWorld.cost = 1 := by
  have h : laWorld.cost = factorChi2 (1 : Mat3) (land3dRes ![1, 0, 0] SE3.default 0) +
    (factorChi2 (1 : Mat3) (land3dRes ![1, 0, 0] SE3.default 0) + 0) := rfl
  rw [h, la_res]
  simp [factorChi2, dotProduct, Fin.sum_univ_three]
  norm_num

/-- Both landmarks moved to where they are seen. -/
noncomputable def laBest : Cols laWorld → ℝ := fun c => if (c.2 : ℕ) = 0 then 1 else 0

theorem la_best : Spec.linearCost (graphTerms laWorld) laBest = 0 := by
  have h : Spec.linearCost (graphTerms laWorld) laBest =
      ((factorTerm laWorld 0).r + (factorTerm laWorld 0).J *ᵥ laBest) ⬝ᵥ ((factorTerm laWorld 0).W *ᵥ
        ((factorTerm laWorld 0).r + (factorTerm laWorld 0).J *ᵥ laBest)) / 2 +
      (((factorTerm laWorld 1).r + (factorTerm laWorld 1).J *ᵥ laBest) ⬝ᵥ ((factorTerm laWorld 1).W *ᵥ
        ((factorTerm laWorld 1).r + (factorTerm laWorld 1).J *ᵥ laBest)) / 2 + 0) := rfl
  have e : ∀ n, n = 1 ∨ n = 2 → (![-1, 0, 0] + fun l : Fin 3 => laWorld.spread laBest n l : Vec3) = 0 := by
    intro n hn
    have ha : n ∈ laWorld.g.active := by rw [la_active]; rcases hn with rfl | rfl <;> simp
    have hd : (laWorld.nh n).dim = 3 := by rcases hn with rfl | rfl <;> rfl
    ext l
    rw [Pi.add_apply, spread, dif_pos ⟨ha, by rw [hd]; exact l.2⟩, laBest]
    fin_cases l <;> simp
  have e0 : (factorTerm laWorld 0).r + (factorTerm laWorld 0).J *ᵥ laBest = 0 := by
    rw [show (factorTerm laWorld 0).J *ᵥ laBest = _ from funext (la_row0 laBest)]
    have : (factorTerm laWorld 0).r = (![-1, 0, 0] : Vec3) := la_res
    rw [this]
    exact e 1 (Or.inl rfl)
  have e1 : (factorTerm laWorld 1).r + (factorTerm laWorld 1).J *ᵥ laBest = 0 := by
    rw [show (factorTerm laWorld 1).J *ᵥ laBest = _ from funext (la_row1 laBest)]
    have : (factorTerm laWorld 1).r = (![-1, 0, 0] : Vec3) := la_res
    rw [this]
    exact e 2 (Or.inr rfl)
  rw [h, e0, e1]
  simp

end Mrob.Demo
