import Verif.Lemmas.SolveStep
import Verif.Props.Assembly

/-!
# A graph whose first Levenberg-Marquardt step is rejected

A planar pose at the origin, the anchor `(1, 0, 0)`, a prior on the position of the pose, and a relative observation
`(1, 4)` of the anchor: rotating the pose looks promising to first order (`4` radians), but makes the cost worse.
-/

open Matrix

namespace Mrob.Demo

open World

/-- Weight of the positions only. -/
noncomputable def posW : Mat3 := Matrix.diagonal ![1, 1, 0]

theorem posW_psd : posW.PosSemidef := by
  refine Matrix.PosSemidef.diagonal fun i => ?_
  rcases (by decide +revert : i = 0 ∨ i = 1 ∨ i = 2) with rfl | rfl | rfl <;> simp

/-- Node 0 is the pose, its heading is given as `2 π`; all others are the anchor. -/
noncomputable def lmNodes : NRef → NodeCell := fun n =>
  if n = 0 then NodeCell.new .pose2d ![0, 0, 2 * Real.pi] .standard else NodeCell.new .pose2d ![1, 0, 0] .anchor

/-- Factor 0 is the prior, all others are the observation. -/
noncomputable def lmFactors : FRef → FactorCell := fun f =>
  if f = 0 then FactorCell.new (.prior2d 0 posW .quadratic) [0] 0 0
  else FactorCell.new (.rel2d ![1, 4, 0] posW .quadratic) [0, 1] 0 0

/-- Objects before any call. -/
noncomputable def lmWorld₀ : World := ⟨lmNodes, lmFactors, emptyGraph⟩
/-- The calls. -/
def lmOps : List GraphOp := [.addNode 0, .addNode 1, .addFactor 0, .addFactor 1]
/-- The graph. -/
noncomputable def lmWorld : World := World.run lmOps lmWorld₀

theorem lm_proper : Proper lmWorld₀ lmOps := by
  constructor
  · intro op hop n m; simp [lmOps] at hop; rcases hop with rfl | rfl | rfl | rfl <;> simp
  · simp [addedNodes, lmOps]
  · intro n hn; simp [addedNodes, lmOps] at hn; rcases hn with rfl | rfl <;> simp [lmWorld₀, lmNodes, NodeCell.new]
  · intro f hf n hn
    simp [addedFactors, lmOps] at hf
    rcases hf with rfl | rfl
    · simp [lmWorld₀, lmFactors, FactorCell.new] at hn; left; simp [hn, addedNodes, lmOps]
    · simp [lmWorld₀, lmFactors, FactorCell.new] at hn; left; rcases hn with rfl | rfl <;> simp [addedNodes, lmOps]
  · intro f hf
    simp [addedFactors, lmOps] at hf
    rcases hf with rfl | rfl <;> simp [lmWorld₀, lmFactors, lmNodes, FactorCell.new, NodeCell.new]
  · intro f hf
    simp [addedFactors, lmOps] at hf
    rcases hf with rfl | rfl <;>
      simp [lmWorld₀, lmFactors, lmNodes, FactorCell.new, NodeCell.new, FactorCell.wellTyped, FactorVirt.prior2d,
        FactorVirt.rel2d]

theorem lm_factors : lmWorld.g.factors = [0, 1] := rfl
theorem lm_active : lmWorld.g.active = [0] := rfl

theorem lm_wellPosed : WellPosed lmWorld := by
  refine ⟨C44_wired_partial _ rfl _ lm_proper, fun f hf => ?_, fun f hf => ?_⟩
  · rw [lm_factors] at hf
    simp at hf
    rcases hf with rfl | rfl <;> exact posW_psd
  · rw [lm_factors] at hf
    simp at hf
    rcases hf with rfl | rfl <;> exact le_refl (0 : ℝ)

/-- The evaluated factors. -/
noncomputable def lmCell (f : FRef) : FactorCell := ((lmWorld.fh f).full lmWorld.nh).weighted

theorem lm_row0 (i : ℕ) (l : Fin 3) : lmWorld.rowAt i (lmCell 0) l =
    (if 0 = i then blk prior2dJac l 0 else 0) + ((if 1 = i then blk prior2dJac l 1 else 0) +
      ((if 2 = i then blk prior2dJac l 2 else 0) + 0)) := rfl

/-- Jacobian of the observation with respect to the pose. -/
noncomputable def lmJ : Mat3 := (rel2dJac ![0, 0, 2 * Real.pi] ![1, 0, 0]).1

theorem lmJ_eq : lmJ = !![-1, 0, 0; 0, -1, -1; 0, 0, -1] := by
  rw [lmJ, rel2dJac]
  simp

theorem lm_row1 (i : ℕ) (l : Fin 3) : lmWorld.rowAt i (lmCell 1) l =
    (if 0 = i then lmJ l 0 else 0) + ((if 1 = i then lmJ l 1 else 0) +
      ((if 2 = i then lmJ l 2 else 0) + 0)) := rfl

theorem lm_contrib (f : FRef) (hf : f = 0 ∨ f = 1) (x y : (c : FactorCell) → Fin c.virt.dim → ℝ) (x' y' : Fin 3 → ℝ)
    (hx : HEq (x (lmCell f)) x') (hy : HEq (y (lmCell f)) y') :
    contrib (lmCell f) x y = x' 0 * y' 0 + x' 1 * y' 1 := by
  have key : ∀ x y : Fin 3 → ℝ, ∑ l : Fin 3, x l * ∑ k : Fin 3,
      (if l ≤ k then 1 * posW l k else 1 * posW k l) * y k = x 0 * y 0 + x 1 * y 1 := by
    intro x y
    simp [Fin.sum_univ_three, posW, Matrix.diagonal]
  rcases hf with rfl | rfl
  · rw [← eq_of_heq hx, ← eq_of_heq hy]
    exact key _ _
  · rw [← eq_of_heq hx, ← eq_of_heq hy]
    exact key _ _

theorem lm_L (env : Env) : (lmWorld.assembly env).L = (!![2, 0, 0; 0, 2, 1; 0, 1, 1] : Mat3) := by
  ext i j
  rw [assembly_L lm_wellPosed.wired, lm_factors]
  change contrib (lmCell 0) (lmWorld.rowAt i) (lmWorld.rowAt j) +
    (contrib (lmCell 1) (lmWorld.rowAt i) (lmWorld.rowAt j) + 0) = _
  rw [lm_contrib 0 (Or.inl rfl) _ _ _ _ (heq_of_eq (funext (lm_row0 i))) (heq_of_eq (funext (lm_row0 j))),
    lm_contrib 1 (Or.inr rfl) _ _ _ _ (heq_of_eq (funext (lm_row1 i))) (heq_of_eq (funext (lm_row1 j))), lmJ_eq]
  revert i j
  change ∀ i j : Fin 3, _
  intro i j
  fin_cases i <;> fin_cases j <;> simp [blk, prior2dJac, Matrix.one_apply] <;> norm_num

theorem lm_res0 : (lmCell 0).r = (0 : Vec3) := by
  change prior2dRes 0 ![0, 0, 2 * Real.pi] = 0
  rw [prior2dRes, wrap2_eq_zero]
  refine ⟨by simp, by simp, 1, by simp⟩

theorem lm_res1 : (lmCell 1).r = (![0, -4, 0] : Vec3) := by
  change rel2dRes ![1, 4, 0] ![0, 0, 2 * Real.pi] ![1, 0, 0] = _
  have h : wrapAngle (-(2 * Real.pi)) = 0 := wrapAngle_eq_zero.mpr ⟨-1, by push_cast; ring⟩
  simp only [rel2dRes, wrap2]
  ext i
  rcases (by decide +revert : i = 0 ∨ i = 1 ∨ i = 2) with rfl | rfl | rfl <;> simp [h]

theorem lm_b (env : Env) : (lmWorld.assembly env).b = (![0, 4, 4] : Vec3) := by
  ext i
  rw [assembly_b lm_wellPosed.wired, lm_factors]
  change contrib (lmCell 0) (lmWorld.rowAt i) (fun c l => c.r l) +
    (contrib (lmCell 1) (lmWorld.rowAt i) (fun c l => c.r l) + 0) = _
  rw [lm_contrib 0 (Or.inl rfl) _ _ _ _ (heq_of_eq (funext (lm_row0 i))) (heq_of_eq lm_res0),
    lm_contrib 1 (Or.inr rfl) _ _ _ _ (heq_of_eq (funext (lm_row1 i))) (heq_of_eq lm_res1), lmJ_eq]
  revert i
  change ∀ i : Fin 3, _
  intro i
  fin_cases i <;> simp [blk, prior2dJac, Matrix.one_apply]

/-- The step: `dx` for damping `1e-5`. -/
noncomputable def lmDx : Vec3 :=
  ![0, 4 * 1e-5 / (1 + 3 * 1e-5 + 1e-5 ^ 2), 4 * (1 + 1e-5) / (1 + 3 * 1e-5 + 1e-5 ^ 2)]

theorem lm_chol : Env.exact.chol _ (FGraphSolve.damped true 1e-5 (lmWorld.assembly Env.exact).L)
    (lmWorld.assembly Env.exact).b = some lmDx := by
  rw [lm_L, lm_b]
  have e : FGraphSolve.damped true 1e-5 (!![2, 0, 0; 0, 2, 1; 0, 1, 1] : Mat3) =
      !![2 + 1e-5, 0, 0; 0, 2 + 1e-5, 1; 0, 1, 1 + 1e-5] := by
    rw [FGraphSolve.damped, if_pos rfl]
    ext i j
    fin_cases i <;> fin_cases j <;> simp
  change Env.exact.chol 3 (FGraphSolve.damped true 1e-5 (!![2, 0, 0; 0, 2, 1; 0, 1, 1] : Mat3)) ![0, 4, 4] = _
  rw [e]
  refine Env.exact_of ?_ ?_
  · simp [Matrix.det_fin_three]
    norm_num
  · ext i
    fin_cases i <;> simp [lmDx, Matrix.mulVec, dotProduct, Fin.sum_univ_three] <;> norm_num

theorem lm_chi2_1 (v : Vec3) : factorChi2 posW v = (v 0 ^ 2 + v 1 ^ 2) / 2 := by
  simp [factorChi2, posW, dotProduct, Matrix.mulVec_diagonal, Fin.sum_univ_three]
  ring

theorem lm_cost : lmWorld.cost = 8 := by
  have h : lmWorld.cost = factorChi2 posW (lmCell 0).r + (factorChi2 posW (lmCell 1).r + 0) := rfl
  rw [h, lm_res0, lm_res1, lm_chi2_1, lm_chi2_1]
  simp
  norm_num

/-- The object. -/
noncomputable def lmSolver : FGraphSolve := ⟨lmWorld, 1e-5, 1e-2, ⟨0, 0, 0, 0⟩, ⟨0, 0, 0, 0, 0⟩⟩

theorem lm_rejected : ∃ s', lmSolver.trial Env.exact = .ok (8 - s'.w.cost, s') ∧ 8 - s'.w.cost < 0 := by
  obtain ⟨s', h1, h2, -, -⟩ := FGraphSolve.trial_eq (s := lmSolver) lm_wellPosed lm_chol
  change lmSolver.trial Env.exact = .ok (lmWorld.cost - s'.w.cost, s') at h1
  rw [lm_cost] at h1
  refine ⟨s', h1, ?_⟩
  have hF := FGraphSolve.trial_frame h1
  have hg : s'.w.g.factors = [0, 1] := by rw [hF.factors.g]; rfl
  have hv0 : (s'.w.nh 0).val = ⟨.pose2d, wrap2 (![0, 0, 2 * Real.pi] + fun i => -lmDx i)⟩ := by
    rw [h2]
    change (⟨NodeKind.pose2d, wrap2 (![0, 0, 2 * Real.pi] + fun i : Fin 3 => -dxBlock lmDx 0 i)⟩ : NodeVal) = _
    congr 2
    congr 1
    funext i
    rw [dxBlock, dif_pos (by omega)]
    congr 2
    exact Fin.ext (by simp)
  have hv1 : (s'.w.nh 1).val = ⟨.pose2d, ![1, 0, 0]⟩ := by
    rw [h2]; rfl
  have hc : s'.w.cost = factorChi2 posW (prior2dRes 0 (wrap2 (![0, 0, 2 * Real.pi] + fun i => -lmDx i))) +
      factorChi2 posW (rel2dRes ![1, 4, 0] (wrap2 (![0, 0, 2 * Real.pi] + fun i => -lmDx i)) ![1, 0, 0]) := by
    rw [cost, hg]
    simp only [List.map_cons, List.map_nil, List.sum_cons, List.sum_nil, add_zero, FactorCell.vals]
    have e : ∀ f, factorChi2 (s'.w.fh f).virt.W ((s'.w.fh f).virt.res ((s'.w.fh f).nbrs.map fun n => (s'.w.nh n).val)) =
        factorChi2 (lmWorld.fh f).virt.W ((lmWorld.fh f).virt.res ((lmWorld.fh f).nbrs.map fun n => (s'.w.nh n).val)) := by
      intro f
      rw [hF.factors.virt, hF.factors.nbrs]
      rfl
    rw [e, e]
    have n0 : (lmWorld.fh 0).nbrs.map (fun n => (s'.w.nh n).val) = [(s'.w.nh 0).val] := rfl
    have n1 : (lmWorld.fh 1).nbrs.map (fun n => (s'.w.nh n).val) = [(s'.w.nh 0).val, (s'.w.nh 1).val] := rfl
    rw [n0, n1, hv0, hv1]
    rfl
  rw [hc, rel2dRes_wrap_left, lm_chi2_1, lm_chi2_1]
  set t := lmDx 2 with ht
  have ht0 : t = 4 * (1 + 1e-5) / (1 + 3 * 1e-5 + 1e-5 ^ 2) := rfl
  have ht1 : 3.9 ≤ t := by rw [ht0]; norm_num
  have ht2 : t ≤ 4 := by rw [ht0]; norm_num
  have hd0 : 0 ≤ lmDx 1 := by
    have : lmDx 1 = 4 * 1e-5 / (1 + 3 * 1e-5 + 1e-5 ^ 2) := rfl
    rw [this]; norm_num
  have hd1 : lmDx 1 ≤ 1e-4 := by
    have : lmDx 1 = 4 * 1e-5 / (1 + 3 * 1e-5 + 1e-5 ^ 2) := rfl
    rw [this]; norm_num
  have hpi1 := Real.pi_gt_d2
  have hpi2 := Real.pi_lt_d2
  have hsin : Real.sin t ≤ 0 := by
    have := Real.sin_nonneg_of_nonneg_of_le_pi (x := t - Real.pi) (by linarith) (by linarith)
    rw [Real.sin_sub_pi] at this
    linarith
  have hcos : Real.cos t ≤ 0 := Real.cos_nonpos_of_pi_div_two_le_of_le (by linarith) (by linarith)
  have hs1 := Real.neg_one_le_sin t
  have r0 : rel2dRes ![1, 4, 0] (![0, 0, 2 * Real.pi] + fun i => -lmDx i) ![1, 0, 0] 0 =
      Real.cos t - Real.sin t * lmDx 1 - 1 := by
    have e0 : lmDx 0 = 0 := rfl
    have e : Real.cos (2 * Real.pi - t) = Real.cos t ∧ Real.sin (2 * Real.pi - t) = -Real.sin t :=
      ⟨by rw [Real.cos_two_pi_sub], by rw [Real.sin_two_pi_sub]⟩
    have v0 : vecHead (fun i => -lmDx i) = -lmDx 0 := rfl
    have v1 : vecHead (vecTail fun i => -lmDx i) = -lmDx 1 := rfl
    simp [rel2dRes, v0, v1, e0, ← sub_eq_add_neg, ← ht, e.1, e.2]
  have r1 : rel2dRes ![1, 4, 0] (![0, 0, 2 * Real.pi] + fun i => -lmDx i) ![1, 0, 0] 1 =
      Real.sin t + Real.cos t * lmDx 1 - 4 := by
    have e0 : lmDx 0 = 0 := rfl
    have e : Real.cos (2 * Real.pi - t) = Real.cos t ∧ Real.sin (2 * Real.pi - t) = -Real.sin t :=
      ⟨by rw [Real.cos_two_pi_sub], by rw [Real.sin_two_pi_sub]⟩
    have v0 : vecHead (fun i => -lmDx i) = -lmDx 0 := rfl
    have v1 : vecHead (vecTail fun i => -lmDx i) = -lmDx 1 := rfl
    simp [rel2dRes, v0, v1, e0, ← sub_eq_add_neg, ← ht, e.1, e.2]
  rw [r0, r1]
  have b0 : Real.cos t - Real.sin t * lmDx 1 - 1 ≤ -0.9 := by nlinarith
  have b1 : Real.sin t + Real.cos t * lmDx 1 - 4 ≤ -4 := by nlinarith
  nlinarith [sq_nonneg (prior2dRes 0 (wrap2 (![0, 0, 2 * Real.pi] + fun i => -lmDx i)) 0),
    sq_nonneg (prior2dRes 0 (wrap2 (![0, 0, 2 * Real.pi] + fun i => -lmDx i)) 1)]

end Mrob.Demo
