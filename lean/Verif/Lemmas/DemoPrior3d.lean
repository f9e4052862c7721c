import Verif.Lemmas.Smooth
import Verif.Props.SO3LnNorm

/-!
# One 3D pose with a prior
-/

open Matrix

namespace Mrob.Demo

open World Spec

/-- Turned by two radians about the vertical axis and moved by one unit. -/
noncomputable def turned : SE3 := SE3.ofRt (SO3.ofVec ![0, 0, 2]).R ![1, 0, 0]

/-- A single node with a prior at the identity. -/
noncomputable def p3World₀ : World :=
  ⟨fun _ => NodeCell.new .pose3d turned .standard,
    fun _ => FactorCell.new (.prior3d SE3.default 1 .quadratic) [0] 0 0, emptyGraph⟩
/-- The calls. -/
def p3Ops : List GraphOp := [.addNode 0, .addFactor 0]
/-- The graph. -/
noncomputable def p3World : World := World.run p3Ops p3World₀

theorem p3_proper : Proper p3World₀ p3Ops := by
  constructor
  · intro op hop n m; simp [p3Ops] at hop; rcases hop with rfl | rfl <;> simp
  · simp [addedNodes, p3Ops]
  · intro n hn; simp [p3World₀, NodeCell.new]
  · intro f hf n hn
    simp [p3World₀, FactorCell.new] at hn; left; subst hn; simp [addedNodes, p3Ops]
  · intro f hf
    simp [p3World₀, FactorCell.new, NodeCell.new]
  · intro f hf
    simp [p3World₀, FactorCell.new, NodeCell.new, FactorCell.wellTyped, FactorVirt.prior3d]

theorem p3_factors : p3World.g.factors = [0] := rfl
theorem p3_active : p3World.g.active = [0] := rfl
theorem p3_val : (p3World.nh 0).val = ⟨.pose3d, turned⟩ := rfl

theorem p3_wellPosed : WellPosed p3World := by
  refine ⟨C44_wired_partial _ rfl _ p3_proper, fun f hf => ?_, fun f hf => ?_⟩
  · rw [p3_factors, List.mem_singleton] at hf
    subst hf
    exact Matrix.PosSemidef.one
  · rw [p3_factors, List.mem_singleton] at hf
    subst hf
    exact le_refl (0 : ℝ)

/-- Unit translation along the first axis. -/
noncomputable def p3Dir : Cols p3World → ℝ := fun c => if (c.2 : ℕ) = 3 then 1 else 0

theorem p3_inc : p3World.inc p3Dir 0 .pose3d = vec6 0 ![1, 0, 0] := by
  have hs : ∀ k : ℕ, k < 6 → p3World.spread p3Dir 0 k = if k = 3 then 1 else 0 := by
    intro k hk
    have hk' : (0 : NRef) ∈ p3World.g.active ∧ k < (p3World.nh 0).dim := ⟨by rw [p3_active]; simp, hk⟩
    rw [spread, dif_pos hk']
    rfl
  funext i
  rcases i with i | i
  · change p3World.spread p3Dir 0 i = 0
    rw [hs _ (by omega), if_neg (by omega)]
  · change p3World.spread p3Dir 0 (3 + i) = ![1, 0, 0] i
    rw [hs _ (by omega)]
    rcases (by decide +revert : i = 0 ∨ i = 1 ∨ i = 2) with rfl | rfl | rfl <;> simp

theorem turned_rot : IsRotation (SO3.ofVec ![0, 0, 2]).R := by
  refine ofVec_isRotation_of_ge ?_
  rw [← len_eq_vnorm, len_vec3, show (0 : ℝ) * 0 + 0 * 0 + 2 * 2 = 2 ^ 2 by norm_num, Real.sqrt_sq (by norm_num)]
  norm_num

theorem turned_rigid : IsRigid turned.T := isRigid_homog turned_rot _

/-- The inverse of the translation factor of the exponential. -/
noncomputable def turnedV : Mat3 := vInv (so3Ln (SO3.ofVec ![0, 0, 2]).R).2 ![0, 0, 2]

theorem turned_ln : (SO3.ofVec ![0, 0, 2]).lnVee = ![0, 0, 2] := by
  have hp := Real.pi_gt_three
  have hl : len ![0, 0, (2 : ℝ)] = 2 := by
    rw [len_vec3, show (0 : ℝ) * 0 + 0 * 0 + 2 * 2 = 2 ^ 2 by norm_num, Real.sqrt_sq (by norm_num)]
  refine C06_ln_exp_partial (Or.inr ?_) ?_
  · rw [hl]; constructor <;> norm_num; linarith
  · rintro ⟨-, h, -⟩; simp at h

theorem turned_res (s : ℝ) : prior3dRes SE3.default (turned.updateLhs (s • vec6 0 ![1, 0, 0])) =
    vec6 ![0, 0, 2] (turnedV *ᵥ (![1, 0, 0] + s • ![1, 0, 0])) := by
  have h1 : (turned.updateLhs (s • vec6 0 ![1, 0, 0])).T = homog turned.R (turned.t + s • ![1, 0, 0]) 1 := by
    have : (turned.updateLhs (s • vec6 0 ![1, 0, 0])).T = _ := updateLhs_homog turned_rigid s (vec6 0 ![1, 0, 0])
    rw [this, head3_vec6, tail3_vec6, smul_zero, ofVec_zero, one_mul, one_mulVec]
    have : vMat (0 : Vec3) = 1 := by rw [vMat, rod_at_zero]
    rw [this, one_mulVec]
  have h2 : prior3dTr SE3.default (turned.updateLhs (s • vec6 0 ![1, 0, 0])) =
      ⟨homog turned.R (turned.t + s • ![1, 0, 0]) 1⟩ := by
    ext1
    change (turned.updateLhs (s • vec6 0 ![1, 0, 0])).T * SE3.default.inv.T = _
    rw [default_inv_T, mul_one, h1]
  have hR : turned.R = (SO3.ofVec ![0, 0, 2]).R := tl3_homog _ _ _
  have ht : turned.t = ![1, 0, 0] := tr3_homog _ _ _
  rw [prior3dRes, h2, hR, ht, SE3.lnVee, SE3.ln, se3Ln_homog, vee6_homog, vee3_hat3]
  have h3 : (SO3.mk (SO3.ofVec ![0, 0, 2]).R).lnVee = ![0, 0, 2] := turned_ln
  rw [h3]
  rfl

theorem turnedV_10 : turnedV 1 0 = -1 := by
  rw [turnedV, vInv, rod]
  simp [hat3, Matrix.mul_apply, Fin.sum_univ_three]
  norm_num

end Mrob.Demo
