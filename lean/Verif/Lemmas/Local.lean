import Mathlib.Analysis.Matrix.Normed
import Mathlib.Analysis.Calculus.Deriv.MeanValue
import Mathlib.Analysis.Calculus.Deriv.Comp
import Mathlib.Analysis.Calculus.Deriv.Add
import Mathlib.LinearAlgebra.Matrix.NonsingularInverse
import Mathlib.Topology.Instances.Matrix

/-!
# Convergence of Gauss-Newton steps near a solution without residuals
-/

open Matrix Asymptotics Filter Topology

namespace Mrob

variable {ι : Type} [Fintype ι]

theorem abs_dotProduct_le (x y : ι → ℝ) : |x ⬝ᵥ y| ≤ Fintype.card ι * ‖x‖ * ‖y‖ := by
  rw [dotProduct]
  refine (Finset.abs_sum_le_sum_abs _ _).trans ?_
  have : ∀ i ∈ Finset.univ, |x i * y i| ≤ ‖x‖ * ‖y‖ := fun i _ => by
    rw [abs_mul]
    exact mul_le_mul (norm_le_pi_norm x i) (norm_le_pi_norm y i) (abs_nonneg _) (norm_nonneg _)
  refine (Finset.sum_le_sum this).trans ?_
  rw [Finset.sum_const, Finset.card_univ, nsmul_eq_mul, mul_assoc]

/-- A function whose derivatives in all directions are known near a zero, and continuous there. -/
theorem littleO_of_directional {φ : (ι → ℝ) → ℝ} {J : (ι → ℝ) → ι → ℝ} (h0 : φ 0 = 0)
    (hd : ∀ᶠ e in 𝓝 (0 : ι → ℝ), ∀ δ : ι → ℝ, HasDerivAt (fun s : ℝ => φ (e + s • δ)) (J e ⬝ᵥ δ) 0) (hJ : ContinuousAt J 0) :
    (fun e => φ e - J e ⬝ᵥ e) =o[𝓝 0] fun e => e := by
  rw [isLittleO_iff]
  intro C hC
  have hpos : 0 < C / (2 * (Fintype.card ι + 1)) := by positivity
  have hJ' := Metric.continuousAt_iff.mp hJ _ hpos
  obtain ⟨r1, hr1, hJ'⟩ := hJ'
  obtain ⟨r2, hr2, hd⟩ := Metric.eventually_nhds_iff.mp hd
  refine Metric.eventually_nhds_iff.mpr ⟨min r1 r2, lt_min hr1 hr2, fun e he => ?_⟩
  have hball : ∀ t ∈ Set.Icc (0 : ℝ) 1, dist (t • e) 0 < min r1 r2 := by
    intro t ht
    rw [dist_zero_right, norm_smul]
    rw [dist_zero_right] at he
    calc ‖t‖ * ‖e‖ ≤ 1 * ‖e‖ := by
          refine mul_le_mul_of_nonneg_right ?_ (norm_nonneg _)
          rw [Real.norm_eq_abs, abs_of_nonneg ht.1]; exact ht.2
      _ < _ := by rwa [one_mul]
  have hder : ∀ t ∈ Set.Icc (0 : ℝ) 1, HasDerivAt (fun t : ℝ => φ (t • e)) (J (t • e) ⬝ᵥ e) t := by
    intro t ht
    have h1 := hd (lt_of_lt_of_le (hball t ht) (min_le_right _ _)) e
    have h2 : HasDerivAt (fun s : ℝ => s - t) 1 t := (hasDerivAt_id t).sub_const t
    have h1' : HasDerivAt (fun s : ℝ => φ (t • e + s • e)) (J (t • e) ⬝ᵥ e) (t - t) := by rwa [sub_self]
    have h3 := HasDerivAt.comp (h := fun s : ℝ => s - t) t h1' h2
    rw [mul_one] at h3
    refine h3.congr_of_eventuallyEq (Eventually.of_forall fun s => ?_)
    change φ (s • e) = φ (t • e + (s - t) • e)
    rw [← add_smul]; congr 2; ring
  obtain ⟨ξ, hξ, hslope⟩ := exists_hasDerivAt_eq_slope (fun t : ℝ => φ (t • e)) (fun t => J (t • e) ⬝ᵥ e) one_pos
    (fun t ht => (hder t ht).continuousAt.continuousWithinAt) fun t ht => hder t ⟨ht.1.le, ht.2.le⟩
  simp only [one_smul, zero_smul, h0, sub_zero, div_one] at hslope
  rw [← hslope, ← sub_dotProduct, Real.norm_eq_abs]
  refine (abs_dotProduct_le _ _).trans ?_
  refine mul_le_mul_of_nonneg_right ?_ (norm_nonneg _)
  have k1 := hJ' (lt_of_lt_of_le (hball ξ ⟨hξ.1.le, hξ.2.le⟩) (min_le_left _ _))
  have k2 := hJ' (lt_of_lt_of_le he (min_le_left _ _))
  have k3 : ‖J (ξ • e) - J e‖ ≤ C / (2 * (Fintype.card ι + 1)) + C / (2 * (Fintype.card ι + 1)) := by
    rw [← dist_eq_norm]
    refine (dist_triangle_right _ _ (J 0)).trans (add_le_add k1.le k2.le)
  refine (mul_le_mul_of_nonneg_left k3 (Nat.cast_nonneg _)).trans ?_
  have hc : (0 : ℝ) ≤ Fintype.card ι := Nat.cast_nonneg _
  have e1 : C / (2 * ((Fintype.card ι : ℝ) + 1)) + C / (2 * (Fintype.card ι + 1)) = C / (Fintype.card ι + 1) := by
    field_simp; ring
  rw [e1, mul_div_assoc', div_le_iff₀ (by positivity)]
  nlinarith

variable [DecidableEq ι]

attribute [local instance] Matrix.linftyOpNormedAddCommGroup Matrix.linftyOpNormedSpace Matrix.linftyOpNormedRing

/-- Steps from the solution of linear systems that are almost those of the error. -/
theorem newton_rate {H : (ι → ℝ) → Matrix ι ι ℝ} {b : (ι → ℝ) → ι → ℝ} (hH : ∀ i j, ContinuousAt (fun e => H e i j) 0)
    (h0 : (H 0).det ≠ 0) (hb : (fun e => b e - H e *ᵥ e) =o[𝓝 0] fun e => e) {c : ℝ} (hc : 0 < c) :
    ∀ᶠ e in 𝓝 (0 : ι → ℝ), (H e).det ≠ 0 ∧ ∀ x, H e *ᵥ x = b e → ‖e - x‖ ≤ c * ‖e‖ := by
  have hH' : ContinuousAt H 0 := continuousAt_pi.mpr fun i => continuousAt_pi.mpr fun j => hH i j
  have hdet : ContinuousAt (fun e => (H e).det) 0 := (Continuous.matrix_det continuous_id).continuousAt.comp hH'
  have hadj : ContinuousAt (fun e => (H e).adjugate) 0 := (Continuous.matrix_adjugate continuous_id).continuousAt.comp hH'
  have hinv : ContinuousAt (fun e => ((H e).det)⁻¹ • (H e).adjugate) 0 := (hdet.inv₀ h0).smul hadj
  set K := ‖((H 0).det)⁻¹ • (H 0).adjugate‖ + 1 with hK
  have hKpos : 0 < K := by positivity
  have hbound : ∀ᶠ e in 𝓝 (0 : ι → ℝ), ‖((H e).det)⁻¹ • (H e).adjugate‖ < K :=
    hinv.norm.eventually_lt continuousAt_const (by rw [hK]; exact lt_add_one _)
  have hne : ∀ᶠ e in 𝓝 (0 : ι → ℝ), (H e).det ≠ 0 := hdet.eventually_ne h0
  filter_upwards [hbound, hne, (isLittleO_iff.mp hb) (div_pos hc hKpos)] with e h1 h2 h3
  refine ⟨h2, fun x hx => ?_⟩
  have e1 : e - x = (((H e).det)⁻¹ • (H e).adjugate) *ᵥ (H e *ᵥ e - b e) := by
    rw [← hx, ← mulVec_sub, mulVec_mulVec, smul_mul_assoc, adjugate_mul, smul_smul, inv_mul_cancel₀ h2, one_smul, one_mulVec]
  rw [e1]
  refine (Matrix.linfty_opNorm_mulVec _ _).trans ?_
  rw [norm_sub_rev] at h3
  calc _ ≤ K * (c / K * ‖e‖) := mul_le_mul h1.le h3 (norm_nonneg _) hKpos.le
    _ = c * ‖e‖ := by field_simp

end Mrob
