import Verif.Lemmas.SpatialLM
import Verif.Props.ConvergenceSpatial

/-!
# C94: convergence of Levenberg-Marquardt, spatial graphs
-/

open Matrix Filter Topology

namespace Mrob

open World Spec

/-- C94, spatial graphs without noise, Levenberg-Marquardt: let `μ` be a lower bound of the eigenvalues of the information
matrix at the states that agree with all measurements.  Started close enough to these states, every call of `solve(LM)`
(with at most `M` iterations and any tolerance) returns, and repeated calls converge to these states: up to a constant `C`
that depends on neither the start nor the number of calls, the error after `k` calls is `q ^ k` times the first one, for any
factor `q` above `1e-5 / (1e-5 + μ)`.  The states must be poses that logarithm and exponential of the code keep and not be
turned by exactly half a turn, where `regenerate` clamps the angle.
Missing: half turns, plane nodes, noise, a neighbourhood that does not depend on `M`. -/
theorem C94_spatial_lm_partial (ops : List GraphOp) (w₀ : World) (h₀ : w₀.g = emptyGraph) (hp : Proper w₀ ops)
    (hpsd : ∀ f ∈ addedFactors ops, (w₀.fh f).virt.W.PosSemidef)
    (hr : ∀ f ∈ addedFactors ops, (w₀.fh f).virt.robust ≠ .ransac)
    (hsafe : ∀ n ∈ addedNodes ops, (w₀.nh n).mode = .standard → SafeState (w₀.nh n).val ∧ NoHalfTurn (w₀.nh n).val)
    (hagree : ∀ f ∈ addedFactors ops, AgreesSpatial (fun n => (w₀.nh n).val) (w₀.fh f).virt (w₀.fh f).nbrs)
    (μ : ℝ) (hμ : 0 < μ) (hlow : ∀ x, μ * (x ⬝ᵥ x) ≤ x ⬝ᵥ (infoMatrix (graphTerms (World.run ops w₀)) *ᵥ x))
    (env : Env) (henv : env.Sound) (hcomp : env.Complete) (M : ℕ) (q : ℝ) (hq : 1e-5 / (1e-5 + μ) < q) :
    ∃ C > 0, ∃ ε > 0, ∀ ρ, 0 ≤ ρ → ρ ≤ ε → ∀ w₀' : World, w₀'.g = emptyGraph → DisplacedSpatial ρ ops w₀ w₀' →
      (∀ f ∈ addedFactors ops, 0 ≤ (w₀'.fh f).weight) → ∀ s : FGraphSolve, s.w = World.run ops w₀' →
      ∀ calls : List (ℕ × ℝ × ℝ), (∀ a ∈ calls, a.1 ≤ M) → ∃ s1, repeatLM env calls s = .ok s1 ∧
        ∀ n ∈ s.w.g.active, NearSpatial (C * (q ^ calls.length * ρ)) (w₀.nh n).val (s1.w.nh n).val := by
  obtain ⟨hS, hoff⟩ := displaced_spatial ops w₀ h₀ hp hpsd hr (fun n hn hm => (hsafe n hn hm).1) hagree
  have hsym : (infoMatrix (graphTerms (World.run ops w₀)))ᵀ = infoMatrix (graphTerms (World.run ops w₀)) := by
    refine infoMatrix_symm _ fun t ht => ?_
    obtain ⟨f, hf, rfl⟩ := List.mem_map.mp ht
    rw [run_factors, h₀] at hf
    have h1 := (hpsd f hf).isHermitian
    rw [← (run_fh_static ops w₀ f).1] at h1
    rw [IsHermitian, conjTranspose_eq_transpose_of_trivial] at h1
    change (factorWeight _ f • ((World.run ops w₀).fh f).virt.W)ᵀ = factorWeight _ f • ((World.run ops w₀).fh f).virt.W
    rw [transpose_smul, h1]
  have hpi : ∀ n ∈ (World.run ops w₀).g.active, ∀ A : SE3, ((World.run ops w₀).nh n).val = ⟨.pose3d, A⟩ → angle A.R ≠ Real.pi := by
    intro n hn A hv
    rw [run_active ops hp.noSetMode, h₀] at hn
    change n ∈ (addedNodes ops).filter (fun n => (w₀.nh n).mode = .standard) at hn
    rw [List.mem_filter] at hn
    have h1 := (hsafe n hn.1 (by simpa using hn.2)).2
    rw [← (run_nh_static ops w₀ n).1, hv] at h1
    exact h1
  have hq0 : 0 < q := lt_trans (by positivity) hq
  obtain ⟨C, hC, ε, hε, hrep⟩ := hS.repeatLM hμ hsym hlow hpi (C44_wired_partial w₀ h₀ ops hp) henv hcomp M hq
  refine ⟨C, hC, ε / 2, by positivity, fun ρ hρ hρε w₀' h₀' hD hwt s hs calls hM => ?_⟩
  obtain ⟨X, hX, hg, hoff⟩ := hoff ρ hρ w₀' h₀' hD hwt
  obtain ⟨s1, h1, X1, hX1, hg1, hs1⟩ := hrep calls hM X s (by linarith) hg (hs ▸ hoff)
  refine ⟨s1, h1, fun n hn => ?_⟩
  have hb : (World.run ops w₀).size X1 ≤ C * (q ^ calls.length * ρ) :=
    hX1.trans (mul_le_mul_of_nonneg_left (mul_le_mul_of_nonneg_left hX (by positivity)) hC.le)
  rw [hs] at hn
  have hn' : n ∈ (World.run ops w₀).g.active := hoff.gauge.active ▸ hn
  rw [← (run_nh_static ops w₀ n).1]
  have e : (s1.w.nh n).val = X1 n := (hs1.gauge.val n (.inl hn')).trans (hg1.put_val n)
  rw [e]
  refine (gap_le_iff (hg1.kind n) ?_ (by positivity)).mp ((gap_le X1 hn').trans hb)
  rcases hS.spatial.cases hn' with ⟨A, hv, -⟩ | ⟨l, hv⟩
  · exact .inl (congrArg Sigma.fst hv)
  · exact .inr (congrArg Sigma.fst hv)

/-- The pose turned by half a radian of C94 meets the further hypotheses: it is not turned by half a turn, its information
matrix has a bound, and factors below one exist. -/
example : let a := SE3.mk (homog (rotX (1 / 2)) ![1, 2, 3] 1)
    (∀ n ∈ addedNodes Demo.p3Ops, NoHalfTurn ((Demo.atWorld₀ a).nh n).val) ∧
    ∃ μ > 0, (∀ x, μ * (x ⬝ᵥ x) ≤ x ⬝ᵥ (infoMatrix (graphTerms (World.run Demo.p3Ops (Demo.atWorld₀ a))) *ᵥ x)) ∧
      ∃ q, 1e-5 / (1e-5 + μ) < q ∧ q < 1 := by
  refine ⟨fun n _ => ?_, ?_⟩
  · have hpi := Real.two_le_pi
    have e : (homog (rotX (1 / 2)) ![1, 2, 3] 1).toBlocks₁₁ = rotX (1 / 2) := R_mk_homog _ ![1, 2, 3] 1
    change angle (homog (rotX (1 / 2)) ![1, 2, 3] 1).toBlocks₁₁ ≠ Real.pi
    rw [e, angle_rotX (by norm_num) (by linarith)]
    intro h
    linarith
  · obtain ⟨μ, hμ, h⟩ := posDef_low (Demo.at_posDef (SE3.mk (homog (rotX (1 / 2)) ![1, 2, 3] 1)))
    refine ⟨μ, hμ, h, exists_between ?_⟩
    rw [div_lt_one (by positivity)]
    linarith

end Mrob
