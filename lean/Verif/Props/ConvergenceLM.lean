import Verif.Lemmas.ConvergenceLM
import Verif.Props.Convergence

/-!
# C94: convergence of Levenberg-Marquardt
-/

open Matrix Filter Topology

namespace Mrob

open World Spec

/-- C94, planar graphs without noise, Levenberg-Marquardt: let `μ` be a lower bound of the eigenvalues of the information
matrix at the states that agree with all measurements.  Started close enough to these states, every call of `solve(LM)`
(with at most `M` iterations and any tolerance) returns, and repeated calls converge to these states: in the Euclidean norm
of all coordinates (hence the square root of their number) every call reduces the error by any factor `q` above
`1e-5 / (1e-5 + μ)`.  The damping restarts at 1e-5 with every call.
Missing: odometry with a first turn and a drive (false: `C94_odom_fails`), noise, a neighbourhood that does not
depend on `M`.  Spatial graphs: `C94_spatial_lm_partial`. -/
theorem C94_lm_partial (ops : List GraphOp) (w₀ : World) (h₀ : w₀.g = emptyGraph) (hp : Proper w₀ ops)
    (hpsd : ∀ f ∈ addedFactors ops, (w₀.fh f).virt.W.PosSemidef)
    (hr : ∀ f ∈ addedFactors ops, (w₀.fh f).virt.robust ≠ .ransac)
    (hplanar : ∀ n ∈ addedNodes ops, (w₀.nh n).kind = .pose2d ∨ (w₀.nh n).kind = .landmark2d)
    (hagree : ∀ f ∈ addedFactors ops, Agrees (fun n => (w₀.nh n).val) (w₀.fh f).virt (w₀.fh f).nbrs)
    (hturn : ∀ f ∈ addedFactors ops, ∀ obs W ty, (w₀.fh f).virt = .odom obs W ty → obs 1 = 0 ∨ SameAngle (obs 0) 0)
    (μ : ℝ) (hμ : 0 < μ) (hlow : ∀ x, μ * (x ⬝ᵥ x) ≤ x ⬝ᵥ (infoMatrix (graphTerms (World.run ops w₀)) *ᵥ x))
    (env : Env) (henv : env.Sound) (hcomp : env.Complete) (M : ℕ) (q : ℝ) (hq : 1e-5 / (1e-5 + μ) < q) :
    ∃ ε > 0, ∀ ρ, 0 ≤ ρ → ρ ≤ ε → ∀ w₀' : World, w₀'.g = emptyGraph → Displaced ρ ops w₀ w₀' →
      (∀ f ∈ addedFactors ops, 0 ≤ (w₀'.fh f).weight) → ∀ s : FGraphSolve, s.w = World.run ops w₀' →
      ∀ calls : List (ℕ × ℝ × ℝ), (∀ a ∈ calls, a.1 ≤ M) → ∃ s1, repeatLM env calls s = .ok s1 ∧
        ∀ n ∈ s.w.g.active,
          Near (q ^ calls.length * (Real.sqrt (Fintype.card (Cols (World.run ops w₀))) * ρ)) (w₀.nh n).val (s1.w.nh n).val := by
  obtain ⟨hS, hpl, ε₁, hε₁, hoff⟩ := displaced_off ops w₀ h₀ hp hpsd hr hplanar hagree hturn
  have hsym : (infoMatrix (graphTerms (World.run ops w₀)))ᵀ = infoMatrix (graphTerms (World.run ops w₀)) := by
    refine infoMatrix_symm _ fun t ht => ?_
    obtain ⟨f, hf, rfl⟩ := List.mem_map.mp ht
    rw [run_factors, h₀] at hf
    have h1 := (hpsd f hf).isHermitian
    rw [← (run_fh_static ops w₀ f).1] at h1
    rw [IsHermitian, conjTranspose_eq_transpose_of_trivial] at h1
    change (factorWeight _ f • ((World.run ops w₀).fh f).virt.W)ᵀ = factorWeight _ f • ((World.run ops w₀).fh f).virt.W
    rw [transpose_smul, h1]
  obtain ⟨ε₂, hε₂, hrep⟩ := hS.repeatLM (C44_wired_partial w₀ h₀ ops hp) hpl hμ hsym hlow henv hcomp M hq
  obtain ⟨N, hN⟩ : ∃ N, N = Real.sqrt (Fintype.card (Cols (World.run ops w₀))) := ⟨_, rfl⟩
  have hN0 : 0 ≤ N := by rw [hN]; exact Real.sqrt_nonneg _
  have hq0 : 0 < q := lt_trans (by positivity) hq
  refine ⟨min (ε₁ / 2) (ε₂ / 2 / (N + 1)), by positivity, fun ρ hρ hρε w₀' h₀' hD hwt s hs calls hM => ?_⟩
  obtain ⟨e, he, hoff⟩ := hoff ρ hρ (by linarith [min_le_left (ε₁ / 2) (ε₂ / 2 / (N + 1))]) w₀' h₀' hD hwt
  have hlen : len e ≤ N * ρ := by
    rw [hN]; exact (len_le_norm e).trans (mul_le_mul_of_nonneg_left he (Real.sqrt_nonneg _))
  have hsm : len e < ε₂ := by
    have h1 : ρ ≤ ε₂ / 2 / (N + 1) := hρε.trans (min_le_right _ _)
    rw [le_div_iff₀ (by positivity)] at h1
    nlinarith
  obtain ⟨s1, h1, e1, he1, hs1⟩ := hrep calls hM e s hsm (hs ▸ hoff)
  refine ⟨s1, h1, fun n hn => ?_⟩
  rw [← hN]
  have hb : ‖e1‖ ≤ q ^ calls.length * (N * ρ) :=
    (norm_le_len e1).trans (he1.trans (mul_le_mul_of_nonneg_left hlen (by positivity)))
  rw [← (run_nh_static ops w₀ n).1]
  refine near_of_dval hb (hs1.gauge.val n (.inl ?_))
  rw [hs] at hn
  exact (hoff.gauge.active ▸ hn)

/-- The landmark seen from two known poses of C94 has such a bound, and factors below one exist. -/
example : ∃ μ > 0, (∀ x, μ * (x ⬝ᵥ x) ≤ x ⬝ᵥ (infoMatrix (graphTerms (World.run Demo.twiceOps
      (Demo.twiceWorld₀ Demo.spotFrom (Demo.spotMark ![1, 0]) Demo.spot))) *ᵥ x)) ∧ ∃ q, 1e-5 / (1e-5 + μ) < q ∧ q < 1 := by
  obtain ⟨μ, hμ, h⟩ := posDef_low Demo.spot_posDef
  refine ⟨μ, hμ, h, exists_between ?_⟩
  rw [div_lt_one (by positivity)]
  linarith

end Mrob
