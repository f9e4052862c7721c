import Verif.Spec.WorldFrame
import Verif.Model.Solve

/-!
# Specification: convergence of repeated calls
-/

namespace Spec

open Mrob

/-- The value `v'` of a planar node is within `ρ` of `v` in every coordinate, headings modulo full turns. -/
def Near (ρ : ℝ) : NodeVal → NodeVal → Prop
  | ⟨.pose2d, x⟩, ⟨.pose2d, x'⟩ => |x' 0 - x 0| ≤ ρ ∧ |x' 1 - x 1| ≤ ρ ∧ ∃ k : ℤ, |x' 2 - x 2 - k * (2 * Real.pi)| ≤ ρ
  | ⟨.landmark2d, l⟩, ⟨.landmark2d, l'⟩ => |l' 0 - l 0| ≤ ρ ∧ |l' 1 - l 1| ≤ ρ
  | _, _ => False

/-- The objects of `w₀'` are those of `w₀` except that the states to be estimated are off by at most `ρ`. -/
structure Displaced (ρ : ℝ) (ops : List GraphOp) (w₀ w₀' : World) : Prop where
  /-- same factors, same modes, states not too far -/
  near : Restated (Near ρ) (fun v v' => v' = v) ops w₀ w₀'
  /-- anchors are where they should be -/
  anchors : ∀ n, Involved ops w₀ n → (w₀.nh n).mode ≠ .standard → (w₀'.nh n).val = (w₀.nh n).val

/-- The measurements of a factor are exactly those of the states: the measured pose, the measured pose of the second node in
the frame of the first, turn - drive - turn, range and bearing (further than 1e-3). -/
inductive Agrees (val : NRef → NodeVal) : FactorVirt → List NRef → Prop
  | prior2d {obs W ty n x} (hn : val n = ⟨.pose2d, x⟩) (h : planar x = planar obs) : Agrees val (.prior2d obs W ty) [n]
  | rel2d {obs W ty n m x y} (hn : val n = ⟨.pose2d, x⟩) (hm : val m = ⟨.pose2d, y⟩) (h : planar y = planar x * planar obs) :
      Agrees val (.rel2d obs W ty) [n, m]
  | odom {obs W ty n m x y} (hn : val n = ⟨.pose2d, x⟩) (hm : val m = ⟨.pose2d, y⟩)
      (h : planar y = planar x * planar ![0, 0, obs 0] * planar ![obs 1, 0, obs 2]) :
      Agrees val (.odom obs W ty) [n, m]
  | land2d {obs W ty n m x y} (hn : val n = ⟨.pose2d, x⟩) (hm : val m = ⟨.landmark2d, y⟩) (hfar : 1e-3 < obs 0)
      (h : y = planarPoint x ![obs 0 * Real.cos (obs 1), obs 0 * Real.sin (obs 1)]) : Agrees val (.land2d obs W false ty) [n, m]
  | land2dRev {obs W ty n m x y} (hn : val n = ⟨.pose2d, x⟩) (hm : val m = ⟨.landmark2d, y⟩) (hfar : 1e-3 < obs 0)
      (h : y = planarPoint x ![obs 0 * Real.cos (obs 1), obs 0 * Real.sin (obs 1)]) : Agrees val (.land2d obs W true ty) [m, n]

/-- Consecutive calls `solve(GN, maxIters, lambda, tolerance)`. -/
noncomputable def repeatGN (env : Env) : List (ℕ × ℝ × ℝ) → FGraphSolve → Out FGraphSolve
  | [], s => .ok s
  | c :: cs, s => s.solve env .GN c.1 c.2.1 c.2.2 >>= repeatGN env cs

/-- Consecutive calls `solve(LM, maxIters, lambda, tolerance)`. -/
noncomputable def repeatLM (env : Env) : List (ℕ × ℝ × ℝ) → FGraphSolve → Out FGraphSolve
  | [], s => .ok s
  | c :: cs, s => s.solve env .LM c.1 c.2.1 c.2.2 >>= repeatLM env cs

end Spec
