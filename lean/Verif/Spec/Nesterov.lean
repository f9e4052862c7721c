import Mathlib.Data.Real.Basic
import Mathlib.Algebra.Module.Defs

/-! # Nesterov's accelerated gradient method -/

namespace Spec

/-- Positions and velocities of Nesterov's method with step size `α` and momentum `β`, started at rest in `0`:
`v (k+1) = β v k - α g k`, `x (k+1) = x k + v (k+1)`, where `g k` is the gradient at the point `x k + β v k`. -/
structure Nesterov {V : Type} [AddCommGroup V] [Module ℝ V] (α β : ℝ) (g x v : ℕ → V) : Prop where
  start : x 0 = 0
  rest : v 0 = 0
  velocity : ∀ k, v (k + 1) = β • v k - α • g k
  position : ∀ k, x (k + 1) = x k + v (k + 1)

/-- The point at which the method evaluates the gradient. -/
def lookAhead {V : Type} [AddCommGroup V] [Module ℝ V] (β : ℝ) (x v : ℕ → V) (k : ℕ) : V := x k + β • v k

end Spec
