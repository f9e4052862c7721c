import Verif.Model.Solve

/-!
# Specification: the estimates that Levenberg-Marquardt comes to
-/

namespace Spec

open Mrob FGraphSolve

/-- The states that the loop of `levenbergMarquardt` comes to from `s`: those it tries, and those it restores after a trial
that made the error worse. -/
inductive LMVisited (env : Env) (maxIters : ℕ) : ℕ → FGraphSolve → FGraphSolve → Prop
  | tried {iter s delta s1} : s.trial env = .ok (delta, s1) → LMVisited env maxIters iter s s1
  | restored {iter s delta s1} : s.trial env = .ok (delta, s1) → delta < 0 → LMVisited env maxIters iter s s1.reject
  | afterReject {iter s delta s1 t} : s.trial env = .ok (delta, s1) → delta < 0 → iter + 1 < maxIters →
      LMVisited env maxIters (iter + 1) s1.reject t → LMVisited env maxIters iter s t
  | afterAccept {iter s delta s1 t} : s.trial env = .ok (delta, s1) → 0 ≤ delta → s.tol ≤ delta → iter + 1 < maxIters →
      LMVisited env maxIters (iter + 1) (s1.adapt delta) t → LMVisited env maxIters iter s t

/-- The states at which the iterations of the loop start. -/
inductive LMStart (env : Env) (maxIters : ℕ) : ℕ → FGraphSolve → FGraphSolve → Prop
  | here {iter s} : LMStart env maxIters iter s s
  | afterReject {iter s delta s1 t} : s.trial env = .ok (delta, s1) → delta < 0 → iter + 1 < maxIters →
      LMStart env maxIters (iter + 1) s1.reject t → LMStart env maxIters iter s t
  | afterAccept {iter s delta s1 t} : s.trial env = .ok (delta, s1) → 0 ≤ delta → s.tol ≤ delta → iter + 1 < maxIters →
      LMStart env maxIters (iter + 1) (s1.adapt delta) t → LMStart env maxIters iter s t

end Spec
