import Verif.Lemmas.Optimizer
import Mathlib.LinearAlgebra.Matrix.Determinant.Basic

/-!
# C46, C47: the loops of `Optimizer`, for any derived class
-/

open Matrix

namespace Mrob

namespace Demo

/-- A derived class with one parameter: the error is `(x - 3)²`; the pair holds the state and its saved copy. -/
noncomputable def parabola : DenseProblem (ℝ × ℝ) where
  error o := .ok ((o.1 - 3) ^ 2, o)
  gradHess o := .ok (⟨1, !![2], ![2 * (o.1 - 3)]⟩, o)
  update N dx o := if h : 0 < N then .ok (o.1 + dx ⟨0, h⟩, o.2) else .ub
  bookkeep o := .ok (o.1, o.1)
  restore o := .ok (o.2, o.2)

theorem parabola_contract : parabola.Contract (fun _ => True) (fun o => (o.1 - 3) ^ 2) (fun o => (o.2 - 3) ^ 2) := by
  refine ⟨?_, fun o o' _ h => by cases h; exact ⟨rfl, trivial⟩, ?_, ?_, fun o o' _ h => by cases h; exact ⟨rfl, rfl, trivial⟩⟩
  · intro o c o' _ h
    simp only [parabola, Out.ok.injEq, Prod.mk.injEq] at h
    obtain ⟨rfl, rfl⟩ := h
    exact ⟨rfl, rfl, rfl, trivial⟩
  · intro o e o' _ h
    simp only [parabola, Out.ok.injEq, Prod.mk.injEq] at h
    obtain ⟨-, rfl⟩ := h
    exact ⟨rfl, trivial⟩
  · intro N dx o o' _ h
    simp only [parabola] at h
    split at h
    · rw [Out.ok.injEq] at h
      subst h
      exact ⟨rfl, trivial⟩
    · simp at h

theorem parabola_nrStep (s : OptDense (ℝ × ℝ)) : ∃ s', s.nrStep parabola = .ok (0, s') ∧ s'.obj = (3, s.obj.2) := by
  classical
  have hdet : IsUnit (!![(2 : ℝ)] : Matrix (Fin 1) (Fin 1) ℝ).det := by
    rw [Matrix.det_fin_one]; simp
  have hdx : (-((!![(2 : ℝ)] : Matrix (Fin 1) (Fin 1) ℝ)⁻¹ *ᵥ ![2 * (s.obj.1 - 3)])) = ![-(s.obj.1 - 3)] := by
    rw [neg_eq_iff_eq_neg]
    have e : (![2 * (s.obj.1 - 3)] : Fin 1 → ℝ) = !![(2 : ℝ)] *ᵥ ![s.obj.1 - 3] := by
      ext i; fin_cases i; simp [Matrix.mulVec, dotProduct]
    rw [e, Matrix.mulVec_mulVec, Matrix.nonsing_inv_mul _ hdet, Matrix.one_mulVec]
    ext i; fin_cases i; simp
  have hstep : s.oneIteration parabola false = .ok { s with obj := (3, s.obj.2), sys := ⟨1, !![2], ![2 * (s.obj.1 - 3)],
      ![-(s.obj.1 - 3)]⟩ } := by
    rw [OptDense.oneIteration]
    change (if IsUnit (!![(2 : ℝ)] : Matrix (Fin 1) (Fin 1) ℝ).det then _ else _) = _
    rw [if_pos hdet]
    simp only [Bool.false_eq_true, if_false, hdx]
    have : s.obj.1 + -(s.obj.1 - 3) = 3 := by ring
    simp [parabola, Out.ok_bind, Out.pure_eq]
  refine ⟨{ s with obj := (3, s.obj.2), sys := ⟨1, !![2], ![2 * (s.obj.1 - 3)], ![-(s.obj.1 - 3)]⟩ }, ?_, rfl⟩
  rw [OptDense.nrStep, hstep, Out.ok_bind]
  simp only [OptDense.error, parabola, Out.ok_bind, Out.pure_eq]
  norm_num

end Demo

/-! ### C47 -/

/-- C47: a call of `solve(NEWTON_RAPHSON)` that returns did between 1 and `max(1, max_iters)` steps: there are objects
`o 0 … o n` and errors `e 0 … e n`, each next one obtained by a step without damping, `e k` being the value of
`calculate_error`; all changes before the last are above the tolerance, and if fewer than `max_iters` steps were done the
last one is not. -/
theorem C47_newton_raphson {σ : Type} (P : DenseProblem σ) (s : OptDense σ) (maxIters : ℕ) (lambda : ℝ)
    (r : ℕ × OptDense σ) (h : s.solve P .newtonRaphson maxIters lambda = .ok r) :
    1 ≤ r.1 ∧ r.1 ≤ max 1 maxIters ∧ ∃ (o : ℕ → OptDense σ) (e : ℕ → ℝ), o r.1 = r.2 ∧
      (∃ x, P.error s.obj = .ok (e 0, x) ∧ (o 0).obj = x) ∧
      (∀ k < r.1, ∃ t, (o k).oneIteration P false = .ok t ∧ P.error t.obj = .ok (e (k + 1), (o (k + 1)).obj)) ∧
      (∀ k, k + 1 < r.1 → s.tol < |e k - e (k + 1)|) ∧
      (r.1 < maxIters → |e (r.1 - 1) - e r.1| ≤ s.tol) := by
  change OptDense.newtonRaphson P { s with method := .newtonRaphson, maxIters := maxIters } = _ at h
  rw [OptDense.newtonRaphson] at h
  obtain ⟨⟨prev, s1⟩, h1, h⟩ := Out.bind_eq_ok.mp h
  obtain ⟨x, h2, rfl⟩ := OptDense.error_ok h1
  obtain ⟨n, o, e, hr, hn, ho, he, hl, hs, ht, hm, hlast⟩ := OptDense.nrLoop_trace _ _ _ _ _ rfl h
  rw [Nat.zero_add] at hr hm hlast
  refine ⟨by omega, ?_, o, e, by rw [hr, hl], ⟨x, by rw [he]; exact h2, by rw [ho]⟩, ?_, ?_, ?_⟩
  · rw [hr, le_max_iff]
    rcases hm with hm | hm
    · left; omega
    · right; exact hm
  · intro k hk
    have := hs k (by omega)
    rw [OptDense.nrStep] at this
    obtain ⟨t, ht1, ht2⟩ := Out.bind_eq_ok.mp this
    obtain ⟨y, hy, hy2⟩ := OptDense.error_ok ht2
    exact ⟨t, ht1, by rw [hy2]; exact hy⟩
  · intro k hk
    exact ht k (by omega)
  · intro hlt
    rw [hr]
    exact hlast (by rw [hr] at hlt; exact hlt)

/-- The hypothesis of `C47_newton_raphson` on the parabola, from `x = 8`: two steps, the second one does not change the error. -/
example : ∃ r, (OptDense.new ((8, 0) : ℝ × ℝ)).solve Demo.parabola .newtonRaphson 30 0 = .ok r ∧ r.1 = 2 := by
  obtain ⟨s1, h1, -⟩ := Demo.parabola_nrStep { OptDense.new ((8, 0) : ℝ × ℝ) with method := .newtonRaphson, maxIters := 30 }
  obtain ⟨s2, h2, -⟩ := Demo.parabola_nrStep s1
  have t1 := (OptDense.nrStep_frame h1).1
  have t2 := (OptDense.nrStep_frame h2).1
  refine ⟨(2, s2), ?_, rfl⟩
  change OptDense.newtonRaphson Demo.parabola { OptDense.new ((8, 0) : ℝ × ℝ) with method := .newtonRaphson, maxIters := 30 } = _
  rw [OptDense.newtonRaphson]
  change OptDense.nrLoop Demo.parabola 30 0 ((8 - 3) ^ 2) { OptDense.new ((8, 0) : ℝ × ℝ) with
    method := .newtonRaphson, maxIters := 30 } = _
  rw [OptDense.nrLoop, h1, Out.ok_bind]
  dsimp only
  rw [if_pos (by rw [t1]; norm_num [OptDense.new]), OptDense.nrLoop, h2, Out.ok_bind]
  dsimp only
  rw [if_neg (by rw [t2, t1]; norm_num [OptDense.new])]

/-! ### C46 -/

/-- The two variants of Levenberg-Marquardt. -/
theorem solve_lm {σ : Type} {P : DenseProblem σ} {s : OptDense σ} {m : OptMethod} (hm : m ≠ .newtonRaphson)
    (maxIters : ℕ) (lambda : ℝ) : s.solve P m maxIters lambda =
      OptDense.levenbergMarquardt P { s with method := m, maxIters := maxIters, lambda := lambda } := by
  cases m
  · exact absurd rfl hm
  · rfl
  · rfl

/-- C46: a call of `solve` with one of the Levenberg-Marquardt methods that returns did between 1 and `max(1, max_iters)`
iterations; if it did fewer than `max_iters`, the last step was kept and improved the error by less than the tolerance. -/
theorem C46_iterations {σ : Type} (P : DenseProblem σ) (s : OptDense σ) (m : OptMethod) (hm : m ≠ .newtonRaphson)
    (maxIters : ℕ) (lambda : ℝ) (r : ℕ × OptDense σ) (h : s.solve P m maxIters lambda = .ok r) :
    1 ≤ r.1 ∧ r.1 ≤ max 1 maxIters ∧ (r.1 < maxIters → ∃ (t : OptDense σ) (p c : ℝ) (x : σ),
      P.error x = .ok (c, r.2.obj) ∧ (∃ y t', P.bookkeep t.obj = .ok y ∧
      OptDense.oneIteration P true { t with obj := y } = .ok t' ∧ t'.obj = x) ∧ 0 ≤ p - c ∧ p - c < s.tol) := by
  rw [solve_lm hm, OptDense.levenbergMarquardt] at h
  obtain ⟨⟨prev, s1⟩, h1, h⟩ := Out.bind_eq_ok.mp h
  obtain ⟨x, h2, rfl⟩ := OptDense.error_ok h1
  have hrun := OptDense.lmLoop_run _ _ _ _ _ rfl h
  obtain ⟨c1, c2⟩ := hrun.count
  refine ⟨by omega, by simpa using c2, fun hlt => ?_⟩
  obtain ⟨t, p, c, ht, hp1, hp2⟩ := hrun.early hlt
  rw [OptDense.lmStep] at ht
  obtain ⟨z, hz, ht⟩ := Out.bind_eq_ok.mp ht
  obtain ⟨t', ht1, ht2⟩ := Out.bind_eq_ok.mp ht
  obtain ⟨y, hy, hy2⟩ := OptDense.error_ok ht2
  exact ⟨t, p, c, t'.obj, by rw [hy2]; exact hy, ⟨z, t', hz, ht1, rfl⟩, hp1, hp2⟩

/-- C46: for every derived class whose functions do what the loop expects of them (`calculate_error` returns the objective,
`bookkeep_state` saves the state, `update_state_from_bookkeep` gives it back, nothing else touches the saved state), a call
that returns never leaves the objective larger than it was. -/
theorem C46_never_worse {σ : Type} (P : DenseProblem σ) (inv : σ → Prop) (cost saved : σ → ℝ)
    (hP : P.Contract inv cost saved) (s : OptDense σ) (hi : inv s.obj) (m : OptMethod) (hm : m ≠ .newtonRaphson)
    (maxIters : ℕ) (lambda : ℝ) (r : ℕ × OptDense σ) (h : s.solve P m maxIters lambda = .ok r) :
    cost r.2.obj ≤ cost s.obj := by
  rw [solve_lm hm, OptDense.levenbergMarquardt] at h
  obtain ⟨⟨prev, s1⟩, h1, h⟩ := Out.bind_eq_ok.mp h
  obtain ⟨x, h2, rfl⟩ := OptDense.error_ok h1
  obtain ⟨e1, e2, e3, e4⟩ := hP.error _ _ _ hi h2
  have hrun := OptDense.lmLoop_run _ _ _ _ _ rfl h
  refine (hrun.cost_le hP e4 ?_).trans e2.le
  exact e1.trans e2.symm

/-- The contract is met by the parabola. -/
example (m : OptMethod) (hm : m ≠ .newtonRaphson) (r : ℕ × OptDense (ℝ × ℝ))
    (h : (OptDense.new ((8, 0) : ℝ × ℝ)).solve Demo.parabola m 30 1 = .ok r) : (r.2.obj.1 - 3) ^ 2 ≤ (8 - 3) ^ 2 :=
  C46_never_worse _ _ _ _ Demo.parabola_contract _ trivial m hm _ _ r h

end Mrob
