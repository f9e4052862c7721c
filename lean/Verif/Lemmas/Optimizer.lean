import Verif.Model.Optimizer
import Verif.Lemmas.SolveLoop

/-!
# Executions of the loops of `Optimizer`
-/

open Matrix

namespace Mrob

namespace OptDense

variable {σ : Type} {P : DenseProblem σ}

theorem error_ok {s s' : OptDense σ} {c : ℝ} (h : s.error P = .ok (c, s')) :
    ∃ o, P.error s.obj = .ok (c, o) ∧ s' = { s with obj := o } := by
  rw [error] at h
  obtain ⟨⟨c', o⟩, h1, h⟩ := Out.bind_eq_ok.mp h
  simp only [Out.pure_eq, Out.ok.injEq, Prod.mk.injEq] at h
  obtain ⟨rfl, rfl⟩ := h
  exact ⟨o, h1, rfl⟩

theorem oneIteration_ok {s s' : OptDense σ} {b : Bool} (h : s.oneIteration P b = .ok s') :
    ∃ e o o' sys, P.gradHess s.obj = .ok (e, o) ∧
      P.update e.N (-((if b then damp s.method s.lambda e.H else e.H)⁻¹ *ᵥ e.grad)) o = .ok o' ∧
      IsUnit (if b then damp s.method s.lambda e.H else e.H).det ∧
      s' = { s with obj := o', sys := sys } := by
  rw [oneIteration] at h
  obtain ⟨⟨e, o⟩, h1, h⟩ := Out.bind_eq_ok.mp h
  dsimp only at h
  by_cases hu : IsUnit (if b then damp s.method s.lambda e.H else e.H).det
  · rw [if_pos hu] at h
    obtain ⟨o', h2, h⟩ := Out.bind_eq_ok.mp h
    simp only [Out.pure_eq, Out.ok.injEq] at h
    exact ⟨e, o, o', _, h1, h2, hu, h.symm⟩
  · rw [if_neg hu] at h
    simp at h

/-! ### Newton-Raphson -/

theorem nrStep_frame {s s' : OptDense σ} {c : ℝ} (h : s.nrStep P = .ok (c, s')) :
    s'.tol = s.tol ∧ s'.maxIters = s.maxIters ∧ s'.method = s.method ∧ s'.lambda = s.lambda := by
  rw [nrStep] at h
  obtain ⟨s1, h1, h⟩ := Out.bind_eq_ok.mp h
  obtain ⟨e, o, o', sys, -, -, -, rfl⟩ := oneIteration_ok h1
  obtain ⟨o2, -, rfl⟩ := error_ok h
  exact ⟨rfl, rfl, rfl, rfl⟩

/-- The execution of the loop as a sequence of objects and errors. -/
theorem nrLoop_trace {maxIters : ℕ} : ∀ (k iters : ℕ) (prev : ℝ) (s : OptDense σ) (r : ℕ × OptDense σ),
    maxIters - iters = k → nrLoop P maxIters iters prev s = .ok r →
    ∃ (n : ℕ) (o : ℕ → OptDense σ) (e : ℕ → ℝ), r.1 = iters + n ∧ 1 ≤ n ∧ o 0 = s ∧ e 0 = prev ∧ o n = r.2 ∧
      (∀ k < n, (o k).nrStep P = .ok (e (k + 1), o (k + 1))) ∧
      (∀ k, k + 1 < n → s.tol < |e k - e (k + 1)|) ∧ (n = 1 ∨ iters + n ≤ maxIters) ∧
      (iters + n < maxIters → |e (n - 1) - e n| ≤ s.tol) := by
  intro k
  induction k using Nat.strong_induction_on with
  | _ k ih =>
    intro iters prev s r hk h
    rw [nrLoop] at h
    obtain ⟨⟨cur, s'⟩, h1, h⟩ := Out.bind_eq_ok.mp h
    have htol := (nrStep_frame h1).1
    simp only [htol] at h
    split at h
    · rename_i hc
      obtain ⟨n, o, e, hr, hn, ho, he, hl, hs, ht, hm, hlast⟩ := ih (maxIters - (iters + 1)) (by omega) _ _ _ _ rfl h
      refine ⟨n + 1, fun k => if k = 0 then s else o (k - 1), fun k => if k = 0 then prev else e (k - 1), by omega, by omega,
        rfl, rfl, ?_, ?_, ?_, ?_, ?_⟩
      · simpa using hl
      · intro k hk
        cases k with
        | zero => simpa [ho, he] using h1
        | succ k => simpa using hs k (by omega)
      · intro k hk
        cases k with
        | zero => simpa [he] using hc.1
        | succ k =>
          have := ht k (by omega)
          rw [htol] at this
          simpa using this
      · right; omega
      · intro hlt
        have := hlast (by omega)
        obtain ⟨n', rfl⟩ : ∃ n', n = n' + 1 := ⟨n - 1, by omega⟩
        rw [htol] at this
        simpa using this
    · rename_i hc
      rw [Out.ok.injEq] at h
      subst h
      refine ⟨1, fun k => if k = 0 then s else s', fun k => if k = 0 then prev else cur, rfl, le_rfl, rfl, rfl, rfl, ?_, ?_,
        Or.inl rfl, ?_⟩
      · intro k hk
        obtain rfl : k = 0 := by omega
        simpa using h1
      · intro k hk; omega
      · intro hlt
        rw [not_and_or] at hc
        rcases hc with hc | hc
        · simpa using hc
        · omega

/-! ### Levenberg-Marquardt -/

/-- Executions of the loop: one constructor per path through the body.  The result is the number of iterations and the
object. -/
inductive LMRun (P : DenseProblem σ) (maxIters : ℕ) : ℕ → ℝ → OptDense σ → ℕ × OptDense σ → Prop
  | rejectLast {iters prev s cur s' s'' r} : s.lmStep P = .ok (cur, s') → prev - cur < 0 → s'.reject P = .ok s'' →
      ¬ iters + 1 < maxIters → s''.finish P false (iters + 1) = .ok r → LMRun P maxIters iters prev s r
  | rejectNext {iters prev s cur s' s'' r} : s.lmStep P = .ok (cur, s') → prev - cur < 0 → s'.reject P = .ok s'' →
      iters + 1 < maxIters → LMRun P maxIters (iters + 1) prev s'' r → LMRun P maxIters iters prev s r
  | converged {iters prev s cur s'} : s.lmStep P = .ok (cur, s') → 0 ≤ prev - cur → prev - cur < s.tol →
      LMRun P maxIters iters prev s (iters + 1, s')
  | acceptLast {iters prev s cur s' r} : s.lmStep P = .ok (cur, s') → 0 ≤ prev - cur → s.tol ≤ prev - cur →
      ¬ iters + 1 < maxIters → (s'.adapt (prev - cur)).finish P true (iters + 1) = .ok r → LMRun P maxIters iters prev s r
  | acceptNext {iters prev s cur s' r} : s.lmStep P = .ok (cur, s') → 0 ≤ prev - cur → s.tol ≤ prev - cur →
      iters + 1 < maxIters → LMRun P maxIters (iters + 1) cur (s'.adapt (prev - cur)) r → LMRun P maxIters iters prev s r

theorem reject_ok {s s' : OptDense σ} (h : s.reject P = .ok s') :
    ∃ o, P.restore s.obj = .ok o ∧ s' = { s with lambda := s.lambda * 2, obj := o } := by
  rw [reject] at h
  obtain ⟨o, h1, h⟩ := Out.bind_eq_ok.mp h
  exact ⟨o, h1, (Out.ok.inj h).symm⟩

theorem lmStep_frame {s s' : OptDense σ} {c : ℝ} (h : s.lmStep P = .ok (c, s')) :
    s'.tol = s.tol ∧ s'.maxIters = s.maxIters ∧ s'.method = s.method ∧ s'.lambda = s.lambda := by
  rw [lmStep] at h
  obtain ⟨o0, -, h⟩ := Out.bind_eq_ok.mp h
  obtain ⟨s1, h1, h⟩ := Out.bind_eq_ok.mp h
  obtain ⟨e, o, o', sys, -, -, -, rfl⟩ := oneIteration_ok h1
  obtain ⟨o2, -, rfl⟩ := error_ok h
  exact ⟨rfl, rfl, rfl, rfl⟩

theorem lmLoop_run {maxIters : ℕ} : ∀ (k iters : ℕ) (prev : ℝ) (s : OptDense σ) (r : ℕ × OptDense σ),
    maxIters - iters = k → lmLoop P maxIters iters prev s = .ok r → LMRun P maxIters iters prev s r := by
  intro k
  induction k using Nat.strong_induction_on with
  | _ k ih =>
    intro iters prev s r hk h
    rw [lmLoop] at h
    obtain ⟨⟨cur, s'⟩, h1, h⟩ := Out.bind_eq_ok.mp h
    have htol := (lmStep_frame h1).1
    simp only [htol] at h
    split at h
    · rename_i hd
      obtain ⟨s'', h2, h⟩ := Out.bind_eq_ok.mp h
      split at h
      · rename_i hi
        exact .rejectNext h1 hd h2 hi (ih _ (by omega) _ _ _ _ rfl h)
      · rename_i hi
        exact .rejectLast h1 hd h2 hi h
    · rename_i hd
      split at h
      · rename_i ht
        rw [Out.ok.injEq] at h
        exact h ▸ .converged h1 (not_lt.mp hd) ht
      · rename_i ht
        split at h
        · rename_i hi
          exact .acceptNext h1 (not_lt.mp hd) (not_lt.mp ht) hi (ih _ (by omega) _ _ _ _ rfl h)
        · rename_i hi
          exact .acceptLast h1 (not_lt.mp hd) (not_lt.mp ht) hi h

theorem finish_ok {s : OptDense σ} {b : Bool} {k : ℕ} {r : ℕ × OptDense σ} (h : s.finish P b k = .ok r) :
    ∃ x c o, (if b then Out.ok s.obj else P.restore s.obj) = .ok x ∧ P.error x = .ok (c, o) ∧
      r = (k, { s with obj := o }) := by
  rw [finish] at h
  obtain ⟨x, h0, h⟩ := Out.bind_eq_ok.mp h
  obtain ⟨⟨c, s'⟩, h1, h⟩ := Out.bind_eq_ok.mp h
  obtain ⟨o, h2, rfl⟩ := error_ok h1
  rw [Out.ok.injEq] at h
  exact ⟨x, c, o, h0, h2, h.symm⟩

theorem LMRun.count {maxIters iters : ℕ} {prev : ℝ} {s : OptDense σ} {r : ℕ × OptDense σ}
    (h : LMRun P maxIters iters prev s r) : iters + 1 ≤ r.1 ∧ r.1 ≤ max (iters + 1) maxIters := by
  induction h with
  | rejectLast _ _ _ _ h4 => obtain ⟨x, c, o, -, -, rfl⟩ := finish_ok h4; exact ⟨le_rfl, le_max_left _ _⟩
  | rejectNext _ _ _ h3 _ ih => omega
  | converged => exact ⟨le_rfl, le_max_left _ _⟩
  | acceptLast _ _ _ _ h4 => obtain ⟨x, c, o, -, -, rfl⟩ := finish_ok h4; exact ⟨le_rfl, le_max_left _ _⟩
  | acceptNext _ _ _ h3 _ ih => omega

/-- Fewer iterations than allowed are done only when the last step improved the error by less than the tolerance. -/
theorem LMRun.early {maxIters iters : ℕ} {prev : ℝ} {s : OptDense σ} {r : ℕ × OptDense σ}
    (h : LMRun P maxIters iters prev s r) (hr : r.1 < maxIters) :
    ∃ (t : OptDense σ) (p c : ℝ), t.lmStep P = .ok (c, r.2) ∧ 0 ≤ p - c ∧ p - c < s.tol := by
  induction h with
  | rejectLast _ _ _ h3 h4 => obtain ⟨x, c, o, -, -, rfl⟩ := finish_ok h4; exact absurd hr h3
  | rejectNext h1 _ h2 h3 _ ih =>
    obtain ⟨t, p, c, a, b, d⟩ := ih hr
    refine ⟨t, p, c, a, b, ?_⟩
    obtain ⟨o, -, rfl⟩ := reject_ok h2
    rw [← (lmStep_frame h1).1]; exact d
  | converged h1 h2 h3 => exact ⟨_, _, _, h1, h2, h3⟩
  | acceptLast _ _ _ h3 h4 => obtain ⟨x, c, o, -, -, rfl⟩ := finish_ok h4; exact absurd hr h3
  | acceptNext h1 _ _ h3 _ ih =>
    obtain ⟨t, p, c, a, b, d⟩ := ih hr
    refine ⟨t, p, c, a, b, ?_⟩
    rw [← (lmStep_frame h1).1]; exact d

end OptDense

/-- What the functions given to `Optimizer` have to satisfy.  `cost` is the value of the objective at the current state,
`saved` its value at the book-kept state, `inv` what holds throughout. -/
structure DenseProblem.Contract {σ : Type} (P : DenseProblem σ) (inv : σ → Prop) (cost saved : σ → ℝ) : Prop where
  /-- `calculate_error` returns the objective and changes no state -/
  error : ∀ o c o', inv o → P.error o = .ok (c, o') → c = cost o ∧ cost o' = cost o ∧ saved o' = saved o ∧ inv o'
  /-- `bookkeep_state` saves the state -/
  bookkeep : ∀ o o', inv o → P.bookkeep o = .ok o' → saved o' = cost o ∧ inv o'
  /-- `calculate_gradient_hessian` leaves the saved state alone -/
  gradHess : ∀ o e o', inv o → P.gradHess o = .ok (e, o') → saved o' = saved o ∧ inv o'
  /-- `update_state` leaves the saved state alone -/
  update : ∀ N dx o o', inv o → P.update N dx o = .ok o' → saved o' = saved o ∧ inv o'
  /-- `update_state_from_bookkeep` makes the saved state the current one -/
  restore : ∀ o o', inv o → P.restore o = .ok o' → cost o' = saved o ∧ saved o' = saved o ∧ inv o'

namespace OptDense

variable {σ : Type} {P : DenseProblem σ} {inv : σ → Prop} {cost saved : σ → ℝ}

theorem lmStep_contract (hP : P.Contract inv cost saved) {s s' : OptDense σ} {c : ℝ} (hi : inv s.obj)
    (h : s.lmStep P = .ok (c, s')) : c = cost s'.obj ∧ saved s'.obj = cost s.obj ∧ inv s'.obj := by
  rw [lmStep] at h
  obtain ⟨o0, h0, h⟩ := Out.bind_eq_ok.mp h
  obtain ⟨s1, h1, h⟩ := Out.bind_eq_ok.mp h
  obtain ⟨e, o, o', sys, h2, h3, -, rfl⟩ := oneIteration_ok h1
  obtain ⟨o2, h4, rfl⟩ := error_ok h
  obtain ⟨b1, b2⟩ := hP.bookkeep _ _ hi h0
  obtain ⟨g1, g2⟩ := hP.gradHess _ _ _ b2 h2
  obtain ⟨u1, u2⟩ := hP.update _ _ _ _ g2 h3
  obtain ⟨e1, e2, e3, e4⟩ := hP.error _ _ _ u2 h4
  refine ⟨?_, ?_, e4⟩
  · change c = cost o2; rw [e2, e1]
  · change saved o2 = _; rw [e3, u1, g1, b1]

theorem LMRun.cost_le (hP : P.Contract inv cost saved) {maxIters iters : ℕ} {prev : ℝ} {s : OptDense σ}
    {r : ℕ × OptDense σ} (h : LMRun P maxIters iters prev s r) (hi : inv s.obj) (hp : prev = cost s.obj) :
    cost r.2.obj ≤ cost s.obj := by
  induction h with
  | @rejectLast _ _ s _ s' s'' _ h1 h2 h3 _ h4 =>
    obtain ⟨c1, c2, c3⟩ := lmStep_contract hP hi h1
    obtain ⟨o1, h6, rfl⟩ := reject_ok h3
    obtain ⟨r1, r2, r3⟩ := hP.restore _ _ c3 h6
    obtain ⟨x, c, o, h7, h5, rfl⟩ := finish_ok h4
    obtain ⟨q1, q2, q3⟩ := hP.restore _ _ r3 h7
    obtain ⟨e1, e2, e3, e4⟩ := hP.error _ _ _ q3 h5
    change cost o ≤ _
    rw [e2, q1, r2, c2]
  | @rejectNext _ _ s _ s' s'' _ h1 h2 h3 _ h4 ih =>
    obtain ⟨c1, c2, c3⟩ := lmStep_contract hP hi h1
    obtain ⟨o1, h6, rfl⟩ := reject_ok h3
    obtain ⟨r1, r2, r3⟩ := hP.restore _ _ c3 h6
    have e : cost o1 = cost s.obj := r1.trans c2
    exact (ih r3 (hp.trans e.symm)).trans e.le
  | converged h1 h2 h3 =>
    obtain ⟨c1, c2, c3⟩ := lmStep_contract hP hi h1
    change cost _ ≤ _
    linarith
  | acceptLast h1 h2 _ _ h4 =>
    obtain ⟨c1, c2, c3⟩ := lmStep_contract hP hi h1
    obtain ⟨x, c, o, h7, h5, rfl⟩ := finish_ok h4
    obtain rfl := Out.ok.inj h7
    obtain ⟨e1, e2, e3, e4⟩ := hP.error _ _ _ c3 h5
    change cost o ≤ _
    rw [e2]
    change cost _ ≤ _
    linarith
  | @acceptNext _ _ s _ s' r h1 h2 _ _ _ ih =>
    obtain ⟨c1, c2, c3⟩ := lmStep_contract hP hi h1
    have : cost r.2.obj ≤ cost s'.obj := ih c3 c1
    linarith

theorem LMRun.invariant (hP : P.Contract inv cost saved) {maxIters iters : ℕ} {prev : ℝ} {s : OptDense σ}
    {r : ℕ × OptDense σ} (h : LMRun P maxIters iters prev s r) (hi : inv s.obj) : inv r.2.obj := by
  induction h with
  | rejectLast h1 h2 h3 _ h4 =>
    obtain ⟨c1, c2, c3⟩ := lmStep_contract hP hi h1
    obtain ⟨o1, h6, rfl⟩ := reject_ok h3
    obtain ⟨r1, r2, r3⟩ := hP.restore _ _ c3 h6
    obtain ⟨x, c, o, h7, h5, rfl⟩ := finish_ok h4
    obtain ⟨q1, q2, q3⟩ := hP.restore _ _ r3 h7
    exact (hP.error _ _ _ q3 h5).2.2.2
  | rejectNext h1 h2 h3 _ h4 ih =>
    obtain ⟨c1, c2, c3⟩ := lmStep_contract hP hi h1
    obtain ⟨o1, h6, rfl⟩ := reject_ok h3
    exact ih (hP.restore _ _ c3 h6).2.2
  | converged h1 h2 h3 => exact (lmStep_contract hP hi h1).2.2
  | acceptLast h1 h2 _ _ h4 =>
    obtain ⟨c1, c2, c3⟩ := lmStep_contract hP hi h1
    obtain ⟨x, c, o, h7, h5, rfl⟩ := finish_ok h4
    obtain rfl := Out.ok.inj h7
    exact (hP.error _ _ _ c3 h5).2.2.2
  | acceptNext h1 h2 _ _ _ ih => exact ih (lmStep_contract hP hi h1).2.2

end OptDense

end Mrob
