import Verif.Lemmas.Resume
import Verif.Props.FixedPoint

/-!
# C107: a longer optimisation continues a shorter one

The optimisation can be stopped and taken up again: a call with limit `k₁ + k₂` does what a call with limit `k₁`
followed by one with limit `k₂` does, a run that converged is not changed by a larger limit, and a larger limit never
gives a worse result.
-/

open Matrix

namespace Mrob

open World Spec

/-- Two calls of `solve(LM)`, the second on the object the first one left. -/
noncomputable def Spec.inTwo (env : Env) (k₁ k₂ : ℕ) (lambda tol : ℝ) (s : FGraphSolve) : Out FGraphSolve :=
  s.solve env .LM k₁ lambda tol >>= fun s => s.solve env .LM k₂ lambda tol

/-- C107: a run that converged within its limit is the same, return value, iteration count and object, for every larger
limit. -/
theorem C107_converged (env : Env) {k k' : ℕ} (hk : 0 < k) (hkk : k ≤ k') (s : FGraphSolve) (r : FGraphSolve.LMResult)
    (h : s.levenbergMarquardt env k = .ok r) (hr : r.ret ≠ 0) : s.levenbergMarquardt env k' = .ok r := by
  rcases hkk.eq_or_lt with rfl | hlt
  · exact h
  obtain ⟨d, rfl⟩ := Nat.exists_eq_add_of_le hkk
  rw [FGraphSolve.levenbergMarquardt, FGraphSolve.lmLoop_longer env k d (by omega) _ 0 _ r rfl hk h, if_neg hr]

/-- C107, the object that the call leaves when the damping is kept: a run that used up its limit `k₁` is continued, by a
call with the limit `k₁ + k₂`, as the loop with limit `k₂` does that starts from the object left behind *with its
damping*.  Missing: `optimize_levenberg_marquardt` does not start with that damping, see `C107_fails`. -/
theorem C107_continue_partial (env : Env) {k₁ k₂ : ℕ} (h₁ : 0 < k₁) (h₂ : 0 < k₂) (s : FGraphSolve) (r : FGraphSolve.LMResult)
    (h : s.levenbergMarquardt env k₁ = .ok r) (hr : r.ret = 0) :
    s.levenbergMarquardt env (k₁ + k₂) = FGraphSolve.lmLoop env k₂ 0 r.s >>= fun r' =>
      .ok ⟨if r'.ret = 0 then 0 else k₁ + r'.ret, k₁ + r'.iters, r'.s⟩ := by
  rw [FGraphSolve.levenbergMarquardt, FGraphSolve.lmLoop_longer env k₁ k₂ h₂ _ 0 _ r rfl h₁ h, if_pos hr]
  exact FGraphSolve.lmLoop_shift env k₁ k₂ _ 0 r.s rfl

/-- C107, in terms of `solve`: two calls do what one does if the first one leaves the damping at its initial value.
Missing: any other damping, see `C107_fails`. -/
theorem C107_damping_partial (env : Env) {k₁ k₂ : ℕ} (h₁ : 0 < k₁) (h₂ : 0 < k₂) (s : FGraphSolve) (lambda tol : ℝ)
    (r : FGraphSolve.LMResult) (h : ({ s with tol := tol } : FGraphSolve).levenbergMarquardt env k₁ = .ok r) (hr : r.ret = 0)
    (hl : r.s.lambda = 1e-5) : Spec.inTwo env k₁ k₂ lambda tol s = s.solve env .LM (k₁ + k₂) lambda tol := by
  have e : s.solve env .LM k₁ lambda tol = .ok r.s := by
    change (FGraphSolve.levenbergMarquardt env k₁ { s with tol := tol } >>= fun r => Out.ok r.s) = _
    rw [h, Out.ok_bind]
  have ht : r.s.tol = tol := (FGraphSolve.lmLoop_run _ _ _ _ rfl h).tol_eq
  have e2 := C107_continue_partial env h₁ h₂ _ r h hr
  rw [Spec.inTwo, e, Out.ok_bind]
  change (FGraphSolve.lmLoop env k₂ 0 { r.s with lambda := 1e-5, tol := tol } >>= fun r => Out.ok r.s) =
    (FGraphSolve.levenbergMarquardt env (k₁ + k₂) { s with tol := tol } >>= fun r => Out.ok r.s)
  rw [e2]
  have e3 : ({ r.s with lambda := 1e-5, tol := tol } : FGraphSolve) = r.s := by
    rw [← hl, ← ht]
  rw [e3]
  cases FGraphSolve.lmLoop env k₂ 0 r.s <;> rfl

/-- A pose that meets its prior exactly: with tolerance zero the limit is used up and the damping is kept. -/
example : ∃ r, ({ Demo.atSolver (SE3.mk (homog (rotX (1 / 2)) ![1, 2, 3] 1)) with tol := 0 } : FGraphSolve).levenbergMarquardt Env.exact 1 =
    .ok r ∧ r.ret = 0 ∧ r.s.lambda = 1e-5 := by
  have hp := Real.two_le_pi
  have hr : IsRigid (SE3.mk (homog (rotX (1 / 2)) ![1, 2, 3] 1)).T := isRigid_homog (rotX_isRotation _) _
  have e' : angle (SE3.mk (homog (rotX (1 / 2)) ![1, 2, 3] 1)).R = 1 / 2 := by
    rw [R_mk_homog, angle_rotX (by norm_num) (by linarith)]
  generalize SE3.mk (homog (rotX (1 / 2)) ![1, 2, 3] 1) = X at hr e'
  have hw := Demo.at_wellPosed X
  have hset : AllSettled (Demo.atWorld X) := by
    intro n hn
    rw [Demo.at_active, List.mem_singleton] at hn
    subst hn
    have key : ∀ X : SE3, IsRigid X.T → angle X.R = 1 / 2 → Settled .pose3d X := by
      intro X h1 h2
      refine ⟨h1, ?_⟩
      rw [h2]
      exact ⟨Or.inr (by norm_num), Or.inl (by norm_num; linarith), Or.inl (by linarith)⟩
    exact key _ hr e'
  obtain ⟨delta, s', h1, -⟩ := FGraphSolve.trial_total Env.exact_complete
    (s := ⟨Demo.atWorld X, 1e-5, 0, ⟨0, 0, 0, 0⟩, ⟨0, 0, 0, 0, 0⟩⟩) hw (by norm_num)
  have hst : infoVector (graphTerms (Demo.atWorld X)) = 0 := (Demo.at_consistent hr).stationary
  obtain ⟨hd, -, -⟩ := FGraphSolve.trial_fixed Env.exact_sound (s := ⟨Demo.atWorld X, 1e-5, 0, ⟨0, 0, 0, 0⟩, ⟨0, 0, 0, 0, 0⟩⟩) hw
    (by norm_num) hst hset h1
  obtain ⟨x, -, -, hden, -⟩ := FGraphSolve.trial_model Env.exact_sound (s := ⟨Demo.atWorld X, 1e-5, 0, ⟨0, 0, 0, 0⟩, ⟨0, 0, 0, 0, 0⟩⟩) hw h1
  have hden' : s'.sys.dx ⬝ᵥ s'.sys.b - 0.5 * (s'.sys.dx ⬝ᵥ (s'.sys.L *ᵥ s'.sys.dx)) = 0 := by
    rw [hden]
    change x ⬝ᵥ infoVector (graphTerms (Demo.atWorld X)) / 2 = 0
    rw [hst, dotProduct_zero, zero_div]
  have hl : s'.lambda = 1e-5 := (FGraphSolve.trial_ok h1).2.1
  have ht : s'.tol = 0 := (FGraphSolve.trial_ok h1).2.2.1
  refine ⟨⟨0, 1, s'.adapt delta⟩, ?_, rfl, ?_⟩
  · change FGraphSolve.lmLoop Env.exact 1 0 ⟨Demo.atWorld X, 1e-5, 0, ⟨0, 0, 0, 0⟩, ⟨0, 0, 0, 0, 0⟩⟩ = _
    rw [FGraphSolve.lmLoop, h1, Out.ok_bind]
    dsimp only
    rw [if_neg (by rw [hd]; exact lt_irrefl _), if_neg (by rw [hd, ht]; exact lt_irrefl _), if_neg (by norm_num)]
  · change FGraphSolve.nextLambda _ _ _ = _
    rw [hden', FGraphSolve.nextLambda, if_pos rfl, if_pos hd, hl]

/-- C107: a larger limit of iterations never gives a larger cost. -/
theorem C107_more (env : Env) {k k' : ℕ} (hk : 0 < k) (hkk : k ≤ k') (s s₁ s₂ : FGraphSolve) (lambda tol : ℝ)
    (hlib : ∀ f ∈ s.w.g.factors, (s.w.fh f).virt.Library) (h₁ : s.solve env .LM k lambda tol = .ok s₁)
    (h₂ : s.solve env .LM k' lambda tol = .ok s₂) : s₂.w.cost ≤ s₁.w.cost := by
  change (FGraphSolve.levenbergMarquardt env k { s with tol := tol } >>= fun r => Out.ok r.s) = _ at h₁
  change (FGraphSolve.levenbergMarquardt env k' { s with tol := tol } >>= fun r => Out.ok r.s) = _ at h₂
  obtain ⟨r₁, g₁, e⟩ := Out.bind_eq_ok.mp h₁
  obtain rfl := Out.ok.inj e
  obtain ⟨r₂, g₂, e⟩ := Out.bind_eq_ok.mp h₂
  obtain rfl := Out.ok.inj e
  rcases hkk.eq_or_lt with rfl | hlt
  · rw [g₁] at g₂
    rw [Out.ok.inj g₂]
  by_cases hr : r₁.ret = 0
  · obtain ⟨d, rfl⟩ := Nat.exists_eq_add_of_le hkk
    rw [C107_continue_partial env hk (by omega) _ r₁ g₁ hr] at g₂
    obtain ⟨r', h3, e⟩ := Out.bind_eq_ok.mp g₂
    obtain rfl := Out.ok.inj e
    have hF := (FGraphSolve.lmLoop_run _ _ _ _ rfl g₁).frame
    refine (FGraphSolve.lmLoop_run _ _ _ _ rfl h3).cost_le fun f hf => ?_
    rw [hF.factors.virt]
    exact (hlib f (by have := hF.factors.g; rw [this] at hf; exact hf)).headingInvariant
  · rw [C107_converged env hk hkk _ r₁ g₁ hr] at g₂
    rw [Out.ok.inj g₂]

namespace Demo

/-- The second of two successful trials on `unitWorld`. -/
theorem unit_second {env : Env} (henv : env.Sound) (hcomp : env.Complete) {s : FGraphSolve} (hF : Frame unitWorld s.w)
    (hw : WellPosed s.w) (hl : 0 < s.lambda) (ht : s.tol = 0) {a : ℝ} (hv : (s.w.nh 0).val = ⟨.pose2d, ![a, 0, 0]⟩)
    {m i : ℕ} (hm : ¬ i + 1 < m) : ∃ s', FGraphSolve.lmLoop env m i s = .ok ⟨0, i + 1, s'⟩ ∧
      (s'.w.nh 0).val = ⟨.pose2d, ![a + (1 - a) * (1 / (1 + s.lambda)), 0, 0]⟩ := by
  obtain ⟨delta, s', h1, hw'⟩ := FGraphSolve.trial_total hcomp hw hl
  have hr : NoRansac s.w := (run_noRansac (w₀ := unitWorld₀) (ops := p3Ops) rfl fun g hg h => nomatch h).of_factors hF.factors
  have h2 := prior_trial henv hw hr hl h1 one_pos (unit_only.of_frame hF) hv
  have hd := (FGraphSolve.trial_ok h1).2.2.2.2.2.1
  have htol : s'.tol = 0 := ((FGraphSolve.trial_ok h1).2.2.1).trans ht
  rw [unit_cost_at hF hv, unit_cost_at (hF.trans (FGraphSolve.trial_frame h1)) h2] at hd
  have h3 : 0 ≤ delta := by
    have e : a + (1 - a) * (1 / (1 + s.lambda)) - 1 = (a - 1) * (s.lambda / (1 + s.lambda)) := by field_simp; ring
    have e1 : 0 ≤ s.lambda / (1 + s.lambda) := by positivity
    have e2 : s.lambda / (1 + s.lambda) ≤ 1 := by rw [div_le_one (by positivity)]; linarith
    have e3 : (s.lambda / (1 + s.lambda)) ^ 2 ≤ 1 := by nlinarith
    rw [hd, e, mul_pow]
    nlinarith [sq_nonneg (a - 1)]
  refine ⟨s'.adapt delta, ?_, h2⟩
  rw [FGraphSolve.lmLoop, h1, Out.ok_bind]
  dsimp only
  rw [if_neg (not_lt.mpr h3), if_neg (by rw [htol]; exact not_lt.mpr h3), if_neg hm]

end Demo

/-- C107 fails: on the graph of one pose at the origin with a prior at distance one, two calls with one iteration each
leave another estimate than one call with two iterations, because every call resets the damping to 1e-5 while the loop
has reduced it to a quarter. -/
theorem C107_fails : ∀ env : Env, env.Sound → env.Complete → ∃ (s s₁ s₂ : FGraphSolve), WellPosed s.w ∧
    s.solve env .LM 2 0 0 = .ok s₁ ∧ Spec.inTwo env 1 1 0 0 s = .ok s₂ ∧ (s₁.w.nh 0).val ≠ (s₂.w.nh 0).val := by
  intro env henv hcomp
  set s : FGraphSolve := ⟨Demo.unitWorld, 1e-5, 0, ⟨0, 0, 0, 0⟩, ⟨0, 0, 0, 0, 0⟩⟩ with hs
  have hl : (0 : ℝ) < s.lambda := by rw [hs]; norm_num
  obtain ⟨delta, s', h1, hw'⟩ := FGraphSolve.trial_total hcomp (s := s) Demo.unit_wellPosed hl
  obtain ⟨-, hd, -⟩ := Demo.unit_delta henv (s := s) rfl hl h1
  have hv := Demo.unit_trial henv (s := s) rfl hl h1
  have hF : Frame Demo.unitWorld s'.w := FGraphSolve.trial_frame h1
  have ha := Demo.unit_adapt henv (s := s) rfl hl h1
  have htol : s'.tol = 0 := (FGraphSolve.trial_ok h1).2.2.1
  have hn1 : ¬ delta < 0 := not_lt.mpr hd
  have hn2 : ¬ delta < s'.tol := by rw [htol]; exact hn1
  have hlam : s.lambda = 1e-5 := rfl
  rw [hlam] at hv ha
  obtain ⟨t₁, h3, h4⟩ := Demo.unit_second henv hcomp (s := s'.adapt delta) (m := 2) (i := 1) hF hw' (by rw [ha]; norm_num)
    htol hv (by norm_num)
  obtain ⟨t₂, h5, h6⟩ := Demo.unit_second henv hcomp (s := { s'.adapt delta with lambda := 1e-5, tol := 0 }) (m := 1) (i := 0)
    hF hw' (by norm_num) rfl hv (by norm_num)
  refine ⟨s, t₁, t₂, Demo.unit_wellPosed, ?_, ?_, ?_⟩
  · change (FGraphSolve.lmLoop env 2 0 s >>= fun r => Out.ok r.s) = _
    rw [FGraphSolve.lmLoop, h1, Out.ok_bind]
    dsimp only
    rw [if_neg hn1, if_neg hn2, if_pos (by norm_num)]
    change (FGraphSolve.lmLoop env 2 1 (s'.adapt delta) >>= fun r => Out.ok r.s) = _
    rw [h3, Out.ok_bind]
  · rw [Spec.inTwo]
    have e : s.solve env .LM 1 0 0 = .ok (s'.adapt delta) := by
      change (FGraphSolve.lmLoop env 1 0 s >>= fun r => Out.ok r.s) = _
      rw [FGraphSolve.lmLoop, h1, Out.ok_bind]
      dsimp only
      rw [if_neg hn1, if_neg hn2, if_neg (by norm_num), Out.ok_bind]
    rw [e, Out.ok_bind]
    change (FGraphSolve.lmLoop env 1 0 { s'.adapt delta with lambda := 1e-5, tol := 0 } >>= fun r => Out.ok r.s) = _
    rw [h5, Out.ok_bind]
  · rw [h4, h6]
    intro h
    have e := congrFun (eq_of_heq (Sigma.mk.inj h).2) (0 : Fin 3)
    rw [ha] at e
    change (1 / (1 + 1e-5) + (1 - 1 / (1 + 1e-5)) * (1 / (1 + 1e-5 * 0.25)) : ℝ) =
      1 / (1 + 1e-5) + (1 - 1 / (1 + 1e-5)) * (1 / (1 + 1e-5)) at e
    norm_num at e

/-- Runs on that graph meet the hypotheses of the positive theorems: with tolerance one the first iteration converges, and
with tolerance zero one iteration uses up the limit. -/
example : (∃ r, FGraphSolve.levenbergMarquardt Env.exact 1 ⟨Demo.unitWorld, 0, 1, ⟨0, 0, 0, 0⟩, ⟨0, 0, 0, 0, 0⟩⟩ = .ok r ∧ r.ret ≠ 0) ∧
    (∃ r, FGraphSolve.levenbergMarquardt Env.exact 1 ⟨Demo.unitWorld, 0, 0, ⟨0, 0, 0, 0⟩, ⟨0, 0, 0, 0, 0⟩⟩ = .ok r ∧ r.ret = 0) ∧
    ∀ f ∈ Demo.unitWorld.g.factors, (Demo.unitWorld.fh f).virt.Library := by
  have key : ∀ tol : ℝ, ∃ delta s', FGraphSolve.trial Env.exact ⟨Demo.unitWorld, 1e-5, tol, ⟨0, 0, 0, 0⟩, ⟨0, 0, 0, 0, 0⟩⟩ =
      .ok (delta, s') ∧ 0 ≤ delta ∧ delta ≤ 1 / 2 ∧ s'.tol = tol := by
    intro tol
    obtain ⟨delta, s', h1, -⟩ := FGraphSolve.trial_total Env.exact_complete
      (s := ⟨Demo.unitWorld, 1e-5, tol, ⟨0, 0, 0, 0⟩, ⟨0, 0, 0, 0, 0⟩⟩) Demo.unit_wellPosed (by norm_num)
    obtain ⟨-, h2, h3⟩ := Demo.unit_delta Env.exact_sound (s := ⟨Demo.unitWorld, 1e-5, tol, ⟨0, 0, 0, 0⟩, ⟨0, 0, 0, 0, 0⟩⟩) rfl
      (by norm_num) h1
    exact ⟨delta, s', h1, h2, h3, (FGraphSolve.trial_ok h1).2.2.1⟩
  refine ⟨?_, ?_, fun f hf => ?_⟩
  · obtain ⟨delta, s', h1, h2, h3, h4⟩ := key 1
    refine ⟨⟨1, 1, s'⟩, ?_, one_ne_zero⟩
    change FGraphSolve.lmLoop Env.exact 1 0 ⟨Demo.unitWorld, 1e-5, 1, ⟨0, 0, 0, 0⟩, ⟨0, 0, 0, 0, 0⟩⟩ = _
    rw [FGraphSolve.lmLoop, h1, Out.ok_bind]
    dsimp only
    rw [if_neg (not_lt.mpr h2), if_pos (by rw [h4]; linarith)]
  · obtain ⟨delta, s', h1, h2, h3, h4⟩ := key 0
    refine ⟨⟨0, 1, s'.adapt delta⟩, ?_, rfl⟩
    change FGraphSolve.lmLoop Env.exact 1 0 ⟨Demo.unitWorld, 1e-5, 0, ⟨0, 0, 0, 0⟩, ⟨0, 0, 0, 0, 0⟩⟩ = _
    rw [FGraphSolve.lmLoop, h1, Out.ok_bind]
    dsimp only
    rw [if_neg (not_lt.mpr h2), if_neg (by rw [h4]; exact not_lt.mpr h2), if_neg (by norm_num)]
  · obtain rfl : f = 0 := List.mem_singleton.mp hf
    exact .prior2d _ _ _

end Mrob
