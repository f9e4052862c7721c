import Verif.Lemmas.SolveStep

/-!
# The solver on a consistent graph never is undefined behaviour
-/

open Matrix

namespace Mrob

open World

/-! ### The solver on a consistent graph -/

namespace FGraphSolve

theorem gaussNewton_safe {env : Env} {s : FGraphSolve} (hw : Wired s.w) (ul : Bool) :
    s.gaussNewton env ul = .nan ∨ ∃ dx, s.gaussNewton env ul =
      .ok { s with w := s.w.built, sys := ⟨(s.w.assembly env).N, damped ul s.lambda (s.w.assembly env).L,
        (s.w.assembly env).b, dx⟩, mats := s.w.assembly env } := by
  by_cases hwt : ∀ f ∈ s.w.g.factors, ((s.w.fh f).full s.w.nh).weightable
  · have hb := buildAdjacency_wired hw hwt env
    cases hc : env.chol (s.w.assembly env).N (damped ul s.lambda (s.w.assembly env).L) (s.w.assembly env).b with
    | some dx => exact .inr ⟨dx, gaussNewton_eq hb hc⟩
    | none =>
      refine .inl ?_
      have hd : (if ul = true then (s.w.assembly env).L - diagonal (s.w.assembly env).L.diag +
          diagonal (fun n => s.lambda + (s.w.assembly env).L n n) else (s.w.assembly env).L) =
          damped ul s.lambda (s.w.assembly env).L := by
        rw [damped]
        split
        · ext i j
          by_cases hij : i = j
          · subst hij; simp; ring
          · simp [hij]
        · rfl
      rw [gaussNewton, hb, Out.ok_bind]
      simp only [hd, hc]
  · exact .inl (by rw [gaussNewton, buildAdjacency_nan hw hwt env, Out.nan_bind])

theorem trial_safe {env : Env} {s : FGraphSolve} (hw : Wired s.w) :
    s.trial env = .nan ∨ ∃ d s', s.trial env = .ok (d, s') := by
  rcases gaussNewton_safe (env := env) hw true with h | ⟨dx, h⟩
  · exact .inl (by rw [trial, h, Out.nan_bind])
  · refine .inr ?_
    set s1 : FGraphSolve := { s with mats := s.w.assembly env, w := s.w.built, sys := ⟨(s.w.assembly env).N,
      damped true s.lambda (s.w.assembly env).L, (s.w.assembly env).b, dx⟩ } with hs1
    have hF2 : Frame s.w s1.w.syncAux := by
      refine (frame_built s.w).trans ?_
      rw [syncAux_eq]
      refine ⟨⟨rfl, fun _ => rfl, fun _ => rfl, fun _ => rfl⟩, fun n hn => if_neg hn, fun n => ?_⟩
      change NodeCell.SameButObj _ (if n ∈ _ then _ else _)
      split
      · exact ⟨_, rfl⟩
      · exact .refl _
    have hu := updateNodes_wired (hF2.wired hw) (N := (s.w.assembly env).N) (by rw [hF2.factors.g]) dx
    set w2 := s1.w.syncAux.moved (s1.w.syncAux.unstack dx) with hw2
    have hF3 : Frame s.w w2 := by
      refine hF2.trans ⟨⟨rfl, fun _ => rfl, fun _ => rfl, fun _ => rfl⟩, fun n hn => if_neg hn, fun n => ?_⟩
      change NodeCell.SameButObj _ (if n ∈ _ then _ else _)
      split
      · exact ⟨_, rfl⟩
      · exact .refl _
    have hu' : FGraphSolve.update { s1 with w := s1.w.syncAux } = .ok { s1 with w := w2 } := by
      rw [update, hu, Out.ok_bind]; rfl
    rw [trial, h, Out.ok_bind]
    simp only
    rw [hu', Out.ok_bind, chi2Eval_eq _ (hF3.wellTyped hw.typed), Out.ok_bind]
    exact ⟨_, _, rfl⟩

theorem lmLoop_safe {env : Env} (maxIters : ℕ) : ∀ (k iter : ℕ) (s : FGraphSolve),
    maxIters - iter = k → Wired s.w → lmLoop env maxIters iter s = .nan ∨ ∃ r, lmLoop env maxIters iter s = .ok r := by
  intro k
  induction k using Nat.strong_induction_on with
  | _ k ih =>
    intro iter s hk hw
    rcases trial_safe (env := env) hw with h | ⟨d, s', h⟩
    · exact .inl (by rw [lmLoop, h, Out.nan_bind])
    · have hw' := (trial_frame h).wired hw
      rw [lmLoop, h, Out.ok_bind]
      dsimp only
      split_ifs
      · exact ih _ (by omega) (iter + 1) s'.reject rfl ((reject_frame _).wired hw')
      · exact .inr ⟨_, rfl⟩
      · exact .inr ⟨_, rfl⟩
      · exact ih _ (by omega) (iter + 1) (s'.adapt d) rfl hw'
      · exact .inr ⟨_, rfl⟩

/-- On a consistent graph a solver call returns or produces NaN. -/
theorem solve_safe {env : Env} {s : FGraphSolve} (hw : Wired s.w) (method : Method) (maxIters : ℕ) (lambda tol : ℝ) :
    s.solve env method maxIters lambda tol = .nan ∨ ∃ s', s.solve env method maxIters lambda tol = .ok s' := by
  cases method with
  | GN =>
    rcases gaussNewton_safe (env := env) (s := { s with lambda := lambda, tol := tol }) hw false with h | ⟨dx, h⟩
    · exact .inl (by rw [solve]; simp only [h, Out.nan_bind])
    · refine .inr ?_
      rw [solve]
      simp only [h, Out.ok_bind]
      have hu := updateNodes_wired (w := s.w.built) ((frame_built s.w).wired hw) (N := (s.w.assembly env).N) rfl dx
      rw [update]
      simp only
      rw [hu, Out.ok_bind]
      exact ⟨_, rfl⟩
  | LM =>
    rcases lmLoop_safe (env := env) maxIters _ 0 { s with lambda := 1e-5, tol := tol } rfl hw with h | ⟨r, h⟩
    · exact .inl (by
        change (levenbergMarquardt env maxIters _ >>= fun r => Out.ok r.s) = _
        change (lmLoop env maxIters 0 { s with lambda := 1e-5, tol := tol } >>= _) = _
        rw [h, Out.nan_bind])
    · refine .inr ⟨r.s, ?_⟩
      change (levenbergMarquardt env maxIters _ >>= fun r => Out.ok r.s) = _
      change (lmLoop env maxIters 0 { s with lambda := 1e-5, tol := tol } >>= _) = _
      rw [h, Out.ok_bind]

theorem trial_weight {env : Env} {s s' : FGraphSolve} {delta : ℝ} (h : s.trial env = .ok (delta, s'))
    (hw : ∀ f ∈ s.w.g.factors, 0 ≤ (s.w.fh f).weight) : ∀ f ∈ s.w.g.factors, 0 ≤ (s'.w.fh f).weight := by
  rw [trial] at h
  obtain ⟨s1, h1, h⟩ := Out.bind_eq_ok.mp h
  obtain ⟨a, dx, hb, hc, ht, rfl⟩ := gaussNewton_ok h1
  obtain ⟨s2, h2, h⟩ := Out.bind_eq_ok.mp h
  obtain ⟨w2, hu, rfl⟩ := update_ok h2
  obtain ⟨⟨new, w3⟩, h3, h⟩ := Out.bind_eq_ok.mp h
  simp only [Out.pure_eq, Out.ok.injEq, Prod.mk.injEq] at h
  obtain ⟨-, rfl⟩ := h
  obtain ⟨u1, u2, -, -⟩ := updateNodes_ok _ _ _ _ _ hu
  have ht3 : ∀ f ∈ w2.g.factors, (w2.fh f).wellTyped w2.nh := by
    rw [chi2Eval] at h3
    obtain ⟨w4, h4, -⟩ := Out.bind_eq_ok.mp h3
    exact forAll_evalRes_ok _ _ _ h4
  rw [chi2Eval_eq w2 ht3, Out.ok.injEq, Prod.mk.injEq] at h3
  obtain ⟨-, rfl⟩ := h3
  intro f hf
  have e1 : ((mapF (·.resd w2.nh) w2.g.factors w2).fh f).weight = (w2.fh f).weight := by
    rw [mapF_fh]; split <;> rfl
  have e2 : (w2.fh f).weight = (s.w.built.fh f).weight := by
    have := congrFun u2 f
    rw [this]
    change (s.w.built.syncAux.fh f).weight = _
    rw [syncAux_eq]
  change 0 ≤ ((mapF (·.resd w2.nh) w2.g.factors w2).fh f).weight
  rw [e1, e2, built_fh hf]
  exact robustWeight_nonneg _ (hw f hf) (Real.sqrt_nonneg _)

theorem LMRun.weight {env : Env} {maxIters iter : ℕ} {s : FGraphSolve} {r : LMResult} (h : LMRun env maxIters iter s r)
    (hw : ∀ f ∈ s.w.g.factors, 0 ≤ (s.w.fh f).weight) : ∀ f ∈ s.w.g.factors, 0 ≤ (r.s.w.fh f).weight := by
  have hrej : ∀ (s : FGraphSolve) f, (s.reject.w.fh f).weight = (s.w.fh f).weight := fun s f => by
    change (s.w.syncState.fh f).weight = _
    rw [syncState_eq]
  have hg : ∀ {s s' : FGraphSolve} {d : ℝ}, s.trial env = .ok (d, s') → s'.w.g = s.w.g := fun h => (trial_ok h).1.g
  have hgr : ∀ s : FGraphSolve, s.reject.w.g = s.w.g := fun s => (reject_frame s).factors.g
  induction h with
  | rejectLast h1 => intro f hf; rw [hrej]; exact trial_weight h1 hw f hf
  | @rejectNext _ s _ s' _ h1 _ _ _ ih =>
    intro f hf
    refine ih (fun f hf => ?_) f (by rw [hgr, hg h1]; exact hf)
    rw [hrej]
    rw [hgr, hg h1] at hf
    exact trial_weight h1 hw f hf
  | converged h1 => exact trial_weight h1 hw
  | @acceptLast _ s _ s' h1 => exact fun f hf => (trial_weight h1 hw f hf : 0 ≤ (s'.w.fh f).weight)
  | @acceptNext _ s _ s' _ h1 _ _ _ _ ih =>
    intro f hf
    have hg' : s'.w.g = s.w.g := hg h1
    refine ih (fun f hf => ?_) f (by change f ∈ s'.w.g.factors; rw [hg']; exact hf)
    change f ∈ s'.w.g.factors at hf
    rw [hg'] at hf
    exact trial_weight h1 hw f hf

/-- Robust weights stay nonnegative. -/
theorem solve_weight {env : Env} {method : Method} {maxIters : ℕ} {lambda tol : ℝ} {s s' : FGraphSolve}
    (h : s.solve env method maxIters lambda tol = .ok s') (hw : ∀ f ∈ s.w.g.factors, 0 ≤ (s.w.fh f).weight) :
    ∀ f ∈ s.w.g.factors, 0 ≤ (s'.w.fh f).weight := by
  cases method with
  | GN =>
    change ((gaussNewton env false _) >>= fun s => s.update) = _ at h
    obtain ⟨s1, h1, h⟩ := Out.bind_eq_ok.mp h
    obtain ⟨a, dx, -, -, -, rfl⟩ := gaussNewton_ok h1
    obtain ⟨w, h2, rfl⟩ := update_ok h
    obtain ⟨-, u2, -, -⟩ := updateNodes_ok _ _ _ _ _ h2
    intro f hf
    change 0 ≤ (w.fh f).weight
    rw [congrFun u2 f]
    change 0 ≤ (s.w.built.fh f).weight
    rw [built_fh hf]
    exact robustWeight_nonneg _ (hw f hf) (Real.sqrt_nonneg _)
  | LM =>
    change (levenbergMarquardt env maxIters _ >>= fun r => Out.ok r.s) = _ at h
    obtain ⟨r, h1, h⟩ := Out.bind_eq_ok.mp h
    rw [Out.ok.injEq] at h
    subst h
    exact (lmLoop_run _ _ _ _ rfl h1).weight hw

end FGraphSolve

end Mrob
