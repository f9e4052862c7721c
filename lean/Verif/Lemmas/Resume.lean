import Verif.Lemmas.DemoParts

/-! # Interrupting and resuming the loop of Levenberg-Marquardt -/

open Matrix

namespace Mrob

open World Spec

namespace FGraphSolve

/-- The result of a run that starts `k` iterations later. -/
def LMResult.shift (k : ℕ) (r : LMResult) : LMResult := ⟨if r.ret = 0 then 0 else k + r.ret, k + r.iters, r.s⟩

theorem lmLoop_shift (env : Env) (k m : ℕ) : ∀ (j i : ℕ) (s : FGraphSolve), m - i = j →
    lmLoop env (k + m) (k + i) s = lmLoop env m i s >>= fun r => .ok (r.shift k) := by
  intro j
  induction j using Nat.strong_induction_on with
  | _ j ih =>
    intro i s hj
    rw [lmLoop, lmLoop]
    cases s.trial env with
    | ok p =>
      obtain ⟨delta, s'⟩ := p
      rw [Out.ok_bind, Out.ok_bind]
      dsimp only
      by_cases hi : i + 1 < m
      · have hi' : k + i + 1 < k + m := by omega
        rw [if_pos hi, if_pos hi, if_pos hi', if_pos hi', add_assoc]
        split_ifs
        · exact ih _ (by omega) (i + 1) _ rfl
        · simp [LMResult.shift, Out.ok_bind, add_assoc]
        · exact ih _ (by omega) (i + 1) _ rfl
      · have hi' : ¬ k + i + 1 < k + m := by omega
        rw [if_neg hi, if_neg hi, if_neg hi', if_neg hi']
        split_ifs <;> simp [LMResult.shift, Out.ok_bind, add_assoc]
    | nan => rfl
    | ub => rfl
    | throw => rfl

/-- A longer limit continues a run that did not converge. -/
theorem lmLoop_longer (env : Env) (m k : ℕ) (hk : 0 < k) : ∀ (j i : ℕ) (s : FGraphSolve) (r : LMResult), m - i = j → i < m →
    lmLoop env m i s = .ok r → lmLoop env (m + k) i s = if r.ret = 0 then lmLoop env (m + k) m r.s else .ok r := by
  intro j
  induction j using Nat.strong_induction_on with
  | _ j ih =>
    intro i s r hj him h
    rw [lmLoop] at h ⊢
    obtain ⟨⟨delta, s'⟩, h1, h⟩ := Out.bind_eq_ok.mp h
    rw [h1, Out.ok_bind]
    dsimp only at h ⊢
    have hlt : i + 1 < m + k := by omega
    rw [if_pos hlt, if_pos hlt]
    by_cases c1 : delta < 0
    · rw [if_pos c1] at h ⊢
      by_cases hi : i + 1 < m
      · rw [if_pos hi] at h
        exact ih _ (by omega) (i + 1) _ r rfl hi h
      · rw [if_neg hi] at h
        cases h
        rw [if_pos rfl, show i + 1 = m by omega]
    · rw [if_neg c1] at h ⊢
      by_cases c2 : delta < s'.tol
      · rw [if_pos c2] at h ⊢
        cases h
        rw [if_neg (by simp)]
      · rw [if_neg c2] at h ⊢
        by_cases hi : i + 1 < m
        · rw [if_pos hi] at h
          exact ih _ (by omega) (i + 1) _ r rfl hi h
        · rw [if_neg hi] at h
          cases h
          rw [if_pos rfl, show i + 1 = m by omega]

end FGraphSolve

namespace Demo

theorem unit_only : OnlyPrior unitWorld 0 0 1 1 := by
  classical
  refine ⟨List.mem_singleton.mpr rfl, ?_, rfl, fun V x y => ?_⟩
  · rw [one_smul]; rfl
  · have h : Touches (· = 0) (fun _ => False) (unitWorld.fh 0) := ⟨0, List.mem_singleton.mpr rfl, rfl, fun h => h⟩
    unfold partSum
    rw [unit_factors]
    simp [h]

/-- After the first trial the damping is divided by four. -/
theorem unit_adapt {env : Env} (henv : env.Sound) {s s' : FGraphSolve} {delta : ℝ} (hs : s.w = unitWorld) (hl : 0 < s.lambda)
    (h : s.trial env = .ok (delta, s')) : (s'.adapt delta).lambda = s.lambda * 0.25 := by
  have hv := unit_trial henv hs hl h
  have hd := (FGraphSolve.trial_ok h).2.2.2.2.2.1
  have hsl : s'.lambda = s.lambda := (FGraphSolve.trial_ok h).2.1
  have h0 : s.w.cost = (0 - 1) ^ 2 / 2 := by
    rw [hs]
    refine unit_cost_at (Frame.refl _) (a := 0) ?_
    change (⟨.pose2d, (0 : Vec3)⟩ : NodeVal) = _
    have : (0 : Vec3) = ![0, 0, 0] := by funext i; fin_cases i <;> rfl
    rw [this]
  rw [h0, unit_cost_at (by rw [← hs]; exact FGraphSolve.trial_frame h) hv] at hd
  obtain ⟨w, lambda, tol, sys, mats⟩ := s
  dsimp only at hs hl hd hsl ⊢
  subst hs
  obtain ⟨x, h1, -, h3, -⟩ := FGraphSolve.trial_model henv unit_wellPosed h
  dsimp only at h1 h3
  have hx : x ⟨⟨0, List.mem_singleton.mpr rfl⟩, (0 : Fin 3)⟩ = -1 / (1 + lambda) := by
    have := congrFun h1 ⟨⟨0, List.mem_singleton.mpr rfl⟩, (0 : Fin 3)⟩
    rw [unit_vector, Pi.add_apply, unit_matrix, Pi.smul_apply, smul_eq_mul] at this
    have e' : unitWorld.spread x 0 (0 : Fin 3) = x ⟨⟨0, List.mem_singleton.mpr rfl⟩, (0 : Fin 3)⟩ :=
      spread_apply x ⟨⟨0, List.mem_singleton.mpr rfl⟩, (0 : Fin 3)⟩
    rw [e'] at this
    have e2 : (![-1, 0, 0] : Vec3) 0 = -1 := rfl
    rw [e2] at this
    rw [eq_div_iff (by positivity)]
    linarith
  have hdot : x ⬝ᵥ infoVector (graphTerms unitWorld) = 1 / (1 + lambda) := by
    rw [dotProduct, Finset.sum_eq_single ⟨⟨0, List.mem_singleton.mpr rfl⟩, (0 : Fin 3)⟩, hx, unit_vector]
    · have e2 : (![-1, 0, 0] : Vec3) 0 = -1 := rfl
      rw [e2]; ring
    · rintro ⟨⟨n, hn⟩, k⟩ - hk
      obtain rfl : n = 0 := List.mem_singleton.mp hn
      have hv' := unit_vector k
      rw [hv']
      have hk0 : k ≠ (0 : Fin 3) := fun h => hk (by rw [h])
      have e3 : ∀ k : Fin 3, k ≠ 0 → (![-1, 0, 0] : Vec3) k = 0 := by
        intro k hk; fin_cases k <;> simp at hk ⊢
      rw [e3 k hk0, mul_zero]
    · exact fun h => absurd (Finset.mem_univ _) h
  rw [hdot] at h3
  rw [FGraphSolve.adapt]
  dsimp only
  rw [h3, hsl, FGraphSolve.nextLambda]
  have hp : (0 : ℝ) < 1 + lambda := by positivity
  have hq : delta / (1 / (1 + lambda) / 2) = (1 + 2 * lambda) / (1 + lambda) := by
    rw [hd]; field_simp; ring
  have h4 : (0.8 : ℝ) < (1 + 2 * lambda) / (1 + lambda) := by
    rw [lt_div_iff₀ hp]; linarith
  rw [if_neg (by positivity), hq, if_neg (by linarith), if_pos h4]

end Demo

end Mrob
