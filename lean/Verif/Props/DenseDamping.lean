import Verif.Lemmas.DenseDamping
import Verif.Props.Optimizer

/-!
# C89: the damping of the dense optimizer
-/

open Matrix

namespace Mrob

open Spec OptDense

/-- C89: every iteration of the Levenberg-Marquardt methods of `Optimizer` saves the state, moves it by the unique minimiser
of the damped quadratic model, and evaluates the error there.  The next iteration starts from the saved state with twice the
damping when the error grew; otherwise from the new state, with twice the damping when the error fell by less than a quarter
of what the model expected, with a quarter of it when it fell by more than 80 percent of that, and else with the same. -/
theorem C89_iteration {σ : Type} (P : DenseProblem σ) (s s1 : OptDense σ) (cur : ℝ) (hl : 0 ≤ s.lambda)
    (h : s.lmStep P = .ok (cur, s1)) : ∃ (o1 o2 o3 : σ) (e : NormalEq) (step : Fin e.N → ℝ),
      P.bookkeep s.obj = .ok o1 ∧ P.gradHess o1 = .ok (e, o2) ∧ P.update e.N step o2 = .ok o3 ∧
      P.error o3 = .ok (cur, s1.obj) ∧
      (e.H.PosSemidef →
        (∀ δ, δ ≠ step → expected s.method s.lambda e.H e.grad step < expected s.method s.lambda e.H e.grad δ) ∧
        ∀ (maxIters iters : ℕ) (prev : ℝ), iters + 1 < maxIters →
          (∀ o, prev < cur → P.restore s1.obj = .ok o → ∃ s2 : OptDense σ, s2.obj = o ∧ s2.tol = s.tol ∧
            s2.lambda = s.lambda * 2 ∧ lmLoop P maxIters iters prev s = lmLoop P maxIters (iters + 1) prev s2) ∧
          (cur ≤ prev → s.tol ≤ prev - cur → ∃ s2 : OptDense σ, s2.obj = s1.obj ∧ s2.tol = s.tol ∧
            s2.lambda = (if prev - cur < -expected s.method s.lambda e.H e.grad step / 4 then s.lambda * 2
              else if prev - cur > 0.8 * -expected s.method s.lambda e.H e.grad step then s.lambda / 4 else s.lambda) ∧
            lmLoop P maxIters iters prev s = lmLoop P maxIters (iters + 1) cur s2)) := by
  obtain ⟨o1, o2, o3, e, h1, h2, hu, h3, h4, h5, h6, h7⟩ := lmStep_parts h
  refine ⟨o1, o2, o3, e, _, h1, h2, h3, h4, fun hH => ⟨fun δ hδ => ?_, fun maxIters iters prev hi => ⟨fun o hd ho => ?_,
    fun hd ht => ?_⟩⟩⟩
  · rw [expected_step s.method hl hH hu e.grad δ]
    have h8 : δ + (damp s.method s.lambda e.H)⁻¹ *ᵥ e.grad ≠ 0 := fun h0 => hδ (eq_neg_of_add_eq_zero_left h0)
    have h9 := (damp_posDef s.method hl hH hu).dotProduct_mulVec_pos h8
    rw [star_trivial] at h9
    linarith
  · refine ⟨{ s1 with lambda := s1.lambda * 2, obj := o }, rfl, h6, by rw [← h5], ?_⟩
    rw [lmLoop, h, Out.ok_bind]
    dsimp only
    rw [if_pos (by linarith), reject, ho, Out.ok_bind, Out.ok_bind, if_pos hi]
  · refine ⟨s1.adapt (prev - cur), rfl, h6, ?_, ?_⟩
    · change FGraphSolve.nextLambda s1.lambda (prev - cur)
        (-(s1.sys.dx ⬝ᵥ s1.sys.b) - 0.5 * (s1.sys.dx ⬝ᵥ (s1.sys.L *ᵥ s1.sys.dx))) = _
      rw [h7, h5]
      dsimp only
      have h8 : -((-((damp s.method s.lambda e.H)⁻¹ *ᵥ e.grad)) ⬝ᵥ e.grad) -
          0.5 * ((-((damp s.method s.lambda e.H)⁻¹ *ᵥ e.grad)) ⬝ᵥ (damp s.method s.lambda e.H *ᵥ
            (-((damp s.method s.lambda e.H)⁻¹ *ᵥ e.grad)))) =
          -expected s.method s.lambda e.H e.grad (-((damp s.method s.lambda e.H)⁻¹ *ᵥ e.grad)) := by
        rw [expected_eq, dotProduct_comm e.grad]
        ring
      rw [h8]
      refine FGraphSolve.nextLambda_eq (by linarith) ?_
      have h9 := expected_step s.method hl hH hu e.grad 0
      have h10 : expected s.method s.lambda e.H e.grad 0 = 0 := by
        rw [expected_eq]; simp
      have h11 := (damp_psd s.method hl hH).dotProduct_mulVec_nonneg (0 + (damp s.method s.lambda e.H)⁻¹ *ᵥ e.grad)
      rw [star_trivial] at h11
      rw [h10] at h9
      linarith
    · rw [lmLoop, h, Out.ok_bind]
      dsimp only
      rw [if_neg (by linarith), if_neg (by rw [h6]; linarith), if_pos hi]

/-- The parabola `(x - 3)²` at `x = 5` with damping 2. -/
noncomputable def Demo.damped5 : OptDense (ℝ × ℝ) := ⟨(5, 0), .lmSpher, 1e-4, 100, 2, ⟨0, 0, 0, 0⟩⟩

/-- The iteration moves to `x = 4`. -/
theorem Demo.damped5_step : ∃ s1, Demo.damped5.lmStep Demo.parabola = .ok (1, s1) := by
  classical
  have hH : damp .lmSpher 2 (!![(2 : ℝ)] : Matrix (Fin 1) (Fin 1) ℝ) = !![4] := by
    ext i j; fin_cases i; fin_cases j; simp [damp]; norm_num
  have hdet : IsUnit (!![(4 : ℝ)] : Matrix (Fin 1) (Fin 1) ℝ).det := by
    rw [Matrix.det_fin_one]; simp
  have hdx : (-((!![(4 : ℝ)] : Matrix (Fin 1) (Fin 1) ℝ)⁻¹ *ᵥ ![4])) = ![-1] := by
    have key : ∀ v : Fin 1 → ℝ, v = !![(4 : ℝ)] *ᵥ ![1] → -((!![(4 : ℝ)] : Matrix (Fin 1) (Fin 1) ℝ)⁻¹ *ᵥ v) = ![-1] := by
      rintro _ rfl
      rw [Matrix.mulVec_mulVec, Matrix.nonsing_inv_mul _ hdet, Matrix.one_mulVec]
      ext i; fin_cases i; simp
    refine key _ ?_
    ext i; fin_cases i; simp [Matrix.mulVec, dotProduct]
  have hg : (![2 * ((5 : ℝ) - 3)] : Fin 1 → ℝ) = ![4] := by norm_num
  have hstep : oneIteration Demo.parabola true { Demo.damped5 with obj := (5, 5) } =
      .ok { Demo.damped5 with obj := (4, 5), sys := ⟨1, !![4], ![4], ![-1]⟩ } := by
    rw [oneIteration]
    change (if IsUnit (damp .lmSpher 2 (!![(2 : ℝ)] : Matrix (Fin 1) (Fin 1) ℝ)).det then _ else _) = _
    simp only [Demo.parabola, Demo.damped5, hH, if_pos hdet, if_true, hg, hdx]
    rw [dif_pos one_pos, Out.ok_bind, Out.pure_eq]
    norm_num
  refine ⟨{ Demo.damped5 with obj := (4, 5), sys := ⟨1, !![4], ![4], ![-1]⟩ }, ?_⟩
  rw [lmStep]
  change (Out.ok ((5 : ℝ), (5 : ℝ))) >>= _ = _
  rw [Out.ok_bind, hstep, Out.ok_bind, OptDense.error]
  simp only [Demo.parabola, Out.ok_bind, Out.pure_eq]
  norm_num

/-- The error falls by 3 where the model expected 2, so the next iteration starts from 4 with damping 1/2. -/
example : ∃ s2 : OptDense (ℝ × ℝ), s2.obj = (4, 5) ∧ s2.lambda = 1 / 2 ∧
    lmLoop Demo.parabola 100 0 4 Demo.damped5 = lmLoop Demo.parabola 100 1 1 s2 := by
  obtain ⟨s1, h⟩ := Demo.damped5_step
  obtain ⟨o1, o2, o3, e, step, h1, h2, h3, h4, h5⟩ := C89_iteration Demo.parabola Demo.damped5 s1 1
    (by norm_num [Demo.damped5]) h
  simp only [Demo.parabola, Demo.damped5, Out.ok.injEq] at h1
  subst h1
  simp only [Demo.parabola, Out.ok.injEq, Prod.mk.injEq] at h2
  obtain ⟨rfl, rfl⟩ := h2
  have hH : (!![(2 : ℝ)] : Matrix (Fin 1) (Fin 1) ℝ).PosSemidef := by
    have := Matrix.PosSemidef.one (n := Fin 1) (R := ℝ) |>.smul (show (0 : ℝ) ≤ 2 by norm_num)
    convert this using 1
    ext i j; fin_cases i; fin_cases j; simp
  obtain ⟨h6, h7⟩ := h5 hH
  have hx : ∀ δ : Fin 1 → ℝ, expected .lmSpher 2 (!![(2 : ℝ)] : Matrix (Fin 1) (Fin 1) ℝ) ![2 * ((5 : ℝ) - 3)] δ =
      4 * δ 0 + 2 * δ 0 ^ 2 := by
    intro δ
    simp [expected, penalty]
    ring
  have hs : step = ![-1] := by
    by_contra hne
    have h8 := h6 ![-1] (Ne.symm hne)
    simp only [Demo.damped5] at h8
    rw [hx, hx] at h8
    have : (4 * (![(-1 : ℝ)] : Fin 1 → ℝ) 0 + 2 * (![(-1 : ℝ)] : Fin 1 → ℝ) 0 ^ 2) = -2 := by norm_num
    rw [this] at h8
    nlinarith [sq_nonneg (step 0 + 1)]
  subst hs
  obtain ⟨s2, h8, -, h9, h10⟩ := (h7 100 0 4 (by norm_num)).2 (by norm_num) (by norm_num [Demo.damped5])
  simp only [Demo.parabola] at h3
  rw [dif_pos one_pos, Out.ok.injEq] at h3
  subst h3
  simp only [Demo.parabola, Out.ok.injEq, Prod.mk.injEq] at h4
  refine ⟨s2, ?_, ?_, h10⟩
  · rw [h8, ← h4.2]; norm_num
  · rw [h9]
    have h11 : expected Demo.damped5.method Demo.damped5.lambda (!![(2 : ℝ)] : Matrix (Fin 1) (Fin 1) ℝ)
        ![2 * ((5 : ℝ) - 3)] ![-1] = -2 := (hx ![-1]).trans (by norm_num)
    rw [if_neg (by erw [h11]; norm_num), if_pos (by erw [h11]; norm_num)]
    norm_num [Demo.damped5]

end Mrob
