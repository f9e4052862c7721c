import Verif.Lemmas.Quiet
import Verif.Props.Solve
import Verif.Props.PlanePy

/-!
# C108: asking for the error does not change the result

Programs print the error between two steps.  For graphs this is harmless: `chi2()` stores residuals in the factors, but
every later optimisation recomputes them.  For planes it is harmless directly before an optimisation, but not while
points are still being added.
-/

open Matrix

namespace Mrob

open World

/-- The calls of a program with the calls of `chi2()` taken out. -/
def Spec.withoutChi2 : List FGraphSolve.Op → List FGraphSolve.Op
  | [] => []
  | .chi2 :: ops => withoutChi2 ops
  | op :: ops => op :: withoutChi2 ops

theorem withoutChi2_eq (ops : List FGraphSolve.Op) :
    Spec.withoutChi2 ops = ops.filter fun op => !op.isChi2 := by
  induction ops with
  | nil => rfl
  | cons op ops ih =>
    cases op with
    | graph g => rw [Spec.withoutChi2, ih, List.filter_cons_of_pos rfl]; simp
    | solve env m k l t => rw [Spec.withoutChi2, ih, List.filter_cons_of_pos rfl]; simp
    | chi2 => rw [Spec.withoutChi2, ih, List.filter_cons_of_neg (by simp [FGraphSolve.Op.isChi2])]

/-- C108: asking twice gives the same value and leaves the same objects as asking once. -/
theorem C108_again (w w' : World) (c : ℝ) (h : w.chi2Eval = .ok (c, w')) : w'.chi2Eval = .ok (c, w') :=
  (World.quiet_chi2 h).chi2Eval.trans h

/-- C108: a call of `chi2()` before an optimisation, of either method and with any arguments, leaves its outcome as it is:
the same objects, or the same failure. -/
theorem C108_solve (env : Env) (s : FGraphSolve) (c : ℝ) (w' : World) (h : s.w.chi2Eval = .ok (c, w')) (m : FGraphSolve.Method)
    (maxIters : ℕ) (lambda tol : ℝ) :
    ({ s with w := w' } : FGraphSolve).solve env m maxIters lambda tol = s.solve env m maxIters lambda tol :=
  FGraphSolve.Quiet.solve ⟨World.quiet_chi2 h, rfl⟩ env m maxIters lambda tol

/-- C108: a whole program and the program without its calls of `chi2()` end with the same graph and the same states of all
nodes, the same matrices and settings, the same answer to a further `chi2()`, and the same outcome of every further
optimisation. -/
theorem C108_history (ops : List FGraphSolve.Op) (s s₁ : FGraphSolve) (h : FGraphSolve.run ops s = .ok s₁) :
    ∃ s₂, FGraphSolve.run (Spec.withoutChi2 ops) s = .ok s₂ ∧ s₂.w.nh = s₁.w.nh ∧ s₂.w.g = s₁.w.g ∧
      s₂.w.estimatedState = s₁.w.estimatedState ∧ s₂.lambda = s₁.lambda ∧ s₂.tol = s₁.tol ∧ s₂.sys = s₁.sys ∧
      s₂.mats = s₁.mats ∧ s₂.w.chi2Eval = s₁.w.chi2Eval ∧
      ∀ env m k l t, s₂.solve env m k l t = s₁.solve env m k l t := by
  obtain ⟨s₂, h2, hq⟩ := FGraphSolve.Quiet.run (FGraphSolve.Quiet.refl s) h
  have hr := hq.rest
  refine ⟨s₂, by rw [withoutChi2_eq]; exact h2, hq.w.nh, hq.w.g, ?_, ?_, ?_, ?_, ?_, hq.w.chi2Eval, fun env m k l t => hq.solve env m k l t⟩
  · rw [estimatedState, estimatedState, hq.w.nh, hq.w.g]
  all_goals rw [hr]

/-- A program that asks before and after an optimisation, and which does return. -/
example : ∃ s', FGraphSolve.run [.graph (.addNode 0), .graph (.addNode 1), .graph (.addFactor 0), .graph (.addFactor 1),
      .chi2, .solve Env.exact .LM 10 1 1e-3, .chi2] ⟨Demo.lmWorld₀, 1e-6, 1e-2, ⟨0, 0, 0, 0⟩, ⟨0, 0, 0, 0, 0⟩⟩ = .ok s' ∧
    Spec.withoutChi2 [.graph (.addNode 0), .graph (.addNode 1), .graph (.addFactor 0), .graph (.addFactor 1),
      .chi2, .solve Env.exact .LM 10 1 1e-3, .chi2] = [.graph (.addNode 0), .graph (.addNode 1), .graph (.addFactor 0),
      .graph (.addFactor 1), .solve Env.exact .LM 10 1 1e-3] := by
  have h0 := chi2Eval_eq Demo.lmWorld Demo.lm_wellPosed.wired.typed
  obtain ⟨r, hr⟩ := FGraphSolve.lmLoop_total Env.exact_complete 10 10 0
    ⟨Demo.lmWorld, 1e-5, 1e-3, ⟨0, 0, 0, 0⟩, ⟨0, 0, 0, 0, 0⟩⟩ rfl Demo.lm_wellPosed (by norm_num)
  have hF := (FGraphSolve.lmLoop_run _ _ _ _ rfl hr).frame
  have he := chi2Eval_eq r.s.w (hF.wellTyped Demo.lm_wellPosed.wired.typed)
  have hs := C108_solve Env.exact ⟨Demo.lmWorld, 1e-6, 1e-2, ⟨0, 0, 0, 0⟩, ⟨0, 0, 0, 0, 0⟩⟩ _ _ h0 .LM 10 1 1e-3
  have hl : FGraphSolve.solve Env.exact .LM 10 1 1e-3 ⟨Demo.lmWorld, 1e-6, 1e-2, ⟨0, 0, 0, 0⟩, ⟨0, 0, 0, 0, 0⟩⟩ = .ok r.s := by
    change (FGraphSolve.lmLoop Env.exact 10 0 ⟨Demo.lmWorld, 1e-5, 1e-3, ⟨0, 0, 0, 0⟩, ⟨0, 0, 0, 0, 0⟩⟩ >>= fun r => Out.ok r.s) = _
    rw [hr, Out.ok_bind]
  rw [hl] at hs
  refine ⟨{ r.s with w := mapF (·.resd r.s.w.nh) r.s.w.g.factors r.s.w }, ?_, rfl⟩
  change ((Demo.lmWorld.chi2Eval >>= _) >>= _) = _
  rw [h0, Out.ok_bind, Out.ok_bind]
  change (FGraphSolve.solve Env.exact .LM 10 1 1e-3 ⟨_, 1e-6, 1e-2, ⟨0, 0, 0, 0⟩, ⟨0, 0, 0, 0, 0⟩⟩ >>= _) = _
  rw [hs, Out.ok_bind]
  change (r.s.w.chi2Eval >>= _) >>= _ = _
  rw [he]
  rfl

/-- C108 for the dense solver of graphs: a call of `calculate_error()` before `solve` leaves its outcome as it is. -/
theorem C108_dense (s s' : OptDense World) (c : ℝ) (h : s.error denseGraph = .ok (c, s')) (m : OptMethod) (maxIters : ℕ)
    (lambda : ℝ) : s'.solve denseGraph m maxIters lambda = s.solve denseGraph m maxIters lambda :=
  OptDense.solve_error denseGraph_twice h m maxIters lambda

/-- C108 for the registration of planes: a call of `get_current_error()` directly before `solve` leaves its outcome as it
is, for every mode, and a second call of `get_current_error()` gives the same value.  Missing: points added after the
call, see `C108_fails`. -/
theorem C108_plane_partial (e : EigSolver) (svd : Mat3 → SVD3) (s : OptDense PlaneReg) (c : ℝ) (o : PlaneReg)
    (h : s.obj.error e = .ok (c, o)) (mode : SolveMode) (single : Bool) :
    PlaneReg.solve e svd mode single { s with obj := o } = PlaneReg.solve e svd mode single s ∧ o.error e = .ok (c, o) := by
  constructor
  · rw [PlaneReg.solve, PlaneReg.solve]
    dsimp only
    rw [PlaneReg.error_twice h mode]
  · have hm : o.mode = s.obj.mode := by
      obtain ⟨ps, hps⟩ := PlaneReg.error_frame h
      have := congrArg PlaneReg.mode hps; exact this
    have := PlaneReg.error_twice h o.mode
    rw [hm] at this
    refine Eq.trans ?_ (this.trans h)
    rw [← hm]

/-- C108 fails for the registration of planes: two programs that differ only in a call of `get_error()` end with
different answers to `get_error()`, one zero and one positive. -/
theorem C108_fails (e : EigSolver) (he : e.Sound) (eig6 : Mat6 → EigDec I6 6) (svd : Mat3 → SVD3) :
    ∃ (before after : List PlanePy.Call) (s s' : PlanePy) (o o' : PlaneReg) (err : ℝ),
      PlanePy.run e eig6 svd (before ++ .error :: after) PlanePy.new = .ok s ∧
      PlanePy.run e eig6 svd (before ++ after) PlanePy.new = .ok s' ∧
      s.opt.obj.error e = .ok (0, o) ∧ s'.opt.obj.error e = .ok (err, o') ∧ 0 < err := by
  obtain ⟨s, s', h1, h2, -, -, ⟨o, h3⟩, err, o', h4, h5⟩ := C78_stale_fails e he eig6 svd
  exact ⟨[.setNumbers 1 1, .addPlane 0, .pushPoint 0 0 corner0, .pushPoint 0 0 corner1, .pushPoint 0 0 corner2],
    [.pushPoint 0 0 corner3], s, s', o, o', err, h1, h2, h3, h4, h5⟩

end Mrob
