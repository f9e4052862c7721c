import Verif.Lemmas.DemoLM

/-!
# C35, C37–C42: the solver loops
-/

open Matrix

namespace Mrob

open World

/-! ### C35 -/

/-- The calls on the graph in a history. -/
def graphOps (ops : List FGraphSolve.Op) : List GraphOp := ops.filterMap fun | .graph op => some op | _ => none

/-- C35: whatever is added to the graph and however often it is solved (with any linear solver, with any outcome that
returns), a node that is an ANCHOR when it is added keeps its state, as long as its mode is not changed. -/
theorem C35_anchor (ops : List FGraphSolve.Op) (s s' : FGraphSolve) (h : FGraphSolve.run ops s = .ok s') (n : NRef)
    (hn : n ∉ s.w.g.active) (hm : (s.w.nh n).mode = .anchor) (hset : ∀ m, .setMode n m ∉ graphOps ops) :
    (s'.w.nh n).val = (s.w.nh n).val := by
  induction ops generalizing s with
  | nil =>
    rw [FGraphSolve.run, Out.ok.injEq] at h
    rw [h]
  | cons op ops ih =>
    rw [FGraphSolve.run] at h
    obtain ⟨s1, h1, h⟩ := Out.bind_eq_ok.mp h
    have hset' : ∀ m, .setMode n m ∉ graphOps ops := by
      intro m hmem
      refine hset m ?_
      obtain ⟨o, ho, h2⟩ := List.mem_filterMap.mp hmem
      exact List.mem_filterMap.mpr ⟨o, List.mem_cons_of_mem _ ho, h2⟩
    suffices hs : n ∉ s1.w.g.active ∧ (s1.w.nh n).mode = .anchor ∧ (s1.w.nh n).val = (s.w.nh n).val from
      (ih s1 h hs.1 hs.2.1 hset').trans hs.2.2
    have hfr : ∀ {w w' : World}, Frame w w' → n ∉ w.g.active → (w.nh n).mode = .anchor →
        n ∉ w'.g.active ∧ (w'.nh n).mode = .anchor ∧ (w'.nh n).val = (w.nh n).val := by
      intro w w' hF h2 h3
      refine ⟨by rw [hF.factors.g]; exact h2, by rw [(hF.active n).mode]; exact h3, by rw [hF.inactive n h2]⟩
    cases op with
    | graph o =>
      rw [FGraphSolve.Op.run, Out.ok.injEq] at h1
      subst h1
      refine ⟨?_, ?_, (run_nh_static [o] s.w n).1⟩
      · change n ∉ (o.run s.w).g.active
        cases o with
        | addNode m =>
          rw [GraphOp.run, addNode_active]
          by_cases hnm : n = m
          · subst hnm
            rw [if_neg (by rw [hm]; simp)]
            exact hn
          · split
            · simp [hn, hnm]
            · exact hn
        | addFactor f => rw [GraphOp.run, addFactor_active]; exact hn
        | addEigenFactor f => rw [GraphOp.run, addEigenFactor_active]; exact hn
        | setMode m md => exact hn
      · change ((o.run s.w).nh n).mode = _
        cases o with
        | addNode m =>
          rw [GraphOp.run, addNode_nh]
          by_cases hnm : n = m
          · subst hnm; rw [Function.update_self]; exact hm
          · rw [Function.update_of_ne hnm]; exact hm
        | addFactor f => rw [GraphOp.run, addFactor_nh]; exact hm
        | addEigenFactor f => rw [GraphOp.run, addEigenFactor_nh]; exact hm
        | setMode m md =>
          rw [GraphOp.run, setMode_nh]
          by_cases hnm : n = m
          · subst hnm
            exact absurd List.mem_cons_self (hset md)
          · rw [if_neg hnm]; exact hm
    | solve env m k l t => exact hfr (FGraphSolve.solve_frame h1) hn hm
    | chi2 =>
      rw [FGraphSolve.Op.run] at h1
      obtain ⟨⟨c, w'⟩, h2, h3⟩ := Out.bind_eq_ok.mp h1
      rw [Out.ok.injEq] at h3
      subst h3
      exact hfr (FGraphSolve.chi2Eval_frame h2) hn hm

/-- A history with an anchor, a moving node, factors and solves, which does return. -/
example : ∃ s', FGraphSolve.run [.graph (.addNode 0), .graph (.addNode 1), .graph (.addFactor 0), .graph (.addFactor 1),
      .solve Env.exact .LM 10 1 1e-3, .chi2] ⟨Demo.lmWorld₀, 1e-6, 1e-2, ⟨0, 0, 0, 0⟩, ⟨0, 0, 0, 0, 0⟩⟩ = .ok s' ∧
    1 ∉ Demo.lmWorld₀.g.active ∧ (Demo.lmWorld₀.nh 1).mode = .anchor ∧ (s'.w.nh 1).val = ⟨.pose2d, ![1, 0, 0]⟩ := by
  obtain ⟨r, hr⟩ := FGraphSolve.lmLoop_total Env.exact_complete 10 10 0
    ⟨Demo.lmWorld, 1e-5, 1e-3, ⟨0, 0, 0, 0⟩, ⟨0, 0, 0, 0, 0⟩⟩ rfl Demo.lm_wellPosed (by norm_num)
  have hF := (FGraphSolve.lmLoop_run _ _ _ _ rfl hr).frame
  have he := chi2Eval_eq r.s.w (hF.wellTyped Demo.lm_wellPosed.wired.typed)
  have hrun : FGraphSolve.run [.graph (.addNode 0), .graph (.addNode 1), .graph (.addFactor 0), .graph (.addFactor 1),
      .solve Env.exact .LM 10 1 1e-3, .chi2] ⟨Demo.lmWorld₀, 1e-6, 1e-2, ⟨0, 0, 0, 0⟩, ⟨0, 0, 0, 0, 0⟩⟩ =
      .ok { r.s with w := mapF (·.resd r.s.w.nh) r.s.w.g.factors r.s.w } := by
    change (FGraphSolve.lmLoop Env.exact 10 0 ⟨Demo.lmWorld, 1e-5, 1e-3, ⟨0, 0, 0, 0⟩, ⟨0, 0, 0, 0, 0⟩⟩ >>= fun r => Out.ok r.s) >>= _ = _
    rw [hr, Out.ok_bind, Out.ok_bind]
    change (r.s.w.chi2Eval >>= _) >>= _ = _
    rw [he]
    rfl
  exact ⟨_, hrun, by simp [Demo.lmWorld₀, emptyGraph], rfl,
    C35_anchor _ _ _ hrun 1 (by simp [Demo.lmWorld₀, emptyGraph]) rfl (by simp [graphOps])⟩

/-! ### C37 -/

/-- C37: for graphs made of the factor classes of the library, whatever the linear solver returns, `chi2(true)` after
`solve(LM)` is not larger than before. -/
theorem C37_never_worse (env : Env) (s s' : FGraphSolve) (maxIters : ℕ) (lambda tol : ℝ)
    (hl : ∀ f ∈ s.w.g.factors, (s.w.fh f).virt.Library) (h : s.solve env .LM maxIters lambda tol = .ok s') :
    ∃ c c' w w', s.w.chi2Eval = .ok (c, w) ∧ s'.w.chi2Eval = .ok (c', w') ∧ c' ≤ c := by
  have hF := FGraphSolve.solve_frame h
  change (FGraphSolve.levenbergMarquardt env maxIters _ >>= fun r => Out.ok r.s) = _ at h
  obtain ⟨r, h1, h2⟩ := Out.bind_eq_ok.mp h
  rw [Out.ok.injEq] at h2
  subst h2
  have hr := FGraphSolve.lmLoop_run _ _ _ _ rfl h1
  have ht : ∀ f ∈ s.w.g.factors, (s.w.fh f).wellTyped s.w.nh := by
    cases hr with
    | rejectLast h3 => have := FGraphSolve.trial_typed h3; exact this
    | rejectNext h3 => have := FGraphSolve.trial_typed h3; exact this
    | converged h3 => have := FGraphSolve.trial_typed h3; exact this
    | acceptLast h3 => have := FGraphSolve.trial_typed h3; exact this
    | acceptNext h3 => have := FGraphSolve.trial_typed h3; exact this
  exact ⟨_, _, _, _, chi2Eval_eq s.w ht, chi2Eval_eq r.s.w (hF.wellTyped ht),
    hr.cost_le fun f hf => (hl f hf).headingInvariant⟩

/-- C37: on a consistent graph with positive semidefinite information matrices, and a linear solver that succeeds on positive
definite matrices, `solve(LM)` always returns, without NaN or undefined behaviour: the damped matrix is positive definite. -/
theorem C37_returns (env : Env) (henv : env.Complete) (s : FGraphSolve) (hw : WellPosed s.w) (maxIters : ℕ)
    (lambda tol : ℝ) : ∃ s', s.solve env .LM maxIters lambda tol = .ok s' := by
  obtain ⟨r, hr⟩ := FGraphSolve.lmLoop_total henv maxIters _ 0 { s with lambda := 1e-5, tol := tol } rfl hw (by norm_num)
  refine ⟨r.s, ?_⟩
  change (FGraphSolve.levenbergMarquardt env maxIters _ >>= fun r => Out.ok r.s) = _
  change (FGraphSolve.lmLoop env maxIters 0 { s with lambda := 1e-5, tol := tol } >>= _) = _
  rw [hr, Out.ok_bind]

/-- The graph of `Demo` meets all hypotheses of C37. -/
example : Env.exact.Complete ∧ WellPosed Demo.lmSolver.w ∧
    ∀ f ∈ Demo.lmSolver.w.g.factors, (Demo.lmSolver.w.fh f).virt.Library := by
  refine ⟨Env.exact_complete, Demo.lm_wellPosed, fun f hf => ?_⟩
  have : f ∈ ([0, 1] : List ℕ) := hf
  simp at this
  rcases this with rfl | rfl
  · exact .prior2d _ _ _
  · exact .rel2d _ _ _

/-! ### C38 -/

theorem FGraphSolve.LMRun.count {env : Env} {maxIters iter : ℕ} {s : FGraphSolve} {r : FGraphSolve.LMResult}
    (h : FGraphSolve.LMRun env maxIters iter s r) :
    iter + 1 ≤ r.iters ∧ r.iters ≤ max (iter + 1) maxIters ∧ (r.ret = 0 ∨ r.ret = r.iters) ∧
    (r.ret = 0 → r.iters = max (iter + 1) maxIters) := by
  induction h with
  | rejectLast _ _ hi => dsimp only; omega
  | rejectNext _ _ hi _ ih => omega
  | converged => dsimp only; omega
  | acceptLast _ _ _ hi => dsimp only; omega
  | acceptNext _ _ _ hi _ ih => omega

theorem FGraphSolve.LMRun.last {env : Env} {maxIters iter : ℕ} {s : FGraphSolve} {r : FGraphSolve.LMResult}
    (h : FGraphSolve.LMRun env maxIters iter s r) :
    (r.ret ≠ 0 → ∃ (t : FGraphSolve) (delta : ℝ), t.trial env = .ok (delta, r.s) ∧ 0 ≤ delta ∧ delta < s.tol) ∧
    (r.ret = 0 → ∃ (t : FGraphSolve) (delta : ℝ) (s' : FGraphSolve), t.trial env = .ok (delta, s') ∧ (delta < 0 ∨ s.tol ≤ delta)) := by
  induction h with
  | rejectLast h1 h2 => exact ⟨fun h => absurd rfl h, fun _ => ⟨_, _, _, h1, Or.inl h2⟩⟩
  | rejectNext h1 _ _ _ ih =>
    have ht := (FGraphSolve.trial_ok h1).2.2.1
    rw [← ht]
    exact ih
  | converged h1 h2 h3 => exact ⟨fun _ => ⟨_, _, h1, h2, h3⟩, fun h => absurd h (Nat.succ_ne_zero _)⟩
  | acceptLast h1 _ h3 => exact ⟨fun h => absurd rfl h, fun _ => ⟨_, _, _, h1, Or.inr h3⟩⟩
  | acceptNext h1 _ _ _ _ ih =>
    have ht := (FGraphSolve.trial_ok h1).2.2.1
    rw [← ht]
    exact ih

/-- C38: between 1 and `max(1, maxIters)` iterations; the value returned by `optimize_levenberg_marquardt` is the iteration
at which the improvement was in `[0, tol)`, or 0 after all iterations have been made; the damping stays positive. -/
theorem C38_iterations (env : Env) (s : FGraphSolve) (maxIters : ℕ) (r : FGraphSolve.LMResult)
    (h : s.levenbergMarquardt env maxIters = .ok r) :
    1 ≤ r.iters ∧ r.iters ≤ max 1 maxIters ∧ (r.ret = 0 ∨ r.ret = r.iters) ∧
    (r.ret = 0 → r.iters = max 1 maxIters) ∧
    (r.ret ≠ 0 → ∃ (t : FGraphSolve) (delta : ℝ), t.trial env = .ok (delta, r.s) ∧ 0 ≤ delta ∧ delta < s.tol) ∧
    (r.ret = 0 → ∃ (t : FGraphSolve) (delta : ℝ) (s' : FGraphSolve), t.trial env = .ok (delta, s') ∧ (delta < 0 ∨ s.tol ≤ delta)) ∧
    0 < r.s.lambda := by
  have hr := FGraphSolve.lmLoop_run _ _ _ _ rfl h
  obtain ⟨h1, h2, h3, h4⟩ := hr.count
  obtain ⟨h5, h6⟩ := hr.last
  rw [Nat.zero_add] at h1 h2 h4
  refine ⟨h1, h2, h3, h4, h5, h6, hr.lambda_pos ?_⟩
  change (0 : ℝ) < 1e-5
  norm_num

/-- An execution that reaches the limit: one rejected iteration. -/
theorem Demo.lm_one : ∃ s', Demo.lmSolver.trial Env.exact = .ok (8 - s'.w.cost, s') ∧ 8 - s'.w.cost < 0 ∧
    Demo.lmSolver.levenbergMarquardt Env.exact 1 = .ok ⟨0, 1, s'.reject⟩ := by
  obtain ⟨s', h1, h2⟩ := Demo.lm_rejected
  refine ⟨s', h1, h2, ?_⟩
  have e : Demo.lmSolver.levenbergMarquardt Env.exact 1 = FGraphSolve.lmLoop Env.exact 1 0 Demo.lmSolver := rfl
  rw [e, FGraphSolve.lmLoop, h1, Out.ok_bind]
  dsimp only
  rw [if_pos h2]
  simp

example : ∃ r, Demo.lmSolver.levenbergMarquardt Env.exact 1 = .ok r ∧ r.ret = 0 ∧ r.iters = 1 := by
  obtain ⟨s', -, -, h⟩ := Demo.lm_one
  exact ⟨_, h, rfl, rfl⟩

/-! ### C39 -/

/-- C39: after a rejected step every node has the state it had before the step, provided that the headings of the active
planar poses were reduced; in any case a planar pose is at the same position with the same direction, and the states of all
other nodes are unchanged. -/
theorem C39_rejected_partial (env : Env) (s s' : FGraphSolve) (delta : ℝ) (h : s.trial env = .ok (delta, s')) :
    ((∀ n ∈ s.w.g.active, Storable _ (s.w.nh n).obj.state) → ∀ n, (s'.reject.w.nh n).val = (s.w.nh n).val) ∧
    (∀ n x, (s.w.nh n).val = ⟨.pose2d, x⟩ →
      ∃ x', (s'.reject.w.nh n).val = ⟨.pose2d, x'⟩ ∧ Spec.planar x' = Spec.planar x) ∧
    (∀ n, (s.w.nh n).kind ≠ .pose2d → (s'.reject.w.nh n).val = (s.w.nh n).val) := by
  refine ⟨fun hs n => ?_, fun n x hx => ?_, fun n hk => ?_⟩
  · rw [FGraphSolve.reject_val h]
    split
    · rename_i hn
      rw [NodeVal.stored]
      change (⟨_, (s.w.nh n).kind.store (s.w.nh n).obj.state⟩ : NodeVal) = _
      rw [store_of_storable (hs n hn)]
      rfl
    · rfl
  · rw [FGraphSolve.reject_val h, hx]
    split
    · refine ⟨wrap2 x, rfl, ?_⟩
      have h1 : Real.cos (wrap2 x 2) = Real.cos (x 2) := cos_wrapAngle _
      have h2 : Real.sin (wrap2 x 2) = Real.sin (x 2) := sin_wrapAngle _
      rw [Spec.planar, h1, h2]
      rfl
    · exact ⟨x, rfl, rfl⟩
  · rw [FGraphSolve.reject_val h]
    split
    · generalize s.w.nh n = c at hk ⊢
      obtain ⟨k, o, i, m, l⟩ := c
      cases k with
      | pose2d => exact absurd rfl hk
      | pose3d => rfl
      | landmark2d => rfl
      | landmark3d => rfl
      | plane4d => rfl
    · rfl

/-- A rejected step on a consistent graph. -/
example : ∃ s' delta, Demo.lmSolver.trial Env.exact = .ok (delta, s') ∧ delta < 0 := by
  obtain ⟨s', h1, h2⟩ := Demo.lm_rejected
  exact ⟨s', _, h1, h2⟩

/-- C39 is false in general: the heading `2 π` that a pose was constructed with is 0 after a rejected step; also seen
through `solve(LM)` with one iteration: the reported state changes, although the only step was rejected. -/
theorem C39_rejected_fails : ∃ (env : Env) (s s' : FGraphSolve) (delta : ℝ), env.Sound ∧ env.Complete ∧ WellPosed s.w ∧
    s.trial env = .ok (delta, s') ∧ delta < 0 ∧ s.solve env .LM 1 1e-5 1e-2 = .ok s'.reject ∧
    s'.reject.w.estimatedState ≠ s.w.estimatedState := by
  obtain ⟨s', h1, h2, h3⟩ := Demo.lm_one
  refine ⟨Env.exact, Demo.lmSolver, s', _, Env.exact_sound, Env.exact_complete, Demo.lm_wellPosed, h1, h2, ?_, ?_⟩
  · change (Demo.lmSolver.levenbergMarquardt Env.exact 1 >>= fun r => Out.ok r.s) = _
    rw [h3, Out.ok_bind]
  · have hF := (FGraphSolve.trial_frame h1).trans (FGraphSolve.reject_frame s')
    intro he
    have hn : Demo.lmSolver.w.g.nodes = [0, 1] := rfl
    rw [estimatedState, estimatedState, hF.factors.g, hn] at he
    simp only [List.map_cons, List.map_nil, List.cons.injEq] at he
    have h4 := he.1
    rw [FGraphSolve.reject_val h1, if_pos (by exact List.mem_singleton.mpr rfl)] at h4
    have h5 : (⟨.pose2d, wrap2 ![0, 0, 2 * Real.pi]⟩ : NodeVal) = ⟨.pose2d, ![0, 0, 2 * Real.pi]⟩ := h4
    have h6 := eq_of_heq (Sigma.mk.inj h5).2
    have h7 : wrapAngle (2 * Real.pi) = 2 * Real.pi := congrFun h6 2
    have h8 := (wrapAngle_spec (2 * Real.pi)).2.1
    have := Real.pi_pos
    linarith

/-! ### C40 -/

/-- Maps the object of an outcome. -/
def Out.map {α β : Type} (f : α → β) (x : Out α) : Out β := x >>= fun a => .ok (f a)

/-- C40 is false: `solve(LM)` gives the same result for all values of `lambda` given by the caller. -/
theorem C40_lambda_lm_fails (env : Env) (s : FGraphSolve) (maxIters : ℕ) (lambda lambda' tol : ℝ) :
    s.solve env .LM maxIters lambda tol = s.solve env .LM maxIters lambda' tol := rfl

theorem gaussNewton_params (env : Env) (s : FGraphSolve) (l t : ℝ) :
    FGraphSolve.gaussNewton env false { s with lambda := l, tol := t } =
      (s.gaussNewton env false).map fun s' => { s' with lambda := l, tol := t } := by
  rw [FGraphSolve.gaussNewton, FGraphSolve.gaussNewton, Out.map]
  change (s.w.buildAdjacency env >>= _) = (s.w.buildAdjacency env >>= _) >>= _
  cases h : s.w.buildAdjacency env with
  | ok r =>
    rw [Out.ok_bind, Out.ok_bind]
    obtain ⟨w, a⟩ := r
    dsimp only
    simp only [Bool.false_eq_true, if_false]
    cases env.chol a.N a.L a.b with
    | none => rfl
    | some dx => rfl
  | nan => rfl
  | ub => rfl
  | throw => rfl

theorem update_params (s : FGraphSolve) (l t : ℝ) :
    FGraphSolve.update { s with lambda := l, tol := t } = s.update.map fun s' => { s' with lambda := l, tol := t } := by
  rw [FGraphSolve.update, FGraphSolve.update, Out.map]
  change (updateNodes s.sys.dx 0 s.w.g.active s.w >>= _) = (updateNodes s.sys.dx 0 s.w.g.active s.w >>= _) >>= _
  cases updateNodes s.sys.dx 0 s.w.g.active s.w <;> rfl

/-- C40 is false: `solve(GN)` uses none of `maxIters`, `lambda`, `tol`: it does one step, whatever they are, and only stores
the last two. -/
theorem C40_gn_fails (env : Env) (s : FGraphSolve) (maxIters maxIters' : ℕ) (lambda lambda' tol tol' : ℝ) :
    s.solve env .GN maxIters' lambda' tol' =
      (s.solve env .GN maxIters lambda tol).map fun s' => { s' with lambda := lambda', tol := tol' } := by
  have key : ∀ k l t, s.solve env .GN k l t =
      (s.gaussNewton env false >>= fun s => s.update).map fun s' => { s' with lambda := l, tol := t } := by
    intro k l t
    change (FGraphSolve.gaussNewton env false { s with lambda := l, tol := t } >>= fun s => s.update) = _
    rw [gaussNewton_params, Out.map, Out.map]
    cases s.gaussNewton env false with
    | ok s1 =>
      change FGraphSolve.update { s1 with lambda := l, tol := t } = (s1.update >>= _)
      rw [update_params]; rfl
    | nan => rfl
    | ub => rfl
    | throw => rfl
  rw [key, key maxIters lambda tol]
  cases (s.gaussNewton env false >>= fun s => s.update) <;> rfl

theorem gaussNewton_tol (env : Env) (s : FGraphSolve) (t : ℝ) :
    FGraphSolve.gaussNewton env true { s with tol := t } =
      (s.gaussNewton env true).map fun s' => { s' with tol := t } := by
  rw [FGraphSolve.gaussNewton, FGraphSolve.gaussNewton, Out.map]
  change (s.w.buildAdjacency env >>= _) = (s.w.buildAdjacency env >>= _) >>= _
  cases h : s.w.buildAdjacency env with
  | ok r =>
    rw [Out.ok_bind, Out.ok_bind]
    obtain ⟨w, a⟩ := r
    dsimp only
    generalize (if true = true then _ else a.L : Matrix (Fin a.N) (Fin a.N) ℝ) = L
    cases env.chol a.N L a.b with
    | none => rfl
    | some dx => rfl
  | nan => rfl
  | ub => rfl
  | throw => rfl

theorem trial_tol (env : Env) (s : FGraphSolve) (t : ℝ) :
    FGraphSolve.trial env { s with tol := t } = (s.trial env).map fun p => (p.1, { p.2 with tol := t }) := by
  rw [FGraphSolve.trial, FGraphSolve.trial, gaussNewton_tol]
  cases s.gaussNewton env true with
  | ok s1 =>
    change (FGraphSolve.update ⟨s1.w.syncAux, s1.lambda, t, s1.sys, s1.mats⟩ >>= _) =
      (FGraphSolve.update ⟨s1.w.syncAux, s1.lambda, s1.tol, s1.sys, s1.mats⟩ >>= _) >>= _
    rw [FGraphSolve.update, FGraphSolve.update]
    dsimp only
    cases updateNodes s1.sys.dx 0 s1.w.syncAux.g.active s1.w.syncAux with
    | ok w2 =>
      change (w2.chi2Eval >>= _) = (w2.chi2Eval >>= _) >>= _
      cases w2.chi2Eval <;> rfl
    | nan => rfl
    | ub => rfl
    | throw => rfl
  | nan => rfl
  | ub => rfl
  | throw => rfl

/-- C40 for the tolerance and the limit, which `solve(LM)` does use: with a tolerance above the improvement of the first
step (if it improves), one iteration is made; with a tolerance at or below, and `maxIters > 1`, the loop goes on from the
state after that step. -/
theorem C40_tolerance_partial (env : Env) (s s1 : FGraphSolve) (delta : ℝ)
    (h : FGraphSolve.trial env { s with lambda := 1e-5 } = .ok (delta, s1)) (hd : 0 ≤ delta) (maxIters : ℕ)
    (lambda tol : ℝ) :
    (delta < tol → s.solve env .LM maxIters lambda tol = .ok { s1 with tol := tol }) ∧
    (tol ≤ delta → 1 < maxIters → s.solve env .LM maxIters lambda tol =
      FGraphSolve.lmLoop env maxIters 1 (FGraphSolve.adapt delta { s1 with tol := tol }) >>= fun r => .ok r.s) := by
  have ht : FGraphSolve.trial env ⟨s.w, 1e-5, tol, s.sys, s.mats⟩ = .ok (delta, { s1 with tol := tol }) := by
    have key := fun t => trial_tol env ⟨s.w, 1e-5, 0, s.sys, s.mats⟩ t
    dsimp only at key
    have h' : FGraphSolve.trial env ⟨s.w, 1e-5, s.tol, s.sys, s.mats⟩ = .ok (delta, s1) := h
    rw [key] at h' ⊢
    cases h2 : FGraphSolve.trial env ⟨s.w, 1e-5, 0, s.sys, s.mats⟩ with
    | ok p =>
      rw [h2] at h'
      simp only [Out.map, Out.ok_bind, Out.ok.injEq] at h' ⊢
      rw [Prod.mk.injEq] at h' ⊢
      obtain ⟨h3, h4⟩ := h'
      exact ⟨h3, by rw [← h4]⟩
    | nan => rw [h2] at h'; simp [Out.map] at h'
    | ub => rw [h2] at h'; simp [Out.map] at h'
    | throw => rw [h2] at h'; simp [Out.map] at h'
  have e : s.solve env .LM maxIters lambda tol =
      (FGraphSolve.lmLoop env maxIters 0 ⟨s.w, 1e-5, tol, s.sys, s.mats⟩ >>= fun r => Out.ok r.s) := rfl
  refine ⟨fun hlt => ?_, fun hge hmax => ?_⟩
  · rw [e, FGraphSolve.lmLoop, ht, Out.ok_bind]
    dsimp only
    rw [if_neg (not_lt.mpr hd), if_pos hlt, Out.ok_bind]
  · rw [e, FGraphSolve.lmLoop, ht, Out.ok_bind]
    dsimp only
    rw [if_neg (not_lt.mpr hd), if_neg (not_lt.mpr hge), if_pos hmax]

/-! ### C41 -/

theorem solver_nodes (ops : List FGraphSolve.Op) (s s' : FGraphSolve) (h : FGraphSolve.run ops s = .ok s') :
    s'.w.g.nodes = s.w.g.nodes ++ addedNodes (graphOps ops) ∧
    s'.w.g.factors = s.w.g.factors ++ addedFactors (graphOps ops) ∧
    ((∀ i n, s.w.g.nodes[i]? = some n → (s.w.nh n).id = i) → (s.w.g.nodes ++ addedNodes (graphOps ops)).Nodup →
      ∀ i n, s'.w.g.nodes[i]? = some n → (s'.w.nh n).id = i) := by
  induction ops generalizing s with
  | nil =>
    rw [FGraphSolve.run, Out.ok.injEq] at h
    subst h
    simp only [graphOps, addedNodes, addedFactors, List.filterMap_nil, List.append_nil, true_and]
    exact fun hi _ => hi
  | cons op ops ih =>
    rw [FGraphSolve.run] at h
    obtain ⟨s1, h1, h⟩ := Out.bind_eq_ok.mp h
    obtain ⟨ih1, ih2, ih3⟩ := ih s1 h
    have hfr : Frame s.w s1.w → graphOps (op :: ops) = graphOps ops →
        s'.w.g.nodes = s.w.g.nodes ++ addedNodes (graphOps (op :: ops)) ∧
        s'.w.g.factors = s.w.g.factors ++ addedFactors (graphOps (op :: ops)) ∧
        ((∀ i n, s.w.g.nodes[i]? = some n → (s.w.nh n).id = i) → (s.w.g.nodes ++ addedNodes (graphOps (op :: ops))).Nodup →
          ∀ i n, s'.w.g.nodes[i]? = some n → (s'.w.nh n).id = i) := by
      intro hF he
      rw [he]
      refine ⟨by rw [ih1, hF.factors.g], by rw [ih2, hF.factors.g], fun hi hnd => ih3 ?_ ?_⟩
      · intro i n hin
        rw [hF.factors.g] at hin
        rw [(hF.active n).id]; exact hi i n hin
      · rw [hF.factors.g]; exact hnd
    cases op with
    | graph o =>
      rw [FGraphSolve.Op.run, Out.ok.injEq] at h1
      subst h1
      have he : graphOps (.graph o :: ops) = o :: graphOps ops := rfl
      rw [he]
      have hn1 : (o.run s.w).g.nodes = s.w.g.nodes ++ addedNodes [o] := run_nodes [o] s.w
      have hf1 : (o.run s.w).g.factors = s.w.g.factors ++ addedFactors [o] := run_factors [o] s.w
      have hn2 : addedNodes (o :: graphOps ops) = addedNodes [o] ++ addedNodes (graphOps ops) := by
        rw [addedNodes, addedNodes, addedNodes, ← List.filterMap_append]; rfl
      have hf2 : addedFactors (o :: graphOps ops) = addedFactors [o] ++ addedFactors (graphOps ops) := by
        rw [addedFactors, addedFactors, addedFactors, ← List.filterMap_append]; rfl
      refine ⟨?_, ?_, fun hi hnd => ih3 ?_ ?_⟩
      · rw [ih1]
        change (o.run s.w).g.nodes ++ _ = _
        rw [hn1, hn2, List.append_assoc]
      · rw [ih2]
        change (o.run s.w).g.factors ++ _ = _
        rw [hf1, hf2, List.append_assoc]
      · intro i n hin
        change (o.run s.w).g.nodes[i]? = some n at hin
        change ((o.run s.w).nh n).id = i
        cases o with
        | addNode m =>
          rw [GraphOp.run, addNode_nodes] at hin
          rw [GraphOp.run, addNode_nh]
          have hm : m ∉ s.w.g.nodes := by
            rw [hn2] at hnd
            have hd := (List.nodup_append.mp hnd).2.2
            intro hm
            exact hd m hm m (by simp [addedNodes]) rfl
          by_cases hnm : n = m
          · subst hnm
            rw [Function.update_self]
            by_cases hlt : i < s.w.g.nodes.length
            · rw [List.getElem?_append_left hlt] at hin
              exact absurd (List.mem_of_getElem? hin) hm
            · have : i < (s.w.g.nodes ++ [n]).length := by
                by_contra hc
                rw [List.getElem?_eq_none (not_lt.mp hc)] at hin
                simp at hin
              simp at this
              change s.w.g.nodes.length = i
              omega
          · rw [Function.update_of_ne hnm]
            have hmem := List.mem_of_getElem? hin
            by_cases hlt : i < s.w.g.nodes.length
            · rw [List.getElem?_append_left hlt] at hin
              exact hi i n hin
            · rw [List.getElem?_append_right (not_lt.mp hlt)] at hin
              have := List.mem_of_getElem? hin
              rw [List.mem_singleton] at this
              exact absurd this hnm
        | addFactor f => rw [GraphOp.run, addFactor_nodes] at hin; rw [GraphOp.run, addFactor_nh]; exact hi i n hin
        | addEigenFactor f =>
          rw [GraphOp.run, addEigenFactor_nodes] at hin; rw [GraphOp.run, addEigenFactor_nh]; exact hi i n hin
        | setMode m md =>
          rw [GraphOp.run, setMode_nh]
          split
          · rename_i hnm; subst hnm; exact hi i n hin
          · exact hi i n hin
      · change ((o.run s.w).g.nodes ++ _).Nodup
        rw [hn1, List.append_assoc, ← hn2]
        exact hnd
    | solve env m k l t => exact hfr (FGraphSolve.solve_frame h1) rfl
    | chi2 =>
      rw [FGraphSolve.Op.run] at h1
      obtain ⟨⟨c, w'⟩, h2, h3⟩ := Out.bind_eq_ok.mp h1
      rw [Out.ok.injEq] at h3
      subst h3
      exact hfr (FGraphSolve.chi2Eval_frame h2) rfl

/-- C41: after any history of additions and solves in which no node object is added twice, `get_estimated_state()` has one
entry per added node (anchors included), the `i`-th being the state of the `i`-th added node, which is the node with id `i`. -/
theorem C41_states_partial (ops : List FGraphSolve.Op) (s s' : FGraphSolve) (h₀ : s.w.g = emptyGraph)
    (h : FGraphSolve.run ops s = .ok s') (hnd : (addedNodes (graphOps ops)).Nodup) :
    s'.w.estimatedState.length = (addedNodes (graphOps ops)).length ∧
    ∀ i n, (addedNodes (graphOps ops))[i]? = some n →
      s'.w.getNode i = .ok n ∧ (s'.w.nh n).id = i ∧ s'.w.estimatedState[i]? = some (s'.w.nh n).val := by
  obtain ⟨h1, -, h3⟩ := solver_nodes ops s s' h
  rw [h₀] at h1 h3
  have h1' : s'.w.g.nodes = addedNodes (graphOps ops) := h1
  refine ⟨by rw [estimatedState, h1', List.length_map], fun i n hin => ⟨?_, ?_, ?_⟩⟩
  · rw [getNode, h1', hin]
  · exact h3 (by simp [emptyGraph]) hnd i n (by rw [h1']; exact hin)
  · rw [estimatedState, h1', List.getElem?_map, hin]; rfl

/-- A history with an anchor and a solve. -/
example : (addedNodes (graphOps [.graph (.addNode 0), .graph (.addNode 1), .graph (.addFactor 0), .graph (.addFactor 1),
    .solve Env.exact .LM 10 1 1e-3, .chi2])).Nodup := by simp [graphOps, addedNodes]

/-- C41 is false in general: the API accepts the same node object twice; its state is then reported twice, and no node has
id 0. -/
theorem C41_duplicate_fails (s : FGraphSolve) (h₀ : s.w.g = emptyGraph) : ∃ s',
    FGraphSolve.run [.graph (.addNode 0), .graph (.addNode 0)] s = .ok s' ∧
    s'.w.estimatedState = [(s.w.nh 0).val, (s.w.nh 0).val] ∧ ∀ n ∈ s'.w.g.nodes, (s'.w.nh n).id ≠ 0 := by
  refine ⟨_, rfl, ?_, ?_⟩
  · change estimatedState (World.run [.addNode 0, .addNode 0] s.w) = _
    rw [estimatedState, run_nodes, h₀]
    simp [emptyGraph, addedNodes, (run_nh_static _ _ _).1]
  · intro n hn
    change n ∈ (World.run [.addNode 0, .addNode 0] s.w).g.nodes at hn
    rw [run_nodes, h₀] at hn
    simp [emptyGraph, addedNodes] at hn
    subst hn
    change (((s.w.addNode 0).2.addNode 0).2.nh 0).id ≠ 0
    rw [addNode_nh, Function.update_self, addNode_nodes, h₀]
    simp

/-! ### C42 -/

/-- C42: after any history the array has one entry per added factor, in the order of addition (the order of the ids, C31),
and its sum is `chi2(false)`; after `chi2(true)` the entries are the costs at the current states. -/
theorem C42_array (ops : List FGraphSolve.Op) (s s' : FGraphSolve) (h₀ : s.w.g = emptyGraph)
    (h : FGraphSolve.run ops s = .ok s') :
    s'.w.chi2Array.length = (addedFactors (graphOps ops)).length ∧
    (∀ i f, (addedFactors (graphOps ops))[i]? = some f →
      s'.w.getFactor i = .ok f ∧ s'.w.chi2Array[i]? = some (s'.w.fh f).chi2) ∧
    s'.w.chi2Array.sum = s'.w.chi2Stored ∧
    (∀ c w, s'.w.chi2Eval = .ok (c, w) → w.chi2Array.sum = c ∧
      w.chi2Array = w.g.factors.map fun f =>
        factorChi2 (w.fh f).virt.W ((w.fh f).virt.res ((w.fh f).nbrs.map fun n => (w.nh n).val))) := by
  obtain ⟨-, h2, -⟩ := solver_nodes ops s s' h
  rw [h₀] at h2
  have h2' : s'.w.g.factors = addedFactors (graphOps ops) := h2
  refine ⟨by rw [chi2Array, h2', List.length_map], fun i f hf => ⟨?_, ?_⟩, ?_, fun c w hc => ?_⟩
  · rw [getFactor, h2', hf]
  · rw [chi2Array, h2', List.getElem?_map, hf]; rfl
  · rw [chi2Array, chi2Stored_eq_sum]
  · have ht : ∀ f ∈ s'.w.g.factors, (s'.w.fh f).wellTyped s'.w.nh := by
      rw [chi2Eval] at hc
      obtain ⟨w4, h4, -⟩ := Out.bind_eq_ok.mp hc
      exact forAll_evalRes_ok _ _ _ h4
    rw [chi2Eval_eq _ ht, Out.ok.injEq, Prod.mk.injEq] at hc
    obtain ⟨rfl, rfl⟩ := hc
    have e : (mapF (·.resd s'.w.nh) s'.w.g.factors s'.w).chi2Array = s'.w.g.factors.map fun f =>
        factorChi2 (s'.w.fh f).virt.W ((s'.w.fh f).virt.res ((s'.w.fh f).vals s'.w.nh)) := by
      rw [chi2Array]
      refine List.map_congr_left fun f hf => ?_
      have hf' : f ∈ s'.w.g.factors := hf
      rw [mapF_fh, if_pos hf']
      rfl
    refine ⟨by rw [e, cost], ?_⟩
    rw [e]
    refine List.map_congr_left fun f hf => ?_
    have : (mapF (·.resd s'.w.nh) s'.w.g.factors s'.w).fh f = (s'.w.fh f).resd s'.w.nh := by rw [mapF_fh, if_pos hf]
    rw [this]
    rfl

/-- The costs of the factors of `w` at the states of `w'`. -/
noncomputable def costsAt (w w' : World) : List ℝ := w.g.factors.map fun f =>
  factorChi2 (w.fh f).virt.W ((w.fh f).virt.res ((w.fh f).nbrs.map fun n => (w'.nh n).val))

/-- C42 after `solve(LM)` that met the tolerance: the array describes the current states.  Partial: not after a step that was
rejected last, see `C42_rejected_fails`, nor after `solve(GN)`, see `C42_gn_fails`. -/
theorem C42_lm_partial (env : Env) (s : FGraphSolve) (maxIters : ℕ) (r : FGraphSolve.LMResult)
    (h : s.levenbergMarquardt env maxIters = .ok r) (hr : r.ret ≠ 0) :
    r.s.w.chi2Array = costsAt s.w r.s.w := by
  have hrun := FGraphSolve.lmLoop_run _ _ _ _ rfl h
  have hF := hrun.frame
  obtain ⟨t, delta, h1, -, -⟩ := hrun.last.1 hr
  have h2 := (FGraphSolve.trial_ok h1).2.2.2.2.2.2
  have hF2 := FGraphSolve.trial_frame h1
  have eg : r.s.w.g = s.w.g := hF.factors.g
  rw [chi2Array, costsAt, eg]
  refine List.map_congr_left fun f hf => ?_
  rw [h2 f (by rw [← hF2.factors.g, eg]; exact hf), ← hF2.factors.virt, ← hF2.factors.nbrs, hF.factors.virt,
    hF.factors.nbrs]

/-- C42 fails after every `solve(GN)`: the array holds the costs at the states before the step. -/
theorem C42_gn_stale (env : Env) (s s' : FGraphSolve) (maxIters : ℕ) (lambda tol : ℝ)
    (h : s.solve env .GN maxIters lambda tol = .ok s') : s'.w.chi2Array = costsAt s.w s.w := by
  change (FGraphSolve.gaussNewton env false _ >>= fun s => s.update) = _ at h
  obtain ⟨s1, h1, h⟩ := Out.bind_eq_ok.mp h
  obtain ⟨a, dx, -, -, -, rfl⟩ := FGraphSolve.gaussNewton_ok h1
  obtain ⟨w, h2, rfl⟩ := FGraphSolve.update_ok h
  obtain ⟨u1, u2, -, -⟩ := updateNodes_ok _ _ _ _ _ h2
  have eg : w.g = s.w.g := u1
  rw [chi2Array, costsAt]
  change List.map _ w.g.factors = _
  rw [eg]
  refine List.map_congr_left fun f hf => ?_
  change (w.fh f).chi2 = _
  have e : w.fh f = s.w.built.fh f := congrFun u2 f
  rw [e, built_fh hf]
  rfl

/-- C42 fails after a rejected last step: the array holds the costs at the rejected states, its sum is larger than the
`chi2` of the current states. -/
theorem C42_rejected_fails : ∃ (env : Env) (s s' : FGraphSolve), env.Sound ∧ env.Complete ∧ WellPosed s.w ∧
    s.solve env .LM 1 1e-5 1e-2 = .ok s' ∧ ∃ c w, s'.w.chi2Eval = .ok (c, w) ∧ c < s'.w.chi2Array.sum := by
  obtain ⟨s', h1, h2, h3⟩ := Demo.lm_one
  have hF := (FGraphSolve.trial_frame h1).trans (FGraphSolve.reject_frame s')
  refine ⟨Env.exact, Demo.lmSolver, s'.reject, Env.exact_sound, Env.exact_complete, Demo.lm_wellPosed, ?_, _, _,
    chi2Eval_eq _ (hF.wellTyped Demo.lm_wellPosed.wired.typed), ?_⟩
  · change (Demo.lmSolver.levenbergMarquardt Env.exact 1 >>= fun r => Out.ok r.s) = _
    rw [h3, Out.ok_bind]
  · have hl : ∀ f ∈ Demo.lmSolver.w.g.factors, (Demo.lmSolver.w.fh f).virt.HeadingInvariant := by
      intro f hf
      have : f ∈ ([0, 1] : List ℕ) := hf
      simp at this
      rcases this with rfl | rfl
      · exact (FactorVirt.Library.prior2d _ _ _).headingInvariant
      · exact (FactorVirt.Library.rel2d _ _ _).headingInvariant
    rw [FGraphSolve.reject_cost h1 Demo.lm_wellPosed.wired.typed hl]
    have e1 : Demo.lmSolver.w.cost = 8 := Demo.lm_cost
    have h4 := (FGraphSolve.trial_ok h1).2.2.2.2.2.2
    have e2 : s'.reject.w.chi2Array.sum = s'.w.cost := by
      have e3 : s'.reject.w.chi2Array = s'.w.chi2Array := by
        change s'.w.syncState.chi2Array = _
        rw [syncState_eq]; rfl
      have hF1 := FGraphSolve.trial_frame h1
      rw [e3, chi2Array, cost]
      congr 1
      refine List.map_congr_left fun f hf => ?_
      rw [h4 f (by rw [← hF1.factors.g]; exact hf), ← hF1.factors.virt, ← hF1.factors.nbrs]
      rfl
    rw [e1, e2]
    linarith

end Mrob
