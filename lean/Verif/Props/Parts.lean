import Verif.Lemmas.DemoParts
import Verif.Props.GaussNewton

/-!
# C96: parts of a graph that nothing connects
-/

open Matrix

namespace Mrob

open World Spec

/-- C96, Gauss-Newton: when no factor joins the nodes `S` to the others (anchors do not count), the estimates at `S` do not
depend on the rest of the graph: any other graph with the same nodes and factors at `S` gives the same ones. -/
theorem C96_gn (w₀ : World) (h₀ : w₀.g = emptyGraph) (ops ops' : List GraphOp) (hp : Proper w₀ ops) (hp' : Proper w₀ ops')
    (S : NRef → Prop) (hN : ∀ n, S n → (n ∈ addedNodes ops' ↔ n ∈ addedNodes ops))
    (hsep : Separate S w₀ (addedFactors ops)) (hsep' : Separate S w₀ (addedFactors ops'))
    (hF : (factorsAt S w₀ (addedFactors ops')).Perm (factorsAt S w₀ (addedFactors ops)))
    (hpsd : ∀ f ∈ addedFactors ops ++ addedFactors ops', (w₀.fh f).virt.W.PosSemidef)
    (hwt : ∀ f ∈ addedFactors ops ++ addedFactors ops', 0 ≤ (w₀.fh f).weight)
    (hr : ∀ f ∈ addedFactors ops ++ addedFactors ops', (w₀.fh f).virt.robust ≠ .ransac)
    (env env' : Env) (henv : env.Sound) (henv' : env'.Sound) (s s' : FGraphSolve) (hs : s.w = World.run ops w₀)
    (hs' : s'.w = World.run ops' w₀) (hpd : (infoMatrix (graphTerms s.w)).PosDef) (k k' : ℕ) (l l' t t' : ℝ) (s1 s1' : FGraphSolve)
    (h1 : s.solve env .GN k l t = .ok s1) (h1' : s'.solve env' .GN k' l' t' = .ok s1') :
    ∀ n, S n → (s1'.w.nh n).val = (s1.w.nh n).val := by
  have hw := run_wellPosed h₀ hp (fun f hf => hpsd f (List.mem_append_left _ hf)) fun f hf => hwt f (List.mem_append_left _ hf)
  have hw' := run_wellPosed h₀ hp' (fun f hf => hpsd f (List.mem_append_right _ hf)) fun f hf => hwt f (List.mem_append_right _ hf)
  have hr1 := run_noRansac h₀ (ops := ops) fun f hf => hr f (List.mem_append_left _ hf)
  have hr1' := run_noRansac h₀ (ops := ops') fun f hf => hr f (List.mem_append_right _ hf)
  have ha := World.part_run h₀ hp.noSetMode hp'.noSetMode hN hsep hsep' hF
  rw [← hs] at hw hr1 ha
  rw [← hs'] at hw' hr1' ha
  exact fun n hn => FGraphSolve.gn_part henv henv' ha hw hw' hr1 hr1' hpd h1 h1' hn

/-- C96: the graph that consists of the part `S` only is determined when the whole graph is, `solve(GN)` returns on it, and
the estimates are those of the whole graph. -/
theorem C96_part (w₀ : World) (h₀ : w₀.g = emptyGraph) (ops ops' : List GraphOp) (hp : Proper w₀ ops) (hp' : Proper w₀ ops')
    (S : NRef → Prop) (hS : ∀ n ∈ addedNodes ops', S n) (hN : ∀ n, S n → (n ∈ addedNodes ops' ↔ n ∈ addedNodes ops))
    (hsep : Separate S w₀ (addedFactors ops)) (hsep' : Separate S w₀ (addedFactors ops'))
    (hF : (factorsAt S w₀ (addedFactors ops')).Perm (factorsAt S w₀ (addedFactors ops)))
    (hpsd : ∀ f ∈ addedFactors ops ++ addedFactors ops', (w₀.fh f).virt.W.PosSemidef)
    (hwt : ∀ f ∈ addedFactors ops ++ addedFactors ops', 0 ≤ (w₀.fh f).weight)
    (hr : ∀ f ∈ addedFactors ops ++ addedFactors ops', (w₀.fh f).virt.robust ≠ .ransac)
    (env : Env) (henv : env.Sound) (hcomp : env.Complete) (s s' : FGraphSolve) (hs : s.w = World.run ops w₀)
    (hs' : s'.w = World.run ops' w₀) (hpd : (infoMatrix (graphTerms s.w)).PosDef) (k : ℕ) (l t : ℝ) :
    (infoMatrix (graphTerms s'.w)).PosDef ∧ ∃ s1 s1', s.solve env .GN k l t = .ok s1 ∧ s'.solve env .GN k l t = .ok s1' ∧
      ∀ n, S n → (s1'.w.nh n).val = (s1.w.nh n).val := by
  have hw := run_wellPosed h₀ hp (fun f hf => hpsd f (List.mem_append_left _ hf)) fun f hf => hwt f (List.mem_append_left _ hf)
  have hw' := run_wellPosed h₀ hp' (fun f hf => hpsd f (List.mem_append_right _ hf)) fun f hf => hwt f (List.mem_append_right _ hf)
  have hr1 := run_noRansac h₀ (ops := ops) fun f hf => hr f (List.mem_append_left _ hf)
  have hr1' := run_noRansac h₀ (ops := ops') fun f hf => hr f (List.mem_append_right _ hf)
  have ha := World.part_run h₀ hp.noSetMode hp'.noSetMode hN hsep hsep' hF
  have hall : ∀ n ∈ (World.run ops' w₀).g.active, S n := by
    intro n hn
    rw [run_active ops' hp'.noSetMode, h₀] at hn
    exact hS n (List.mem_of_mem_filter hn)
  rw [← hs] at hw hr1 ha
  rw [← hs'] at hw' hr1' ha hall
  have hpd' := ha.posDef hr1 hr1' hall (FGraphSolve.terms_psd hw').isHermitian hpd
  obtain ⟨s1, h1⟩ := C36_returns env hcomp s hw hpd k l t
  obtain ⟨s1', h1'⟩ := C36_returns env hcomp s' hw' hpd' k l t
  exact ⟨hpd', s1, s1', h1, h1', fun n hn => FGraphSolve.gn_part henv henv ha hw hw' hr1 hr1' hpd h1 h1' hn⟩

/-- Two planar poses with a prior each, and the first of them alone. -/
example (s : FGraphSolve) (hs : s.w = World.run Demo.partOps Demo.partWorld₀) :
    Proper Demo.partWorld₀ Demo.partOps ∧ Proper Demo.partWorld₀ Demo.partOps' ∧ (∀ n ∈ addedNodes Demo.partOps', n = 0) ∧
    (∀ n, n = 0 → (n ∈ addedNodes Demo.partOps' ↔ n ∈ addedNodes Demo.partOps)) ∧
    Separate (· = 0) Demo.partWorld₀ (addedFactors Demo.partOps) ∧ Separate (· = 0) Demo.partWorld₀ (addedFactors Demo.partOps') ∧
    (factorsAt (· = 0) Demo.partWorld₀ (addedFactors Demo.partOps')).Perm
      (factorsAt (· = 0) Demo.partWorld₀ (addedFactors Demo.partOps)) ∧
    addedFactors Demo.partOps' ≠ addedFactors Demo.partOps ∧
    (∀ f ∈ addedFactors Demo.partOps ++ addedFactors Demo.partOps', (Demo.partWorld₀.fh f).virt.W.PosSemidef) ∧
    (∀ f ∈ addedFactors Demo.partOps ++ addedFactors Demo.partOps', 0 ≤ (Demo.partWorld₀.fh f).weight) ∧
    (∀ f ∈ addedFactors Demo.partOps ++ addedFactors Demo.partOps', (Demo.partWorld₀.fh f).virt.robust ≠ .ransac) ∧
    (infoMatrix (graphTerms s.w)).PosDef := by
  refine ⟨Demo.part_proper, Demo.part_proper', by simp [addedNodes, Demo.partOps'], by simp [addedNodes, Demo.partOps', Demo.partOps],
    Demo.part_separate _, Demo.part_separate _, Demo.part_at, by simp [addedFactors, Demo.partOps', Demo.partOps],
    fun f _ => Demo.part_psd f, fun f _ => Demo.part_weight f, fun f _ => by rw [Demo.part_plain]; simp, ?_⟩
  rw [hs]
  exact Demo.part_posDef

/-- C96, Levenberg-Marquardt: one iteration with the same damping gives the same estimates at `S`.  Partial: whether the step
is kept, how the damping changes and when the loop stops depend on the whole graph, see `C96_lm_fails`. -/
theorem C96_lm_partial (w₀ : World) (h₀ : w₀.g = emptyGraph) (ops ops' : List GraphOp) (hp : Proper w₀ ops) (hp' : Proper w₀ ops')
    (S : NRef → Prop) (hN : ∀ n, S n → (n ∈ addedNodes ops' ↔ n ∈ addedNodes ops))
    (hsep : Separate S w₀ (addedFactors ops)) (hsep' : Separate S w₀ (addedFactors ops'))
    (hF : (factorsAt S w₀ (addedFactors ops')).Perm (factorsAt S w₀ (addedFactors ops)))
    (hpsd : ∀ f ∈ addedFactors ops ++ addedFactors ops', (w₀.fh f).virt.W.PosSemidef)
    (hwt : ∀ f ∈ addedFactors ops ++ addedFactors ops', 0 ≤ (w₀.fh f).weight)
    (hr : ∀ f ∈ addedFactors ops ++ addedFactors ops', (w₀.fh f).virt.robust ≠ .ransac)
    (env env' : Env) (henv : env.Sound) (henv' : env'.Sound) (s s' : FGraphSolve) (hs : s.w = World.run ops w₀)
    (hs' : s'.w = World.run ops' w₀) (hl : 0 < s.lambda) (hl' : s'.lambda = s.lambda) (d d' : ℝ) (s1 s1' : FGraphSolve)
    (h1 : s.trial env = .ok (d, s1)) (h1' : s'.trial env' = .ok (d', s1')) :
    ∀ n, S n → (s1'.w.nh n).val = (s1.w.nh n).val := by
  have hw := run_wellPosed h₀ hp (fun f hf => hpsd f (List.mem_append_left _ hf)) fun f hf => hwt f (List.mem_append_left _ hf)
  have hw' := run_wellPosed h₀ hp' (fun f hf => hpsd f (List.mem_append_right _ hf)) fun f hf => hwt f (List.mem_append_right _ hf)
  have hr1 := run_noRansac h₀ (ops := ops) fun f hf => hr f (List.mem_append_left _ hf)
  have hr1' := run_noRansac h₀ (ops := ops') fun f hf => hr f (List.mem_append_right _ hf)
  have ha := World.part_run h₀ hp.noSetMode hp'.noSetMode hN hsep hsep' hF
  rw [← hs] at hw hr1 ha
  rw [← hs'] at hw' hr1' ha
  exact fun n hn => FGraphSolve.trial_part henv henv' ha hw hw' hr1 hr1' hl hl' h1 h1' hn

/-- The iteration returns for the two poses and for the first one alone. -/
example (s s' : FGraphSolve) (hs : s.w = World.run Demo.partOps Demo.partWorld₀)
    (hs' : s'.w = World.run Demo.partOps' Demo.partWorld₀) (hl : 0 < s.lambda) (hl' : 0 < s'.lambda) :
    (∃ d s1, s.trial Env.exact = .ok (d, s1)) ∧ ∃ d s1, s'.trial Env.exact = .ok (d, s1) := by
  have hw : WellPosed s.w := by
    rw [hs]; exact run_wellPosed rfl Demo.part_proper (fun f _ => Demo.part_psd f) fun f _ => Demo.part_weight f
  have hw' : WellPosed s'.w := by
    rw [hs']; exact run_wellPosed rfl Demo.part_proper' (fun f _ => Demo.part_psd f) fun f _ => Demo.part_weight f
  obtain ⟨d, s1, h, -⟩ := FGraphSolve.trial_total Env.exact_complete hw hl
  obtain ⟨d', s1', h', -⟩ := FGraphSolve.trial_total Env.exact_complete hw' hl'
  exact ⟨⟨d, s1, h⟩, d', s1', h'⟩

/-- The full property is false for Levenberg-Marquardt: two planar poses at the origin with a prior each, of little
information at `(1, 0, 0)` for the first one.  Alone, the first pose is moved once, to `1/11`, and convergence is reported.
With the other pose in the graph, which has nothing to do with it, it gets further. -/
theorem C96_lm_fails (env : Env) (henv : env.Sound) (hcomp : env.Complete) : ∃ (w₀ : World) (ops ops' : List GraphOp) (S : NRef → Prop),
    w₀.g = emptyGraph ∧ Proper w₀ ops ∧ Proper w₀ ops' ∧ (∀ n, S n → (n ∈ addedNodes ops' ↔ n ∈ addedNodes ops)) ∧
    Separate S w₀ (addedFactors ops) ∧ Separate S w₀ (addedFactors ops') ∧
    (factorsAt S w₀ (addedFactors ops')).Perm (factorsAt S w₀ (addedFactors ops)) ∧
    (∀ f, (w₀.fh f).virt.W.PosSemidef) ∧ (∀ f, 0 ≤ (w₀.fh f).weight) ∧ (∀ f, (w₀.fh f).virt.robust = .quadratic) ∧ S 0 ∧
    ∀ s s' : FGraphSolve, s.w = World.run ops w₀ → s'.w = World.run ops' w₀ → ∀ maxIters : ℕ, 2 ≤ maxIters →
      ∃ (r r' : FGraphSolve.LMResult) (a : ℝ),
        FGraphSolve.levenbergMarquardt env maxIters { s with tol := 1e-2 } = .ok r ∧
        FGraphSolve.levenbergMarquardt env maxIters { s' with tol := 1e-2 } = .ok r' ∧
        r'.ret = 1 ∧ r'.iters = 1 ∧ (r'.s.w.nh 0).val = ⟨.pose2d, ![1 / 11, 0, 0]⟩ ∧
        (r.s.w.nh 0).val = ⟨.pose2d, ![a, 0, 0]⟩ ∧ 1 / 11 < a := by
  refine ⟨Demo.partWorld₀, Demo.partOps, Demo.partOps', (· = 0), rfl, Demo.part_proper, Demo.part_proper',
    by simp [addedNodes, Demo.partOps', Demo.partOps], Demo.part_separate _, Demo.part_separate _, Demo.part_at, Demo.part_psd,
    Demo.part_weight, Demo.part_plain, rfl, fun s s' hs hs' maxIters hm => ?_⟩
  have hw : WellPosed s.w := by
    rw [hs]; exact run_wellPosed rfl Demo.part_proper (fun f _ => Demo.part_psd f) fun f _ => Demo.part_weight f
  have hw' : WellPosed s'.w := by
    rw [hs']; exact run_wellPosed rfl Demo.part_proper' (fun f _ => Demo.part_psd f) fun f _ => Demo.part_weight f
  obtain ⟨r, h⟩ := FGraphSolve.lmLoop_total hcomp maxIters _ 0 ⟨s.w, 1e-5, 1e-2, s.sys, s.mats⟩ rfl hw (by norm_num)
  obtain ⟨r', h'⟩ := FGraphSolve.lmLoop_total hcomp maxIters _ 0 ⟨s'.w, 1e-5, 1e-2, s'.sys, s'.mats⟩ rfl hw' (by norm_num)
  obtain ⟨a, h1, h2⟩ := Demo.part_both henv hm (s := ⟨s.w, 1e-5, 1e-2, s.sys, s.mats⟩) hs rfl rfl (FGraphSolve.lmLoop_run _ _ _ _ rfl h)
  obtain ⟨k1, k2, k3⟩ := Demo.part_alone henv maxIters (s := ⟨s'.w, 1e-5, 1e-2, s'.sys, s'.mats⟩) hs' rfl rfl (FGraphSolve.lmLoop_run _ _ _ _ rfl h')
  exact ⟨r, r', a, h, h', k1, k2, k3, h2, h1⟩

end Mrob
