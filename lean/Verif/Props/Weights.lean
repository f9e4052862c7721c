import Verif.Lemmas.Weights
import Verif.Lemmas.DemoLM
import Verif.Props.GaussNewton

/-!
# C43 and C88: what the solution depends on
-/

open Matrix

namespace Mrob

open World Spec

/-- C43, the solution: two histories that add the same nodes in any order and the same factors in any order give the same
estimates with both methods (all robust types but RANSAC, any two exact linear solvers), and the same number of
iterations. -/
theorem C43_solution (w₀ : World) (h₀ : w₀.g = emptyGraph) (ops ops' : List GraphOp) (hp : Proper w₀ ops)
    (hno : NoSetMode ops') (hN : (addedNodes ops').Perm (addedNodes ops)) (hF : (addedFactors ops').Perm (addedFactors ops))
    (hpsd : ∀ f ∈ addedFactors ops, (w₀.fh f).virt.W.PosSemidef) (hwt : ∀ f ∈ addedFactors ops, 0 ≤ (w₀.fh f).weight)
    (hr : ∀ f ∈ addedFactors ops, (w₀.fh f).virt.robust ≠ .ransac) (env env' : Env) (henv : env.Sound) (henv' : env'.Sound)
    (s s' : FGraphSolve) (hs : s.w = World.run ops w₀) (hs' : s'.w = World.run ops' w₀) (maxIters : ℕ) (lambda tol : ℝ) :
    (∀ s1 s1', (infoMatrix (graphTerms s.w)).PosDef → s.solve env .GN maxIters lambda tol = .ok s1 →
      s'.solve env' .GN maxIters lambda tol = .ok s1' → ∀ n, (s1'.w.nh n).val = (s1.w.nh n).val) ∧
    (∀ r r', FGraphSolve.levenbergMarquardt env maxIters { s with tol := tol } = .ok r →
      FGraphSolve.levenbergMarquardt env' maxIters { s' with tol := tol } = .ok r' →
      r'.ret = r.ret ∧ r'.iters = r.iters ∧ ∀ n, (r'.s.w.nh n).val = (r.s.w.nh n).val) := by
  have hp' : Proper w₀ ops' :=
    { noSetMode := hno
      nodup := hN.nodup_iff.mpr hp.nodup
      noSchur := fun n hn => hp.noSchur n (hN.mem_iff.mp hn)
      registered := fun f hf n hn => by rw [hN.mem_iff]; exact hp.registered f (hF.mem_iff.mp hf) n hn
      noLoop := fun f hf => hp.noLoop f (hF.mem_iff.mp hf)
      typed := fun f hf => hp.typed f (hF.mem_iff.mp hf) }
  have hw := run_wellPosed h₀ hp hpsd hwt
  have hw' := run_wellPosed h₀ hp' (fun f hf => hpsd f (hF.mem_iff.mp hf)) fun f hf => hwt f (hF.mem_iff.mp hf)
  have hr1 := run_noRansac h₀ hr
  have hr1' := run_noRansac h₀ (ops := ops') fun f hf => hr f (hF.mem_iff.mp hf)
  have ha := alike_order h₀ hp.noSetMode hno hN hF
  rw [← hs] at hw hr1 ha
  rw [← hs'] at hw' hr1' ha
  refine ⟨fun s1 s1' hpd h1 h1' => ?_, fun r r' h1 h1' => ?_⟩
  · exact (FGraphSolve.gn_alike henv henv' one_pos ha hw hw' hr1 hr1' hpd h1 h1').val
  · obtain ⟨k1, k2, k3⟩ := FGraphSolve.lmLoop_alike henv henv' one_pos (c := 1) _ 0 rfl
      (s := ⟨s.w, 1e-5, tol, s.sys, s.mats⟩) (s' := ⟨s'.w, 1e-5, tol, s'.sys, s'.mats⟩) ⟨ha, (one_mul _).symm, (one_mul _).symm⟩ hw hw' hr1 hr1'
      (by norm_num) h1 h1'
    exact ⟨k1, k2, k3.w.val⟩

/-- The graph of `Demo.lmWorld`, with nodes and factors added the other way round; both runs return. -/
example : ∃ ops' : List GraphOp, ops' ≠ Demo.lmOps ∧ Proper Demo.lmWorld₀ Demo.lmOps ∧ NoSetMode ops' ∧
    (addedNodes ops').Perm (addedNodes Demo.lmOps) ∧ (addedFactors ops').Perm (addedFactors Demo.lmOps) ∧
    (∀ f ∈ addedFactors Demo.lmOps, (Demo.lmWorld₀.fh f).virt.W.PosSemidef) ∧
    (∀ f ∈ addedFactors Demo.lmOps, 0 ≤ (Demo.lmWorld₀.fh f).weight) ∧
    (∀ f ∈ addedFactors Demo.lmOps, (Demo.lmWorld₀.fh f).virt.robust ≠ .ransac) := by
  refine ⟨[.addNode 1, .addNode 0, .addFactor 1, .addFactor 0], by simp [Demo.lmOps], Demo.lm_proper, ?_, ?_, ?_, ?_, ?_, ?_⟩
  · intro op hop n m; simp at hop; rcases hop with rfl | rfl | rfl | rfl <;> simp
  · exact List.Perm.swap _ _ _
  · exact List.Perm.swap _ _ _
  all_goals
    intro f hf
    simp [addedFactors, Demo.lmOps] at hf
  · rcases hf with rfl | rfl <;> exact Demo.posW_psd
  · rcases hf with rfl | rfl <;> exact le_refl (0 : ℝ)
  · rcases hf with rfl | rfl <;> exact fun h => nomatch h

/-- C88, Gauss-Newton: multiplying all information matrices by the same positive number does not change the result, and
multiplies the cost. -/
theorem C88_scale_gn (w₀ : World) (h₀ : w₀.g = emptyGraph) (ops : List GraphOp) (hp : Proper w₀ ops) (c : ℝ) (hc : 0 < c)
    (hpsd : ∀ f ∈ addedFactors ops, (w₀.fh f).virt.W.PosSemidef) (hwt : ∀ f ∈ addedFactors ops, 0 ≤ (w₀.fh f).weight)
    (hq : Plain w₀ (addedFactors ops)) (env env' : Env) (henv : env.Sound) (henv' : env'.Sound)
    (s s' : FGraphSolve) (hs : s.w = World.run ops w₀) (hs' : s'.w = World.run ops (w₀.rescale c))
    (hpd : (infoMatrix (graphTerms s.w)).PosDef) (maxIters : ℕ) (lambda tol : ℝ) (s1 s1' : FGraphSolve)
    (h1 : s.solve env .GN maxIters lambda tol = .ok s1) (h1' : s'.solve env' .GN maxIters lambda tol = .ok s1') :
    (∀ n, (s1'.w.nh n).val = (s1.w.nh n).val) ∧ s1'.w.cost = c * s1.w.cost := by
  have hw := run_wellPosed h₀ hp hpsd hwt
  have hw' := rescale_wellPosed hc h₀ hp hpsd hwt
  have hr := run_noRansac h₀ fun f hf => by rw [hq f hf]; simp
  have hr' := rescale_noRansac (c := c) h₀ hq
  have ha := alike_rescale (c := c) h₀ hp.noSetMode hq
  rw [← hs] at hw hr ha
  rw [← hs'] at hw' hr' ha
  have h := FGraphSolve.gn_alike henv henv' hc ha hw hw' hr hr' hpd h1 h1'
  exact ⟨h.val, h.cost_eq⟩

/-- One planar pose with a prior, all information multiplied by 1000; both calls return. -/
example (s s' : FGraphSolve) (hs : s.w = World.run Demo.p3Ops Demo.unitWorld₀)
    (hs' : s'.w = World.run Demo.p3Ops (Demo.unitWorld₀.rescale 1000)) :
    Proper Demo.unitWorld₀ Demo.p3Ops ∧ (∀ f ∈ addedFactors Demo.p3Ops, (Demo.unitWorld₀.fh f).virt.W.PosSemidef) ∧
    (∀ f ∈ addedFactors Demo.p3Ops, 0 ≤ (Demo.unitWorld₀.fh f).weight) ∧ Plain Demo.unitWorld₀ (addedFactors Demo.p3Ops) ∧
    (infoMatrix (graphTerms s.w)).PosDef ∧ (∃ s1, s.solve Env.exact .GN 20 1e-6 1e-2 = .ok s1) ∧
    (∃ s1', s'.solve Env.exact .LM 20 1e-6 1e-2 = .ok s1') := by
  have hpd : (infoMatrix (graphTerms s.w)).PosDef := by rw [hs]; exact Demo.unit_posDef
  have hw : WellPosed s.w := by rw [hs]; exact Demo.unit_wellPosed
  have hw' : WellPosed s'.w := by
    rw [hs']; exact rescale_wellPosed (by norm_num) rfl Demo.unit_proper Demo.unit_psd Demo.unit_weight
  refine ⟨Demo.unit_proper, Demo.unit_psd, Demo.unit_weight, Demo.unit_plain, hpd,
    C36_returns _ Env.exact_complete _ hw hpd _ _ _, ?_⟩
  obtain ⟨r, hr⟩ := FGraphSolve.lmLoop_total Env.exact_complete 20 _ 0 ⟨s'.w, 1e-5, 1e-2, s'.sys, s'.mats⟩ rfl hw' (by norm_num)
  refine ⟨r.s, ?_⟩
  change (FGraphSolve.lmLoop Env.exact 20 0 ⟨s'.w, 1e-5, 1e-2, s'.sys, s'.mats⟩ >>= fun r => Out.ok r.s) = _
  rw [hr]; rfl

/-- C88: the information of two factors with the same nodes and the same measurement adds up.  In particular
(`f' = f`) a factor that is added a second time counts twice. -/
theorem C88_merge (w₀ : World) (h₀ : w₀.g = emptyGraph) (ops : List GraphOp) (f f' : FRef)
    (hp : Proper w₀ (ops ++ [.addFactor f'])) (hnd : (addedFactors ops).Nodup) (hf : f ∈ addedFactors ops)
    (W' : Matrix (Fin (w₀.fh f).virt.dim) (Fin (w₀.fh f).virt.dim) ℝ) (hv : (w₀.fh f').virt = { (w₀.fh f).virt with W := W' })
    (hn : (w₀.fh f').nbrs = (w₀.fh f).nbrs)
    (hpsd : ∀ g ∈ f' :: addedFactors ops, (w₀.fh g).virt.W.PosSemidef) (hwt : ∀ g ∈ f' :: addedFactors ops, 0 ≤ (w₀.fh g).weight)
    (hr : ∀ g ∈ addedFactors ops, (w₀.fh g).virt.robust ≠ .ransac) (hq : (w₀.fh f).virt.robust = .quadratic)
    (env env' : Env) (henv : env.Sound) (henv' : env'.Sound)
    (s s' : FGraphSolve) (hs : s.w = World.run (ops ++ [.addFactor f']) w₀)
    (hs' : s'.w = World.run ops (w₀.reweigh f ((w₀.fh f).virt.W + W'))) (maxIters : ℕ) (lambda tol : ℝ) :
    (∀ s1 s1', (infoMatrix (graphTerms s.w)).PosDef → s.solve env .GN maxIters lambda tol = .ok s1 →
      s'.solve env' .GN maxIters lambda tol = .ok s1' → (∀ n, (s1'.w.nh n).val = (s1.w.nh n).val) ∧ s1'.w.cost = s1.w.cost) ∧
    (∀ r r', FGraphSolve.levenbergMarquardt env maxIters { s with tol := tol } = .ok r →
      FGraphSolve.levenbergMarquardt env' maxIters { s' with tol := tol } = .ok r' →
      r'.ret = r.ret ∧ r'.iters = r.iters ∧ (∀ n, (r'.s.w.nh n).val = (r.s.w.nh n).val) ∧ r'.s.w.cost = r.s.w.cost) := by
  have hF : addedFactors (ops ++ [.addFactor f']) = addedFactors ops ++ [f'] := by simp [addedFactors]
  have hN : addedNodes (ops ++ [.addFactor f']) = addedNodes ops := by simp [addedNodes]
  have hmem : ∀ g, g ∈ addedFactors (ops ++ [.addFactor f']) ↔ g ∈ f' :: addedFactors ops := by
    intro g; rw [hF]; simp [or_comm]
  have hno : NoSetMode ops := fun op hop => hp.noSetMode op (List.mem_append_left _ hop)
  have hsub : ∀ g ∈ addedFactors ops, g ∈ addedFactors (ops ++ [.addFactor f']) := fun g hg => by
    rw [hF]; exact List.mem_append_left _ hg
  have hw := run_wellPosed h₀ hp (fun g hg => hpsd g ((hmem g).mp hg)) fun g hg => hwt g ((hmem g).mp hg)
  have hW' : W'.PosSemidef := by
    have h := hpsd f' List.mem_cons_self
    have key : ∀ v : FactorVirt, v = { (w₀.fh f).virt with W := W' } → v.W.PosSemidef → W'.PosSemidef := by
      rintro _ rfl h; exact h
    exact key _ hv h
  have hp' : Proper (w₀.reweigh f ((w₀.fh f).virt.W + W')) ops :=
    { noSetMode := hno
      nodup := hN ▸ hp.nodup
      noSchur := fun n hn => hp.noSchur n (hN ▸ hn)
      registered := reweigh_forall (P := fun _ c => ∀ n ∈ c.nbrs, n ∈ addedNodes ops ∨ (w₀.nh n).mode = .anchor)
        (fun g hg n hn => hN ▸ hp.registered g (hsub g hg) n hn) fun n hn => hN ▸ hp.registered f (hsub f hf) n hn
      noLoop := reweigh_forall (P := fun _ c => (c.nbrs.filter fun n => (w₀.nh n).mode ≠ .anchor).Nodup)
        (fun g hg => hp.noLoop g (hsub g hg)) (hp.noLoop f (hsub f hf))
      typed := reweigh_forall (P := fun _ c => c.wellTyped w₀.nh) (fun g hg => hp.typed g (hsub g hg)) (hp.typed f (hsub f hf)) }
  have hw' : WellPosed (World.run ops (w₀.reweigh f ((w₀.fh f).virt.W + W'))) := by
    refine run_wellPosed (w₀ := w₀.reweigh f ((w₀.fh f).virt.W + W')) h₀ hp' ?_ ?_
    · exact reweigh_forall (P := fun _ c => c.virt.W.PosSemidef) (fun g hg => hpsd g (List.mem_cons_of_mem _ hg))
        ((hpsd f (List.mem_cons_of_mem _ hf)).add hW')
    · exact reweigh_forall (P := fun _ c => 0 ≤ c.weight) (fun g hg => hwt g (List.mem_cons_of_mem _ hg))
        (hwt f (List.mem_cons_of_mem _ hf))
  have hr1 : NoRansac (World.run (ops ++ [.addFactor f']) w₀) := run_noRansac h₀ fun g hg => by
    rcases List.mem_cons.mp ((hmem g).mp hg) with rfl | hg
    · rw [hv]; exact hr f hf
    · exact hr g hg
  have hr1' : NoRansac (World.run ops (w₀.reweigh f ((w₀.fh f).virt.W + W'))) :=
    run_noRansac (w₀ := w₀.reweigh f ((w₀.fh f).virt.W + W')) h₀
      (reweigh_forall (P := fun _ c => c.virt.robust ≠ .ransac) hr (hr f hf))
  have ha := alike_merge h₀ hno hnd hf hq W' hv hn
  rw [← hs] at hw hr1 ha
  rw [← hs'] at hw' hr1' ha
  refine ⟨fun s1 s1' hpd h1 h1' => ?_, fun r r' h1 h1' => ?_⟩
  · have h := FGraphSolve.gn_alike henv henv' one_pos ha hw hw' hr1 hr1' hpd h1 h1'
    exact ⟨h.val, h.cost_eq.trans (one_mul _)⟩
  · obtain ⟨k1, k2, k3⟩ := FGraphSolve.lmLoop_alike henv henv' one_pos (c := 1) _ 0 rfl
      (s := ⟨s.w, 1e-5, tol, s.sys, s.mats⟩) (s' := ⟨s'.w, 1e-5, tol, s'.sys, s'.mats⟩) ⟨ha, (one_mul _).symm, (one_mul _).symm⟩ hw hw' hr1 hr1'
      (by norm_num) h1 h1'
    exact ⟨k1, k2, k3.w.val, k3.w.cost_eq.trans (one_mul _)⟩

/-- The prior of that graph, added a second time. -/
example : Proper Demo.unitWorld₀ (Demo.p3Ops ++ [.addFactor 0]) ∧ (addedFactors Demo.p3Ops).Nodup ∧
    0 ∈ addedFactors Demo.p3Ops ∧
    (Demo.unitWorld₀.fh 0).virt = { (Demo.unitWorld₀.fh 0).virt with W := (Demo.unitWorld₀.fh 0).virt.W } ∧
    (∀ g ∈ 0 :: addedFactors Demo.p3Ops, (Demo.unitWorld₀.fh g).virt.W.PosSemidef) ∧
    (∀ g ∈ 0 :: addedFactors Demo.p3Ops, 0 ≤ (Demo.unitWorld₀.fh g).weight) ∧
    (∀ g ∈ addedFactors Demo.p3Ops, (Demo.unitWorld₀.fh g).virt.robust ≠ .ransac) := by
  refine ⟨⟨?_, ?_, fun _ _ => ?_, fun _ _ n hn => ?_, fun _ _ => ?_, fun _ _ => ?_⟩, by simp [addedFactors, Demo.p3Ops],
    by simp [addedFactors, Demo.p3Ops], rfl, fun _ _ => Matrix.PosSemidef.one, fun _ _ => le_refl (0 : ℝ), fun _ _ h => nomatch h⟩
  · intro op hop n m; simp [Demo.p3Ops] at hop; rcases hop with rfl | rfl | rfl <;> simp
  · simp [addedNodes, Demo.p3Ops]
  · exact fun h => nomatch h
  · have hn' : n ∈ [(0 : NRef)] := hn
    rw [List.mem_singleton] at hn'
    left; subst hn'; simp [addedNodes, Demo.p3Ops]
  · simp [Demo.unitWorld₀, FactorCell.new, NodeCell.new]
  · simp [Demo.unitWorld₀, FactorCell.new, NodeCell.new, FactorCell.wellTyped, FactorVirt.prior2d]

/-- C88: a factor whose information matrix is zero does not matter, whatever it measures and between whatever nodes. -/
theorem C88_silent (w₀ : World) (h₀ : w₀.g = emptyGraph) (ops : List GraphOp) (f : FRef)
    (hp : Proper w₀ (ops ++ [.addFactor f])) (hW : (w₀.fh f).virt.W = 0)
    (hpsd : ∀ g ∈ addedFactors ops, (w₀.fh g).virt.W.PosSemidef) (hwt : ∀ g ∈ f :: addedFactors ops, 0 ≤ (w₀.fh g).weight)
    (hr : ∀ g ∈ f :: addedFactors ops, (w₀.fh g).virt.robust ≠ .ransac)
    (env env' : Env) (henv : env.Sound) (henv' : env'.Sound)
    (s s' : FGraphSolve) (hs : s.w = World.run ops w₀) (hs' : s'.w = World.run (ops ++ [.addFactor f]) w₀)
    (maxIters : ℕ) (lambda tol : ℝ) :
    (∀ s1 s1', (infoMatrix (graphTerms s.w)).PosDef → s.solve env .GN maxIters lambda tol = .ok s1 →
      s'.solve env' .GN maxIters lambda tol = .ok s1' → (∀ n, (s1'.w.nh n).val = (s1.w.nh n).val) ∧ s1'.w.cost = s1.w.cost) ∧
    (∀ r r', FGraphSolve.levenbergMarquardt env maxIters { s with tol := tol } = .ok r →
      FGraphSolve.levenbergMarquardt env' maxIters { s' with tol := tol } = .ok r' →
      r'.ret = r.ret ∧ r'.iters = r.iters ∧ (∀ n, (r'.s.w.nh n).val = (r.s.w.nh n).val) ∧ r'.s.w.cost = r.s.w.cost) := by
  have hF : addedFactors (ops ++ [.addFactor f]) = addedFactors ops ++ [f] := by simp [addedFactors]
  have hN : addedNodes (ops ++ [.addFactor f]) = addedNodes ops := by simp [addedNodes]
  have hmem : ∀ g, g ∈ addedFactors (ops ++ [.addFactor f]) ↔ g ∈ f :: addedFactors ops := by
    intro g; rw [hF]; simp [or_comm]
  have hsub : ∀ g ∈ addedFactors ops, g ∈ addedFactors (ops ++ [.addFactor f]) := fun g hg => by
    rw [hF]; exact List.mem_append_left _ hg
  have hp0 : Proper w₀ ops :=
    { noSetMode := fun op hop => hp.noSetMode op (List.mem_append_left _ hop)
      nodup := hN ▸ hp.nodup
      noSchur := fun n hn => hp.noSchur n (hN ▸ hn)
      registered := fun g hg n hn => hN ▸ hp.registered g (hsub g hg) n hn
      noLoop := fun g hg => hp.noLoop g (hsub g hg)
      typed := fun g hg => hp.typed g (hsub g hg) }
  have hw := run_wellPosed h₀ hp0 hpsd fun g hg => hwt g (List.mem_cons_of_mem _ hg)
  have hw' := run_wellPosed h₀ hp (fun g hg => by
      rcases List.mem_cons.mp ((hmem g).mp hg) with rfl | hg
      · rw [hW]; exact Matrix.PosSemidef.zero
      · exact hpsd g hg) fun g hg => hwt g ((hmem g).mp hg)
  have hr1 := run_noRansac h₀ (ops := ops) fun g hg => hr g (List.mem_cons_of_mem _ hg)
  have hr1' := run_noRansac h₀ (ops := ops ++ [.addFactor f]) fun g hg => hr g ((hmem g).mp hg)
  have ha := alike_silent h₀ hp0.noSetMode hW
  rw [← hs] at hw hr1 ha
  rw [← hs'] at hw' hr1' ha
  refine ⟨fun s1 s1' hpd h1 h1' => ?_, fun r r' h1 h1' => ?_⟩
  · have h := FGraphSolve.gn_alike henv henv' one_pos ha hw hw' hr1 hr1' hpd h1 h1'
    exact ⟨h.val, h.cost_eq.trans (one_mul _)⟩
  · obtain ⟨k1, k2, k3⟩ := FGraphSolve.lmLoop_alike henv henv' one_pos (c := 1) _ 0 rfl
      (s := ⟨s.w, 1e-5, tol, s.sys, s.mats⟩) (s' := ⟨s'.w, 1e-5, tol, s'.sys, s'.mats⟩) ⟨ha, (one_mul _).symm, (one_mul _).symm⟩ hw hw' hr1 hr1'
      (by norm_num) h1 h1'
    exact ⟨k1, k2, k3.w.val, k3.w.cost_eq.trans (one_mul _)⟩

/-- The same graph with a second prior, at `(5, 0, 0)`, that has no information. -/
example : ∃ w₀ : World, w₀.g = emptyGraph ∧ Proper w₀ (Demo.p3Ops ++ [.addFactor 1]) ∧ (w₀.fh 1).virt.W = 0 ∧
    (w₀.fh 0).virt.W ≠ 0 ∧
    (∀ g ∈ addedFactors Demo.p3Ops, (w₀.fh g).virt.W.PosSemidef) ∧ (∀ g ∈ 1 :: addedFactors Demo.p3Ops, 0 ≤ (w₀.fh g).weight) ∧
    (∀ g ∈ 1 :: addedFactors Demo.p3Ops, (w₀.fh g).virt.robust ≠ .ransac) := by
  refine ⟨⟨fun _ => NodeCell.new .pose2d 0 .standard, fun f => if f = 0 then FactorCell.new (.prior2d ![1, 0, 0] 1 .quadratic) [0] 0 0
    else FactorCell.new (.prior2d ![5, 0, 0] 0 .huber) [0] 0 0, emptyGraph⟩, rfl,
    ⟨?_, ?_, fun _ _ => ?_, fun f hf n hn => ?_, fun f hf => ?_, fun f hf => ?_⟩, rfl, ?_, ?_, ?_, ?_⟩
  · intro op hop n m; simp [Demo.p3Ops] at hop; rcases hop with rfl | rfl | rfl <;> simp
  · simp [addedNodes, Demo.p3Ops]
  · exact fun h => nomatch h
  · simp [addedFactors, Demo.p3Ops] at hf
    rcases hf with rfl | rfl <;> simp [FactorCell.new] at hn <;> (left; subst hn; simp [addedNodes, Demo.p3Ops])
  · simp [addedFactors, Demo.p3Ops] at hf
    rcases hf with rfl | rfl <;> simp [FactorCell.new, NodeCell.new]
  · simp [addedFactors, Demo.p3Ops] at hf
    rcases hf with rfl | rfl <;> simp [FactorCell.new, NodeCell.new, FactorCell.wellTyped, FactorVirt.prior2d]
  · exact one_ne_zero (α := Mat3)
  · intro g hg
    simp [addedFactors, Demo.p3Ops] at hg
    subst hg
    exact Matrix.PosSemidef.one
  all_goals
    intro g hg
    simp [addedFactors, Demo.p3Ops] at hg
  · rcases hg with rfl | rfl <;> exact le_refl (0 : ℝ)
  · rcases hg with rfl | rfl <;> exact fun h => nomatch h

/-- C88, Levenberg-Marquardt: when the damping at the start and the tolerance are multiplied by the same number as the
information, the loop goes through the same states.  Partial: `solve` starts with the damping `1e-5` whatever the
information is, see `C88_scale_fails`. -/
theorem C88_scale_lm_partial (w₀ : World) (h₀ : w₀.g = emptyGraph) (ops : List GraphOp) (hp : Proper w₀ ops) (c : ℝ) (hc : 0 < c)
    (hpsd : ∀ f ∈ addedFactors ops, (w₀.fh f).virt.W.PosSemidef) (hwt : ∀ f ∈ addedFactors ops, 0 ≤ (w₀.fh f).weight)
    (hq : Plain w₀ (addedFactors ops)) (env env' : Env) (henv : env.Sound) (henv' : env'.Sound)
    (s s' : FGraphSolve) (hs : s.w = World.run ops w₀) (hs' : s'.w = World.run ops (w₀.rescale c)) (hl : 0 < s.lambda)
    (hl' : s'.lambda = c * s.lambda) (ht : s'.tol = c * s.tol) (maxIters : ℕ) (r r' : FGraphSolve.LMResult)
    (h1 : s.lmLoop env maxIters 0 = .ok r) (h1' : s'.lmLoop env' maxIters 0 = .ok r') :
    r'.ret = r.ret ∧ r'.iters = r.iters ∧ (∀ n, (r'.s.w.nh n).val = (r.s.w.nh n).val) ∧ r'.s.w.cost = c * r.s.w.cost := by
  have hw := run_wellPosed h₀ hp hpsd hwt
  have hw' := rescale_wellPosed hc h₀ hp hpsd hwt
  have hr := run_noRansac h₀ fun f hf => by rw [hq f hf]; simp
  have hr' := rescale_noRansac (c := c) h₀ hq
  have ha := alike_rescale (c := c) h₀ hp.noSetMode hq
  rw [← hs] at hw hr ha
  rw [← hs'] at hw' hr' ha
  obtain ⟨k1, k2, k3⟩ := FGraphSolve.lmLoop_alike henv henv' hc _ 0 rfl ⟨ha, hl', ht⟩ hw hw' hr hr' hl h1 h1'
  exact ⟨k1, k2, k3.w.val, k3.w.cost_eq⟩

/-- The full property is false: one planar pose at the origin with a prior at `(1, 0, 0)`.  With the identity as
information the pose ends within a hundredth of the prior.  With a millionth of it, and the same arguments of `solve` (the
tolerance is the default `1e-2`), the method reports convergence after one iteration at less than a tenth of the way. -/
theorem C88_scale_fails (env : Env) (henv : env.Sound) (hcomp : env.Complete) : ∃ (w₀ : World) (ops : List GraphOp) (c : ℝ),
    w₀.g = emptyGraph ∧ Proper w₀ ops ∧ 0 < c ∧ (∀ f ∈ addedFactors ops, (w₀.fh f).virt.W.PosSemidef) ∧
    (∀ f ∈ addedFactors ops, 0 ≤ (w₀.fh f).weight) ∧ Plain w₀ (addedFactors ops) ∧
    ∀ s s' : FGraphSolve, s.w = World.run ops w₀ → s'.w = World.run ops (w₀.rescale c) → ∀ maxIters : ℕ,
      ∃ (r r' : FGraphSolve.LMResult) (y y' : Vec3),
        FGraphSolve.levenbergMarquardt env maxIters { s with tol := 1e-2 } = .ok r ∧
        FGraphSolve.levenbergMarquardt env maxIters { s' with tol := 1e-2 } = .ok r' ∧
        r'.ret = 1 ∧ r'.iters = 1 ∧ (r.s.w.nh 0).val = ⟨.pose2d, y⟩ ∧ (r'.s.w.nh 0).val = ⟨.pose2d, y'⟩ ∧
        0.99 ≤ y 0 ∧ y' 0 ≤ 0.1 := by
  refine ⟨Demo.unitWorld₀, Demo.p3Ops, 1e-6, rfl, Demo.unit_proper, by norm_num, Demo.unit_psd, Demo.unit_weight, Demo.unit_plain,
    fun s s' hs hs' maxIters => ?_⟩
  have hw : WellPosed s.w := by rw [hs]; exact Demo.unit_wellPosed
  have hc : (0 : ℝ) < 1e-6 := by norm_num
  have hw' : WellPosed s'.w := by
    rw [hs']; exact rescale_wellPosed hc rfl Demo.unit_proper Demo.unit_psd Demo.unit_weight
  obtain ⟨r, h⟩ := FGraphSolve.lmLoop_total hcomp maxIters _ 0 ⟨s.w, 1e-5, 1e-2, s.sys, s.mats⟩ rfl hw (by norm_num)
  obtain ⟨r', h'⟩ := FGraphSolve.lmLoop_total hcomp maxIters _ 0 ⟨s'.w, 1e-5, 1e-2, s'.sys, s'.mats⟩ rfl hw' (by norm_num)
  obtain ⟨t, ht⟩ := FGraphSolve.lmLoop_total hcomp maxIters _ 0 ⟨s.w, 10, 1e4, s.sys, s.mats⟩ rfl hw (by norm_num)
  have hkind : ∀ v : NodeVal, v.1 = .pose2d → ∃ y : Vec3, v = ⟨.pose2d, y⟩ := by
    rintro ⟨_, y⟩ rfl; exact ⟨y, rfl⟩
  -- without scaling
  have hrun := FGraphSolve.lmLoop_run _ _ _ _ rfl h
  obtain ⟨d, s1, h1, -⟩ := FGraphSolve.trial_total hcomp (s := ⟨s.w, 1e-5, 1e-2, s.sys, s.mats⟩) hw (by norm_num)
  obtain ⟨k1, k2, -⟩ := Demo.unit_delta henv (s := ⟨s.w, 1e-5, 1e-2, s.sys, s.mats⟩) hs (by norm_num) h1
  have hcost := hrun.cost_le_trial (fun f hf => by
    have hv : (s.w.fh f).virt = .prior2d ![1, 0, 0] 1 .quadratic := by
      rw [hs]; exact (run_fh_static _ _ f).1
    rw [hv]
    exact (FactorVirt.Library.prior2d _ _ _).headingInvariant) h1 k2
  have hF : Frame Demo.unitWorld r.s.w := by
    have := hrun.frame
    change Frame s.w _ at this
    rwa [hs] at this
  obtain ⟨y, hy⟩ := hkind (r.s.w.nh 0).val (hF.active 0).kind
  rw [k1, Demo.unit_cost hF hy, Demo.unit_res, Demo.unit_chi2] at hcost
  -- with scaling
  obtain ⟨d', s2, h2, -⟩ := FGraphSolve.trial_total hcomp (s := ⟨s.w, 10, 1e4, s.sys, s.mats⟩) hw (by norm_num)
  obtain ⟨-, k2', k3'⟩ := Demo.unit_delta henv (s := ⟨s.w, 10, 1e4, s.sys, s.mats⟩) hs (by norm_num) h2
  have hv2 := Demo.unit_trial henv (s := ⟨s.w, 10, 1e4, s.sys, s.mats⟩) hs (by norm_num) h2
  have htol : s2.tol = 1e4 := (FGraphSolve.trial_ok h2).2.2.1
  have ht' : FGraphSolve.lmLoop env maxIters 0 ⟨s.w, 10, 1e4, s.sys, s.mats⟩ = .ok ⟨1, 1, s2⟩ := by
    rw [FGraphSolve.lmLoop, h2, Out.ok_bind]
    dsimp only
    rw [htol, if_neg (not_lt.mpr k2'), if_pos (by norm_num; linarith)]
  have hnr : NoRansac s.w := by
    rw [hs]; exact run_noRansac rfl fun f hf => by rw [Demo.unit_plain f hf]; simp
  have hnr' : NoRansac s'.w := by
    rw [hs']; exact rescale_noRansac rfl Demo.unit_plain
  have ha : World.Alike 1e-6 s.w s'.w := by
    rw [hs, hs']; exact alike_rescale rfl Demo.unit_proper.noSetMode Demo.unit_plain
  obtain ⟨m1, m2, m3⟩ := FGraphSolve.lmLoop_alike henv henv hc _ 0 rfl
    (s := ⟨s.w, 10, 1e4, s.sys, s.mats⟩) (s' := ⟨s'.w, 1e-5, 1e-2, s'.sys, s'.mats⟩) ⟨ha, by norm_num, by norm_num⟩ hw hw' hnr hnr' (by norm_num)
    ht' h'
  refine ⟨r, r', y, _, h, h', m1, m2, hy, (m3.w.val 0).trans hv2, ?_, ?_⟩
  · norm_num at hcost
    nlinarith [sq_nonneg (y 1), sq_nonneg (wrapAngle (y 2))]
  · norm_num

end Mrob
