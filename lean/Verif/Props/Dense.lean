import Verif.Lemmas.DenseLoop
import Verif.Props.Assembly
import Verif.Props.Optimizer
import Verif.Props.Node

/-!
# C45, C46, C48: the dense solver
-/

open Matrix

namespace Mrob

open World

/-! ### C48 -/

theorem addedAny_of_noEigen (ops : List GraphOp) (h : addedEigen ops = []) : addedAny ops = addedFactors ops := by
  induction ops with
  | nil => rfl
  | cons op ops ih =>
    cases op <;> simp_all [addedAny, addedFactors, addedEigen]

/-- C48 for graphs without anchors: a proper history of a graph whose nodes are all STANDARD, connected by factors of the
graph only, leads to a graph the dense solver can work on. -/
theorem C48_history_partial (w₀ : World) (h₀ : w₀.g = emptyGraph) (ops : List GraphOp) (hp : Proper w₀ ops)
    (hstd : ∀ n ∈ addedNodes ops, (w₀.nh n).mode = .standard)
    (hreg : ∀ f ∈ addedFactors ops, ∀ n ∈ (w₀.fh f).nbrs, n ∈ addedNodes ops)
    (hn : ∀ n, (w₀.nh n).nbrs = []) (he : addedEigen ops = []) : DenseWired (World.run ops w₀) := by
  have hact : (World.run ops w₀).g.active = addedNodes ops := by
    rw [run_active ops hp.noSetMode, h₀]
    change [] ++ _ = _
    rw [List.nil_append, List.filter_eq_self.mpr]
    intro n hn
    simp [hstd n hn]
  have hfac : (World.run ops w₀).g.factors = addedFactors ops := by rw [run_factors, h₀]; rfl
  have hnb : ∀ f, ((World.run ops w₀).fh f).nbrs = (w₀.fh f).nbrs := fun f => (run_fh_static ops w₀ f).2
  refine ⟨C44_wired_partial w₀ h₀ ops hp, ?_, ?_, ?_⟩
  · rw [hact, run_nodes, h₀]; rfl
  · intro f hf n hn
    rw [hfac] at hf
    rw [hnb] at hn
    rw [hact]
    exact hreg f hf n hn
  · intro n hna
    have h1 : ((World.run ops w₀).nh n).nbrs = _ := C33_neighbours w₀ ops hn n
    rw [h1, hfac, addedAny_of_noEigen ops he]
    have key : ∀ fs : List FRef, (∀ f ∈ fs, f ∈ addedFactors ops) →
        (fs.flatMap fun f => List.replicate (((World.run ops w₀).fh f).nbrs.count n) f) =
          fs.filter fun f => n ∈ ((World.run ops w₀).fh f).nbrs := by
      intro fs
      induction fs with
      | nil => intro _; rfl
      | cons f fs ih =>
        intro hfs
        rw [List.flatMap_cons, ih fun f hf => hfs f (List.mem_cons_of_mem _ hf)]
        have hnd : ((World.run ops w₀).fh f).nbrs.Nodup := by
          rw [hnb]
          have := hp.noLoop f (hfs f List.mem_cons_self)
          rwa [List.filter_eq_self.mpr] at this
          intro m hm
          simp [hstd m (hreg f (hfs f List.mem_cons_self) m hm)]
        by_cases hc : n ∈ ((World.run ops w₀).fh f).nbrs
        · rw [List.count_eq_one_of_mem hnd hc]; simp [hc]
        · rw [List.count_eq_zero_of_not_mem hc]; simp [hc]
    exact key _ fun _ h => h

/-- C48 for graphs without anchors: no call of `solve` accesses memory out of bounds, whatever the method, limits and
numbers; the number of unknowns is that of all nodes. -/
theorem C48_in_bounds_partial (s : OptDense World) (hw : DenseWired s.obj) (m : OptMethod) (maxIters : ℕ) (lambda : ℝ) :
    s.solve denseGraph m maxIters lambda ≠ .ub ∧
    ∃ e w', s.obj.denseGradHess = .ok (e, w') ∧ e.N = (s.obj.g.nodes.map fun n => (s.obj.nh n).dim).sum := by
  constructor
  · have lm : ∀ s : OptDense World, DenseWired s.obj → s.levenbergMarquardt denseGraph ≠ .ub := by
      intro s hw
      obtain ⟨c, s', h, hF⟩ := OptDense.error_dense hw
      rw [OptDense.levenbergMarquardt, h, Out.ok_bind]
      exact OptDense.lmLoop_dense _ _ _ _ _ rfl (hF.denseWired hw)
    cases m
    · change OptDense.newtonRaphson denseGraph { s with method := .newtonRaphson, maxIters := maxIters } ≠ _
      obtain ⟨c, s', h, hF⟩ := OptDense.error_dense (s := { s with method := .newtonRaphson, maxIters := maxIters }) hw
      rw [OptDense.newtonRaphson, h, Out.ok_bind]
      exact OptDense.nrLoop_dense _ _ _ _ _ rfl (hF.denseWired hw)
    · exact lm { s with method := .lmSpher, maxIters := maxIters, lambda := lambda } hw
    · exact lm { s with method := .lmEllip, maxIters := maxIters, lambda := lambda } hw
  · obtain ⟨H, g, h, -, -⟩ := hw.gradHess
    exact ⟨_, _, h, by rw [hw.nodes]; exact hw.wired.stateDim⟩

theorem Demo.dense_wired (x y : Vec3) : DenseWired (World.run Demo.denseOps (Demo.denseWorld x y)) := by
  refine C48_history_partial _ rfl _ (Demo.denseProper x y) (fun _ _ => rfl) ?_ (fun _ => rfl) rfl
  intro f hf n hn
  rcases (Demo.denseProper x y).registered f hf n hn with h | h
  · exact h
  · simp [Demo.denseWorld, NodeCell.new] at h

/-- The hypotheses of the theorems on the dense solver are met by two poses with priors and a relative factor. -/
example : DenseWired (World.run Demo.denseOps (Demo.denseWorld ![1, 0, 0] ![2, 0, 0])) := Demo.dense_wired _ _

/-- C48 is false with anchors: after a history that adds an anchor (and does not change modes), no call of `solve` returns.
The vector `dx_` has no entries for the anchor, but its loop over the nodes reads some. -/
theorem C48_anchor_fails (w₀ : World) (h₀ : w₀.g = emptyGraph) (ops : List GraphOp) (hno : NoSetMode ops) (n : NRef)
    (hn : n ∈ addedNodes ops) (ha : (w₀.nh n).mode = .anchor) (s : OptDense World) (hs : s.obj = World.run ops w₀)
    (m : OptMethod) (maxIters : ℕ) (lambda : ℝ) (r : ℕ × OptDense World) :
    s.solve denseGraph m maxIters lambda ≠ .ok r := by
  intro h
  obtain ⟨c, x, t, t', b, h1, h2, h3⟩ := OptDense.solve_first h
  have hF : DenseFrame s.obj t.obj := by
    have hF := (chi2Eval_ok h1).2.2.2
    rcases h3 with h3 | h3
    · rw [h3]; exact hF
    · have h3 : t.obj = x.denseBookkeep := (Out.ok.inj h3).symm
      rw [h3]; exact hF.trans (denseBookkeep_frame x)
  have h4 := OptDense.oneIteration_fits h2
  rw [hF.factors.g, hs] at h4
  have hdim : (fun n => (t.obj.nh n).dim) = fun n => ((World.run ops w₀).nh n).dim := by
    funext k
    have := (hF.inside k).kind
    rw [NodeCell.dim, this, hs]
    rfl
  rw [hdim, total, ← C44_state_dim w₀ h₀ ops hno, run_active ops hno, run_nodes, h₀] at h4
  change ((([] : List NRef) ++ addedNodes ops).map _).sum ≤ ((([] : List NRef) ++ _).map _).sum at h4
  rw [List.nil_append, List.nil_append] at h4
  have key : ∀ l : List NRef, n ∈ l →
      ((l.filter fun n => (w₀.nh n).mode = .standard).map fun n => ((World.run ops w₀).nh n).dim).sum <
        (l.map fun n => ((World.run ops w₀).nh n).dim).sum := by
    intro l
    induction l with
    | nil => simp
    | cons a l ih =>
      intro hl
      have hpos := ((World.run ops w₀).nh a).dim_pos
      have hle : ((l.filter fun n => (w₀.nh n).mode = .standard).map fun n => ((World.run ops w₀).nh n).dim).sum ≤
          (l.map fun n => ((World.run ops w₀).nh n).dim).sum := (List.filter_sublist.map _).sum_le_sum (by simp)
      by_cases hna : (w₀.nh a).mode = .standard
      · have : n ∈ l := by
          rcases List.mem_cons.mp hl with rfl | h
          · rw [ha] at hna; simp at hna
          · exact h
        have := ih this
        rw [List.filter_cons_of_pos (by simp [hna])]
        simp only [List.map_cons, List.sum_cons]
        omega
      · rw [List.filter_cons_of_neg (by simp [hna])]
        simp only [List.map_cons, List.sum_cons]
        omega
  have := key _ hn
  exact absurd h4 (not_le.mpr this)

/-- A graph with an anchor and a free pose, in which the first factor of the anchor connects both. -/
theorem gradHess_anchor_ub {w : World} (hw : DenseFrame (World.run Demo.ops (Demo.world ![1, 2, 3] ![0, 1, 0] .quadratic)) w) :
    w.denseGradHess = .ub := by
  set w₁ := World.run Demo.ops (Demo.world ![1, 2, 3] ![0, 1, 0] .quadratic) with hw₁
  have hwired : Wired w₁ := C44_wired_partial _ rfl _ (Demo.proper _ _ _)
  have ht : ∀ f ∈ w.g.factors, (w.fh f).wellTyped w.nh := by
    intro f hf
    rw [hw.factors.g] at hf
    have := hwired.typed f hf
    rw [FactorCell.wellTyped] at this ⊢
    rw [hw.factors.nbrs, hw.factors.virt, ← this]
    exact List.map_congr_left fun n _ => (hw.inside n).kind
  have hN : w.g.stateDim = 3 := by rw [hw.factors.g]; rfl
  have hns : w.g.nodes = [0, 1] := by rw [hw.factors.g]; rfl
  have hnb : (w.nh 0).nbrs = [1] := by rw [(hw.inside 0).nbrs]; rfl
  have hid0 : (w.nh 0).id = 0 := by rw [(hw.inside 0).id]; rfl
  have hid1 : (w.nh 1).id = 1 := by rw [(hw.inside 1).id]; rfl
  have hd0 : (w.nh 0).dim = 3 := by rw [NodeCell.dim, (hw.inside 0).kind]; rfl
  have hd1 : (w.nh 1).dim = 3 := by rw [NodeCell.dim, (hw.inside 1).kind]; rfl
  have hf1 : (w.fh 1).nbrs = [0, 1] := by rw [hw.factors.nbrs]; rfl
  have hfm : 1 ∈ w.g.factors := by rw [hw.factors.g]; change (1 : FRef) ∈ [0, 1]; simp
  rw [denseGradHess, forAll_evalFull _ _ ht, Out.ok_bind]
  have hc : ((DenseWired.evaled w).fh 1).nbrs = [0, 1] := by
    rw [mapF_fh, if_pos hfm]; exact hf1
  have h1 : (DenseWired.evaled w).denseRows w.g.stateDim (colPairs w.nh 0 w.g.nodes) 0 w.g.nodes
      ⟨fun _ _ => 0, fun _ => 0⟩ = .ub := by
    rw [hN, hns, denseRows]
    change denseFactors 3 _ _ 0 0 (w.nh 0).nbrs _ >>= _ = _
    rw [hnb, denseFactors]
    change (denseFactor 3 w.nh _ 0 0 _ _ >>= _) >>= _ = _
    rw [denseFactor, hc]
    simp only [findBlock, if_true, hd0, hd1, List.map_cons, List.map_nil, List.sum_cons, List.sum_nil, denseInner, colPairs,
      hid0, hid1, List.lookup, denseBlock]
    norm_num
    rfl
  change ((DenseWired.evaled w).denseRows w.g.stateDim (colPairs w.nh 0 w.g.nodes) 0 w.g.nodes
      ⟨fun _ _ => 0, fun _ => 0⟩ >>= _) = _
  rw [h1]
  rfl

/-- C48 is false with anchors: in a graph of an anchor and a free pose with a prior and a relative factor, a block of the
Hessian is written out of bounds. -/
theorem C48_out_of_bounds_fails : ∃ (w₀ : World) (ops : List GraphOp), w₀.g = emptyGraph ∧ Proper w₀ ops ∧
    (World.run ops w₀).denseGradHess = .ub ∧ ∀ (m : OptMethod) (maxIters : ℕ) (lambda : ℝ),
      (OptDense.new (World.run ops w₀)).solve denseGraph m maxIters lambda = .ub := by
  refine ⟨Demo.world ![1, 2, 3] ![0, 1, 0] .quadratic, Demo.ops, rfl, Demo.proper _ _ _, gradHess_anchor_ub (.refl _), ?_⟩
  set w₁ := World.run Demo.ops (Demo.world ![1, 2, 3] ![0, 1, 0] .quadratic) with hw₁
  have hwired : Wired w₁ := C44_wired_partial _ rfl _ (Demo.proper _ _ _)
  have herr := chi2Eval_eq w₁ hwired.typed
  have hF := (chi2Eval_ok herr).2.2.2
  have step : ∀ (s : OptDense World) (b : Bool), DenseFrame w₁ s.obj → s.oneIteration denseGraph b = .ub := by
    intro s b hs
    rw [OptDense.oneIteration]
    change (s.obj.denseGradHess >>= _) = _
    rw [gradHess_anchor_ub hs]
    rfl
  have lm : ∀ s : OptDense World, s.obj = w₁ → s.levenbergMarquardt denseGraph = .ub := by
    intro s hs
    rw [OptDense.levenbergMarquardt, OptDense.error]
    change ((s.obj.chi2Eval >>= _) >>= _) = _
    rw [hs, herr]
    change OptDense.lmLoop denseGraph _ 0 _ _ = _
    rw [OptDense.lmLoop, OptDense.lmStep]
    change ((OptDense.oneIteration denseGraph true { s with
      obj := (mapF (fun x => x.resd w₁.nh) w₁.g.factors w₁).denseBookkeep } >>= _) >>= _) = _
    rw [step _ _ (hF.trans (denseBookkeep_frame _))]
    rfl
  intro m maxIters lambda
  cases m
  · change OptDense.newtonRaphson denseGraph { OptDense.new w₁ with method := .newtonRaphson, maxIters := maxIters } = _
    rw [OptDense.newtonRaphson, OptDense.error]
    change ((w₁.chi2Eval >>= _) >>= _) = _
    rw [herr]
    change OptDense.nrLoop denseGraph _ 0 _ _ = _
    rw [OptDense.nrLoop, OptDense.nrStep, step _ _ hF]
    rfl
  · exact lm { OptDense.new w₁ with method := .lmSpher, maxIters := maxIters, lambda := lambda } rfl
  · exact lm { OptDense.new w₁ with method := .lmEllip, maxIters := maxIters, lambda := lambda } rfl

/-! ### C45 -/

/-- Without robust weights the terms of the two solvers are the same. -/
theorem plainTerm_eq {w : World} {f : FRef} (hq : (w.fh f).virt.robust = .quadratic) : plainTerm w f = factorTerm w f := by
  have : factorWeight w f = 1 := by rw [factorWeight, hq]; rfl
  have e : (w.fh f).virt.W = factorWeight w f • (w.fh f).virt.W := by rw [this, one_smul]
  exact congrArg (fun X => ({ factorTerm w f with W := X } : Spec.Term (Cols w))) e

/-- C45 for the Hessian, and for the gradient up to a factor: in a consistent graph without anchors and robust weights, with
symmetric information matrices, the Hessian of the dense solver is the information matrix of the sparse one.  When all
factors have the same number `k` of nodes, the gradient is `k` times `b`; so it is `b` in graphs of one-node factors.
Missing: the gradient of graphs with other factors, where the claim is false. -/
theorem C45_normal_equations_partial (w : World) (hw : DenseWired w) (env : Env)
    (hs : ∀ f ∈ w.g.factors, (w.fh f).virt.W.IsSymm) (hq : ∀ f ∈ w.g.factors, (w.fh f).virt.robust = .quadratic) :
    ∃ (e : NormalEq) (w₁ w₂ : World) (a : Assembly) (hN : e.N = a.N), w.denseGradHess = .ok (e, w₁) ∧
      w.buildAdjacency env = .ok (w₂, a) ∧ (∀ i j, e.H i j = a.L (Fin.cast hN i) (Fin.cast hN j)) ∧
      ∀ k : ℕ, (∀ f ∈ w.g.factors, (w.fh f).nbrs.length = k) → ∀ i, e.grad i = k * a.b (Fin.cast hN i) := by
  have hwt : ∀ f ∈ w.g.factors, ((w.fh f).full w.nh).weightable := by
    intro f hf hc
    exact hc.2.1 (hq f hf)
  obtain ⟨H, g, h1, h2, h3⟩ := hw.gradHess
  refine ⟨⟨w.g.stateDim, H, g⟩, _, w.built, w.assembly env, rfl, h1, buildAdjacency_wired hw.wired hwt env, ?_, ?_⟩
  · have h4 : H.submatrix (colEquiv hw.wired) (colEquiv hw.wired) =
        (w.assembly env).L.submatrix (colEquiv hw.wired) (colEquiv hw.wired) := by
      rw [h2, assembly_L_terms hw.wired env hs, graphTerms, List.map_congr_left fun f hf => plainTerm_eq (hq f hf)]
    intro i j
    have := congrFun (congrFun h4 ((colEquiv hw.wired).symm i)) ((colEquiv hw.wired).symm j)
    simpa using this
  · intro k hk i
    have h4 : (fun c => g (colEquiv hw.wired c)) = fun c => k * (w.assembly env).b (colEquiv hw.wired c) := by
      have h5 := assembly_b_terms hw.wired env hs
      rw [h3]
      have h6 : (fun c => (k : ℝ) * (w.assembly env).b (colEquiv hw.wired c)) = (k : ℝ) • Spec.infoVector (graphTerms w) := by
        rw [← h5]; rfl
      rw [h6, Spec.infoVector, graphTerms, List.smul_sum, List.map_map, List.map_map]
      congr 1
      refine List.map_congr_left fun f hf => ?_
      rw [hk f hf, plainTerm_eq (hq f hf)]
      rfl
    have := congrFun h4 ((colEquiv hw.wired).symm i)
    simpa using this

/-- The gradient of the dense solver: every factor counts once for each of its nodes. -/
theorem C45_gradient (w : World) (hw : DenseWired w) : ∃ (e : NormalEq) (w₁ : World) (ε : Cols w ≃ Fin e.N),
    w.denseGradHess = .ok (e, w₁) ∧ (∀ c, (ε c : ℕ) = offset (fun n => (w.nh n).dim) w.g.active c.1 + c.2) ∧
    e.H.submatrix ε ε = Spec.infoMatrix (w.g.factors.map (plainTerm w)) ∧
    (fun c => e.grad (ε c)) = (w.g.factors.map fun f =>
      ((w.fh f).nbrs.length : ℝ) • (((plainTerm w f).Jᵀ * (plainTerm w f).W) *ᵥ (plainTerm w f).r)).sum := by
  obtain ⟨H, g, h1, h2, h3⟩ := hw.gradHess
  exact ⟨_, _, colEquiv hw.wired, h1, colEquiv_val hw.wired, h2, h3⟩

/-- The hypotheses of `C45_normal_equations_partial`. -/
example (env : Env) : ∃ (e : NormalEq) (w₁ w₂ : World) (a : Assembly) (hN : e.N = a.N),
    (World.run Demo.denseOps (Demo.denseWorld ![1, 0, 0] ![2, 0, 0])).denseGradHess = .ok (e, w₁) ∧
    (World.run Demo.denseOps (Demo.denseWorld ![1, 0, 0] ![2, 0, 0])).buildAdjacency env = .ok (w₂, a) ∧
    ∀ i j, e.H i j = a.L (Fin.cast hN i) (Fin.cast hN j) := by
  obtain ⟨e, w₁, w₂, a, hN, h1, h2, h3, -⟩ := C45_normal_equations_partial _ (Demo.dense_wired ![1, 0, 0] ![2, 0, 0]) env
    (fun f _ => by
      rw [(run_fh_static _ _ f).1]
      exact isSymm_of_psd (Demo.dense_quadratic _ _ f).2.1.posSemidef)
    (fun f _ => by rw [(run_fh_static _ _ f).1]; exact (Demo.dense_quadratic _ _ f).1)
  exact ⟨e, w₁, w₂, a, hN, h1, h2, h3⟩

/-- The two poses with priors at 0 and 3 and a relative factor, at the minimum of the cost: 1 and 2 on the first axis. -/
noncomputable abbrev Demo.best : World := World.run Demo.denseOps (Demo.denseWorld ![1, 0, 0] ![2, 0, 0])

/-- The contributions of its factors to `b`. -/
theorem Demo.best_terms (c : Cols Demo.best) (f : FRef) (hf : f ∈ Demo.best.g.factors) :
    (((plainTerm Demo.best f).Jᵀ * (plainTerm Demo.best f).W) *ᵥ (plainTerm Demo.best f).r) c =
      if (c.2 : ℕ) = 0 then
        (if f = 0 then (if (c.1 : NRef) = 0 then 1 else 0) else if f = 1 then (if (c.1 : NRef) = 1 then -1 else 0)
        else if (c.1 : NRef) = 0 then -1 else 1) else 0 := by
  have hfs : f = 0 ∨ f = 1 ∨ f = 2 := by simpa using (show f ∈ [0, 1, 2] from hf)
  have w0 : wrapAngle 0 = 0 := wrapAngle_of_mem (by linarith [Real.pi_pos]) Real.pi_pos
  have r0 : prior2dRes 0 ![1, 0, 0] = ![1, 0, 0] := by
    ext i; fin_cases i <;> simp [prior2dRes, wrap2, w0]
  have r1 : prior2dRes ![3, 0, 0] ![2, 0, 0] = ![-1, 0, 0] := by
    ext i; fin_cases i <;> simp [prior2dRes, wrap2, w0]; norm_num
  have r2 : rel2dRes 0 ![1, 0, 0] ![2, 0, 0] = ![1, 0, 0] := by
    ext i; fin_cases i <;> simp [rel2dRes, wrap2, w0]; norm_num
  have hk : (c.2 : ℕ) = 0 ∨ (c.2 : ℕ) = 1 ∨ (c.2 : ℕ) = 2 := by
    have h1 : (Demo.best.nh c.1).dim = 3 := by
      have h2 : (Demo.best.nh c.1).kind = .pose2d := run_kind _ _ _
      rw [NodeCell.dim, h2]; rfl
    have := c.2.2
    omega
  have hns : (c.1 : NRef) = 0 ∨ (c.1 : NRef) = 1 := by simpa using (show (c.1 : NRef) ∈ [0, 1] from c.1.2)
  rcases hfs with rfl | rfl | rfl
  · change (((show Matrix (Fin 3) (Cols Demo.best) ℝ from (plainTerm Demo.best 0).J)ᵀ * (1 : Mat3)) *ᵥ prior2dRes 0 ![1, 0, 0]) c = _
    rw [Matrix.mul_one, r0]
    have hJ := fun l : Fin 3 => (C34_blocks Demo.best 0 c l).1 0 rfl
    change ∑ l : Fin 3, (factorTerm Demo.best 0).J l c * (![1, 0, 0] : Vec3) l = _
    refine (Finset.sum_congr rfl fun l _ => congrArg (· * (![1, 0, 0] : Vec3) l) (hJ l)).trans ?_
    change ∑ l : Fin 3, (if (c.1 : NRef) = 0 then blk prior2dJac l c.2 else 0) * (![1, 0, 0] : Vec3) l = _
    generalize (c.2 : ℕ) = k at hk ⊢
    rcases hk with rfl | rfl | rfl <;> rcases hns with hn | hn <;>
      simp [hn, Fin.sum_univ_three, blk, prior2dJac]
    exact Matrix.one_apply_eq (0 : Fin 3)
  · change (((show Matrix (Fin 3) (Cols Demo.best) ℝ from (plainTerm Demo.best 1).J)ᵀ * (1 : Mat3)) *ᵥ prior2dRes ![3, 0, 0] ![2, 0, 0]) c = _
    rw [Matrix.mul_one, r1]
    have hJ := fun l : Fin 3 => (C34_blocks Demo.best 1 c l).1 1 rfl
    change ∑ l : Fin 3, (factorTerm Demo.best 1).J l c * (![-1, 0, 0] : Vec3) l = _
    refine (Finset.sum_congr rfl fun l _ => congrArg (· * (![-1, 0, 0] : Vec3) l) (hJ l)).trans ?_
    change ∑ l : Fin 3, (if (c.1 : NRef) = 1 then blk prior2dJac l c.2 else 0) * (![-1, 0, 0] : Vec3) l = _
    generalize (c.2 : ℕ) = k at hk ⊢
    rcases hk with rfl | rfl | rfl <;> rcases hns with hn | hn <;>
      simp [hn, Fin.sum_univ_three, blk, prior2dJac]
    exact Matrix.one_apply_eq (0 : Fin 3)
  · change (((show Matrix (Fin 3) (Cols Demo.best) ℝ from (plainTerm Demo.best 2).J)ᵀ * (1 : Mat3)) *ᵥ rel2dRes 0 ![1, 0, 0] ![2, 0, 0]) c = _
    rw [Matrix.mul_one, r2]
    have hJ := fun l : Fin 3 => (C34_blocks Demo.best 2 c l).2 0 1 rfl (by decide)
    change ∑ l : Fin 3, (factorTerm Demo.best 2).J l c * (![1, 0, 0] : Vec3) l = _
    refine (Finset.sum_congr rfl fun l _ => congrArg (· * (![1, 0, 0] : Vec3) l) (hJ l)).trans ?_
    change ∑ l : Fin 3, (if (c.1 : NRef) = 0 then blk2 (rel2dJac ![1, 0, 0] ![2, 0, 0]).1 (rel2dJac ![1, 0, 0] ![2, 0, 0]).2 l c.2
      else if (c.1 : NRef) = 1 then
        blk2 (rel2dJac ![1, 0, 0] ![2, 0, 0]).1 (rel2dJac ![1, 0, 0] ![2, 0, 0]).2 l (3 + c.2) else 0) * (![1, 0, 0] : Vec3) l = _
    generalize (c.2 : ℕ) = k at hk ⊢
    rcases hk with rfl | rfl | rfl <;> rcases hns with hn | hn <;>
      simp [hn, Fin.sum_univ_three, blk, blk2, rel2dJac]

/-- C45 is false for the gradient: in a consistent graph without anchors and robust weights, with information matrices `I`,
the sparse solver's `b` vanishes (the state is optimal) and the gradient of the dense solver does not. -/
theorem C45_gradient_fails : ∃ w : World, DenseWired w ∧ (∀ f ∈ w.g.factors, (w.fh f).virt.W.PosDef) ∧
    (∀ f ∈ w.g.factors, (w.fh f).virt.robust = .quadratic) ∧
    ∀ env, ∃ (e : NormalEq) (w₁ w₂ : World) (a : Assembly), w.denseGradHess = .ok (e, w₁) ∧
      w.buildAdjacency env = .ok (w₂, a) ∧ a.b = 0 ∧ e.grad ≠ 0 := by
  have hq : ∀ f, (Demo.best.fh f).virt.robust = .quadratic := fun f => by
    rw [(run_fh_static _ _ f).1]; exact (Demo.dense_quadratic _ _ f).1
  have hp : ∀ f, (Demo.best.fh f).virt.W.PosDef := fun f => by
    rw [(run_fh_static _ _ f).1]; exact (Demo.dense_quadratic _ _ f).2.1
  have hw : DenseWired Demo.best := Demo.dense_wired _ _
  refine ⟨Demo.best, hw, fun f _ => hp f, fun f _ => hq f, fun env => ?_⟩
  have hs : ∀ f ∈ Demo.best.g.factors, (Demo.best.fh f).virt.W.IsSymm := fun f _ => isSymm_of_psd (hp f).posSemidef
  have hwt : ∀ f ∈ Demo.best.g.factors, ((Demo.best.fh f).full Demo.best.nh).weightable := fun f _ hc => hc.2.1 (hq f)
  obtain ⟨H, g, h1, -, h3⟩ := hw.gradHess
  refine ⟨_, _, _, _, h1, buildAdjacency_wired hw.wired hwt env, ?_, ?_⟩
  · have h4 := assembly_b_terms hw.wired env hs
    ext i
    have h5 := congrFun h4 ((colEquiv hw.wired).symm i)
    simp only [Equiv.apply_symm_apply] at h5
    rw [h5, Spec.infoVector_apply, graphTerms, List.map_map]
    generalize (colEquiv hw.wired).symm i = c
    have h6 : (Demo.best.g.factors.map ((fun t : Spec.Term (Cols Demo.best) => ((t.Jᵀ * t.W) *ᵥ t.r) c) ∘
        factorTerm Demo.best)) = Demo.best.g.factors.map fun f => if (c.2 : ℕ) = 0 then
        (if f = 0 then (if (c.1 : NRef) = 0 then 1 else 0) else if f = 1 then (if (c.1 : NRef) = 1 then -1 else 0)
        else if (c.1 : NRef) = 0 then -1 else 1) else (0 : ℝ) := by
      refine List.map_congr_left fun f hf => ?_
      rw [← Demo.best_terms c f hf, Function.comp_apply, plainTerm_eq (hq f)]
    rw [h6]
    have hns : (c.1 : NRef) = 0 ∨ (c.1 : NRef) = 1 := by simpa using (show (c.1 : NRef) ∈ [0, 1] from c.1.2)
    have hfs : Demo.best.g.factors = [0, 1, 2] := rfl
    rw [hfs]
    by_cases hc : (c.2 : ℕ) = 0 <;> rcases hns with hn | hn <;> simp [hc, hn]
  · intro h0
    have h0 : g = 0 := h0
    have hm : (0 : NRef) ∈ Demo.best.g.active := by change (0 : NRef) ∈ [0, 1]; simp
    set c : Cols Demo.best := ⟨⟨0, hm⟩, ⟨0, (Demo.best.nh 0).dim_pos⟩⟩ with hc
    have h4 := congrFun h3 c
    rw [h0] at h4
    have hfs : Demo.best.g.factors = [0, 1, 2] := rfl
    rw [hfs] at h4
    have t := fun f hf => Demo.best_terms c f hf
    have t0 := t 0 (by rw [hfs]; simp)
    have t1 := t 1 (by rw [hfs]; simp)
    have t2 := t 2 (by rw [hfs]; simp)
    have n0 : (Demo.best.fh 0).nbrs.length = 1 := rfl
    have n1 : (Demo.best.fh 1).nbrs.length = 1 := rfl
    have n2 : (Demo.best.fh 2).nbrs.length = 2 := rfl
    simp only [List.map_cons, List.map_nil, List.sum_cons, List.sum_nil, Pi.add_apply, Pi.smul_apply, Pi.zero_apply, smul_eq_mul,
      n0, n1, n2] at h4
    rw [t0, t1, t2] at h4
    have hc2 : (c.2 : ℕ) = 0 := rfl
    have hc1 : (c.1 : NRef) = 0 := rfl
    simp only [hc1, hc2, if_true] at h4
    norm_num at h4

/-! ### C46 for graphs -/

/-- C46 for graphs of the library's factors: a call of `solve` with a Levenberg-Marquardt method that returns never leaves
`chi2` larger than it was. -/
theorem C46_graph (s : OptDense World) (hl : ∀ f ∈ s.obj.g.factors, (s.obj.fh f).virt.Library) (m : OptMethod)
    (hm : m ≠ .newtonRaphson) (maxIters : ℕ) (lambda : ℝ) (r : ℕ × OptDense World)
    (h : s.solve denseGraph m maxIters lambda = .ok r) :
    ∃ c w c' w', s.obj.chi2Eval = .ok (c, w) ∧ r.2.obj.chi2Eval = .ok (c', w') ∧ c' ≤ c := by
  obtain ⟨c, x, t, t', b, h1, -, -⟩ := OptDense.solve_first h
  have hi : DenseInv s.obj := ⟨(chi2Eval_ok h1).1, fun f hf => (hl f hf).headingInvariant⟩
  have hle := C46_never_worse denseGraph DenseInv World.cost _ denseGraph_contract s hi m hm maxIters lambda r h
  have hi' : DenseInv r.2.obj := by
    rw [solve_lm hm, OptDense.levenbergMarquardt] at h
    obtain ⟨⟨prev, s1⟩, h2, h⟩ := Out.bind_eq_ok.mp h
    obtain ⟨y, h3, rfl⟩ := OptDense.error_ok h2
    exact OptDense.LMRun.invariant denseGraph_contract (OptDense.lmLoop_run _ _ _ _ _ rfl h)
      ((chi2Eval_ok h3).2.2.2.inv hi)
  exact ⟨_, _, _, _, chi2Eval_eq _ hi.1, chi2Eval_eq _ hi'.1, hle⟩

/-- C46 for graphs: on consistent graphs without anchors and with positive semidefinite information matrices, the variant
with spherical damping returns, whatever the limit and the positive `lambda`.  Missing: the variant that scales the diagonal,
which fails when a coordinate is not observed at all (its diagonal entry is zero). -/
theorem C46_returns_partial (s : OptDense World) (hw : DenseWired s.obj)
    (hp : ∀ f ∈ s.obj.g.factors, (s.obj.fh f).virt.W.PosSemidef) (maxIters : ℕ) (lambda : ℝ) (hl : 0 < lambda) :
    ∃ r, s.solve denseGraph .lmSpher maxIters lambda = .ok r := by
  change ∃ r, OptDense.levenbergMarquardt denseGraph { s with method := .lmSpher, maxIters := maxIters, lambda := lambda } =
    .ok r
  obtain ⟨c, s', h, hF⟩ := OptDense.error_dense
    (s := { s with method := .lmSpher, maxIters := maxIters, lambda := lambda }) hw
  obtain ⟨o, -, rfl⟩ := OptDense.error_ok h
  rw [OptDense.levenbergMarquardt, h, Out.ok_bind]
  exact OptDense.lmLoop_spher _ _ _ _ _ rfl ⟨hF.denseWired hw, OptDense.psd_frame hF hp, hl, rfl⟩

/-- The other variant scales the diagonal: without factors the Hessian stays zero and its inverse is not finite. -/
theorem C46_ellip_fails : ∃ w : World, DenseWired w ∧ ∀ (maxIters : ℕ) (lambda : ℝ), 0 < lambda →
    (OptDense.new w).solve denseGraph .lmEllip maxIters lambda = .nan := by
  have hw : DenseWired (World.run [.addNode 0] (Demo.denseWorld 0 0)) := by
    refine C48_history_partial _ rfl _ ?_ (fun _ _ => rfl) (fun f hf => by simp [addedFactors] at hf) (fun _ => rfl) rfl
    constructor
    · intro op hop n m; simp at hop; simp [hop]
    · simp [addedNodes]
    · intro n hn; simp [Demo.denseWorld, NodeCell.new]
    · intro f hf; simp [addedFactors] at hf
    · intro f hf; simp [addedFactors] at hf
    · intro f hf; simp [addedFactors] at hf
  refine ⟨_, hw, fun maxIters lambda _ => ?_⟩
  set w := World.run [.addNode 0] (Demo.denseWorld 0 0) with hwd
  have hN : w.g.stateDim = 3 := rfl
  change OptDense.levenbergMarquardt denseGraph { OptDense.new w with method := .lmEllip, maxIters := maxIters, lambda := lambda } = .nan
  obtain ⟨c, s', h, hF⟩ := OptDense.error_dense
    (s := { OptDense.new w with method := .lmEllip, maxIters := maxIters, lambda := lambda }) hw
  obtain ⟨o, -, rfl⟩ := OptDense.error_ok h
  have hF' := hF.trans (denseBookkeep_frame o)
  have hw' := hF'.denseWired hw
  rw [OptDense.levenbergMarquardt, h, Out.ok_bind]
  change OptDense.lmLoop denseGraph _ 0 _ _ = _
  rw [OptDense.lmLoop, OptDense.lmStep]
  rcases OptDense.oneIteration_dense (s := { OptDense.new (World.denseBookkeep o) with method := .lmEllip, maxIters := maxIters, lambda := lambda }) hw' true with
    ⟨s2, h1, -⟩ | ⟨h1, -⟩
  · exfalso
    obtain ⟨e, o', o2, sys, h2, -, h3, -⟩ := OptDense.oneIteration_ok h1
    obtain ⟨H, g, h4, h5, -⟩ := hw'.gradHess
    have h2 : o.denseBookkeep.denseGradHess = .ok (e, o') := h2
    rw [h4, Out.ok.injEq, Prod.mk.injEq] at h2
    obtain ⟨rfl, -⟩ := h2
    have hfac : o.denseBookkeep.g.factors = [] := by rw [hF'.factors.g]; rfl
    have hdim : 0 < o.denseBookkeep.g.stateDim := by rw [hF'.factors.g]; change 0 < 3; norm_num
    have hH : H = 0 := by
      ext i j
      have := congrFun (congrFun h5 ((colEquiv hw'.wired).symm i)) ((colEquiv hw'.wired).symm j)
      rw [hfac] at this
      simpa [Spec.infoMatrix] using this
    have hd : OptDense.damp .lmEllip lambda H = 0 := by
      rw [hH]; ext i j; simp [OptDense.damp]
    have h3 : IsUnit (OptDense.damp .lmEllip lambda H).det := by simpa [OptDense.new] using h3
    rw [hd] at h3
    haveI : Nonempty (Fin o.denseBookkeep.g.stateDim) := ⟨⟨0, hdim⟩⟩
    rw [Matrix.det_zero] at h3
    simp at h3
  · change (OptDense.oneIteration denseGraph true { OptDense.new (World.denseBookkeep o) with method := .lmEllip, maxIters := maxIters, lambda := lambda } >>= _) >>= _ = _
    rw [h1]
    rfl

/-- A call that returns, on the two poses. -/
example : ∃ r, (OptDense.new (World.run Demo.denseOps (Demo.denseWorld ![1, 0, 0] ![2, 0, 0]))).solve denseGraph .lmSpher
    20 1e-5 = .ok r := by
  refine C46_returns_partial _ (Demo.dense_wired _ _) (fun f _ => ?_) _ _ (by norm_num)
  change (((World.run Demo.denseOps (Demo.denseWorld ![1, 0, 0] ![2, 0, 0])).fh f).virt.W).PosSemidef
  rw [(run_fh_static _ _ f).1]
  exact (Demo.dense_quadratic _ _ f).2.1.posSemidef

/-- C46, rejected steps: after `bookkeep_state`, changes of states, and `update_state_from_bookkeep`, the state of every node
is what it was, provided that the headings of the planar poses were reduced; in any case planar poses have the same position
and direction and all other states are unchanged. -/
theorem C46_restore_partial (w w' : World) (hF : DenseFrame w.denseBookkeep w')
    (hst : ∀ n, NodeCell.SameButState (w.denseBookkeep.nh n) (w'.nh n)) :
    ((∀ n ∈ w.g.nodes, Storable _ (w.nh n).obj.state) → ∀ n, (w'.denseRestore.nh n).val = (w.nh n).val) ∧
    (∀ n x, (w.nh n).val = ⟨.pose2d, x⟩ →
      ∃ x', (w'.denseRestore.nh n).val = ⟨.pose2d, x'⟩ ∧ Spec.planar x' = Spec.planar x) ∧
    (∀ n, (w.nh n).kind ≠ .pose2d → (w'.denseRestore.nh n).val = (w.nh n).val) := by
  have hg : w'.g = w.g := hF.factors.g.trans (denseBookkeep_frame w).factors.g
  have key : ∀ n, (w'.denseRestore.nh n).val = if n ∈ w.g.nodes then (w.nh n).val.stored else (w.nh n).val := by
    intro n
    rw [denseRestore_eq]
    change (if n ∈ w'.g.nodes then (w'.nh n).restore else w'.nh n).val = _
    rw [hg]
    by_cases hn : n ∈ w.g.nodes
    · rw [if_pos hn, if_pos hn]
      obtain ⟨x, hx⟩ := hst n
      have hb : w.denseBookkeep.nh n = (w.nh n).bookkeep := by rw [denseBookkeep_eq]; exact if_pos hn
      have hr : ((w.denseBookkeep.nh n).withState x).restore.val = (w.denseBookkeep.nh n).restore.val := rfl
      rw [hx, hr, hb]
      exact NodeCell.roundTrip_val _
    · rw [if_neg hn, if_neg hn, hF.outside n (by rw [(denseBookkeep_frame w).factors.g]; exact hn),
        (denseBookkeep_frame w).outside n hn]
  refine ⟨fun hs n => ?_, fun n x hx => ?_, fun n hk => ?_⟩
  · rw [key]
    split
    · rename_i hn
      rw [NodeVal.stored]
      change (⟨_, (w.nh n).kind.store (w.nh n).obj.state⟩ : NodeVal) = _
      rw [store_of_storable (hs n hn)]
      rfl
    · rfl
  · rw [key, hx]
    split
    · refine ⟨wrap2 x, rfl, ?_⟩
      have h1 : Real.cos (wrap2 x 2) = Real.cos (x 2) := cos_wrapAngle _
      have h2 : Real.sin (wrap2 x 2) = Real.sin (x 2) := sin_wrapAngle _
      rw [Spec.planar, h1, h2]
      rfl
    · exact ⟨x, rfl, rfl⟩
  · rw [key]
    split
    · generalize w.nh n = c at hk ⊢
      obtain ⟨k, o, i, m, l⟩ := c
      cases k with
      | pose2d => exact absurd rfl hk
      | pose3d => rfl
      | landmark2d => rfl
      | landmark3d => rfl
      | plane4d => rfl
    · rfl

/-- The hypotheses of `C46_restore_partial` hold for the steps of the solver. -/
example (w : World) (N : ℕ) (dx : Fin N → ℝ) (w' : World) (h : w.denseBookkeep.denseUpdate N dx = .ok w') :
    DenseFrame w.denseBookkeep w' ∧ ∀ n, NodeCell.SameButState (w.denseBookkeep.nh n) (w'.nh n) :=
  ⟨(denseUpdate_ok h).1, (denseUpdate_ok h).2.2⟩

/-- C46 is false for the restored state in general: `bookkeep_state` followed by `update_state_from_bookkeep` changes the
reported state of a graph with a planar pose constructed with the heading `2 π`. -/
theorem C46_restore_fails : ∃ w : World, DenseWired w ∧ w.denseBookkeep.denseRestore.estimatedState ≠ w.estimatedState := by
  refine ⟨World.run Demo.denseOps (Demo.denseWorld ![0, 0, 2 * Real.pi] 0), Demo.dense_wired _ _, fun he => ?_⟩
  set w := World.run Demo.denseOps (Demo.denseWorld ![0, 0, 2 * Real.pi] 0) with hw
  have hF := (denseBookkeep_frame w).trans (denseRestore_frame _)
  have hn : w.g.nodes = [0, 1] := rfl
  rw [estimatedState, estimatedState, hF.factors.g, hn] at he
  simp only [List.map_cons, List.map_nil, List.cons.injEq] at he
  have h4 := he.1
  have h9 : w.denseBookkeep.denseRestore.nh 0 = (w.nh 0).bookkeep.restore := by
    rw [denseRestore_eq, denseBookkeep_eq]
    dsimp only
    rw [hn]
    simp
  rw [h9] at h4
  replace h4 := (NodeCell.roundTrip_val _).symm.trans h4
  have h5 : (⟨.pose2d, wrap2 ![0, 0, 2 * Real.pi]⟩ : NodeVal) = ⟨.pose2d, ![0, 0, 2 * Real.pi]⟩ := h4
  have h6 := eq_of_heq (Sigma.mk.inj h5).2
  have h7 : wrapAngle (2 * Real.pi) = 2 * Real.pi := congrFun h6 2
  have h8 := (wrapAngle_spec (2 * Real.pi)).2.1
  have := Real.pi_pos
  linarith

end Mrob
