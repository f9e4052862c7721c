import Verif.Lemmas.Turns
import Verif.Lemmas.Restated
import Verif.Lemmas.DemoLM
import Verif.Props.GaussNewton

/-!
# C109: full turns do not matter

Headings, measured turns and bearings are numbers, but only mean directions: adding full turns to any of them, separately
for every pose and every measurement, changes neither the run of the optimiser nor its result.
-/

open Matrix

namespace Mrob

open World Spec

theorem upd_unique {u u' : NodeVal} {δ δ' : ℕ → ℝ} (h : Turned (u.upd δ) (u'.upd δ')) : u'.upd δ' = u.upd δ := by
  obtain ⟨k, x⟩ := u
  obtain ⟨k', x'⟩ := u'
  obtain rfl : k' = k := turnSym.kind h
  by_cases hk : k' = .pose2d
  · subst hk
    obtain ⟨h0, h1, h2⟩ := h
    change (⟨.pose2d, wrap2 ((x' : Vec3) + fun i : Fin 3 => δ' i)⟩ : NodeVal) = ⟨.pose2d, wrap2 ((x : Vec3) + fun i : Fin 3 => δ i)⟩
    congr 1
    rw [← wrap2_wrap2 ((x' : Vec3) + fun i : Fin 3 => δ' i), ← wrap2_wrap2 ((x : Vec3) + fun i : Fin 3 => δ i)]
    exact wrap2_congr h0 h1 h2
  · exact turned_eq_of_ne h hk

theorem turned_psd {v v' : FactorVirt} (h : FactorTurned v v') (hv : v.W.PosSemidef) : v'.W.PosSemidef := by
  cases h <;> exact hv

/-- C109, Gauss-Newton: give the headings of the initial states and the angles of the measurements up to full turns; then
the cost is the same number, and the estimates of all unknown nodes are the same numbers, headings included.  Any mixture
of the classes of nodes and factors, any robust kernel but RANSAC (whose weight the code does not compute), and any
exact linear solvers. -/
theorem C109_gn (ops : List GraphOp) (w₀ w₀' : World) (h₀ : w₀.g = emptyGraph) (h₀' : w₀'.g = emptyGraph)
    (hp : Proper w₀ ops) (hm : Restated Turned FactorTurned ops w₀ w₀')
    (hpsd : ∀ f ∈ addedFactors ops, (w₀.fh f).virt.W.PosSemidef) (hwt : ∀ f ∈ addedFactors ops, 0 ≤ (w₀.fh f).weight)
    (hwt' : ∀ f ∈ addedFactors ops, 0 ≤ (w₀'.fh f).weight)
    (hr : ∀ f ∈ addedFactors ops, (w₀.fh f).virt.robust ≠ .ransac)
    (env env' : Env) (henv : env.Sound) (henv' : env'.Sound)
    (s s' s1 s1' : FGraphSolve) (hs : s.w = World.run ops w₀) (hs' : s'.w = World.run ops w₀')
    (hpd : (infoMatrix (graphTerms s.w)).PosDef) (maxIters maxIters' : ℕ) (lambda lambda' tol tol' : ℝ)
    (h1 : s.solve env .GN maxIters lambda tol = .ok s1) (h1' : s'.solve env' .GN maxIters' lambda' tol' = .ok s1') :
    s'.w.cost = s.w.cost ∧ s1'.w.cost = s1.w.cost ∧ ∀ n ∈ s.w.g.active, (s1'.w.nh n).val = (s1.w.nh n).val := by
  have hp' := Restated.proper (fun _ _ h => turnSym.kind h) (fun _ _ h => by cases h <;> rfl) hm hp
  have hw := run_wellPosed h₀ hp hpsd hwt
  have hpsd' : ∀ f ∈ addedFactors ops, (w₀'.fh f).virt.W.PosSemidef := fun f hf => turned_psd (hm.virt f hf) (hpsd f hf)
  have hw' := run_wellPosed h₀' hp' hpsd' hwt'
  have hr1 := run_noRansac h₀ hr
  have hr1' := run_noRansac h₀' fun f hf => by
    rw [(factor_turned (hm.virt f hf)).1]; exact hr f hf
  have hG := Restated.gauge (S := turnSym) (fun _ _ h => factor_turned h) hm hp.noSetMode h₀ h₀'
    (fun n _ => turn_moves _) fun _ _ => trivial
  rw [← hs] at hw hr1 hG
  rw [← hs'] at hw' hr1' hG
  have hrel := FGraphSolve.gn_gauge (S := turnSym) henv henv' hG hw hw' hr1 hr1' hpd h1 h1' fun x _ n _ => turn_follows _ _
  have hF := FGraphSolve.solve_frame h1
  have hF' := FGraphSolve.solve_frame h1'
  refine ⟨hG.cost_eq hw.wired, ?_, fun n hn => ?_⟩
  · refine (hG.of_frames hF hF' hrel fun _ _ => trivial).cost_eq (hF.wired hw.wired)
  · have := hrel n (.inl hn)
    obtain ⟨dx, -, e⟩ := FGraphSolve.gn_ok hw h1
    obtain ⟨dx', -, e'⟩ := FGraphSolve.gn_ok hw' h1'
    have hn' : n ∈ s'.w.g.active := by rw [hG.active]; exact hn
    have v1 : (s1.w.nh n).val = (s.w.nh n).val.upd (s.w.unstack dx n) := by
      rw [e]
      change (if n ∈ s.w.g.active then (s.w.nh n).update (s.w.unstack dx n) else s.w.nh n).val = _
      rw [if_pos hn]; rfl
    have v2 : (s1'.w.nh n).val = (s'.w.nh n).val.upd (s'.w.unstack dx' n) := by
      rw [e']
      change (if n ∈ s'.w.g.active then (s'.w.nh n).update (s'.w.unstack dx' n) else s'.w.nh n).val = _
      rw [if_pos hn']; rfl
    rw [v1, v2] at this ⊢
    exact upd_unique this

/-- C109, Levenberg-Marquardt: the returned number, the number of iterations and the cost are the same numbers, and so are
the states, up to full turns of headings (a heading that no accepted step changes is left as it was given). -/
theorem C109_lm (ops : List GraphOp) (w₀ w₀' : World) (h₀ : w₀.g = emptyGraph) (h₀' : w₀'.g = emptyGraph)
    (hp : Proper w₀ ops) (hm : Restated Turned FactorTurned ops w₀ w₀')
    (hpsd : ∀ f ∈ addedFactors ops, (w₀.fh f).virt.W.PosSemidef) (hwt : ∀ f ∈ addedFactors ops, 0 ≤ (w₀.fh f).weight)
    (hwt' : ∀ f ∈ addedFactors ops, 0 ≤ (w₀'.fh f).weight)
    (hr : ∀ f ∈ addedFactors ops, (w₀.fh f).virt.robust ≠ .ransac)
    (env env' : Env) (henv : env.Sound) (henv' : env'.Sound)
    (s s' : FGraphSolve) (hs : s.w = World.run ops w₀) (hs' : s'.w = World.run ops w₀') (maxIters : ℕ) (tol : ℝ)
    (r r' : FGraphSolve.LMResult) (h1 : FGraphSolve.levenbergMarquardt env maxIters { s with tol := tol } = .ok r)
    (h1' : FGraphSolve.levenbergMarquardt env' maxIters { s' with tol := tol } = .ok r') :
    r'.ret = r.ret ∧ r'.iters = r.iters ∧ r'.s.w.cost = r.s.w.cost ∧
    ∀ n, (n ∈ s.w.g.active ∨ ∃ f ∈ addedFactors ops, n ∈ (w₀.fh f).nbrs) → Turned (r.s.w.nh n).val (r'.s.w.nh n).val := by
  have hp' := Restated.proper (fun _ _ h => turnSym.kind h) (fun _ _ h => by cases h <;> rfl) hm hp
  have hw := run_wellPosed h₀ hp hpsd hwt
  have hw' := run_wellPosed h₀' hp' (fun f hf => turned_psd (hm.virt f hf) (hpsd f hf)) hwt'
  have hr1 := run_noRansac h₀ hr
  have hr1' := run_noRansac h₀' fun f hf => by
    rw [(factor_turned (hm.virt f hf)).1]; exact hr f hf
  have hG := Restated.gauge (S := turnSym) (fun _ _ h => factor_turned h) hm hp.noSetMode h₀ h₀'
    (fun n _ => turn_moves _) fun _ _ => trivial
  rw [← hs] at hw hr1 hG
  rw [← hs'] at hw' hr1' hG
  have hfac : s.w.g.factors = addedFactors ops := by rw [hs, run_factors, h₀]; rfl
  obtain ⟨k1, k2, k3, k4⟩ := FGraphSolve.lmLoop_gauge henv henv' _ 0 rfl
    (s := ⟨s.w, 1e-5, tol, s.sys, s.mats⟩) (s' := ⟨s'.w, 1e-5, tol, s'.sys, s'.mats⟩)
    ⟨hG, rfl, rfl, fun _ _ δ => turn_follows _ δ, fun n _ => turn_orth _, fun _ _ _ _ => trivial⟩ hw hw' hr1 hr1'
    (by norm_num) h1 h1'
  have hF := (FGraphSolve.lmLoop_run _ 0 ⟨s.w, 1e-5, tol, s.sys, s.mats⟩ r rfl h1).frame
  refine ⟨k1, k2, k3.w.cost_eq k4.wired, fun n hn => k3.w.val n ?_⟩
  rw [hF.factors.g]
  refine hn.imp id fun ⟨f, hf, hn⟩ => ⟨f, hfac ▸ hf, ?_⟩
  rw [hF.factors.nbrs]
  change n ∈ (s.w.fh f).nbrs
  rw [hs, (run_fh_static ops w₀ f).2]; exact hn

/-- C109, initial guesses computed by the constructors: the target of a relative or odometry measurement and a landmark are
initialised to the same numbers. -/
theorem C109_init (obs obs' xo xo' xt xt' : Vec3) (bearing bearing' : Vec2) (i j : ℕ)
    (hxo : Turned ⟨.pose2d, xo⟩ ⟨.pose2d, xo'⟩) :
    (obs' 0 = obs 0 → obs' 1 = obs 1 → SameAngle (obs' 2) (obs 2) → Turned ⟨.pose2d, xt⟩ ⟨.pose2d, xt'⟩ →
      (Rel2d.new obs' i j).initTarget xo' xt' = (Rel2d.new obs i j).initTarget xo xt) ∧
    (SameAngle (obs' 0) (obs 0) → obs' 1 = obs 1 → SameAngle (obs' 2) (obs 2) → Turned ⟨.pose2d, xt⟩ ⟨.pose2d, xt'⟩ →
      odomInitTarget obs' i j xo' xt' = odomInitTarget obs i j xo xt) ∧
    (bearing' 0 = bearing 0 → SameAngle (bearing' 1) (bearing 1) → land2dInit bearing' xo' = land2dInit bearing xo) := by
  obtain ⟨x0, x1, x2⟩ : xo' 0 = xo 0 ∧ xo' 1 = xo 1 ∧ SameAngle (xo' 2) (xo 2) := hxo
  have neg : ∀ {a b : ℝ}, SameAngle a b → SameAngle (-a) (-b) := fun h => by
    have := (SameAngle.refl 0).sub h
    rwa [zero_sub, zero_sub] at this
  refine ⟨fun o0 o1 o2 ht => ?_, fun o0 o1 o2 ht => ?_, fun o0 o1 => ?_⟩
  · obtain ⟨t0, t1, t2⟩ : xt' 0 = xt 0 ∧ xt' 1 = xt 1 ∧ SameAngle (xt' 2) (xt 2) := ht
    have key : ∀ o o' : Vec3, o' 0 = o 0 → o' 1 = o 1 → SameAngle (o' 2) (o 2) →
        wrap2 (xt' + (xo' + o' - xt')) = wrap2 (xt + (xo + o - xt)) := by
      intro o o' o0 o1 o2
      refine wrap2_congr ?_ ?_ (t2.add ((x2.add o2).sub t2))
      · simp [x0, o0]
      · simp [x1, o1]
    by_cases h : i < j
    · rw [Rel2d.new, Rel2d.new, if_pos h, if_pos h]
      exact key obs obs' o0 o1 o2
    · rw [Rel2d.new, Rel2d.new, if_neg h, if_neg h]
      exact key (-obs) (-obs') (by simp [o0]) (by simp [o1]) (neg o2)
  · obtain ⟨t0, t1, t2⟩ : xt' 0 = xt 0 ∧ xt' 1 = xt 1 ∧ SameAngle (xt' 2) (xt 2) := ht
    have key : ∀ o o' : Vec3, SameAngle (o' 0) (o 0) → o' 1 = o 1 → SameAngle (o' 2) (o 2) →
        wrap2 (xt' + (odomPredict xo' o' - xt')) = wrap2 (xt + (odomPredict xo o - xt)) := by
      intro o o' o0 o1 o2
      have hth := x2.add o0
      refine wrap2_congr ?_ ?_ (t2.add ((hth.add o2).sub t2))
      · change xt' 0 + (xo' 0 + o' 1 * Real.cos (xo' 2 + o' 0) - xt' 0) = xt 0 + (xo 0 + o 1 * Real.cos (xo 2 + o 0) - xt 0)
        rw [x0, t0, o1, hth.cos]
      · change xt' 1 + (xo' 1 + o' 1 * Real.sin (xo' 2 + o' 0) - xt' 1) = xt 1 + (xo 1 + o 1 * Real.sin (xo 2 + o 0) - xt 1)
        rw [x1, t1, o1, hth.sin]
    by_cases h : i < j
    · rw [odomInitTarget, odomInitTarget, Rel2d.new, Rel2d.new, if_pos h, if_pos h]
      exact key obs obs' o0 o1 o2
    · rw [odomInitTarget, odomInitTarget, Rel2d.new, Rel2d.new, if_neg h, if_neg h]
      exact key (-obs) (-obs') (neg o0) (by simp [o1]) (neg o2)
  · have hth := o1.add x2
    rw [land2dInit, land2dInit, x0, x1, o0, hth.cos, hth.sin]

namespace Demo

/-- `lmWorld₀` with other full turns: the pose at heading zero, the anchor turned `k` times, the prior and the observation
turned `l` times. -/
noncomputable def lmTurned₀ (k l : ℤ) : World :=
  ⟨fun n => if n = 0 then NodeCell.new .pose2d ![0, 0, 0] .standard
    else NodeCell.new .pose2d ![1, 0, k * (2 * Real.pi)] .anchor,
   fun f => if f = 0 then FactorCell.new (.prior2d ![0, 0, l * (2 * Real.pi)] posW .quadratic) [0] 0 0
    else FactorCell.new (.rel2d ![1, 4, l * (2 * Real.pi)] posW .quadratic) [0, 1] 0 0, emptyGraph⟩

theorem lm_turned (k l : ℤ) : Restated Turned FactorTurned lmOps lmWorld₀ (lmTurned₀ k l) := by
  have e : ∀ m : ℤ, SameAngle (m * (2 * Real.pi)) 0 := fun m => ⟨m, by ring⟩
  refine ⟨fun n _ => ?_, fun n _ => ?_, fun f _ => ?_, fun f _ => ?_⟩
  · by_cases h : n = 0 <;> simp [lmTurned₀, lmWorld₀, lmNodes, h, NodeCell.new]
  · by_cases h : n = 0
    · subst h
      exact ⟨rfl, rfl, ⟨-1, by change (0 : ℝ) = 2 * Real.pi + _; push_cast; ring⟩⟩
    · have e1 : (lmTurned₀ k l).nh n = NodeCell.new .pose2d ![1, 0, k * (2 * Real.pi)] .anchor := if_neg h
      have e2 : lmWorld₀.nh n = NodeCell.new .pose2d ![1, 0, 0] .anchor := if_neg h
      rw [e1, e2]
      exact ⟨rfl, rfl, e k⟩
  · by_cases h : f = 0 <;> simp [lmTurned₀, lmWorld₀, lmFactors, h, FactorCell.new]
  · by_cases h : f = 0
    · subst h
      exact .prior2d _ _ _ _ rfl rfl (e l)
    · have e1 : (lmTurned₀ k l).fh f = FactorCell.new (.rel2d ![1, 4, l * (2 * Real.pi)] posW .quadratic) [0, 1] 0 0 := if_neg h
      have e2 : lmWorld₀.fh f = FactorCell.new (.rel2d ![1, 4, 0] posW .quadratic) [0, 1] 0 0 := if_neg h
      rw [e1, e2]
      exact .rel2d _ _ _ _ rfl rfl (e l)

end Demo

/-- A pose with a prior and a relative measurement, with any numbers of turns; Levenberg-Marquardt returns in both. -/
example (k l : ℤ) : Proper Demo.lmWorld₀ Demo.lmOps ∧ Restated Turned FactorTurned Demo.lmOps Demo.lmWorld₀ (Demo.lmTurned₀ k l) ∧
    (∀ f ∈ addedFactors Demo.lmOps, (Demo.lmWorld₀.fh f).virt.W.PosSemidef) ∧
    (∀ f ∈ addedFactors Demo.lmOps, 0 ≤ ((Demo.lmTurned₀ k l).fh f).weight) ∧
    ∀ s s' : FGraphSolve, s.w = World.run Demo.lmOps Demo.lmWorld₀ → s'.w = World.run Demo.lmOps (Demo.lmTurned₀ k l) →
      ∃ r r', FGraphSolve.levenbergMarquardt Env.exact 20 { s with tol := 1e-2 } = .ok r ∧
        FGraphSolve.levenbergMarquardt Env.exact 20 { s' with tol := 1e-2 } = .ok r' := by
  have hp' : Proper (Demo.lmTurned₀ k l) Demo.lmOps :=
    Restated.proper (fun _ _ h => turnSym.kind h) (fun _ _ h => by cases h <;> rfl) (Demo.lm_turned k l) Demo.lm_proper
  have hpsd : ∀ f, (Demo.lmWorld₀.fh f).virt.W.PosSemidef := by
    intro f
    by_cases h : f = 0
    · subst h; exact Demo.posW_psd
    · rw [show Demo.lmWorld₀.fh f = FactorCell.new (.rel2d ![1, 4, 0] Demo.posW .quadratic) [0, 1] 0 0 from if_neg h]
      exact Demo.posW_psd
  have hwt' : ∀ f, 0 ≤ ((Demo.lmTurned₀ k l).fh f).weight := by
    intro f
    unfold Demo.lmTurned₀
    dsimp only
    split <;> exact le_refl (0 : ℝ)
  refine ⟨Demo.lm_proper, Demo.lm_turned k l, fun f _ => hpsd f, fun f _ => hwt' f, fun s s' hs hs' => ?_⟩
  have hw : WellPosed s.w := by rw [hs]; exact Demo.lm_wellPosed
  have hw' : WellPosed s'.w := by
    rw [hs']
    exact run_wellPosed rfl hp' (fun f hf => turned_psd ((Demo.lm_turned k l).virt f hf) (hpsd f)) fun f _ => hwt' f
  obtain ⟨r, hr⟩ := FGraphSolve.lmLoop_total Env.exact_complete 20 _ 0 ⟨s.w, 1e-5, 1e-2, s.sys, s.mats⟩ rfl hw (by norm_num)
  obtain ⟨r', hr'⟩ := FGraphSolve.lmLoop_total Env.exact_complete 20 _ 0 ⟨s'.w, 1e-5, 1e-2, s'.sys, s'.mats⟩ rfl hw' (by norm_num)
  exact ⟨r, r', hr, hr'⟩

/-- A pose that is to be moved by a prior, both turned any number of times: Gauss-Newton returns. -/
example (k l : ℤ) : Proper Demo.unitWorld₀ Demo.p3Ops ∧ Restated Turned FactorTurned Demo.p3Ops Demo.unitWorld₀
      ⟨fun _ => NodeCell.new .pose2d ![0, 0, k * (2 * Real.pi)] .standard,
        fun _ => FactorCell.new (.prior2d ![1, 0, l * (2 * Real.pi)] 1 .quadratic) [0] 0 0, emptyGraph⟩ ∧
    (infoMatrix (graphTerms Demo.unitWorld)).PosDef ∧
    ∃ s1, FGraphSolve.solve Env.exact .GN 1 0 0 ⟨Demo.unitWorld, 1e-5, 0, ⟨0, 0, 0, 0⟩, ⟨0, 0, 0, 0, 0⟩⟩ = .ok s1 := by
  have e : ∀ m : ℤ, SameAngle (m * (2 * Real.pi)) 0 := fun m => ⟨m, by ring⟩
  refine ⟨Demo.unit_proper, ⟨fun _ _ => rfl, fun _ _ => ⟨rfl, rfl, e k⟩, fun _ _ => rfl, fun _ _ => .prior2d _ _ _ _ rfl rfl (e l)⟩,
    Demo.unit_posDef, ?_⟩
  exact C36_returns Env.exact Env.exact_complete ⟨Demo.unitWorld, 1e-5, 0, ⟨0, 0, 0, 0⟩, ⟨0, 0, 0, 0, 0⟩⟩ Demo.unit_wellPosed
    Demo.unit_posDef 1 0 0

end Mrob
