import Verif.Lemmas.Units
import Verif.Lemmas.Restated
import Verif.Lemmas.DemoPairLM
import Verif.Props.WorldFrame

/-!
# C104: the unit of length
-/

open Matrix

namespace Mrob

open World Spec

/-- C104, Gauss-Newton: express all positions, points, distances and measured lengths in another unit, and the information
per new unit; then the cost is the same number, and the estimates are the same quantities in the new unit.  Any mixture of
the classes of nodes and factors.  No planar landmark may be closer than 1e-3 to a pose it is seen from, in either unit
(`C104_near_fails`).  Missing: Levenberg-Marquardt (`C104_lm_fails`: false), RANSAC. -/
theorem C104_gn_partial (u : ℝ) (hu : 0 < u) (ops : List GraphOp) (w₀ w₀' : World) (h₀ : w₀.g = emptyGraph)
    (h₀' : w₀'.g = emptyGraph) (hp : Proper w₀ ops) (hm : Restated (Rescaled u) (FactorRescaled u) ops w₀ w₀')
    (hpsd : ∀ f ∈ addedFactors ops, (w₀.fh f).virt.W.PosSemidef) (hwt : ∀ f ∈ addedFactors ops, 0 ≤ (w₀.fh f).weight)
    (hpsd' : ∀ f ∈ addedFactors ops, (w₀'.fh f).virt.W.PosSemidef) (hwt' : ∀ f ∈ addedFactors ops, 0 ≤ (w₀'.fh f).weight)
    (hr : ∀ f ∈ addedFactors ops, (w₀.fh f).virt.robust ≠ .ransac)
    (hfar : ∀ f ∈ addedFactors ops, FarLandmarks ((w₀.fh f).nbrs.map fun n => (w₀.nh n).val))
    (hfar' : ∀ f ∈ addedFactors ops, FarLandmarks ((w₀'.fh f).nbrs.map fun n => (w₀'.nh n).val))
    (env env' : Env) (henv : env.Sound) (henv' : env'.Sound)
    (s s' s1 s1' : FGraphSolve) (hs : s.w = World.run ops w₀) (hs' : s'.w = World.run ops w₀')
    (hpd : (infoMatrix (graphTerms s.w)).PosDef) (maxIters maxIters' : ℕ) (lambda lambda' tol tol' : ℝ)
    (h1 : s.solve env .GN maxIters lambda tol = .ok s1) (h1' : s'.solve env' .GN maxIters' lambda' tol' = .ok s1') :
    s'.w.cost = s.w.cost ∧ ∀ n, (n ∈ s.w.g.active ∨ ∃ f ∈ addedFactors ops, n ∈ (w₀.fh f).nbrs) →
      Rescaled u (s1.w.nh n).val (s1'.w.nh n).val := by
  have hp' := Restated.proper (fun _ _ h => (unitSym u).kind h) (fun _ _ h => by cases h <;> rfl) hm hp
  have hw := run_wellPosed h₀ hp hpsd hwt
  have hw' := run_wellPosed h₀' hp' hpsd' hwt'
  have hr1 := run_noRansac h₀ hr
  have hr1' := run_noRansac h₀' fun f hf => by
    rw [(factor_rescaled hu (hm.virt f hf)).1]; exact hr f hf
  have hok : ∀ f ∈ addedFactors ops, FarBoth u ((w₀.fh f).nbrs.map fun n => (w₀.nh n).val) := by
    intro f hf x l hx hl
    refine ⟨hfar f hf x l hx hl, ?_⟩
    obtain ⟨n, hn, en⟩ := List.mem_map.mp hx
    obtain ⟨m, hm', em⟩ := List.mem_map.mp hl
    have rx := hm.val n (.inr ⟨f, hf, hn⟩)
    have rl := hm.val m (.inr ⟨f, hf, hm'⟩)
    have mx : (w₀'.nh n).val ∈ (w₀'.fh f).nbrs.map fun n => (w₀'.nh n).val :=
      List.mem_map.mpr ⟨n, by rw [hm.nbrs f hf]; exact hn, rfl⟩
    have ml : (w₀'.nh m).val ∈ (w₀'.fh f).nbrs.map fun n => (w₀'.nh n).val :=
      List.mem_map.mpr ⟨m, by rw [hm.nbrs f hf]; exact hm', rfl⟩
    rw [en] at rx
    rw [em] at rl
    obtain ⟨k, x', ex⟩ : ∃ k x', (w₀'.nh n).val = ⟨k, x'⟩ := ⟨_, _, rfl⟩
    obtain ⟨k', l', el⟩ : ∃ k l', (w₀'.nh m).val = ⟨k, l'⟩ := ⟨_, _, rfl⟩
    rw [ex] at rx mx
    rw [el] at rl ml
    obtain rfl : k = .pose2d := (unitSym u).kind rx
    obtain rfl : k' = .landmark2d := (unitSym u).kind rl
    obtain ⟨x0, x1, -⟩ : x' 0 = u * x 0 ∧ x' 1 = u * x 1 ∧ x' 2 = x 2 := rx
    obtain rfl : l' = u • l := rl
    have := hfar' f hf x' (u • l) mx ml
    rw [x0, x1] at this
    refine this.trans (le_of_eq ?_)
    simp only [Pi.smul_apply, smul_eq_mul]
    ring
  have hG := Restated.gauge (S := unitSym u) (fun _ _ h => factor_rescaled hu h) hm hp.noSetMode h₀ h₀'
    (fun n _ => unit_moves hu.ne' _) hok
  rw [← hs] at hw hr1 hG
  rw [← hs'] at hw' hr1' hG
  have hfac : s.w.g.factors = addedFactors ops := by rw [hs, run_factors, h₀]; rfl
  refine ⟨hG.cost_eq hw.wired, fun n hn => ?_⟩
  refine FGraphSolve.gn_gauge (S := unitSym u) henv henv' hG hw hw' hr1 hr1' hpd h1 h1' (fun x _ n _ => unit_follows _ _) n ?_
  refine hn.imp id fun ⟨f, hf, hn⟩ => ⟨f, hfac ▸ hf, ?_⟩
  rw [hs, (run_fh_static ops w₀ f).2]; exact hn

namespace Demo

/-- The anchors: poses at the origin. -/
noncomputable def lenFrom : NRef → NodeVal := fun _ => ⟨.pose3d, SE3.default⟩
/-- A landmark at the origin. -/
noncomputable def lenAt : NodeVal := ⟨.landmark3d, 0⟩
/-- Both measurements: the landmark is at `o`, with information `k`. -/
noncomputable def lenObs (o : Vec3) (k : ℝ) : FRef → FactorVirt := fun _ => .land3d o (k • 1) false .quadratic

variable {o : Vec3} {k : ℝ}

theorem len_pair (hk : 0 ≤ k) : Measured lenFrom lenAt (lenObs o k) :=
  ⟨rfl, rfl, rfl, rfl, rfl, Matrix.PosSemidef.one.smul hk, Matrix.PosSemidef.one.smul hk, rfl, rfl⟩

theorem len_landmarks : LandmarkGraph (twiceWorld lenFrom lenAt (lenObs o k)) := by
  refine ⟨fun f hf => ⟨o, k • 1, false, (run_fh_static twiceOps _ f).1⟩, fun n hn => ?_⟩
  rw [twice_active, List.mem_singleton] at hn
  subst hn
  rfl

theorem len_jac : twiceJac ⟨.pose3d, SE3.default⟩ ⟨.landmark3d, 0⟩ (.land3d o (k • 1) false .quadratic) = (1 : Mat3) := by
  have key : ∀ i j : Fin 3, blk2 ((land3dJac SE3.default 0).1.submatrix id at6) (land3dJac SE3.default 0).2 i (6 + j) = (1 : Mat3) i j := by
    intro i j
    unfold blk2 blk
    rw [if_neg (by omega), Nat.add_sub_cancel_left, dif_pos j.2, la_R]
  exact Matrix.ext key

theorem len_res (o : Vec3) : land3dRes o SE3.default 0 = -o := by
  have ht : SE3.default.t = 0 := by
    ext i
    change (1 : Mat4) (Sum.inl i) (Sum.inr ()) = _
    simp [Matrix.one_apply]
  rw [land3dRes, SE3.transform, mulVec_zero, zero_add, SE3.inv, ht, mulVec_zero]
  change tr3 (homog _ 0 1) - o = _
  rw [tr3_homog, zero_sub]

theorem len_upd (y z : Vec3) (h : z = -y) :
    NodeVal.upd lenAt (fun i => if hk : i < 3 then -y ⟨i, hk⟩ else 0) = ⟨.landmark3d, z⟩ := by
  subst h
  change (⟨.landmark3d, (0 : Vec3) + fun i : Fin 3 => if hk : (i : ℕ) < 3 then -y ⟨i, hk⟩ else 0⟩ : NodeVal) = _
  congr 1
  funext i
  rw [Pi.add_apply, dif_pos i.2, Pi.zero_apply, zero_add]
  rfl

/-- The estimate of Gauss-Newton. -/
theorem len_gn (hk : 0 < k) (s : FGraphSolve) (hs : s.w = twiceWorld lenFrom lenAt (lenObs o k)) :
    (infoMatrix (graphTerms s.w)).PosDef ∧ ∃ s1, s.solve Env.exact .GN 20 1e-6 1e-2 = .ok s1 ∧
      (s1.w.nh 2).val = ⟨.landmark3d, o⟩ := by
  have key : ∀ M : Mat3, M = 1 → (Mᵀ * (k • 1) * M + Mᵀ * (k • 1) * M).PosDef ∧
      (Mᵀ * (k • 1) * M + Mᵀ * (k • 1) * M) *ᵥ (-o) = Mᵀ *ᵥ ((k • (1 : Mat3)) *ᵥ land3dRes o SE3.default 0) +
        Mᵀ *ᵥ ((k • (1 : Mat3)) *ᵥ land3dRes o SE3.default 0) := by
    rintro _ rfl
    rw [len_res, transpose_one, Matrix.one_mul, Matrix.mul_one, one_mulVec, add_mulVec]
    exact ⟨(Matrix.PosDef.one.smul hk).add (Matrix.PosDef.one.smul hk), rfl⟩
  obtain ⟨k1, k2⟩ := key _ (len_jac (o := o) (k := k))
  obtain ⟨g0, s1, g1, g2⟩ := twice_gn (len_pair hk.le) k1 _ k2 s hs
  exact ⟨g0, s1, g1, g2.trans (len_upd (-o) o (neg_neg o).symm)⟩

/-- The estimate of one iteration of Levenberg-Marquardt. -/
theorem len_lm (hk : 0 < k) (s : FGraphSolve) (hs : s.w = twiceWorld lenFrom lenAt (lenObs o k)) :
    ∃ s1, s.solve Env.exact .LM 1 1e-6 1e-2 = .ok s1 ∧ (s1.w.nh 2).val = ⟨.landmark3d, (2 * k / (2 * k + 1e-5)) • o⟩ := by
  have hc : 2 * k + 1e-5 ≠ 0 := by positivity
  have key : ∀ M : Mat3, M = 1 →
      (Mᵀ * (k • 1) * M + Mᵀ * (k • 1) * M) *ᵥ (-((2 * k / (2 * k + 1e-5)) • o)) + (1e-5 : ℝ) • (-((2 * k / (2 * k + 1e-5)) • o)) =
        Mᵀ *ᵥ ((k • (1 : Mat3)) *ᵥ land3dRes o SE3.default 0) + Mᵀ *ᵥ ((k • (1 : Mat3)) *ᵥ land3dRes o SE3.default 0) := by
    rintro _ rfl
    rw [len_res, transpose_one, Matrix.one_mul, Matrix.mul_one, one_mulVec, add_mulVec, smul_mulVec, smul_mulVec, one_mulVec, one_mulVec]
    funext i
    simp only [Pi.add_apply, Pi.smul_apply, Pi.neg_apply, smul_eq_mul]
    field_simp
    ring
  obtain ⟨s1, g1, g2⟩ := twice_lm (len_pair hk.le) len_landmarks _ (key _ (len_jac (o := o) (k := k))) s hs
  exact ⟨s1, g1, g2.trans (len_upd (-((2 * k / (2 * k + 1e-5)) • o)) _ (neg_neg _).symm)⟩

theorem len_restated {u : ℝ} (hu : 0 < u) (hk : k = u ^ 2 * k') : Restated (Rescaled u) (FactorRescaled u) twiceOps
    (twiceWorld₀ lenFrom lenAt (lenObs o k)) (twiceWorld₀ lenFrom lenAt (lenObs (u • o) k')) := by
  refine ⟨fun n _ => rfl, fun n _ => ?_, fun f _ => rfl, fun f _ => .land3d _ _ _ _ _ ?_⟩
  · by_cases h : n = 2
    · subst h
      change (0 : Vec3) = u • 0
      rw [smul_zero]
    · have e : (twiceWorld₀ lenFrom lenAt (lenObs o k)).nh n = NodeCell.new .pose3d SE3.default .anchor := if_neg h
      have e' : (twiceWorld₀ lenFrom lenAt (lenObs (u • o) k')).nh n = NodeCell.new .pose3d SE3.default .anchor := if_neg h
      rw [e, e']
      exact ⟨1, 0, homog_one.symm, by rw [smul_zero]; exact homog_one.symm⟩
  · rw [smul_smul, hk]

end Demo

/-- Two measurements of a landmark, in metres and in any other unit; both calls return. -/
example (u : ℝ) (hu : 0 < u) : Proper (Demo.twiceWorld₀ Demo.lenFrom Demo.lenAt (Demo.lenObs ![1, 0, 0] 1)) Demo.twiceOps ∧
    Restated (Rescaled u) (FactorRescaled u) Demo.twiceOps (Demo.twiceWorld₀ Demo.lenFrom Demo.lenAt (Demo.lenObs ![1, 0, 0] 1))
      (Demo.twiceWorld₀ Demo.lenFrom Demo.lenAt (Demo.lenObs (u • ![1, 0, 0]) (u ^ 2)⁻¹)) ∧
    ∀ s s' : FGraphSolve, s.w = World.run Demo.twiceOps (Demo.twiceWorld₀ Demo.lenFrom Demo.lenAt (Demo.lenObs ![1, 0, 0] 1)) →
      s'.w = World.run Demo.twiceOps (Demo.twiceWorld₀ Demo.lenFrom Demo.lenAt (Demo.lenObs (u • ![1, 0, 0]) (u ^ 2)⁻¹)) →
      (infoMatrix (graphTerms s.w)).PosDef ∧ (∃ s1, s.solve Env.exact .GN 20 1e-6 1e-2 = .ok s1) ∧
        ∃ s1', s'.solve Env.exact .GN 20 1e-6 1e-2 = .ok s1' := by
  have hu2 : u ^ 2 ≠ 0 := by positivity
  refine ⟨Demo.twice_proper (Demo.len_pair zero_le_one), Demo.len_restated hu (mul_inv_cancel₀ hu2).symm, fun s s' hs hs' => ?_⟩
  obtain ⟨k1, s1, k2, -⟩ := Demo.len_gn one_pos s hs
  obtain ⟨-, s1', k2', -⟩ := Demo.len_gn (k := (u ^ 2)⁻¹) (by positivity) s' hs'
  exact ⟨k1, ⟨s1, k2⟩, s1', k2'⟩

/-- C104 fails for Levenberg-Marquardt: the damping is the same number in every unit.  A landmark that is measured at one
metre: one iteration in metres moves it by more than 0.99 m, in millimetres by less than 0.2 m. -/
theorem C104_lm_fails : ∃ (ops : List GraphOp) (w₀ w₀' : World), w₀.g = emptyGraph ∧ w₀'.g = emptyGraph ∧
    Proper w₀ ops ∧ Restated (Rescaled 1000) (FactorRescaled 1000) ops w₀ w₀' ∧
    ∀ s s' : FGraphSolve, s.w = World.run ops w₀ → s'.w = World.run ops w₀' →
      ∃ s1 s1' n, ∃ l l' : Vec3, s.solve Env.exact .LM 1 1e-6 1e-2 = .ok s1 ∧ s'.solve Env.exact .LM 1 1e-6 1e-2 = .ok s1' ∧
        n ∈ s.w.g.active ∧ (s.w.nh n).val = ⟨.landmark3d, (0 : Vec3)⟩ ∧ (s'.w.nh n).val = ⟨.landmark3d, (0 : Vec3)⟩ ∧
        (s1.w.nh n).val = ⟨.landmark3d, l⟩ ∧ (s1'.w.nh n).val = ⟨.landmark3d, l'⟩ ∧ l 0 > 0.99 ∧ l' 0 < 200 := by
  refine ⟨Demo.twiceOps, Demo.twiceWorld₀ Demo.lenFrom Demo.lenAt (Demo.lenObs ![1, 0, 0] 1),
    Demo.twiceWorld₀ Demo.lenFrom Demo.lenAt (Demo.lenObs ((1000 : ℝ) • ![1, 0, 0]) (1000 ^ 2 : ℝ)⁻¹), rfl, rfl,
    Demo.twice_proper (Demo.len_pair zero_le_one), Demo.len_restated (by norm_num) (by norm_num), fun s s' hs hs' => ?_⟩
  obtain ⟨s1, k1, k2⟩ := Demo.len_lm one_pos s hs
  obtain ⟨s1', k1', k2'⟩ := Demo.len_lm (by positivity) s' hs'
  refine ⟨s1, s1', 2, _, _, k1, k1', ?_, ?_, ?_, k2, k2', ?_, ?_⟩
  · rw [hs]
    change 2 ∈ (Demo.twiceWorld _ _ _).g.active
    rw [Demo.twice_active]; simp
  · rw [hs]; exact (Demo.twice_val (Demo.len_pair zero_le_one)).2.2
  · rw [hs']; exact (Demo.twice_val (Demo.len_pair (by positivity))).2.2
  · simp; norm_num
  · simp; norm_num

namespace Demo

/-- A pose `d` behind the landmark. -/
noncomputable def behindFrom (d : ℝ) : NRef → NodeVal := fun _ => ⟨.pose2d, ![-d, 0, 0]⟩
/-- Both observations: the landmark is twice as far. -/
noncomputable def behindObs (d k : ℝ) : FRef → FactorVirt := fun _ => .land2d ![2 * d, 0] (diagonal ![k, 1]) false .quadratic

theorem behind_posDef {k : ℝ} (hk : 0 < k) : (diagonal ![k, 1] : Matrix (Fin 2) (Fin 2) ℝ).PosDef := by
  refine Matrix.PosDef.diagonal fun i => ?_
  fin_cases i <;> simp [hk]

theorem behind_pair {d k : ℝ} (hk : 0 < k) : Measured (behindFrom d) ⟨.landmark2d, 0⟩ (behindObs d k) :=
  ⟨rfl, rfl, rfl, rfl, rfl, (behind_posDef hk).posSemidef, (behind_posDef hk).posSemidef, rfl, rfl⟩

theorem behind_gn {d k : ℝ} (hk : 0 < k) (hj : (land2dJac ![-d, 0, 0] 0).2 = 1) (r : Vec2) (hr : land2dRes ![2 * d, 0] ![-d, 0, 0] 0 = r)
    (s : FGraphSolve) (hs : s.w = twiceWorld (behindFrom d) ⟨.landmark2d, 0⟩ (behindObs d k)) :
    ∃ s1, s.solve Env.exact .GN 20 1e-6 1e-2 = .ok s1 ∧ (s1.w.nh 2).val = ⟨.landmark2d, -r⟩ := by
  subst hr
  set W : Matrix (Fin 2) (Fin 2) ℝ := diagonal ![k, 1] with hW
  have key : ∀ M : Matrix (Fin 2) (Fin 2) ℝ, M = 1 → (Mᵀ * W * M + Mᵀ * W * M).PosDef ∧
      (Mᵀ * W * M + Mᵀ * W * M) *ᵥ (land2dRes ![2 * d, 0] ![-d, 0, 0] 0) = Mᵀ *ᵥ (W *ᵥ land2dRes ![2 * d, 0] ![-d, 0, 0] 0) +
        Mᵀ *ᵥ (W *ᵥ land2dRes ![2 * d, 0] ![-d, 0, 0] 0) := by
    rintro _ rfl
    rw [transpose_one, Matrix.one_mul, Matrix.mul_one, one_mulVec, add_mulVec]
    exact ⟨(behind_posDef hk).add (behind_posDef hk), rfl⟩
  obtain ⟨k1, k2⟩ := key _ ((land_twiceJac ![2 * d, 0] W ![-d, 0, 0] 0).trans hj)
  obtain ⟨-, s1, g1, g2⟩ := twice_gn (behind_pair hk) k1 _ k2 s hs
  refine ⟨s1, g1, g2.trans ?_⟩
  refine congrArg (fun z : Vec2 => (⟨.landmark2d, z⟩ : NodeVal)) ?_
  funext i
  change (0 : ℝ) + (if hk : (i : ℕ) < 2 then -(land2dRes ![2 * d, 0] ![-d, 0, 0] 0) ⟨i, hk⟩ else 0) = _
  rw [dif_pos i.2, zero_add]
  rfl

end Demo

/-- C104 fails for planar landmarks when the new unit is so large that the distance of a landmark is less than `1e-3`: there
its observations count as errorless.  A landmark one metre away that is measured at two metres is moved by one metre; in units
of ten kilometres it is not moved. -/
theorem C104_near_fails : ∃ (ops : List GraphOp) (w₀ w₀' : World), w₀.g = emptyGraph ∧ w₀'.g = emptyGraph ∧
    Proper w₀ ops ∧ Restated (Rescaled 1e-4) (FactorRescaled 1e-4) ops w₀ w₀' ∧
    ∀ s s' : FGraphSolve, s.w = World.run ops w₀ → s'.w = World.run ops w₀' →
      ∃ s1 s1' n, s.solve Env.exact .GN 20 1e-6 1e-2 = .ok s1 ∧ s'.solve Env.exact .GN 20 1e-6 1e-2 = .ok s1' ∧
        n ∈ s.w.g.active ∧ (s.w.nh n).val = ⟨.landmark2d, (0 : Vec2)⟩ ∧ (s'.w.nh n).val = ⟨.landmark2d, (0 : Vec2)⟩ ∧
        (s1.w.nh n).val = ⟨.landmark2d, (![1, 0] : Vec2)⟩ ∧ (s1'.w.nh n).val = ⟨.landmark2d, (0 : Vec2)⟩ := by
  have hpi := Real.pi_pos
  have e1 : (0 : Vec2) 0 - (![-1, 0, 0] : Vec3) 0 = 1 := by simp
  have e2 : (0 : Vec2) 1 - (![-1, 0, 0] : Vec3) 1 = 0 := by simp
  have e1' : (0 : Vec2) 0 - (![-1e-4, 0, 0] : Vec3) 0 = 1e-4 := by simp
  have e2' : (0 : Vec2) 1 - (![-1e-4, 0, 0] : Vec3) 1 = 0 := by simp
  have j1 : (land2dJac ![-1, 0, 0] 0).2 = 1 := by
    rw [land2dJac]
    simp only [e1, e2]
    rw [if_neg (by norm_num)]
    ext i j
    fin_cases i <;> fin_cases j <;> simp
  have j2 : (land2dJac ![-1e-4, 0, 0] 0).2 = 1 := by
    rw [land2dJac]
    simp only [e1', e2']
    rw [if_pos (by norm_num)]
  have r1 : land2dRes ![2 * 1, 0] ![-1, 0, 0] 0 = ![-1, 0] := by
    rw [land2dRes]
    simp only [e1, e2]
    rw [if_neg (by norm_num)]
    have hat : catan2 0 1 = 0 := by
      rw [catan2, show (⟨1, 0⟩ : ℂ) = 1 from rfl, Complex.arg_one]
    rw [hat]
    have hwr : wrapAngle (0 - (![-1, 0, 0] : Vec3) 2 - (![2 * 1, 0] : Vec2) 1) = 0 := by
      have : (0 : ℝ) - (![-1, 0, 0] : Vec3) 2 - (![2 * 1, 0] : Vec2) 1 = 0 := by simp
      rw [this]
      exact wrapAngle_of_mem (by linarith) hpi
    rw [hwr]
    funext i
    fin_cases i <;> simp <;> norm_num
  have r2 : land2dRes ![2 * 1e-4, 0] ![-1e-4, 0, 0] 0 = 0 := by
    rw [land2dRes]
    simp only [e1', e2']
    rw [if_pos (by norm_num)]
  refine ⟨Demo.twiceOps, Demo.twiceWorld₀ (Demo.behindFrom 1) ⟨.landmark2d, 0⟩ (Demo.behindObs 1 1),
    Demo.twiceWorld₀ (Demo.behindFrom 1e-4) ⟨.landmark2d, 0⟩ (Demo.behindObs 1e-4 1e8), rfl, rfl,
    Demo.twice_proper (Demo.behind_pair one_pos), ?_, fun s s' hs hs' => ?_⟩
  · refine ⟨fun n _ => ?_, fun n _ => ?_, fun f _ => rfl, fun f _ => ?_⟩
    · by_cases h : n = 2 <;> simp [Demo.twiceWorld₀, Demo.twiceNodes, h, NodeCell.new]
    · by_cases h : n = 2
      · subst h
        change (0 : Vec2) = (1e-4 : ℝ) • 0
        rw [smul_zero]
      · have e : (Demo.twiceWorld₀ (Demo.behindFrom 1) ⟨.landmark2d, 0⟩ (Demo.behindObs 1 1)).nh n =
          NodeCell.new .pose2d ![-1, 0, 0] .anchor := if_neg h
        have e' : (Demo.twiceWorld₀ (Demo.behindFrom 1e-4) ⟨.landmark2d, 0⟩ (Demo.behindObs 1e-4 1e8)).nh n =
          NodeCell.new .pose2d ![-1e-4, 0, 0] .anchor := if_neg h
        rw [e, e']
        change (![-1e-4, 0, 0] : Vec3) 0 = 1e-4 * (![-1, 0, 0] : Vec3) 0 ∧ (![-1e-4, 0, 0] : Vec3) 1 = 1e-4 * (![-1, 0, 0] : Vec3) 1 ∧
          (![-1e-4, 0, 0] : Vec3) 2 = (![-1, 0, 0] : Vec3) 2
        simp
    · have k := FactorRescaled.land2d (s := 1e-4) ![2 * 1, 0] (diagonal ![1, 1]) (diagonal ![1e8, 1]) false .quadratic (by
        rw [diagonal_mul_diagonal, diagonal_mul_diagonal]
        congr 1
        funext i
        fin_cases i <;> simp; norm_num)
      have e : (![1e-4 * (![2 * 1, 0] : Vec2) 0, (![2 * 1, 0] : Vec2) 1] : Vec2) = ![2 * 1e-4, 0] := by
        funext i
        fin_cases i <;> simp; norm_num
      rw [e] at k
      exact k
  · obtain ⟨s1, k1, k2⟩ := Demo.behind_gn one_pos j1 _ r1 s hs
    obtain ⟨s1', k1', k2'⟩ := Demo.behind_gn (by norm_num) j2 _ r2 s' hs'
    refine ⟨s1, s1', 2, k1, k1', ?_, ?_, ?_, k2.trans ?_, k2'.trans ?_⟩
    · rw [hs]
      change 2 ∈ (Demo.twiceWorld _ _ _).g.active
      rw [Demo.twice_active]; simp
    · rw [hs]; exact (Demo.twice_val (Demo.behind_pair one_pos)).2.2
    · rw [hs']; exact (Demo.twice_val (Demo.behind_pair (by norm_num))).2.2
    · refine congrArg (fun z : Vec2 => (⟨.landmark2d, z⟩ : NodeVal)) ?_
      funext i; fin_cases i <;> simp
    · rw [neg_zero]

end Mrob
