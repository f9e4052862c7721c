import Verif.Lemmas.GaugeVisited
import Verif.Lemmas.DemoDamped
import Verif.Lemmas.SpatialOrth
import Verif.Props.BodyFrame
import Verif.Props.VisitedLM

/-!
# C93, C111: Levenberg-Marquardt on spatial graphs, with assumptions on the estimates it comes to
-/

open Matrix

namespace Mrob

open World Spec FGraphSolve

theorem LMStart.frame {env : Env} {maxIters iter : ℕ} {s u : FGraphSolve} (h : LMStart env maxIters iter s u) : Frame s.w u.w := by
  induction h with
  | here => exact .refl _
  | afterReject h1 _ _ _ ih => exact ((trial_frame h1).trans (reject_frame _)).trans ih
  | afterAccept h1 _ _ _ _ ih => exact (trial_frame h1).trans ih

/-- C93, spatial graphs, Levenberg-Marquardt: as `C93_spatial_partial`, for rotations of the world, or motions of it if only
landmarks are estimated; the number of iterations, the returned number and the cost are the same.  The assumptions are made at
the start and at the estimates the loop comes to.  Missing: as for `C93_spatial_partial`, and estimated poses with translations. -/
theorem C93_spatial_lm_partial (G : Mat4) (hG : IsRigid G) (ops : List GraphOp) (w₀ w₀' : World) (h₀ : w₀.g = emptyGraph)
    (h₀' : w₀'.g = emptyGraph) (hp : Proper w₀ ops) (hm : Restated (SpatialMoved G) (SpatialFactorMoved G) ops w₀ w₀')
    (hpsd : ∀ f ∈ addedFactors ops, (w₀.fh f).virt.W.PosSemidef) (hwt : ∀ f ∈ addedFactors ops, 0 ≤ (w₀.fh f).weight)
    (hpsd' : ∀ f ∈ addedFactors ops, (w₀'.fh f).virt.W.PosSemidef) (hwt' : ∀ f ∈ addedFactors ops, 0 ≤ (w₀'.fh f).weight)
    (hr : ∀ f ∈ addedFactors ops, (w₀.fh f).virt.robust ≠ .ransac)
    (hok : ∀ f ∈ addedFactors ops, MildErrors (w₀.fh f).virt ((w₀.fh f).nbrs.map fun n => (w₀.nh n).val))
    (hrot : ∀ n ∈ addedNodes ops, (w₀.nh n).kind ≠ .landmark3d → (w₀.nh n).mode = .anchor ∨ ∀ i, G (Sum.inl i) (Sum.inr ()) = 0)
    (env env' : Env) (henv : env.Sound) (henv' : env'.Sound)
    (s s' : FGraphSolve) (hs : s.w = World.run ops w₀) (hs' : s'.w = World.run ops w₀') (maxIters : ℕ) (tol : ℝ)
    (hvis : ∀ t, LMVisited env maxIters 0 { s with tol := tol, lambda := 1e-5 } t → ∀ f ∈ addedFactors ops,
      MildErrors (w₀.fh f).virt ((w₀.fh f).nbrs.map fun n => (t.w.nh n).val))
    (hstep : ∀ u, LMStart env maxIters 0 { s with tol := tol, lambda := 1e-5 } u → ∀ x : Cols u.w → ℝ,
      infoMatrix (graphTerms u.w) *ᵥ x + u.lambda • x = infoVector (graphTerms u.w) →
      ∀ n ∈ u.w.g.active, MildStep G (u.w.nh n).val (u.w.spread (-x) n))
    (r r' : LMResult) (h1 : levenbergMarquardt env maxIters { s with tol := tol } = .ok r)
    (h1' : levenbergMarquardt env' maxIters { s' with tol := tol } = .ok r') :
    r'.ret = r.ret ∧ r'.iters = r.iters ∧ r'.s.w.cost = r.s.w.cost ∧
    ∀ n, (n ∈ s.w.g.active ∨ ∃ f ∈ addedFactors ops, n ∈ (w₀.fh f).nbrs) →
      SpatialMoved G (r.s.w.nh n).val (r'.s.w.nh n).val := by
  have hp' := Restated.proper (fun _ _ h => (spatialSym G).kind h) (fun _ _ h => by cases h <;> rfl) hm hp
  have hw := run_wellPosed h₀ hp hpsd hwt
  have hw' := run_wellPosed h₀' hp' hpsd' hwt'
  have hr1 := run_noRansac h₀ hr
  have hr1' := run_noRansac h₀' fun f hf => by
    rw [(spatial_factor hG (hm.virt f hf)).1]; exact hr f hf
  have hG0 := Restated.gauge (S := spatialSym G) (fun _ _ h => spatial_factor hG h) hm hp.noSetMode h₀ h₀'
    (fun n hn => spatial_moves hG _ (spatialMoved_kind (hm.val n (.inl hn)))) hok
  have hact : ∀ n ∈ s.w.g.active, (s.w.nh n).kind ≠ .landmark3d → (SE3.mk G).t = 0 := by
    intro n hn hk
    rw [hs, run_active ops hp.noSetMode, h₀] at hn
    have hn' : n ∈ (addedNodes ops).filter fun n => (w₀.nh n).mode = .standard := hn
    rw [List.mem_filter] at hn'
    rw [hs, run_kind] at hk
    rcases hrot n hn'.1 hk with this | this
    · rw [this] at hn'
      simp at hn'
    · exact funext this
  rw [← hs] at hw hr1 hG0
  rw [← hs'] at hw' hr1' hG0
  have hfac : s.w.g.factors = addedFactors ops := by rw [hs, run_factors, h₀]; rfl
  obtain ⟨k1, k2, k3, k4⟩ := lmLoop_now (S := spatialSym G) henv henv' _ 0 rfl
    (s := ⟨s.w, 1e-5, tol, s.sys, s.mats⟩) (s' := ⟨s'.w, 1e-5, tol, s'.sys, s'.mats⟩)
    ⟨hG0, rfl, rfl, fun n hn => spatial_orth hG _ (spatialMoved_kind (hG0.val n (.inl hn))) (hact n hn)⟩ hw hw' hr1 hr1' (by norm_num)
    (fun t ht f hf => by
      have := hvis t ht f (hfac ▸ hf)
      change (spatialSym G).ok (s.w.fh f).virt ((s.w.fh f).nbrs.map fun n => (t.w.nh n).val)
      rw [hs, (run_fh_static ops w₀ f).1, (run_fh_static ops w₀ f).2]
      exact this)
    (fun u u' hu hgu x hx n hn => by
      refine spatial_upd hG (hgu.val n (.inl hn)) (fun hk => ?_) (hstep u hu x hx n hn)
      have hF := LMStart.frame hu
      have hk' : (u.w.nh n).kind = .plane4d := hk
      rw [hF.factors.g] at hn
      rw [(hF.active n).kind] at hk'
      exact hact n hn (by
        change (s.w.nh n).kind ≠ _
        rw [show (s.w.nh n).kind = .plane4d from hk']; simp)) h1 h1'
  have hF := (lmLoop_run _ 0 ⟨s.w, 1e-5, tol, s.sys, s.mats⟩ r rfl h1).frame
  refine ⟨k1, k2, k3.cost_eq k4.wired, fun n hn => k3.val n ?_⟩
  rw [hF.factors.g]
  refine hn.imp id fun ⟨f, hf, hn⟩ => ⟨f, hfac ▸ hf, ?_⟩
  rw [hF.factors.nbrs]
  change n ∈ (s.w.fh f).nbrs
  rw [hs, (run_fh_static ops w₀ f).2]; exact hn

/-- C111, Levenberg-Marquardt: as `C111_gn_partial`; the number of iterations, the returned number and the cost are the same.
The assumptions are made at the start and at the estimates the loop comes to.  Missing: as for `C111_gn_partial`. -/
theorem C111_lm_partial (G : Mat4) (hG : IsRigid G) (ops : List GraphOp) (w₀ w₀' : World) (h₀ : w₀.g = emptyGraph)
    (h₀' : w₀'.g = emptyGraph) (hp : Proper w₀ ops) (hm : Restated (BodyMoved G) (BodyFactorMoved G) ops w₀ w₀')
    (hpsd : ∀ f ∈ addedFactors ops, (w₀.fh f).virt.W.PosSemidef) (hwt : ∀ f ∈ addedFactors ops, 0 ≤ (w₀.fh f).weight)
    (hpsd' : ∀ f ∈ addedFactors ops, (w₀'.fh f).virt.W.PosSemidef) (hwt' : ∀ f ∈ addedFactors ops, 0 ≤ (w₀'.fh f).weight)
    (hr : ∀ f ∈ addedFactors ops, (w₀.fh f).virt.robust ≠ .ransac)
    (hok : ∀ f ∈ addedFactors ops, SameSide G (w₀.fh f).virt ((w₀.fh f).nbrs.map fun n => (w₀.nh n).val))
    (env env' : Env) (henv : env.Sound) (henv' : env'.Sound)
    (s s' : FGraphSolve) (hs : s.w = World.run ops w₀) (hs' : s'.w = World.run ops w₀') (maxIters : ℕ) (tol : ℝ)
    (hvis : ∀ t, LMVisited env maxIters 0 { s with tol := tol, lambda := 1e-5 } t → ∀ f ∈ addedFactors ops,
      SameSide G (w₀.fh f).virt ((w₀.fh f).nbrs.map fun n => (t.w.nh n).val))
    (hstep : ∀ u, LMStart env maxIters 0 { s with tol := tol, lambda := 1e-5 } u → ∀ x : Cols u.w → ℝ,
      infoMatrix (graphTerms u.w) *ᵥ x + u.lambda • x = infoVector (graphTerms u.w) →
      ∀ n ∈ u.w.g.active, BodyStep G (u.w.nh n).val (u.w.spread (-x) n))
    (r r' : LMResult) (h1 : levenbergMarquardt env maxIters { s with tol := tol } = .ok r)
    (h1' : levenbergMarquardt env' maxIters { s' with tol := tol } = .ok r') :
    r'.ret = r.ret ∧ r'.iters = r.iters ∧ r'.s.w.cost = r.s.w.cost ∧
    ∀ n, (n ∈ s.w.g.active ∨ ∃ f ∈ addedFactors ops, n ∈ (w₀.fh f).nbrs) →
      BodyMoved G (r.s.w.nh n).val (r'.s.w.nh n).val := by
  have hp' := Restated.proper (fun _ _ h => (bodySym G).kind h) (fun _ _ h => by cases h <;> rfl) hm hp
  have hw := run_wellPosed h₀ hp hpsd hwt
  have hw' := run_wellPosed h₀' hp' hpsd' hwt'
  have hr1 := run_noRansac h₀ hr
  have hr1' := run_noRansac h₀' fun f hf => by
    rw [(body_factor hG (hm.virt f hf)).1]; exact hr f hf
  have hG0 := body_gauge hG h₀ h₀' hp hm hok
  rw [← hs] at hw hr1 hG0
  rw [← hs'] at hw' hr1' hG0
  have hfac : s.w.g.factors = addedFactors ops := by rw [hs, run_factors, h₀]; rfl
  obtain ⟨k1, k2, k3, k4⟩ := lmLoop_now (S := bodySym G) henv henv' _ 0 rfl
    (s := ⟨s.w, 1e-5, tol, s.sys, s.mats⟩) (s' := ⟨s'.w, 1e-5, tol, s'.sys, s'.mats⟩)
    ⟨hG0, rfl, rfl, fun n hn => body_orth _⟩ hw hw' hr1 hr1' (by norm_num)
    (fun t ht f hf => by
      have := hvis t ht f (hfac ▸ hf)
      change (bodySym G).ok (s.w.fh f).virt ((s.w.fh f).nbrs.map fun n => (t.w.nh n).val)
      rw [hs, (run_fh_static ops w₀ f).1, (run_fh_static ops w₀ f).2]
      exact this)
    (fun u u' hu hgu x hx n hn => body_upd hG (hgu.val n (.inl hn)) (hstep u hu x hx n hn)) h1 h1'
  have hF := (lmLoop_run _ 0 ⟨s.w, 1e-5, tol, s.sys, s.mats⟩ r rfl h1).frame
  refine ⟨k1, k2, k3.cost_eq k4.wired, fun n hn => k3.val n ?_⟩
  rw [hF.factors.g]
  refine hn.imp id fun ⟨f, hf, hn⟩ => ⟨f, hfac ▸ hf, ?_⟩
  rw [hF.factors.nbrs]
  change n ∈ (s.w.fh f).nbrs
  rw [hs, (run_fh_static ops w₀ f).2]; exact hn

/-- With one iteration, iterations start only where the loop does. -/
theorem start_one {env : Env} {s t : FGraphSolve} (h : LMStart env 1 0 s t) : t = s := by
  cases h with
  | here => rfl
  | afterReject _ _ h => exact absurd h (by omega)
  | afterAccept _ _ _ h => exact absurd h (by omega)

namespace Demo

/-- Along the measured translation, the information is 5. -/
theorem shifted_along (c : ℝ) : let P : NodeVal := ⟨.pose3d, ⟨homog 1 0 1⟩⟩
    ((twiceJac P P (shifted 0))ᵀ * (shifted 0).W * twiceJac P P (shifted 0) +
      (twiceJac P P (shifted 1))ᵀ * (shifted 1).W * twiceJac P P (shifted 1)) *ᵥ (fun i : Fin 6 => vec6 0 ![c, 0, 0] (at6 i)) =
      fun i : Fin 6 => vec6 0 ![5 * c, 0, 0] (at6 i) := by
  set v : Vec3 := ![1, 0, 0] with hv
  set M := (SE3.mk (homog 1 v 1)).adj with hM
  set N := (SE3.mk (homog 1 (-v) 1)).adj with hN
  have key6 : (Mᵀ * stiffW6 * M + Nᵀ * N) *ᵥ vec6 0 ![c, 0, 0] = vec6 0 ![5 * c, 0, 0] := by
    rw [add_mulVec, ← mulVec_mulVec, ← mulVec_mulVec, ← mulVec_mulVec, hM, hN, adj_mulVec_translation, adj_mulVec_translation,
      stiffW6_mulVec, adjT_mulVec, adjT_mulVec]
    funext i
    rcases i with i | i <;> fin_cases i <;> simp [vec6, hat3, mulVec, dotProduct, Fin.sum_univ_three, hv]
    ring
  have sub1 : ∀ (A : Mat6) (z : Vec6), (A.submatrix at6 at6) *ᵥ (fun i => z (at6 i)) = fun i => (A *ᵥ z) (at6 i) := by
    intro A z
    have := submatrix_mulVec_equiv A (z ∘ at6) at6 e6
    rw [e6_apply] at this
    rw [show (fun i => z (at6 i)) = z ∘ at6 from rfl, this]
    have e : (z ∘ at6) ∘ ⇑e6.symm = z := by
      funext i; exact congrArg z (e6.apply_symm_apply i)
    rw [e]; rfl
  have sub2 : ∀ A B : Mat6, A.submatrix at6 at6 * B.submatrix at6 at6 = (A * B).submatrix at6 at6 := by
    intro A B
    have := submatrix_mul_equiv A B at6 e6 at6
    rwa [e6_apply] at this
  have key : ∀ (J J' : Matrix (Fin 6) (Fin 6) ℝ), J = (-M).submatrix at6 at6 → J' = (-N).submatrix at6 at6 →
      (Jᵀ * stiffW6.submatrix at6 at6 * J + J'ᵀ * 1 * J') *ᵥ (fun i => vec6 0 ![c, 0, 0] (at6 i)) =
        fun i => vec6 0 ![5 * c, 0, 0] (at6 i) := by
    rintro _ _ rfl rfl
    have e : ((-M).submatrix at6 at6)ᵀ * stiffW6.submatrix at6 at6 * (-M).submatrix at6 at6 +
        ((-N).submatrix at6 at6)ᵀ * 1 * (-N).submatrix at6 at6 = (Mᵀ * stiffW6 * M + Nᵀ * N).submatrix at6 at6 := by
      rw [transpose_submatrix, transpose_submatrix, Matrix.mul_one, sub2, sub2, sub2, transpose_neg, transpose_neg, Matrix.neg_mul,
        neg_mul_neg, neg_mul_neg]
      rfl
    rw [e, sub1, key6]
  exact key _ _ ((shifted_twiceJac isRotation_one ![1, 0, 0] (stiffW6.submatrix at6 at6)).trans (by rw [one_mulVec]))
    ((shifted_twiceJac isRotation_one (-![1, 0, 0]) 1).trans (by rw [one_mulVec]))

/-- The damped increment: a translation along the first axis. -/
noncomputable def damped (l : ℝ) : ℕ → ℝ := fun k => if hk : k < 6 then -(vec6 0 ![-3 / (5 + l), 0, 0] (at6 ⟨k, hk⟩)) else 0

theorem damped_head (l : ℝ) : (fun i : Fin 3 => damped l i) = 0 := by
  funext i; fin_cases i <;> simp [damped, at6, vec6]

theorem damped_tail (l : ℝ) : (fun i : Fin 3 => damped l (3 + i)) = ![3 / (5 + l), 0, 0] := by
  funext i; fin_cases i <;> simp [damped, at6, vec6]
  ring

theorem origin_damped {l : ℝ} (hl : 0 ≤ l) (X : Cols originGraph → ℝ)
    (hX : infoMatrix (graphTerms originGraph) *ᵥ X + l • X = infoVector (graphTerms originGraph)) :
    originGraph.spread (-X) 2 = damped l := by
  obtain ⟨k1, k2⟩ := shifted_normal isRotation_one ![1, 0, 0] ![-3 / 5, 0, 0] (one_mulVec _)
      (by funext i; fin_cases i <;> simp <;> norm_num)
      (by funext i; fin_cases i <;> simp [hat3, mulVec, dotProduct, Fin.sum_univ_three])
  refine twice_damped (shifted_pair ⟨homog 1 0 1⟩) k1 hl (fun i : Fin 6 => vec6 0 ![-3 / (5 + l), 0, 0] (at6 i)) ?_ X hX
  refine Eq.trans ?_ k2
  refine (congrArg (· + _) (shifted_along (-3 / (5 + l)))).trans (Eq.trans ?_ (shifted_along (-3 / 5)).symm)
  have h5 : 5 + l ≠ 0 := by positivity
  funext i
  change vec6 0 ![5 * (-3 / (5 + l)), 0, 0] (at6 i) + l * vec6 0 ![-3 / (5 + l), 0, 0] (at6 i) = vec6 0 ![5 * (-3 / 5), 0, 0] (at6 i)
  rcases at6 i with j | j <;> fin_cases j <;> simp [vec6]
  field_simp
  ring

/-- The pose after a damped step. -/
theorem origin_upd (l : ℝ) : NodeVal.upd ⟨.pose3d, ⟨homog 1 0 1⟩⟩ (damped l) = ⟨.pose3d, ⟨homog 1 ![3 / (5 + l), 0, 0] 1⟩⟩ := by
  have hd : NodeKind.ofFlat .pose3d (damped l) = vec6 0 ![3 / (5 + l), 0, 0] := by
    change vec6 (fun i => damped l i) (fun i => damped l (3 + i)) = _
    rw [damped_head, damped_tail]
  have e : (SE3.mk (homog 1 0 1)).updateLhs (vec6 0 ![3 / (5 + l), 0, 0]) = ⟨homog 1 ![3 / (5 + l), 0, 0] 1⟩ := by
    apply SE3.ext
    change (SE3.ofVec _).T * homog 1 0 1 = _
    have := ofVec_translation 1 ![3 / (5 + l), 0, 0]
    rw [one_smul, one_smul, hat6_eq, head3_vec6, tail3_vec6, hat3_at_zero, ← homog_one, homog_add] at this
    rw [this, homog_one, Matrix.mul_one]
    simp
  rw [NodeVal.upd]
  dsimp only
  rw [hd]
  change (⟨.pose3d, ((SE3.mk (homog 1 0 1)).updateLhs (vec6 0 ![3 / (5 + l), 0, 0])).regenerate⟩ : NodeVal) = _
  rw [e, regenerate_plain (M := ⟨homog 1 ![3 / (5 + l), 0, 0] 1⟩) (isRigid_homog isRotation_one _)
    (by change Spec.Plain (tl3 _); rw [tl3_homog]; exact plain_one)]

/-- The estimates that one iteration comes to: the estimated pose is translated, the others stay. -/
theorem origin_visited {env : Env} (henv : env.Sound) {s t : FGraphSolve} (hs : s.w = originGraph) (hl : 0 ≤ s.lambda)
    (ht : LMVisited env 1 0 s t) : (t.w.nh 0).val = ⟨.pose3d, ⟨homog 1 0 1⟩⟩ ∧ (t.w.nh 1).val = ⟨.pose3d, ⟨homog 1 0 1⟩⟩ ∧
      ∃ c : ℝ, (t.w.nh 2).val = ⟨.pose3d, ⟨homog 1 ![c, 0, 0] 1⟩⟩ := by
  obtain ⟨d, s1, h1, hts⟩ := visited_one ht
  obtain ⟨w, lambda, tol, sys, mats⟩ := s
  obtain rfl : w = originGraph := hs
  obtain ⟨e0, e1, e2⟩ := twice_val (shifted_pair ⟨homog 1 0 1⟩)
  have hact : originGraph.g.active = [2] := twice_active
  have n0 : (0 : NRef) ∉ originGraph.g.active := by rw [hact]; simp
  have n1 : (1 : NRef) ∉ originGraph.g.active := by rw [hact]; simp
  have n2 : (2 : NRef) ∈ originGraph.g.active := by rw [hact]; simp
  rcases hts with rfl | rfl
  · obtain ⟨X, hX, hv, -, -⟩ := trial_model henv origin_wellPosed h1
    dsimp only at hX hv
    have hval : ∀ n, n ∉ originGraph.g.active → ((originGraph.moved (originGraph.spread (-X))).nh n).val = (originGraph.nh n).val := by
      intro n hn
      rw [moved]
      simp only [if_neg hn]
    refine ⟨(hv 0).trans ((hval 0 n0).trans e0), (hv 1).trans ((hval 1 n1).trans e1), 3 / (5 + lambda), (hv 2).trans ?_⟩
    · have e : ((originGraph.moved (originGraph.spread (-X))).nh 2).val = ((originGraph.nh 2).val).upd (originGraph.spread (-X) 2) := by
        rw [moved]
        simp only [if_pos n2]
        rfl
      rw [e, origin_damped hl X hX]
      exact (congrArg (fun v : NodeVal => v.upd (damped lambda)) e2).trans (origin_upd lambda)
  · refine ⟨?_, ?_, 0, ?_⟩
    · rw [reject_val h1, if_neg n0]; exact e0
    · rw [reject_val h1, if_neg n1]; exact e1
    · rw [reject_val h1, if_pos n2]
      refine (congrArg NodeVal.stored e2).trans ?_
      have hz : (![0, 0, 0] : Vec3) = 0 := by funext i; fin_cases i <;> rfl
      rw [hz]
      rfl

theorem mild_translation (u b : Vec3) (W : Matrix (Fin 6) (Fin 6) ℝ) :
    MildErrors (.rel3d ⟨homog 1 u 1⟩ W .quadratic) [⟨.pose3d, ⟨homog 1 0 1⟩⟩, ⟨.pose3d, ⟨homog 1 b 1⟩⟩] := by
  have hX : ∀ (X : SE3) (c : Vec3), (⟨.pose3d, X⟩ : NodeVal) = ⟨.pose3d, ⟨homog 1 c 1⟩⟩ → X.T = homog 1 c 1 := fun X c h =>
    congrArg SE3.T (eq_of_heq (Sigma.mk.inj h).2)
  refine ⟨fun X h => ?_, fun obs W' ty X h => ?_, fun obs W' ty X Y h hXY => ?_⟩
  · have h' : (⟨.pose3d, X⟩ : NodeVal) = ⟨.pose3d, ⟨homog 1 0 1⟩⟩ ∨ (⟨.pose3d, X⟩ : NodeVal) = ⟨.pose3d, ⟨homog 1 b 1⟩⟩ := by
      simpa using h
    rcases h' with h' | h'
    · rw [hX X 0 h']; exact isRigid_homog isRotation_one 0
    · rw [hX X b h']; exact isRigid_homog isRotation_one b
  · exact absurd (congrArg (fun v : FactorVirt => v.kinds.length) h) (by simp [FactorVirt.rel3d, FactorVirt.prior3d])
  · have hobs := (rel3d_angular h).symm
    simp only [List.cons.injEq, and_true] at hXY
    have hinv : (homog 1 b 1)⁻¹ = homog 1 (-b) 1 := by
      refine Matrix.inv_eq_right_inv ?_
      rw [homog_mul, Matrix.one_mul, one_mulVec, mul_one, one_smul, neg_add_cancel, homog_one]
    rw [show (SE3.mk (homog 1 u 1)).T.toBlocks₁₁ = 1 from toBlocks_fromBlocks₁₁ _ _ _ _] at hobs
    have key : ∀ M : Mat4, M.toBlocks₁₁ = 1 → (M * homog 1 (-b) 1).toBlocks₁₁ = 1 := by
      intro M h1
      obtain ⟨A, B, C, D, rfl⟩ : ∃ A B C D, M = fromBlocks A B C D := ⟨_, _, _, _, (fromBlocks_toBlocks M).symm⟩
      rw [toBlocks_fromBlocks₁₁] at h1
      subst h1
      rw [homog, fromBlocks_multiply, toBlocks_fromBlocks₁₁]
      simp
    rw [hX X 0 hXY.1.symm, hX Y b hXY.2.symm, hinv, homog_one, Matrix.one_mul, key _ hobs]
    exact mild_one

theorem side_translation (t u b : Vec3) (W : Matrix (Fin 6) (Fin 6) ℝ) :
    SameSide (moveBy t) (.rel3d ⟨homog 1 u 1⟩ W .quadratic) [⟨.pose3d, ⟨homog 1 0 1⟩⟩, ⟨.pose3d, ⟨homog 1 b 1⟩⟩] := by
  refine ⟨fun X h => (mild_translation u b W).1 X h, fun obs W' rev ty X p _ _ h => ?_⟩
  simp at h

end Demo

/-- One iteration on the graph of `C93_spatial_partial`, turned by a right angle: the estimated pose is moved by the damped step. -/
example (env : Env) (henv : env.Sound) (s : FGraphSolve) (hs : s.w = World.run Demo.twiceOps Demo.atOrigin) :
    (∀ i, Demo.moveBy 0 (Sum.inl i) (Sum.inr ()) = 0) ∧
    (∀ t, LMVisited env 1 0 { s with tol := 1e-2, lambda := 1e-5 } t → ∀ f ∈ addedFactors Demo.twiceOps,
      MildErrors (Demo.atOrigin.fh f).virt ((Demo.atOrigin.fh f).nbrs.map fun n => (t.w.nh n).val)) ∧
    ∀ u, LMStart env 1 0 { s with tol := 1e-2, lambda := 1e-5 } u → ∀ x : Cols u.w → ℝ,
      infoMatrix (graphTerms u.w) *ᵥ x + u.lambda • x = infoVector (graphTerms u.w) →
      (∀ n ∈ u.w.g.active, MildStep (Demo.moveBy 0) (u.w.nh n).val (u.w.spread (-x) n)) ∧ u.w.spread (-x) 2 3 = 3 / (5 + 1e-5) := by
  obtain ⟨w, lambda, tol, sys, mats⟩ := s
  obtain rfl : w = Demo.originGraph := hs
  refine ⟨fun i => rfl, fun t ht f hf => ?_, fun u hu x hx => ?_⟩
  · obtain ⟨e0, e1, c, e2⟩ := Demo.origin_visited henv rfl (by norm_num) ht
    simp [addedFactors, Demo.twiceOps] at hf
    rcases hf with rfl | rfl
    · change MildErrors (Demo.shifted 0) [(t.w.nh 0).val, (t.w.nh 2).val]
      rw [e0, e2]; exact Demo.mild_translation _ _ _
    · change MildErrors (Demo.shifted 1) [(t.w.nh 1).val, (t.w.nh 2).val]
      rw [e1, e2]; exact Demo.mild_translation _ _ _
  · obtain rfl := start_one hu
    have h := Demo.origin_damped (l := 1e-5) (by norm_num) x hx
    refine ⟨fun n hn => ?_, ?_⟩
    · have hn' : n ∈ Demo.originGraph.g.active := hn
      rw [Demo.originGraph, Demo.twice_active, List.mem_singleton] at hn'
      subst hn'
      have hv : (Demo.originGraph.nh 2).val = ⟨.pose3d, ⟨homog 1 0 1⟩⟩ := (Demo.twice_val (Demo.shifted_pair ⟨homog 1 0 1⟩)).2.2
      change MildStep (Demo.moveBy 0) (Demo.originGraph.nh 2).val (Demo.originGraph.spread (-x) 2)
      rw [h, hv]
      exact Demo.atOrigin_step 0 _ _ (Demo.damped_head _) (Demo.damped_tail _)
    · exact (congrFun h 3).trans (congrFun (Demo.damped_tail _) 0)

/-- One iteration on the graph of `C111_gn_partial`. -/
example (t₀ : Vec3) (env : Env) (henv : env.Sound) (s : FGraphSolve) (hs : s.w = World.run Demo.twiceOps Demo.atOrigin) :
    (∀ t, LMVisited env 1 0 { s with tol := 1e-2, lambda := 1e-5 } t → ∀ f ∈ addedFactors Demo.twiceOps,
      SameSide (Demo.moveBy t₀) (Demo.atOrigin.fh f).virt ((Demo.atOrigin.fh f).nbrs.map fun n => (t.w.nh n).val)) ∧
    ∀ u, LMStart env 1 0 { s with tol := 1e-2, lambda := 1e-5 } u → ∀ x : Cols u.w → ℝ,
      infoMatrix (graphTerms u.w) *ᵥ x + u.lambda • x = infoVector (graphTerms u.w) →
      ∀ n ∈ u.w.g.active, BodyStep (Demo.moveBy t₀) (u.w.nh n).val (u.w.spread (-x) n) := by
  obtain ⟨w, lambda, tol, sys, mats⟩ := s
  obtain rfl : w = Demo.originGraph := hs
  refine ⟨fun t ht f hf => ?_, fun u hu x hx n hn => ?_⟩
  · obtain ⟨e0, e1, c, e2⟩ := Demo.origin_visited henv rfl (by norm_num) ht
    simp [addedFactors, Demo.twiceOps] at hf
    rcases hf with rfl | rfl
    · change SameSide _ (Demo.shifted 0) [(t.w.nh 0).val, (t.w.nh 2).val]
      rw [e0, e2]; exact Demo.side_translation _ _ _ _
    · change SameSide _ (Demo.shifted 1) [(t.w.nh 1).val, (t.w.nh 2).val]
      rw [e1, e2]; exact Demo.side_translation _ _ _ _
  · obtain rfl := start_one hu
    have h := Demo.origin_damped (l := 1e-5) (by norm_num) x hx
    have hn' : n ∈ Demo.originGraph.g.active := hn
    rw [Demo.originGraph, Demo.twice_active, List.mem_singleton] at hn'
    subst hn'
    have hv : (Demo.originGraph.nh 2).val = ⟨.pose3d, ⟨homog 1 0 1⟩⟩ := (Demo.twice_val (Demo.shifted_pair ⟨homog 1 0 1⟩)).2.2
    change BodyStep (Demo.moveBy t₀) (Demo.originGraph.nh 2).val (Demo.originGraph.spread (-x) 2)
    rw [h, hv]
    exact Demo.atOrigin_bodyStep t₀ _ _ (Demo.damped_head _) (Demo.damped_tail _)

end Mrob
