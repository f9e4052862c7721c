import Verif.Lemmas.Damping
import Verif.Lemmas.DemoLandmarks
import Verif.Props.GaussNewton

/-!
# C79: the damping of Levenberg-Marquardt
-/

open Matrix

namespace Mrob

open World

/-- C79: every iteration of `solve(LM)` moves the unknown nodes by the unique minimiser of the damped linear model, and
the damping of the next iteration is doubled when the cost fell by less than a quarter of what that model promised
(in particular when it grew), divided by four when it fell by more than 80 percent of it, and kept otherwise. -/
theorem C79_iteration (env : Env) (henv : env.Sound) (s s1 : FGraphSolve) (delta : ℝ) (hw : WellPosed s.w)
    (hl : 0 < s.lambda) (h : s.trial env = .ok (delta, s1)) : ∃ step : Cols s.w → ℝ,
      (∀ n, (s1.w.nh n).val = if n ∈ s.w.g.active then
        ⟨(s.w.nh n).kind, (s.w.nh n).kind.upd (s.w.nh n).obj.state ((s.w.nh n).kind.ofFlat (s.w.spread step n))⟩
        else (s.w.nh n).val) ∧
      (∀ δ, δ ≠ step → Spec.dampedCost (graphTerms s.w) s.lambda step < Spec.dampedCost (graphTerms s.w) s.lambda δ) ∧
      ∀ maxIters iter : ℕ, iter + 1 < maxIters → delta < 0 ∨ s.tol ≤ delta → ∃ s2 : FGraphSolve,
        s.lmLoop env maxIters iter = s2.lmLoop env maxIters (iter + 1) ∧ s2.tol = s.tol ∧
        s2.lambda = if delta < Spec.promised (graphTerms s.w) s.lambda step / 4 then s.lambda * 2
          else if delta > 0.8 * Spec.promised (graphTerms s.w) s.lambda step then s.lambda / 4 else s.lambda := by
  obtain ⟨x, hx, hv, hden, hw'⟩ := FGraphSolve.trial_model henv hw h
  have hsym := FGraphSolve.terms_symm hw
  have hpsd := FGraphSolve.terms_psd hw
  have hlam : s1.lambda = s.lambda := (FGraphSolve.trial_ok h).2.1
  have htol : s1.tol = s.tol := (FGraphSolve.trial_ok h).2.2.1
  have hprom := Spec.promised_eq _ hsym x hx
  have hpos : 0 ≤ Spec.promised (graphTerms s.w) s.lambda (-x) := by
    have h1 := hpsd.dotProduct_mulVec_nonneg x
    rw [star_trivial] at h1
    have h2 := mul_nonneg hl.le (Spec.dot_self_nonneg x)
    rw [hprom, ← hx, dotProduct_add, dotProduct_smul, smul_eq_mul]
    linarith
  refine ⟨-x, fun n => ?_, fun δ hδ => ?_, fun maxIters iter hi hd => ?_⟩
  · rw [hv]
    change (if n ∈ s.w.g.active then (s.w.nh n).update (s.w.spread (-x) n) else s.w.nh n).val = _
    split_ifs <;> rfl
  · rw [Spec.dampedCost_eq _ hsym x hx δ]
    have h1 := hpsd.dotProduct_mulVec_nonneg (δ + x)
    rw [star_trivial] at h1
    have h2 : 0 < (δ + x) ⬝ᵥ (δ + x) := by
      refine lt_of_le_of_ne (Spec.dot_self_nonneg _) fun h0 => hδ ?_
      exact eq_neg_of_add_eq_zero_left (dotProduct_self_eq_zero.mp h0.symm)
    have h3 := mul_pos hl h2
    linarith
  · rw [FGraphSolve.lmLoop, h, Out.ok_bind]
    dsimp only
    by_cases h0 : delta < 0
    · refine ⟨s1.reject, by rw [if_pos h0, if_pos hi], htol, ?_⟩
      rw [if_pos (by linarith)]
      change s1.lambda * 2 = _
      rw [hlam]
    · have h1 : s.tol ≤ delta := hd.resolve_left h0
      refine ⟨s1.adapt delta, by rw [if_neg h0, if_neg (by rw [htol]; exact not_lt.mpr h1), if_pos hi], htol, ?_⟩
      change FGraphSolve.nextLambda s1.lambda delta _ = _
      rw [hden, ← hprom, hlam]
      exact FGraphSolve.nextLambda_eq (not_lt.mp h0) hpos

/-- C79: on graphs of landmarks seen from known poses each iteration divides the damping by four, starting at `1e-5`,
until the last one. -/
theorem C79_landmarks (env : Env) (henv : env.Sound) (s : FGraphSolve) (hw : WellPosed s.w) (hL : LandmarkGraph s.w)
    (ht : 0 < s.tol) (maxIters : ℕ) (r : FGraphSolve.LMResult) (h : s.levenbergMarquardt env maxIters = .ok r) :
    r.s.lambda = 1e-5 / 4 ^ (if r.ret = 0 then r.iters else r.iters - 1) := by
  have h1 := (FGraphSolve.lmLoop_run _ _ _ _ rfl h).landmarks henv hw hL (by norm_num) ht
  rw [eq_div_iff (by positivity)]
  have := h1.2.2.1
  simpa using this

/-- C79: on such graphs the loop meets its tolerance when the limit on the iterations exceeds the initial cost divided by
the tolerance. -/
theorem C79_stops (env : Env) (henv : env.Sound) (s : FGraphSolve) (hw : WellPosed s.w) (hL : LandmarkGraph s.w)
    (ht : 0 < s.tol) (maxIters : ℕ) (hm : s.w.cost / s.tol < maxIters) (r : FGraphSolve.LMResult)
    (h : s.levenbergMarquardt env maxIters = .ok r) : r.ret ≠ 0 := by
  intro h0
  have h1 := (FGraphSolve.lmLoop_run _ _ _ _ rfl h).landmarks henv hw hL (by norm_num) ht
  have h2 := h1.2.2.2.1
  have h3 := h1.2.2.2.2.1 h0
  rw [if_pos h0, Nat.sub_zero] at h2
  change (r.iters : ℝ) * s.tol ≤ s.w.cost at h2
  rw [div_lt_iff₀ ht] at hm
  have h4 : (maxIters : ℝ) ≤ r.iters := by exact_mod_cast h3
  nlinarith

/-- C79: when the loop has met its tolerance on such a graph, in which every unknown landmark is seen with an information
of at least `μ`, the cost is within `1e-5 * tol / (2 μ)` of the cost of any placement of the landmarks. -/
theorem C79_accuracy (env : Env) (henv : env.Sound) (s : FGraphSolve) (hw : WellPosed s.w) (hL : LandmarkGraph s.w)
    (ht : 0 < s.tol) {μ : ℝ} (hm : 0 < μ) (hs : LandmarkGraph.Seen s.w μ) (maxIters : ℕ) (r : FGraphSolve.LMResult)
    (h : s.levenbergMarquardt env maxIters = .ok r) (hr : r.ret ≠ 0) (w' : World) (hF : Frame s.w w') :
    r.s.w.cost ≤ w'.cost + 1e-5 * s.tol / (2 * μ) := by
  have h1 := (FGraphSolve.lmLoop_run _ _ _ _ rfl h).landmarks henv hw hL (by norm_num) ht
  obtain ⟨s1, s2, delta, hw1, hF1, hl1, hl2, htr, hd, rfl⟩ := h1.2.2.2.2.2 hr
  change Frame s.w s1.w at hF1
  change s1.lambda ≤ 1e-5 at hl2
  change delta < s.tol at hd
  have hL1 := hL.of_frame hF1
  have ha := hL1.affine hw1.wired
  have hq := hL1.quadratic
  obtain ⟨x, hx, hv, -, -⟩ := FGraphSolve.trial_model henv hw1 htr
  have hdelta : delta = s1.w.cost - r.s.w.cost := (FGraphSolve.trial_ok htr).2.2.2.2.2.1
  have hF2 := Frame.trans hF1.symm hF
  obtain ⟨δ, hδ⟩ := hL1.reach hF2
  have hs1 : LandmarkGraph.Seen s1.w μ := by
    intro n hn
    rw [hF1.factors.g] at hn
    obtain ⟨f, hf, h2, h3, h4⟩ := hs n hn
    refine ⟨f, by rw [hF1.factors.g]; exact hf, by rw [hF1.factors.nbrs]; exact h2, by rw [hF1.factors.virt]; exact h3,
      fun m hm X hX => ?_⟩
    rw [hF1.factors.nbrs] at hm
    have hk : (s1.w.nh m).kind = .pose3d := congrArg Sigma.fst hX
    have hna : m ∉ s.w.g.active := fun hma => by
      rw [(hF1.active m).kind, hL.nodes m hma] at hk
      simp at hk
    exact h4 m hm X (by rw [← hF1.inactive m hna]; exact hX)
  have h2 := Spec.linearCost_near _ (FGraphSolve.terms_symm hw1) hl1 hm x hx (hL1.info_bound hw1 hs1) δ
  rw [← FGraphSolve.cost_linear ha hq (FGraphSolve.trial_frame htr) hv, ← FGraphSolve.cost_linear ha hq hF2 hδ,
    FGraphSolve.linear_zero ha hq, ← hdelta] at h2
  have h3 : 0 ≤ delta := by
    have := FGraphSolve.trial_kept henv hw1 ha hq hl1.le htr
    linarith [this.1, this.2.1]
  have h4 : s1.lambda * delta / (2 * μ) ≤ 1e-5 * s.tol / (2 * μ) := by
    refine div_le_div_of_nonneg_right ?_ (by positivity)
    exact mul_le_mul hl2 hd.le h3 (by norm_num)
  linarith

/-- The graph of `Demo` meets the hypotheses of C79: its landmarks are seen with information 1. -/
theorem Demo.la_seen : LandmarkGraph.Seen Demo.laWorld 1 := by
  intro n hn
  rw [Demo.la_active] at hn
  simp at hn
  have hone : ∀ v : Vec3, 1 * (v ⬝ᵥ v) ≤ v ⬝ᵥ ((1 : Mat3) *ᵥ v) := fun v => by rw [one_mulVec, one_mul]
  have hrot : Spec.IsRotation SE3.default.R := by
    have hR : SE3.default.R = 1 := by
      ext i j
      change (1 : Mat4) (Sum.inl i) (Sum.inl j) = _
      simp [Matrix.one_apply]
    rw [hR]
    exact ⟨by simp, by simp⟩
  have hp : ∀ m : NRef, m = 0 ∨ m = 1 ∨ m = 2 → ∀ X : SE3, (Demo.laWorld.nh m).val = ⟨.pose3d, X⟩ → Spec.IsRotation X.R := by
    intro m hm X hX
    rcases hm with rfl | rfl | rfl
    · have h0 : (⟨.pose3d, SE3.default⟩ : Σ k : NodeKind, k.State) = ⟨.pose3d, X⟩ := hX
      obtain ⟨-, h2⟩ := Sigma.mk.inj h0
      rw [← eq_of_heq h2]
      exact hrot
    · exact absurd (congrArg Sigma.fst hX) (by change ¬ NodeKind.landmark3d = .pose3d; simp)
    · exact absurd (congrArg Sigma.fst hX) (by change ¬ NodeKind.landmark3d = .pose3d; simp)
  rcases hn with rfl | rfl
  · refine ⟨0, by rw [Demo.la_factors]; simp, ?_, fun v => ?_, fun m hm => hp m ?_⟩
    · change (1 : ℕ) ∈ [0, 1]; simp
    · exact hone v
    · change m ∈ [(0 : ℕ), 1] at hm
      simp at hm
      tauto
  · refine ⟨1, by rw [Demo.la_factors]; simp, ?_, fun v => ?_, fun m hm => hp m ?_⟩
    · change (2 : ℕ) ∈ [0, 2]; simp
    · exact hone v
    · change m ∈ [(0 : ℕ), 2] at hm
      simp at hm
      tauto

example : ∃ r, FGraphSolve.levenbergMarquardt Env.exact 101 Demo.laSolver = .ok r ∧ r.ret ≠ 0 ∧
    r.s.w.cost ≤ 1e-7 := by
  have hw := Demo.la_wellPosed
  have hL := Demo.la_landmarks
  have ht : 0 < Demo.laSolver.tol := by change (0 : ℝ) < 1e-2; norm_num
  obtain ⟨r, hr⟩ := FGraphSolve.lmLoop_total Env.exact_complete 101 _ 0 { Demo.laSolver with lambda := 1e-5 } rfl hw
    (by norm_num)
  have h1 := C79_stops Env.exact Env.exact_sound Demo.laSolver hw hL ht 101 (by
    change Demo.laWorld.cost / 1e-2 < _
    rw [Demo.la_cost]
    norm_num) r hr
  have hF : Frame Demo.laWorld (Demo.laWorld.moved (Demo.laWorld.spread Demo.laBest)) :=
    ⟨⟨rfl, fun _ => rfl, fun _ => rfl, fun _ => rfl⟩, fun n hn => if_neg hn, fun n => by
      change NodeCell.SameButObj _ (if n ∈ Demo.laWorld.g.active then _ else _)
      split_ifs
      · exact ⟨_, rfl⟩
      · exact .refl _⟩
  have h2 := C79_accuracy Env.exact Env.exact_sound Demo.laSolver hw hL ht one_pos Demo.la_seen 101 r hr h1 _ hF
  rw [cost_moved (hL.affine hw.wired) hL.quadratic, Demo.la_best] at h2
  refine ⟨r, hr, h1, h2.trans ?_⟩
  change (0 : ℝ) + 1e-5 * 1e-2 / (2 * 1) ≤ 1e-7
  norm_num

/-- The first iteration on that graph meets the hypotheses of `C79_iteration`. -/
example : ∃ delta s1, FGraphSolve.trial Env.exact { Demo.laSolver with lambda := 1e-5 } = .ok (delta, s1) ∧
    WellPosed Demo.laWorld ∧ (0 : ℝ) < 1e-5 := by
  obtain ⟨delta, s1, h, -⟩ := FGraphSolve.trial_total Env.exact_complete
    (s := { Demo.laSolver with lambda := 1e-5 }) Demo.la_wellPosed (by norm_num)
  exact ⟨delta, s1, h, Demo.la_wellPosed, by norm_num⟩

end Mrob
