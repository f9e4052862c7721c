import Verif.Lemmas.SpatialStart

/-!
# C94: convergence of Gauss-Newton, spatial graphs
-/

open Matrix Filter Topology

namespace Mrob

open World Spec

/-- C94, spatial graphs without noise (poses, landmarks, priors, relative poses, points seen, points on planes): started close
enough to the states that agree with all measurements, every call of `solve(GN)` returns and repeated calls converge to
these states, faster than any geometric sequence (`c` is arbitrary).  The states must be rigid poses that logarithm and
exponential of the code keep (false without that: `C94_spatial_fails`); then the poses met on the way need not be exactly
rigid.  Missing: plane nodes, noise.  Levenberg-Marquardt: `C94_spatial_lm_partial`. -/
theorem C94_spatial_partial (ops : List GraphOp) (w₀ : World) (h₀ : w₀.g = emptyGraph) (hp : Proper w₀ ops)
    (hpsd : ∀ f ∈ addedFactors ops, (w₀.fh f).virt.W.PosSemidef)
    (hr : ∀ f ∈ addedFactors ops, (w₀.fh f).virt.robust ≠ .ransac)
    (hsafe : ∀ n ∈ addedNodes ops, (w₀.nh n).mode = .standard → SafeState (w₀.nh n).val)
    (hagree : ∀ f ∈ addedFactors ops, AgreesSpatial (fun n => (w₀.nh n).val) (w₀.fh f).virt (w₀.fh f).nbrs)
    (hpd : (infoMatrix (graphTerms (World.run ops w₀))).PosDef)
    (env : Env) (henv : env.Sound) (hcomp : env.Complete) (c : ℝ) (hc : 0 < c) (hc1 : c ≤ 1) :
    ∃ ε > 0, ∀ ρ, 0 ≤ ρ → ρ ≤ ε → ∀ w₀' : World, w₀'.g = emptyGraph → DisplacedSpatial ρ ops w₀ w₀' →
      (∀ f ∈ addedFactors ops, 0 ≤ (w₀'.fh f).weight) → ∀ s : FGraphSolve, s.w = World.run ops w₀' →
      ∀ calls : List (ℕ × ℝ × ℝ), ∃ s1, repeatGN env calls s = .ok s1 ∧
        ∀ n ∈ s.w.g.active, NearSpatial (c ^ calls.length * ρ) (w₀.nh n).val (s1.w.nh n).val := by
  obtain ⟨hS, hoff⟩ := displaced_spatial ops w₀ h₀ hp hpsd hr hsafe hagree
  obtain ⟨ε, hε, hrep⟩ := hS.repeat (C44_wired_partial w₀ h₀ ops hp) hpd.det_pos.ne' henv hcomp hc hc1
  refine ⟨ε / 2, by positivity, fun ρ hρ hρε w₀' h₀' hD hwt s hs calls => ?_⟩
  obtain ⟨X, hX, hg, hoff⟩ := hoff ρ hρ w₀' h₀' hD hwt
  obtain ⟨s1, h1, X1, hX1, hg1, hs1⟩ := hrep calls X s (by linarith) hg (hs ▸ hoff)
  refine ⟨s1, h1, fun n hn => ?_⟩
  have hb : (World.run ops w₀).size X1 ≤ c ^ calls.length * ρ := hX1.trans (mul_le_mul_of_nonneg_left hX (by positivity))
  rw [hs] at hn
  have hn' : n ∈ (World.run ops w₀).g.active := hoff.gauge.active ▸ hn
  rw [← (run_nh_static ops w₀ n).1]
  have e : (s1.w.nh n).val = X1 n := (hs1.gauge.val n (.inl hn')).trans (hg1.put_val n)
  rw [e]
  refine (gap_le_iff (hg1.kind n) ?_ (by positivity)).mp ((gap_le X1 hn').trans hb)
  rcases hS.spatial.cases hn' with ⟨A, hv, -⟩ | ⟨l, hv⟩
  · exact .inl (congrArg Sigma.fst hv)
  · exact .inr (congrArg Sigma.fst hv)

/-- A pose turned by half a radian with a prior, started anywhere near it. -/
example (ρ : ℝ) (P : SE3) (hP : IsRigid P.T) (h : ∀ i j, |P.T i j - homog (rotX (1 / 2)) ![1, 2, 3] 1 i j| ≤ ρ) :
    let a := SE3.mk (homog (rotX (1 / 2)) ![1, 2, 3] 1)
    let w := Demo.atWorld₀ a
    let w' := Demo.offWorld₀ a P
    w.g = emptyGraph ∧ Proper w Demo.p3Ops ∧ (∀ f ∈ addedFactors Demo.p3Ops, (w.fh f).virt.W.PosSemidef) ∧
    (∀ f ∈ addedFactors Demo.p3Ops, (w.fh f).virt.robust ≠ .ransac) ∧
    (∀ n ∈ addedNodes Demo.p3Ops, (w.nh n).mode = .standard → SafeState (w.nh n).val) ∧
    (∀ f ∈ addedFactors Demo.p3Ops, AgreesSpatial (fun n => (w.nh n).val) (w.fh f).virt (w.fh f).nbrs) ∧
    (infoMatrix (graphTerms (World.run Demo.p3Ops w))).PosDef ∧ Env.exact.Sound ∧ Env.exact.Complete ∧
    w'.g = emptyGraph ∧ DisplacedSpatial ρ Demo.p3Ops w w' ∧ (∀ f ∈ addedFactors Demo.p3Ops, 0 ≤ (w'.fh f).weight) := by
  have hpi := Real.two_le_pi
  have ha : IsRigid (SE3.mk (homog (rotX (1 / 2)) ![1, 2, 3] 1)).T := isRigid_homog (rotX_isRotation _) _
  refine ⟨rfl, Demo.at_proper _, fun _ _ => PosSemidef.one, fun _ _ h => (by cases h), fun n _ _ => ⟨ha, ?_⟩, Demo.at_agrees ha,
    Demo.at_posDef _, Env.exact_sound, Env.exact_complete, rfl, Demo.off_displaced hP h, fun _ _ => le_refl _⟩
  have e : (homog (rotX (1 / 2)) ![1, 2, 3] 1).toBlocks₁₁ = rotX (1 / 2) := R_mk_homog _ ![1, 2, 3] 1
  refine e.symm ▸ ⟨rotX_isRotation _, .inr ?_⟩
  rw [angle_rotX (by norm_num) (by linarith)]
  exact ⟨by norm_num, .inl (by norm_num; linarith), .inl (by linarith)⟩

/-- Started at the identity the pose is safe as well. -/
example : SafeState ⟨.pose3d, SE3.default⟩ := by
  have e : SE3.default.R = 1 := by
    change tl3 (1 : Mat4) = 1
    rw [← homog_one, tl3_homog]
  refine ⟨rigid_one, ?_⟩
  change SafeTurn SE3.default.R
  rw [e]
  exact ⟨isRotation_one, .inl rfl⟩

/-- C94 fails for poses that logarithm and exponential do not keep: a pose that is turned by half a turn about the bisector of
the first two axes, with a prior at that pose.  Started exactly there, one call of `solve(GN)` takes the pose away and
leaves it where the cost is zero too. -/
theorem C94_spatial_fails (env : Env) (henv : env.Sound) (hcomp : env.Complete) : ∃ (ops : List GraphOp) (w₀ : World),
    w₀.g = emptyGraph ∧ Proper w₀ ops ∧
    (∀ f ∈ addedFactors ops, (w₀.fh f).virt.W.PosSemidef) ∧
    (∀ f ∈ addedFactors ops, (w₀.fh f).virt.robust ≠ .ransac) ∧
    (∀ n ∈ addedNodes ops, RigidState (w₀.nh n).val) ∧
    (∀ f ∈ addedFactors ops, AgreesSpatial (fun n => (w₀.nh n).val) (w₀.fh f).virt (w₀.fh f).nbrs) ∧
    (infoMatrix (graphTerms (World.run ops w₀))).PosDef ∧ DisplacedSpatial 0 ops w₀ w₀ ∧
    ∀ s : FGraphSolve, s.w = World.run ops w₀ → ∀ call : ℕ × ℝ × ℝ, ∃ s1, repeatGN env [call] s = .ok s1 ∧
      ∃ n ∈ s.w.g.active, ¬ NearSpatial (1 / 2) (w₀.nh n).val (s1.w.nh n).val := by
  obtain ⟨a, ha⟩ : ∃ a, a = SE3.mk (homog halfDiag 0 1) := ⟨_, rfl⟩
  have hr : IsRigid a.T := by rw [ha]; exact isRigid_homog halfDiag_isRotation 0
  have hpd := Demo.at_posDef a
  refine ⟨Demo.p3Ops, Demo.atWorld₀ a, rfl, Demo.at_proper a, fun _ _ => PosSemidef.one, fun _ _ h => (by cases h), fun _ _ => hr,
    Demo.at_agrees hr, hpd, ?_, fun s hs call => ?_⟩
  · have := Demo.off_displaced (a := a) (P := a) (ρ := 0) hr (fun i j => by rw [sub_self, abs_zero])
    exact this
  · have hws : WellPosed s.w := by rw [hs]; exact Demo.at_wellPosed a
    obtain ⟨s1, h1⟩ := C36_returns env hcomp s hws (by rw [hs]; exact hpd) call.1 call.2.1 call.2.2
    refine ⟨s1, ?_, 0, ?_, ?_⟩
    · rw [repeatGN, h1]; rfl
    · rw [hs]; change _ ∈ (Demo.atWorld a).g.active; rw [Demo.at_active]; simp
    · have hst : infoVector (graphTerms s.w) = 0 := by rw [hs]; exact (Demo.at_consistent hr).stationary
      have hv := FGraphSolve.gn_stationary henv hws (by rw [hs]; exact hpd) hst h1 0
      have hz : (((Demo.atWorld a).moved ((Demo.atWorld a).spread 0)).nh 0).val = ⟨.pose3d, SE3.default⟩ := by
        rw [moved_zero_val, if_pos (by rw [Demo.at_active]; simp), ofFlat_zero]
        change (⟨.pose3d, a.regenerate⟩ : NodeVal) = _
        rw [ha, halfDiag_regenerate]
      rw [hs] at hv
      rw [show (s1.w.nh 0).val = ⟨.pose3d, SE3.default⟩ from hv.trans hz]
      intro hn
      have h0 : |(1 : Mat4) (.inl 0) (.inl 0) - a.T (.inl 0) (.inl 0)| ≤ 1 / 2 := hn (.inl 0) (.inl 0)
      have e : a.T (.inl 0) (.inl 0) = 0 := by rw [ha]; rfl
      rw [e, Matrix.one_apply_eq, sub_zero, abs_one] at h0
      norm_num at h0

end Mrob
