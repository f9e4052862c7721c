import Verif.Lemmas.Smooth
import Verif.Lemmas.DemoLandmarks

/-!
# A landmark with an outlier

The landmark is seen twice at the origin and once, wrongly, nine units away.  All observations are Huber factors.  The
landmark is placed at the mean of the observations.
-/

open Matrix

namespace Mrob.Demo

open World Spec

/-- Node 0 is the known pose, all others are the landmark. -/
noncomputable def roNodes : NRef → NodeCell := fun n =>
  if n = 0 then NodeCell.new .pose3d SE3.default .anchor else NodeCell.new .landmark3d ![3, 0, 0] .standard

/-- Observation of a factor. -/
noncomputable def roObs (f : FRef) : Vec3 := if f = 2 then ![9, 0, 0] else 0

/-- The observations. -/
noncomputable def roFactors : FRef → FactorCell := fun f =>
  FactorCell.new (.land3d (roObs f) 1 false .huber) [0, 1] 0 0

/-- Objects before any call. -/
noncomputable def roWorld₀ : World := ⟨roNodes, roFactors, emptyGraph⟩
/-- The calls. -/
def roOps : List GraphOp := [.addNode 0, .addNode 1, .addFactor 0, .addFactor 1, .addFactor 2]
/-- The graph. -/
noncomputable def roWorld : World := World.run roOps roWorld₀
/-- The object. -/
noncomputable def roSolver : FGraphSolve := ⟨roWorld, 1e-6, 1e-2, ⟨0, 0, 0, 0⟩, ⟨0, 0, 0, 0, 0⟩⟩

theorem ro_proper : Proper roWorld₀ roOps := by
  constructor
  · intro op hop n m; simp [roOps] at hop; rcases hop with rfl | rfl | rfl | rfl | rfl <;> simp
  · simp [addedNodes, roOps]
  · intro n hn; simp [addedNodes, roOps] at hn; rcases hn with rfl | rfl <;> simp [roWorld₀, roNodes, NodeCell.new]
  · intro f hf n hn
    simp [roWorld₀, roFactors, FactorCell.new] at hn; left; rcases hn with rfl | rfl <;> simp [addedNodes, roOps]
  · intro f hf
    simp [roWorld₀, roFactors, roNodes, FactorCell.new, NodeCell.new]
  · intro f hf
    simp [roWorld₀, roFactors, roNodes, FactorCell.new, NodeCell.new, FactorCell.wellTyped, FactorVirt.land3d]

theorem ro_factors : roWorld.g.factors = [0, 1, 2] := rfl
theorem ro_active : roWorld.g.active = [1] := rfl
theorem ro_pose : (roWorld.nh 0).val = ⟨.pose3d, SE3.default⟩ := rfl
theorem ro_landmark : (roWorld.nh 1).val = ⟨.landmark3d, ![3, 0, 0]⟩ := rfl
theorem ro_virt (f : FRef) (hf : f ∈ roWorld.g.factors) : (roWorld.fh f).virt = .land3d (roObs f) 1 false .huber := by
  rw [ro_factors] at hf
  simp at hf
  rcases hf with rfl | rfl | rfl <;> rfl
theorem ro_nbrs (f : FRef) (hf : f ∈ roWorld.g.factors) : (roWorld.fh f).nbrs = [0, 1] := by
  rw [ro_factors] at hf
  simp at hf
  rcases hf with rfl | rfl | rfl <;> rfl

theorem ro_wellPosed : WellPosed roWorld := by
  refine ⟨C44_wired_partial _ rfl _ ro_proper, fun f hf => ?_, fun f hf => ?_⟩
  · rw [ro_virt f hf]; exact Matrix.PosSemidef.one
  · rw [ro_factors] at hf
    simp at hf
    rcases hf with rfl | rfl | rfl <;> exact le_refl (0 : ℝ)

theorem ro_smooth : Smooth roWorld := by
  have hr : IsRigid SE3.default.T := by
    have := isRigid_homog isRotation_one (0 : Vec3); rwa [homog_one] at this
  refine smooth_of_regular fun f hf => ?_
  rw [ro_virt f hf, ro_nbrs f hf]
  exact Regular.land3d ro_pose ro_landmark hr

/-- The residuals: difference of the positions. -/
theorem ro_res (x : NRef → NodeVal) (h0 : x 0 = ⟨.pose3d, SE3.default⟩) {p : Vec3} (h1 : x 1 = ⟨.landmark3d, p⟩) (f : FRef)
    (hf : f ∈ roWorld.g.factors) :
    factorChi2 (roWorld.fh f).virt.W ((roWorld.fh f).virt.res ((roWorld.fh f).nbrs.map x)) =
      0.5 * ((p - roObs f) ⬝ᵥ (p - roObs f)) := by
  rw [ro_virt f hf, ro_nbrs f hf, List.map_cons, List.map_cons, List.map_nil, h0, h1]
  change 0.5 * (land3dRes (roObs f) SE3.default p ⬝ᵥ ((1 : Mat3) *ᵥ land3dRes (roObs f) SE3.default p)) = _
  have : land3dRes (roObs f) SE3.default p = p - roObs f := by
    rw [land3dRes, SE3.transform, SE3.R, SE3.t, default_inv_T, ← homog_one, tl3_homog, tr3_homog, one_mulVec, add_zero]
  rw [this, one_mulVec]

theorem ro_chi2 (x : NRef → NodeVal) (h0 : x 0 = ⟨.pose3d, SE3.default⟩) {p : Vec3} (h1 : x 1 = ⟨.landmark3d, p⟩) :
    roWorld.chi2At x = 27 + 1.5 * ((p - ![3, 0, 0]) ⬝ᵥ (p - ![3, 0, 0])) := by
  have e : roWorld.chi2At x = (roWorld.g.factors.map fun f => 0.5 * ((p - roObs f) ⬝ᵥ (p - roObs f))).sum := by
    rw [chi2At]
    congr 1
    exact List.map_congr_left fun f hf => ro_res x h0 h1 f hf
  rw [e, ro_factors]
  simp [roObs, dotProduct, Fin.sum_univ_three]
  ring

theorem ro_objective (x : NRef → NodeVal) (h0 : x 0 = ⟨.pose3d, SE3.default⟩) {p : Vec3} (h1 : x 1 = ⟨.landmark3d, p⟩) :
    roWorld.objective x = 2 * huberCost (Real.sqrt (0.5 * (p ⬝ᵥ p))) +
      huberCost (Real.sqrt (0.5 * ((p - ![9, 0, 0]) ⬝ᵥ (p - ![9, 0, 0])))) := by
  have e : roWorld.objective x =
      (roWorld.g.factors.map fun f => huberCost (Real.sqrt (0.5 * ((p - roObs f) ⬝ᵥ (p - roObs f))))).sum := by
    rw [objective]
    congr 1
    refine List.map_congr_left fun f hf => ?_
    rw [ro_res x h0 h1 f hf]
    have : (roWorld.fh f).virt.robust = .huber := by rw [ro_virt f hf]; rfl
    rw [this]
    rfl
  have o0 : roObs 0 = 0 := if_neg (by decide)
  have o1 : roObs 1 = 0 := if_neg (by decide)
  have o2 : roObs 2 = ![9, 0, 0] := if_pos rfl
  rw [e, ro_factors]
  simp only [List.map_cons, List.map_nil, List.sum_cons, List.sum_nil, o0, o1, o2, sub_zero, add_zero]
  ring

/-- Towards the origin. -/
noncomputable def roDir : Cols roWorld → ℝ := fun c => if (c.2 : ℕ) = 0 then -1 else 0

theorem ro_pert (t : ℝ) : roWorld.perturbed (t • roDir) 0 = ⟨.pose3d, SE3.default⟩ ∧
    roWorld.perturbed (t • roDir) 1 = ⟨.landmark3d, ![3 - t, 0, 0]⟩ := by
  have h0 : (0 : NRef) ∉ roWorld.g.active := by rw [ro_active]; simp
  have hs : ∀ k : ℕ, k < 3 → roWorld.spread roDir 1 k = if k = 0 then -1 else 0 := by
    intro k hk
    have hk' : (1 : NRef) ∈ roWorld.g.active ∧ k < (roWorld.nh 1).dim := ⟨by rw [ro_active]; simp, hk⟩
    rw [spread, dif_pos hk']
    rfl
  constructor
  · rw [perturbed, if_neg h0, ro_pose]
  · rw [pert_landmark3d roDir ro_landmark]
    have hi : roWorld.inc roDir 1 .landmark3d = (![-1, 0, 0] : Vec3) := by
      funext i
      change roWorld.spread roDir 1 i = _
      rw [hs _ i.2]
      rcases (by decide +revert : i = 0 ∨ i = 1 ∨ i = 2) with rfl | rfl | rfl <;> simp
    rw [hi]
    congr 1
    change (![3, 0, 0] : Vec3) + t • ![-1, 0, 0] = _
    simp [sub_eq_add_neg]

theorem ro_line (t : ℝ) : roWorld.objective (roWorld.perturbed (t • roDir)) =
    2 * huberCost (|3 - t| / Real.sqrt 2) + huberCost (|6 + t| / Real.sqrt 2) := by
  rw [ro_objective _ (ro_pert t).1 (ro_pert t).2]
  have e1 : (0.5 : ℝ) * (![3 - t, 0, 0] ⬝ᵥ ![3 - t, 0, 0]) = (3 - t) ^ 2 / 2 := by
    simp [dotProduct, Fin.sum_univ_three]; ring
  have e2 : (0.5 : ℝ) * ((![3 - t, 0, 0] - ![9, 0, 0]) ⬝ᵥ (![3 - t, 0, 0] - ![9, 0, 0])) = (6 + t) ^ 2 / 2 := by
    simp [dotProduct, Fin.sum_univ_three]; ring
  rw [e1, e2, Real.sqrt_div (sq_nonneg _), Real.sqrt_div (sq_nonneg _), Real.sqrt_sq_eq_abs, Real.sqrt_sq_eq_abs]

theorem sqrt_two_bounds : 1.4 < Real.sqrt 2 ∧ Real.sqrt 2 < 1.5 := by
  constructor
  · rw [Real.lt_sqrt (by norm_num)]; norm_num
  · rw [Real.sqrt_lt' (by norm_num)]; norm_num

theorem ro_near {t : ℝ} (h : |t| < 1) : roWorld.objective (roWorld.perturbed (t • roDir)) =
    (12 - t) / Real.sqrt 2 - 3 / 2 := by
  obtain ⟨h1, h2⟩ := abs_lt.mp h
  obtain ⟨q1, q2⟩ := sqrt_two_bounds
  have hq : 0 < Real.sqrt 2 := by linarith
  rw [ro_line, abs_of_pos (by linarith), abs_of_pos (by linarith), huberCost, huberCost, if_neg, if_neg]
  · ring
  · rw [not_lt, le_div_iff₀ hq]; linarith
  · rw [not_lt, le_div_iff₀ hq]; linarith

theorem ro_deriv : HasDerivAt (fun t : ℝ => roWorld.objective (roWorld.perturbed (t • roDir))) (-1 / Real.sqrt 2) 0 := by
  have h1 : HasDerivAt (fun t : ℝ => (12 - t) / Real.sqrt 2 - 3 / 2) (-1 / Real.sqrt 2) 0 :=
    (((hasDerivAt_id (0 : ℝ)).const_sub 12).div_const _).sub_const _
  refine h1.congr_of_eventuallyEq ?_
  filter_upwards [Metric.ball_mem_nhds (0 : ℝ) one_pos] with t ht
  exact ro_near (by simpa using ht)

theorem ro_better : roWorld.objective (roWorld.perturbed ((3 : ℝ) • roDir)) <
    roWorld.objective fun n => (roWorld.nh n).val := by
  obtain ⟨q1, q2⟩ := sqrt_two_bounds
  have hq : 0 < Real.sqrt 2 := by linarith
  have e : (roWorld.objective fun n => (roWorld.nh n).val) = roWorld.objective (roWorld.perturbed ((0 : ℝ) • roDir)) := by
    rw [ro_objective _ ro_pose ro_landmark, ro_objective _ (ro_pert 0).1 (ro_pert 0).2, sub_zero]
  rw [e, ro_near (t := 0) (by simp), ro_line, sub_self, abs_zero, zero_div, huberCost, if_pos one_pos, huberCost, if_neg]
  · norm_num
    have h9 : 9 / Real.sqrt 2 = 12 / Real.sqrt 2 - 3 / Real.sqrt 2 := by ring
    have h3 : 2 < 3 / Real.sqrt 2 := by rw [lt_div_iff₀ hq]; linarith
    linarith
  · rw [not_lt, le_div_iff₀ hq, abs_of_pos (by norm_num)]; linarith

end Mrob.Demo
