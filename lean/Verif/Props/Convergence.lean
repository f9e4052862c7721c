import Verif.Lemmas.Convergence
import Verif.Lemmas.DemoBack

/-!
# C94: convergence of Gauss-Newton
-/

open Matrix Filter Topology

namespace Mrob

open World Spec

/-- C94, planar graphs without noise: started close enough to the states that agree with all measurements, every call of
`solve(GN)` returns and repeated calls converge to these states, faster than any geometric sequence (`c` is arbitrary).
Missing: odometry with a first turn and a drive (false: `C94_odom_fails`), noise; spatial graphs are in
`C94_spatial_partial`.
For Levenberg-Marquardt see `C94_lm_partial`. -/
theorem C94_gn_partial (ops : List GraphOp) (w₀ : World) (h₀ : w₀.g = emptyGraph) (hp : Proper w₀ ops)
    (hpsd : ∀ f ∈ addedFactors ops, (w₀.fh f).virt.W.PosSemidef)
    (hr : ∀ f ∈ addedFactors ops, (w₀.fh f).virt.robust ≠ .ransac)
    (hplanar : ∀ n ∈ addedNodes ops, (w₀.nh n).kind = .pose2d ∨ (w₀.nh n).kind = .landmark2d)
    (hagree : ∀ f ∈ addedFactors ops, Agrees (fun n => (w₀.nh n).val) (w₀.fh f).virt (w₀.fh f).nbrs)
    (hturn : ∀ f ∈ addedFactors ops, ∀ obs W ty, (w₀.fh f).virt = .odom obs W ty → obs 1 = 0 ∨ SameAngle (obs 0) 0)
    (hpd : (infoMatrix (graphTerms (World.run ops w₀))).PosDef)
    (env : Env) (henv : env.Sound) (hcomp : env.Complete) (c : ℝ) (hc : 0 < c) (hc1 : c ≤ 1) :
    ∃ ε > 0, ∀ ρ, 0 ≤ ρ → ρ ≤ ε → ∀ w₀' : World, w₀'.g = emptyGraph → Displaced ρ ops w₀ w₀' →
      (∀ f ∈ addedFactors ops, 0 ≤ (w₀'.fh f).weight) → ∀ s : FGraphSolve, s.w = World.run ops w₀' →
      ∀ calls : List (ℕ × ℝ × ℝ), ∃ s1, repeatGN env calls s = .ok s1 ∧
        ∀ n ∈ s.w.g.active, Near (c ^ calls.length * ρ) (w₀.nh n).val (s1.w.nh n).val := by
  obtain ⟨hS, hpl, ε₁, hε₁, hoff⟩ := displaced_off ops w₀ h₀ hp hpsd hr hplanar hagree hturn
  obtain ⟨ε₂, hε₂, hrep⟩ := hS.repeat (C44_wired_partial w₀ h₀ ops hp) hpl hpd.det_pos.ne' henv hcomp hc hc1
  have hm := lt_min hε₁ hε₂
  refine ⟨min ε₁ ε₂ / 2, by positivity, fun ρ hρ hρε w₀' h₀' hD hwt s hs calls => ?_⟩
  obtain ⟨e, he, hoff⟩ := hoff ρ hρ (by linarith [min_le_left ε₁ ε₂]) w₀' h₀' hD hwt
  obtain ⟨s1, h1, e1, he1, hs1⟩ := hrep calls e s (by linarith [min_le_right ε₁ ε₂]) (hs ▸ hoff)
  refine ⟨s1, h1, fun n hn => ?_⟩
  have hb : ‖e1‖ ≤ c ^ calls.length * ρ := he1.trans (mul_le_mul_of_nonneg_left he (by positivity))
  rw [← (run_nh_static ops w₀ n).1]
  refine near_of_dval hb (hs1.gauge.val n (.inl ?_))
  rw [hs] at hn
  exact (hoff.gauge.active ▸ hn)

namespace Demo

/-- Anchors. -/
noncomputable def spotFrom : NRef → NodeVal := fun n => if n = 0 then ⟨.pose2d, ![0, 0, 0]⟩ else ⟨.pose2d, ![1, -1, Real.pi / 2]⟩

/-- Range and bearing of the landmark. -/
noncomputable def spot : FRef → FactorVirt := fun _ => .land2d ![1, 0] 1 false .quadratic

/-- The landmark. -/
noncomputable def spotMark (y : Vec2) : NodeVal := ⟨.landmark2d, y⟩

theorem spot_measured (y : Vec2) : Measured spotFrom (spotMark y) spot := by
  refine ⟨rfl, rfl, rfl, rfl, rfl, ?_, ?_, rfl, rfl⟩
  · exact PosSemidef.one
  · exact PosSemidef.one

theorem spot_agrees : ∀ f ∈ addedFactors twiceOps, Agrees (fun n => ((twiceWorld₀ spotFrom (spotMark ![1, 0]) spot).nh n).val)
    ((twiceWorld₀ spotFrom (spotMark ![1, 0]) spot).fh f).virt ((twiceWorld₀ spotFrom (spotMark ![1, 0]) spot).fh f).nbrs := by
  intro f hf
  simp [addedFactors, twiceOps] at hf
  rcases hf with rfl | rfl
  · refine .land2d (n := 0) (m := 2) (x := ![0, 0, 0]) (y := ![1, 0]) rfl rfl (by norm_num) ?_
    funext i
    fin_cases i <;> simp [planarPoint]
  · refine .land2d (n := 1) (m := 2) (x := ![1, -1, Real.pi / 2]) (y := ![1, 0]) rfl rfl (by norm_num) ?_
    funext i
    fin_cases i <;> simp [planarPoint]

theorem spot_posDef : (infoMatrix (graphTerms (World.run twiceOps (twiceWorld₀ spotFrom (spotMark ![1, 0]) spot)))).PosDef := by
  have h := spot_measured ![1, 0]
  have e : twiceJac (spotFrom 0) (spotMark ![1, 0]) (spot 0) = (1 : Matrix (Fin 2) (Fin 2) ℝ) := by
    have k : (land2dJac ![0, 0, 0] ![1, 0]).2 = 1 := by
      rw [land2dJac, if_neg (by norm_num)]
      ext i j
      fin_cases i <;> fin_cases j <;> simp
    rw [← k]
    ext i j
    fin_cases i <;> fin_cases j <;> rfl
  have hz : ∀ f, (spot f).res [spotFrom f, spotMark ![1, 0]] = 0 := by
    intro f
    have h1 := C28_land2d_partial ![1, 0] ![0, 0, 0] (by simp)
    have h2 := C28_land2d_partial ![1, 0] ![1, -1, Real.pi / 2] (by simp)
    have e1 : land2dInit ![1, 0] ![0, 0, 0] = ![1, 0] := by
      funext i
      fin_cases i <;> simp [land2dInit, NodeKind.store]
    have e2 : land2dInit ![1, 0] ![1, -1, Real.pi / 2] = ![1, 0] := by
      funext i
      fin_cases i <;> simp [land2dInit, NodeKind.store]
    rw [e1] at h1
    rw [e2] at h2
    by_cases hf : f = 0
    · rw [show spotFrom f = ⟨.pose2d, ![0, 0, 0]⟩ from if_pos hf]; exact h1
    · rw [show spotFrom f = ⟨.pose2d, ![1, -1, Real.pi / 2]⟩ from if_neg hf]; exact h2
  have hpd : ((twiceJac (spotFrom 0) (spotMark ![1, 0]) (spot 0))ᵀ * (spot 0).W * twiceJac (spotFrom 0) (spotMark ![1, 0]) (spot 0) +
      (twiceJac (spotFrom 1) (spotMark ![1, 0]) (spot 1))ᵀ * (spot 1).W * twiceJac (spotFrom 1) (spotMark ![1, 0]) (spot 1)).PosDef := by
    refine PosDef.add_posSemidef ?_ ?_
    · rw [e]
      change ((1 : Matrix (Fin 2) (Fin 2) ℝ)ᵀ * 1 * 1).PosDef
      simpa using PosDef.one
    · have := h.psd1.conjTranspose_mul_mul_same (twiceJac (spotFrom 1) (spotMark ![1, 0]) (spot 1))
      rwa [conjTranspose_eq_transpose_of_trivial] at this
  exact (twice_gn h hpd 0 (by rw [hz 0, hz 1]; simp) ⟨twiceWorld spotFrom (spotMark ![1, 0]) spot, 0, 0, ⟨0, 0, 0, 0⟩, ⟨0, 0, 0, 0, 0⟩⟩ rfl).1

end Demo

/-- A landmark seen from two known poses at right angles, started anywhere near its true position. -/
example (ρ : ℝ) (y : Vec2) (h : |y 0 - 1| ≤ ρ ∧ |y 1| ≤ ρ) :
    let w := Demo.twiceWorld₀ Demo.spotFrom (Demo.spotMark ![1, 0]) Demo.spot
    let w' := Demo.twiceWorld₀ Demo.spotFrom (Demo.spotMark y) Demo.spot
    w.g = emptyGraph ∧ Proper w Demo.twiceOps ∧
    (∀ f ∈ addedFactors Demo.twiceOps, (w.fh f).virt.W.PosSemidef) ∧
    (∀ f ∈ addedFactors Demo.twiceOps, (w.fh f).virt.robust ≠ .ransac) ∧
    (∀ n ∈ addedNodes Demo.twiceOps, (w.nh n).kind = .pose2d ∨ (w.nh n).kind = .landmark2d) ∧
    (∀ f ∈ addedFactors Demo.twiceOps, Agrees (fun n => (w.nh n).val) (w.fh f).virt (w.fh f).nbrs) ∧
    (∀ f ∈ addedFactors Demo.twiceOps, ∀ obs W ty, (w.fh f).virt = .odom obs W ty → obs 1 = 0 ∨ SameAngle (obs 0) 0) ∧
    (infoMatrix (graphTerms (World.run Demo.twiceOps w))).PosDef ∧ Env.exact.Sound ∧ Env.exact.Complete ∧
    w'.g = emptyGraph ∧ Displaced ρ Demo.twiceOps w w' ∧ (∀ f ∈ addedFactors Demo.twiceOps, 0 ≤ (w'.fh f).weight) := by
  have h0 : 0 ≤ ρ := (abs_nonneg _).trans h.1
  refine ⟨rfl, Demo.twice_proper (Demo.spot_measured _), fun f _ => PosSemidef.one, fun f _ => ?_, fun n hn => ?_,
    Demo.spot_agrees, fun f _ obs W ty h => ?_, Demo.spot_posDef, Env.exact_sound, Env.exact_complete, rfl, ⟨⟨fun n _ => ?_, fun n hn => ?_, fun _ _ => rfl, fun _ _ => rfl⟩, fun n hn hm => ?_⟩, fun f _ => le_refl _⟩
  · exact fun h => by cases h
  · simp [addedNodes, Demo.twiceOps] at hn
    rcases hn with rfl | rfl | rfl
    · exact .inl rfl
    · exact .inl rfl
    · exact .inr rfl
  · exact absurd (congrArg FactorVirt.dim h) (by change ¬ (2 : ℕ) = 3; decide)
  · by_cases h2 : n = 2 <;> simp [Demo.twiceWorld₀, Demo.twiceNodes, h2, NodeCell.new]
  · by_cases h2 : n = 2
    · subst h2
      refine ⟨?_, ?_⟩
      · exact h.1
      · change |y 1 - 0| ≤ ρ
        rw [sub_zero]; exact h.2
    · have e : ∀ z, ((Demo.twiceWorld₀ Demo.spotFrom (Demo.spotMark z) Demo.spot).nh n).val = Demo.spotFrom n := by
        intro z
        rw [show (Demo.twiceWorld₀ Demo.spotFrom (Demo.spotMark z) Demo.spot).nh n =
          NodeCell.new (Demo.spotFrom n).1 (Demo.spotFrom n).2 .anchor from if_neg h2]
        by_cases h0 : n = 0
        · rw [show Demo.spotFrom n = ⟨.pose2d, ![0, 0, 0]⟩ from if_pos h0]; rfl
        · rw [show Demo.spotFrom n = ⟨.pose2d, ![1, -1, Real.pi / 2]⟩ from if_neg h0]; rfl
      rw [e, e]
      by_cases h0 : n = 0
      · rw [show Demo.spotFrom n = ⟨.pose2d, ![0, 0, 0]⟩ from if_pos h0]
        exact ⟨by simpa, by simpa, 0, by simpa⟩
      · rw [show Demo.spotFrom n = ⟨.pose2d, ![1, -1, Real.pi / 2]⟩ from if_neg h0]
        exact ⟨by simpa, by simpa, 0, by simpa⟩
  · by_cases h2 : n = 2
    · subst h2; exact absurd rfl hm
    · rw [show (Demo.twiceWorld₀ Demo.spotFrom (Demo.spotMark y) Demo.spot).nh n =
        (Demo.twiceWorld₀ Demo.spotFrom (Demo.spotMark ![1, 0]) Demo.spot).nh n from (if_neg h2).trans (if_neg h2).symm]

/-- C94 fails for odometry: a pose with a prior (identity information) from which the robot turned round and drove three
metres to a known pose (identity information).  All measurements agree with the pose at the origin, but however close to it
the heading starts, the call of `solve(GN)` takes it further away, by the factor 1.3: the Jacobian of the drive is computed
with the heading before the first turn (`C26_odom_fails`), that is, with the wrong sign. -/
theorem C94_odom_fails : ∃ (ops : List GraphOp) (w₀ : World), w₀.g = emptyGraph ∧ Proper w₀ ops ∧
    (∀ f ∈ addedFactors ops, (w₀.fh f).virt.W.PosSemidef) ∧
    (∀ f ∈ addedFactors ops, (w₀.fh f).virt.robust ≠ .ransac) ∧
    (∀ n ∈ addedNodes ops, (w₀.nh n).kind = .pose2d ∨ (w₀.nh n).kind = .landmark2d) ∧
    (∀ f ∈ addedFactors ops, Agrees (fun n => (w₀.nh n).val) (w₀.fh f).virt (w₀.fh f).nbrs) ∧
    (infoMatrix (graphTerms (World.run ops w₀))).PosDef ∧
    ∀ ε > 0, ∃ ρ, 0 < ρ ∧ ρ ≤ ε ∧ ∃ w₀' : World, w₀'.g = emptyGraph ∧ Displaced ρ ops w₀ w₀' ∧
      (∀ f ∈ addedFactors ops, 0 ≤ (w₀'.fh f).weight) ∧ ∀ s : FGraphSolve, s.w = World.run ops w₀' →
      ∃ s1, repeatGN Env.exact [(20, 1e-6, 1e-2)] s = .ok s1 ∧
        ∃ n ∈ s.w.g.active, ¬ Near (13 / 10 * ρ) (w₀.nh n).val (s1.w.nh n).val := by
  have hpi := Real.pi_gt_three
  refine ⟨Demo.backOps, Demo.backWorld₀ 0, rfl, Demo.back_proper 0, Demo.back_psd 0, fun f hf => ?_, fun n hn => ?_, fun f hf => ?_,
    (Demo.back_gn 0 (by linarith) (by linarith) ⟨_, 0, 0, ⟨0, 0, 0, 0⟩, ⟨0, 0, 0, 0, 0⟩⟩ rfl).1, fun ε hε => ?_⟩
  · simp [addedFactors, Demo.backOps] at hf
    rcases hf with rfl | rfl <;> exact fun h => by cases h
  · simp [addedNodes, Demo.backOps] at hn
    rcases hn with rfl | rfl <;> exact .inl rfl
  · simp [addedFactors, Demo.backOps] at hf
    rcases hf with rfl | rfl
    · refine .prior2d (n := 0) (x := ![0, 0, 0]) rfl ?_
      congr 1
      funext i; fin_cases i <;> rfl
    · refine .odom (n := 0) (m := 1) (x := ![0, 0, 0]) (y := ![-3, 0, Real.pi]) rfl rfl ?_
      have e1 : planar ![0, 0, 0] * planar ![0, 0, ![Real.pi, 3, 0] 0] = planar ![0, 0, Real.pi] :=
        ((planar_eq_mul_iff _ _ _).mpr ⟨by simp, by simp, by simpa using SameAngle.refl _⟩).symm
      rw [e1, planar_eq_mul_iff]
      exact ⟨by simp, by simp, by simpa using SameAngle.refl _⟩
  · set t := min ε (1 / 2) with ht
    have t0 : 0 < t := lt_min hε (by norm_num)
    have t1 : t ≤ 1 / 2 := min_le_right _ _
    refine ⟨t, t0, min_le_left _ _, Demo.backWorld₀ t, rfl, ⟨⟨fun n _ => ?_, fun n _ => ?_, fun _ _ => rfl, fun _ _ => rfl⟩, fun n _ hm => ?_⟩,
      Demo.back_weights t, fun s hs => ?_⟩
    · by_cases h : n = 0 <;> simp [Demo.backWorld₀, Demo.backNodes, h, NodeCell.new]
    · by_cases h : n = 0
      · subst h
        refine ⟨?_, ?_, 0, ?_⟩
        · change |(0 : ℝ) - 0| ≤ t; simpa using t0.le
        · change |(0 : ℝ) - 0| ≤ t; simpa using t0.le
        · change |t - 0 - _| ≤ t
          simp [abs_of_pos t0]
      · rw [show (Demo.backWorld₀ t).nh n = NodeCell.new .pose2d ![-3, 0, Real.pi] .anchor from if_neg h,
          show (Demo.backWorld₀ 0).nh n = NodeCell.new .pose2d ![-3, 0, Real.pi] .anchor from if_neg h]
        refine ⟨?_, ?_, 0, ?_⟩
        · rw [sub_self, abs_zero]; exact t0.le
        · rw [sub_self, abs_zero]; exact t0.le
        · rw [sub_self]; simpa using t0.le
    · by_cases h : n = 0
      · subst h; exact absurd rfl hm
      · rw [show (Demo.backWorld₀ t).nh n = (Demo.backWorld₀ 0).nh n from (if_neg h).trans (if_neg h).symm]
    · obtain ⟨-, s1, k1, x, k2, k3⟩ := Demo.back_gn t (by linarith) (by linarith) s hs
      refine ⟨s1, ?_, 0, ?_, ?_⟩
      · rw [repeatGN, k1]; rfl
      · rw [hs]
        change _ ∈ (Demo.backWorld t).g.active
        rw [Demo.back_active]; simp
      · rw [k2]
        rintro ⟨-, -, k, hk⟩
        change |x 2 - 0 - k * (2 * Real.pi)| ≤ _ at hk
        have hs1 := Real.sin_gt_sub_cube t0
        have hs2 := Real.sin_lt t0
        have hcube : t ^ 3 ≤ t / 4 := by
          have : t ^ 2 ≤ 1 / 4 := by nlinarith
          nlinarith
        rw [k3, wrapAngle_of_mem (by linarith) (by linarith)] at hk
        obtain ⟨ha, hb⟩ := abs_le.mp hk
        rcases lt_trichotomy k 0 with h | h | h
        · have : (k : ℝ) ≤ -1 := by exact_mod_cast Int.le_sub_one_of_lt h
          nlinarith
        · subst h
          push_cast at hb
          linarith
        · have : (1 : ℝ) ≤ k := by exact_mod_cast h
          nlinarith

end Mrob
