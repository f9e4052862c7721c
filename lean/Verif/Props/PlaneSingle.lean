import Verif.Props.PlaneReg
import Verif.Props.Nesterov
import Verif.Lemmas.PlaneRegTotal

/-! # Property C105: the argument `singleIteration` of the plane registration -/

open Matrix

namespace Mrob

open Spec PlaneReg

/-- A single iteration of `GRADIENT_BENGIOS_NAG` is one step of the method, started at the current trajectory, momentum and step
sizes.

Missing: the other modes ignore the argument, see `C105_ignored` and the `_fails` theorems. -/
theorem C105_nag_partial (e : EigSolver) (svd : Mat3 → SVD3) (s : OptDense PlaneReg) (r : ℕ × OptDense PlaneReg)
    (h : PlaneReg.solve e svd .gradientBengiosNag true s = .ok r) :
    ∃ x err y, x.traj = s.obj.traj ∧ x.prev = s.obj.prev ∧ x.alpha = s.obj.alpha ∧ x.beta = s.obj.beta ∧
      x.mode = .gradientBengiosNag ∧ gradStep e x = .ok (err, y) ∧ r.2.obj = { y with solveIters := 1 } := by
  rw [PlaneReg.solve] at h
  obtain ⟨⟨c, o⟩, x1, h⟩ := Out.bind_eq_ok.mp h
  dsimp only at h
  obtain ⟨s2, x2, h⟩ := Out.bind_eq_ok.mp h
  cases h
  rw [lift] at x2
  obtain ⟨o', x3, x2⟩ := Out.bind_eq_ok.mp x2
  cases x2
  rw [interpolateGradient, gradLoop] at x3
  obtain ⟨⟨err, y⟩, x4, x3⟩ := Out.bind_eq_ok.mp x3
  obtain ⟨ps, hps⟩ := error_frame x1
  have hps : o = _ := hps
  dsimp only at x3
  rw [if_neg (by simp)] at x3
  cases x3
  refine ⟨_, err, y, ?_, ?_, ?_, ?_, ?_, x4, rfl⟩ <;> rw [hps]

/-- The other modes do not look at the argument. -/
theorem C105_ignored (e : EigSolver) (svd : Mat3 → SVD3) (mode : SolveMode) (hm : mode ≠ .gradientBengiosNag)
    (s : OptDense PlaneReg) : PlaneReg.solve e svd mode true s = PlaneReg.solve e svd mode false s := by
  cases mode <;> first | rfl | exact absurd rfl hm

/-- `GRADIENT_ALL_POSES` with `singleIteration`: steps are done until two successive errors differ by at most `1e-4` or 10^4 steps
are done; the first error is compared with `1e20`. -/
theorem C105_all_poses (e : EigSolver) (svd : Mat3 → SVD3) (s : OptDense PlaneReg) (r : ℕ × OptDense PlaneReg)
    (h : PlaneReg.solve e svd .gradientAllPoses true s = .ok r) :
    ∃ (o : ℕ → PlaneReg) (err : ℕ → ℝ), o r.2.obj.solveIters = r.2.obj ∧ (o 0).traj = s.obj.traj ∧ err 0 = 1e20 ∧
      1 ≤ r.2.obj.solveIters ∧ r.2.obj.solveIters ≤ 10000 ∧
      (∀ k < r.2.obj.solveIters, ∃ x, allPosesStep e (o k) = .ok (err (k + 1), x) ∧ x.traj = (o (k + 1)).traj) ∧
      (∀ k, k + 1 < r.2.obj.solveIters → 1e-4 < |err k - err (k + 1)|) ∧
      (r.2.obj.solveIters < 10000 → |err (r.2.obj.solveIters - 1) - err r.2.obj.solveIters| ≤ 1e-4) := by
  rw [PlaneReg.solve] at h
  obtain ⟨⟨c, o0⟩, x1, h⟩ := Out.bind_eq_ok.mp h
  dsimp only at h
  obtain ⟨s2, x2, h⟩ := Out.bind_eq_ok.mp h
  cases h
  rw [lift] at x2
  obtain ⟨o', x3, x2⟩ := Out.bind_eq_ok.mp x2
  cases x2
  rw [gradientAllPoses] at x3
  obtain ⟨n, os, er, a1, n1, a3, a4, a5, a6, a7, a8, a9, a10⟩ := gradLoop_trace _ _ _ _ _ rfl x3
  rw [Nat.zero_add] at a1 a9 a10
  change ∃ (o : ℕ → PlaneReg) (err : ℕ → ℝ), o o'.solveIters = o' ∧ _
  rw [a1]
  refine ⟨os, er, a5, ?_, a4, n1, by omega, ?_, a7, a10 rfl⟩
  · rw [a3]
    obtain ⟨ps, hps⟩ := error_frame x1
    have hps : o0 = _ := hps
    rw [hps]
  · intro k hk
    obtain ⟨x, y1, y2⟩ := a6 k hk
    exact ⟨x, y1, by rw [y2]⟩

/-- `solve(GRADIENT_ALL_POSES)` on the points of `Demo.pairReg`. -/
theorem Demo.pairReg_allPoses (e : EigSolver) (he : e.Sound) (svd : Mat3 → SVD3) (single : Bool) : ∃ r,
    PlaneReg.solve e svd .gradientAllPoses single { OptDense.new PlaneReg.new with obj := Demo.pairReg } = .ok r ∧
      2 ≤ r.2.obj.solveIters := by
  have h0 : Demo.Pair Demo.pairReg 0 0 := Demo.pairReg_pair
  have hk : Demo.pairReg.seen 1 = 4 := rfl
  obtain ⟨h1, -⟩ := error_value (e := e) (s := { Demo.pairReg with mode := .gradientAllPoses }) h0.prep (le_refl 2)
  have hs0 := (error_ok (s := { Demo.pairReg with mode := .gradientAllPoses }) (fun q hq => (h0.prep q hq).1) h1).2.1
  have hp0 := hs0.prepared h0.prep rfl
  have hseen : (PlaneReg.estd e { Demo.pairReg with mode := .gradientAllPoses }).seen 1 = 4 := (hs0.seen 1).trans hk
  have herr : errOf e (PlaneReg.estd e { Demo.pairReg with mode := .gradientAllPoses }).planes Demo.pairReg.traj ≤ 2 := by
    rw [hs0.errOf]
    obtain ⟨q, -, -, -, -, h2⟩ := h0.plane he
    have := h2 (Sum.elim ![0, 0, 1] fun _ => 0)
    rw [Demo.pair_cost, sq4] at this
    simp at this
    linarith
  have hi0 : PlaneReg.PoseInv (PlaneReg.estd e { Demo.pairReg with mode := .gradientAllPoses }) := h0.pose.frame rfl rfl rfl
  have ht0 : (PlaneReg.estd e { Demo.pairReg with mode := .gradientAllPoses }).traj = Demo.pairReg.traj := rfl
  have hn0 : (PlaneReg.estd e { Demo.pairReg with mode := .gradientAllPoses }).numberPoses = 2 := rfl
  generalize PlaneReg.estd e { Demo.pairReg with mode := .gradientAllPoses } = z at *
  obtain ⟨s', hs'⟩ := gradLoop_total (step := allPosesStep e) (single := false)
    (I := fun x => x.PoseInv ∧ x.Prepared ∧ x.numberPoses = 2 ∧ x.seen 1 ≠ 0)
    (fun x k h => ⟨h.1.frame rfl rfl rfl, h.2⟩) (fun x h => by
      obtain ⟨i1, i2, i3, i4⟩ := h
      obtain ⟨err, y, hy⟩ := allPosesStep_total (e := e) i1 i2 i3.ge (by rw [i3]; exact i4)
      obtain ⟨-, -, j1, j2, -⟩ := allPosesStep_value i1 i2 i3.ge hy
      exact ⟨_, hy, allPosesStep_inv i1 hy, j1.prepared i2 j2, j2.trans i3, by rw [j1.seen]; exact i4⟩) _ 0 1e20
    { z with initialError := errOf e Demo.pairReg.planes Demo.pairReg.traj, solveIters := 0 } rfl
    ⟨hi0.frame rfl rfl rfl, hp0, hn0, by change z.seen 1 ≠ 0; rw [hseen]; norm_num⟩
  refine ⟨(0, { OptDense.new PlaneReg.new with obj := s' }), ?_, ?_⟩
  · rw [PlaneReg.solve]
    dsimp only at h1 ⊢
    rw [h1, Out.ok_bind]
    dsimp only
    rw [lift, gradientAllPoses]
    dsimp only
    exact congrArg (fun x => (x >>= fun o => Out.ok ({ OptDense.new PlaneReg.new with obj := o } : OptDense PlaneReg)) >>=
      fun s => Out.ok (0, s)) hs'
  · change 2 ≤ s'.solveIters
    obtain ⟨n, o, er, a1, n1, a3, a4, -, a6, -, -, -, a10⟩ := gradLoop_trace _ _ _ _ _ rfl hs'
    by_contra hc
    have hn : n = 1 := by omega
    subst hn
    obtain ⟨x, hx, -⟩ := a6 0 one_pos
    rw [a3] at hx
    obtain ⟨hx1, -⟩ := allPosesStep_value (s := { z with initialError := _, solveIters := 0 }) (hi0.frame rfl rfl rfl) hp0
      hn0.ge hx
    have h := a10 rfl (by norm_num)
    dsimp only at hx1 h
    rw [ht0] at hx1
    rw [a4, hx1] at h
    have := (abs_le.mp h).2
    norm_num at this
    linarith

/-- The property is false for `GRADIENT_ALL_POSES`: on a plane seen from two poses a call with `singleIteration` performs at least
two iterations. -/
theorem C105_all_poses_fails (e : EigSolver) (he : e.Sound) (svd : Mat3 → SVD3) : ∃ s r,
    PlaneReg.run e svd Demo.pairOps (OptDense.new PlaneReg.new) = .ok s ∧
    PlaneReg.solve e svd .gradientAllPoses true s = .ok r ∧ 2 ≤ r.2.obj.solveIters := by
  obtain ⟨r, hr, h⟩ := Demo.pairReg_allPoses e he svd true
  exact ⟨_, r, Demo.pairOps_run e svd, hr, h⟩

/-- The hypothesis of `C105_nag_partial`: four planes seen from three poses. -/
example (e : EigSolver) (svd : Mat3 → SVD3) : ∃ s r, PlaneReg.run e svd Demo.upOps (OptDense.new PlaneReg.new) = .ok s ∧
    PlaneReg.solve e svd .gradientBengiosNag true s = .ok r := by
  obtain ⟨r, hr⟩ := Demo.upReg_solve e svd true { OptDense.new PlaneReg.new with obj := Demo.upReg } rfl
  exact ⟨_, r, Demo.upOps_run e svd, hr⟩

end Mrob
