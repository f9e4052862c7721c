import Verif.Lemmas.PlaneRegStill
import Verif.Props.Optimizer
import Verif.Props.PlaneInit

/-! # Properties C54, C55 and C69: the solvers of the plane registration -/

open Matrix

namespace Mrob

open Spec PlaneReg

/-! ## C54 -/

theorem PlaneReg.restore_eq {e : EigSolver} {s x r : PlaneReg} {T : SE3} {c : ℝ} (h1 : s.lastPose = .ok T)
    (h2 : s.placeLast s.booked = .ok x) (h3 : x.error e = .ok (c, r)) : s.restore e = .ok r := by
  rw [restore, h1, Out.ok_bind, h2, Out.ok_bind, h3, Out.ok_bind]

/-- C54: after any sequence of calls that returns, the first pose is the identity, the trajectory has as many poses as were
declared and every pose can be read. -/
theorem C54_first_pose (e : EigSolver) (svd : Mat3 → SVD3) (ops : List Op) (s : OptDense PlaneReg)
    (h : PlaneReg.run e svd ops (OptDense.new PlaneReg.new) = .ok s) :
    s.obj.getTrajectory 0 = .ok SE3.default ∧ (s.obj.numberPoses ≠ 0 → s.obj.traj.length = s.obj.numberPoses) ∧
      ∀ t, ∃ T, s.obj.getTrajectory t = .ok T := by
  have hi := run_inv new_inv h
  refine ⟨?_, hi.len, fun t => ?_⟩
  · rw [getTrajectory]
    split_ifs with h0
    · exact Out.atT_eq_ok.mpr (hi.first (by omega))
    · rfl
  · rw [getTrajectory]
    split_ifs with h0
    · exact ⟨_, Out.atT_ok (by rw [hi.len (by omega)]; exact h0)⟩
    · exact ⟨_, rfl⟩

/-- C54: after a solve in one of the modes which interpolate, whatever was called before, every pose lies on the geodesic
from the identity to the last pose. -/
theorem C54_interpolated (e : EigSolver) (svd : Mat3 → SVD3) (ops : List Op) (s : OptDense PlaneReg)
    (h : PlaneReg.run e svd ops (OptDense.new PlaneReg.new) = .ok s) (mode : SolveMode)
    (hm : mode = .gradientBengiosNag ∨ mode = .gnHessian ∨ mode = .lmSpher ∨ mode = .lmEllip) (single : Bool)
    (r : ℕ × OptDense PlaneReg) (hr : PlaneReg.solve e svd mode single s = .ok r) (t : ℕ) (h0 : 0 < t)
    (h1 : t + 1 < r.2.obj.numberPoses) :
    ∃ T, r.2.obj.getTrajectory (r.2.obj.numberPoses - 1) = .ok T ∧
      r.2.obj.getTrajectory t = .ok (SE3.ofVec (((t : ℝ) / ((r.2.obj.numberPoses : ℝ) - 1)) • T.lnVee)) := by
  have hi := run_inv new_inv h
  have hi' := solve_inv hi hr
  have key : r.2.obj.numberPoses ≠ 0 → r.2.obj.Interpolated := by
    rw [PlaneReg.solve] at hr
    obtain ⟨⟨c, o⟩, x1, hr⟩ := Out.bind_eq_ok.mp hr
    have i0 : PoseInv { s.obj with mode := mode } := hi.frame rfl rfl rfl
    have i1 : PoseInv { o with initialError := c } := (i0.planesOnly (error_frame x1)).frame rfl rfl rfl
    dsimp only at hr
    rcases hm with rfl | rfl | rfl | rfl
    · obtain ⟨s2, x2, hr⟩ := Out.bind_eq_ok.mp hr
      cases hr
      rw [lift] at x2
      obtain ⟨o', x3, x2⟩ := Out.bind_eq_ok.mp x2
      cases x2
      rw [interpolateGradient] at x3
      obtain ⟨n, os, er, -, n1, a3, -, a5, a6, -⟩ := gradLoop_trace _ _ _ _ _ rfl x3
      have hinv : ∀ k ≤ n, PoseInv (os k) := by
        intro k
        induction k with
        | zero => intro _; rw [a3]; exact i1.frame rfl rfl rfl
        | succ k ih =>
          intro hk
          obtain ⟨x, y1, y2⟩ := a6 k (by omega)
          rw [y2]
          exact (gradStep_inv (ih (by omega)) y1).frame rfl rfl rfl
      obtain ⟨x, y1, y2⟩ := a6 (n - 1) (by omega)
      rw [show n - 1 + 1 = n by omega, a5] at y2
      have y3 := hinv (n - 1) (by omega)
      rw [gradStep] at y1
      obtain ⟨⟨c', s1⟩, z1, y1⟩ := Out.bind_eq_ok.mp y1
      obtain ⟨⟨acc, s2⟩, z2, y1⟩ := Out.bind_eq_ok.mp y1
      obtain ⟨⟨dxi, s3⟩, z3, y1⟩ := Out.bind_eq_ok.mp y1
      obtain ⟨s4, z4, y1⟩ := Out.bind_eq_ok.mp y1
      have y1 : Out.ok (c', s4) = Out.ok (er (n - 1 + 1), x) := y1
      obtain ⟨-, rfl⟩ := Prod.mk.inj (Out.ok.inj y1)
      have j2 : PoseInv s2 := (y3.planesOnly (error_frame z1)).planesOnly (accGradient_frame z2).1
      obtain ⟨j3, -, -, -⟩ := increment_inv j2 (fun hn => (accGradient_frame z2).2 (PoseInv.times_single (by
        obtain ⟨ps, hps⟩ := (accGradient_frame z2).1
        have hps : s2 = _ := hps
        rw [hps] at hn
        exact hn))) z3
      rw [moveLast] at z4
      obtain ⟨T, -, z4⟩ := Out.bind_eq_ok.mp z4
      have e4 : s4.numberPoses = s3.numberPoses := by
        rw [placeLast] at z4
        obtain ⟨traj, -, z4⟩ := Out.bind_eq_ok.mp z4
        cases z4
        rfl
      intro hn
      change o'.numberPoses ≠ 0 at hn
      change o'.Interpolated
      rw [y2] at hn ⊢
      have hn : s4.numberPoses ≠ 0 := hn
      have := placeLast_interpolated z4 (by rw [← e4]; exact hn) j3.bound (j3.len (by rw [← e4]; exact hn))
      exact this
    all_goals
      obtain ⟨s2, x2, hr⟩ := Out.bind_eq_ok.mp hr
      cases hr
      exact (optimizer_inv i1 x2).2
  have hl := hi'.len (by omega)
  refine ⟨r.2.obj.traj[r.2.obj.numberPoses - 1]'(by omega), ?_, ?_⟩
  · rw [getTrajectory, if_pos (by omega), Out.atT_ok (by omega)]
  · rw [getTrajectory, if_pos (by omega)]
    refine Out.atT_eq_ok.mpr (key (by omega) _ ?_ t h0 h1)
    rw [getLast?_of_length hl, List.getElem?_eq_getElem]

/-- C54: restoring gives back the last pose that was saved, and when the trajectory was interpolated at the time of saving
(as every solver other than `INITIALIZE` and `GRADIENT_DESCENT_ALL_POSES` leaves it) all the poses, whatever happened to the
trajectory in between. -/
theorem C54_restore (e : EigSolver) (svd : Mat3 → SVD3) (ops : List Op) (s : OptDense PlaneReg)
    (h : PlaneReg.run e svd ops (OptDense.new PlaneReg.new) = .ok s) (hn : 2 ≤ s.obj.numberPoses) (b : PlaneReg)
    (hb : s.obj.bookkeep = .ok b) (traj : List SE3) (hl : traj.length = b.traj.length) (h0 : traj[0]? = b.traj[0]?)
    (r : PlaneReg) (hr : PlaneReg.restore e { b with traj := traj } = .ok r) :
    r.traj.getLast? = s.obj.traj.getLast? ∧ r.traj[0]? = s.obj.traj[0]? ∧ r.traj.length = s.obj.traj.length ∧
      (s.obj.Interpolated → r.traj = s.obj.traj) := by
  have hi := run_inv new_inv h
  obtain ⟨T, hT, rfl⟩ := bookkeep_ok hb
  obtain ⟨s1, h1, ⟨ps, rfl⟩, -⟩ := restore_ok hr
  have hp : PoseInv { s.obj with booked := T, traj := traj } := hi.withTraj hl h0 |>.frame rfl rfl rfl
  have hp' := placeLast_inv hp (fun hn1 => by
    have hn1 : s.obj.numberPoses = 1 := hn1
    omega) h1
  have e1 := placeLast_trajTo hp hn h1
  obtain ⟨traj', e2, l1, l2, -, -⟩ := placeLast_ok h1 (by change s.obj.numberPoses ≠ 0; omega) hi.bound
    (hp.len (by change s.obj.numberPoses ≠ 0; omega))
  have l1 : traj'.length = s.obj.numberPoses := l1
  have e3 : s1.traj = traj' := by rw [e2]
  refine ⟨?_, ?_, ?_, fun hint => ?_⟩
  · change s1.traj.getLast? = _
    rw [e3, getLast?_of_length l1, l2, hT]
  · change s1.traj[0]? = _
    rw [hp'.first (by rw [e2]; change s.obj.numberPoses ≠ 0; omega), hi.first (by omega)]
  · change s1.traj.length = _
    rw [e3, l1, hi.len (by omega)]
  · change s1.traj = _
    rw [e1]
    change trajTo s.obj.numberPoses T = _
    rw [interpolated_traj hi hn hint hT]

/-- The trajectory after `set_number_planes_and_poses`, with the last pose moved before it is restored. -/
example (e : EigSolver) (svd : Mat3 → SVD3) : ∃ (s : OptDense PlaneReg) (b r : PlaneReg) (traj : List SE3),
    PlaneReg.run e svd [.setNumbers 0 3] (OptDense.new PlaneReg.new) = .ok s ∧ s.obj.bookkeep = .ok b ∧
    traj.length = b.traj.length ∧ traj[0]? = b.traj[0]? ∧ traj ≠ b.traj ∧
    PlaneReg.restore e { b with traj := traj } = .ok r := by
  have hp : PoseInv { (PlaneReg.new.setNumbers 0 3) with traj := [SE3.default, SE3.default, ⟨homog 1 ![1, 0, 0] 1⟩] } :=
    (setNumbers_inv 0 3 _).withTraj rfl rfl
  obtain ⟨x, hx⟩ := placeLast_total hp (by decide) SE3.default
  refine ⟨_, _, x, [SE3.default, SE3.default, ⟨homog 1 ![1, 0, 0] 1⟩], rfl, rfl, rfl, rfl, ?_, ?_⟩
  · intro h
    have h := congrArg (fun l : List SE3 => (l[2]?.getD SE3.default).T) h
    have h : homog (1 : Mat3) ![1, 0, 0] 1 = (1 : Mat4) := h
    have := congrArg tr3 h
    rw [tr3_homog, ← homog_one, tr3_homog] at this
    exact one_ne_zero (congrFun this 0)
  · have hx' : x.planes = [] := by
      rw [placeLast] at hx
      obtain ⟨traj, -, hx⟩ := Out.bind_eq_ok.mp hx
      cases hx
      rfl
    have herr : x.error e = .ok (0, x) := by
      obtain ⟨_, _, ps, _⟩ := x
      cases hx'
      rfl
    exact restore_eq (T := ⟨homog 1 ![1, 0, 0] 1⟩) rfl hx herr

/-- The condition of C54 is needed: `solve(INITIALIZE)` on four planes seen from three poses sets the
second pose to a translation, which is lost by saving and restoring. -/
theorem C54_restore_needs_interpolated (e : EigSolver) (svd : Mat3 → SVD3) (hsvd : ∀ H, (svd H).Decomposes H) :
    ∃ s b r, PlaneReg.run e svd (Demo.upOps ++ [.solveInitialize]) (OptDense.new PlaneReg.new) = .ok s ∧
      s.obj.bookkeep = .ok b ∧ PlaneReg.restore e b = .ok r ∧ s.obj.traj[1]? = some ⟨homog 1 ![0, 0, 1] 1⟩ ∧
      r.traj[1]? = some SE3.default ∧ SE3.default ≠ ⟨homog 1 ![0, 0, 1] 1⟩ := by
  obtain ⟨s', h1, h2, h3, h4⟩ := Demo.upReg_init svd hsvd
  have hrun : PlaneReg.run e svd (Demo.upOps ++ [.solveInitialize]) (OptDense.new PlaneReg.new) =
      .ok { OptDense.new PlaneReg.new with obj := s' } := by
    change Op.run e svd .solveInitialize { OptDense.new PlaneReg.new with obj := Demo.upReg } >>= _ = _
    rw [Op.run, lift]
    dsimp only
    rw [h1]
    rfl
  have hi := run_inv new_inv hrun
  have hi : PoseInv s' := hi
  have hs : ∃ ps, s' = { Demo.upReg with planes := ps, traj := s'.traj } ∧
      ∀ q ∈ ps, q.2.Wf ∧ q.2.timeLength = 3 := by
    have h1' := h1
    rw [solveInitialize, firstMeans_ok Demo.upReg_prepared (by decide +kernel), Out.ok_bind] at h1'
    dsimp only at h1'
    obtain ⟨⟨b, traj⟩, -, h1'⟩ := Out.bind_eq_ok.mp h1'
    have h1' : Out.ok (b, _) = Out.ok (1, s') := h1'
    obtain ⟨-, rfl⟩ := Prod.mk.inj (Out.ok.inj h1')
    refine ⟨_, rfl, fun q' hq' => ?_⟩
    obtain ⟨q, hq, rfl⟩ := List.mem_map.mp hq'
    obtain ⟨a1, a2, a3⟩ := Demo.upReg_prepared q hq
    refine ⟨⟨a1.pts, Or.inr ?_⟩, a3⟩
    change (q.2.points.map sumOuter).length = q.2.timeLength
    rw [List.length_map, a1.pts]
  obtain ⟨ps, hs1, hs2⟩ := hs
  have hn : s'.numberPoses = 3 := by rw [hs1]; rfl
  have hl : s'.traj.length = 3 := h3
  have hlast : s'.traj.getLast? = some SE3.default := by
    rw [getLast?_of_length hl, h4 2 (by norm_num) (by change 2 < 3; norm_num), Demo.upPose, if_neg (by norm_num)]
    rfl
  have hb : s'.bookkeep = .ok { s' with booked := SE3.default } := by
    rw [bookkeep, lastPose, hlast]
    rfl
  have hp : PoseInv { s' with booked := SE3.default } := hi.frame rfl rfl rfl
  obtain ⟨x, hx⟩ := placeLast_total hp (by change s'.numberPoses ≠ 0; omega) SE3.default
  have hx1 := placeLast_trajTo hp (by change 2 ≤ s'.numberPoses; omega) hx
  have hw : x.PlanesWf := by
    rw [hx1]
    intro q hq
    have hq : q ∈ s'.planes := hq
    rw [hs1] at hq
    exact (hs2 q hq).1
  obtain ⟨⟨c, r⟩, hr, -⟩ := error_est (e := e) (n := 3) hw (by rw [hx1]; simp [trajTo, hn]) (by
    rw [hx1]
    intro q hq
    have hq : q ∈ s'.planes := hq
    rw [hs1] at hq
    exact (hs2 q hq).2)
  refine ⟨_, _, r, hrun, hb, ?_, ?_, ?_, ?_⟩
  · refine restore_eq (T := SE3.default) ?_ hx hr
    rw [lastPose]
    change (match s'.traj.getLast? with | some T => Out.ok T | none => .ub) = _
    rw [hlast]
  · rw [h4 1 (by norm_num) (by change 1 < 3; norm_num), Demo.upPose, if_pos rfl]
  · obtain ⟨ps', hps⟩ := error_frame hr
    have hps : r = _ := hps
    rw [hps, hx1]
    change (trajTo s'.numberPoses SE3.default)[1]? = _
    rw [hn, trajTo, lnVee_default]
    have : SE3.ofVec ((((1 : ℕ) : ℝ) / (((3 : ℕ) : ℝ) - 1)) • (0 : Vec6)) = SE3.default := by
      ext1
      rw [smul_zero, se3_ofVec_zero]
      rfl
    simpa using this
  · intro h
    have := congrArg (fun T : SE3 => tr3 T.T) h
    have : tr3 (1 : Mat4) = tr3 (homog 1 ![0, 0, 1] 1) := this
    rw [tr3_homog, ← homog_one, tr3_homog] at this
    exact zero_ne_one (congrFun this 2)

/-- C54: after calls which keep the trajectory interpolated, with at least two poses, a solve with one of the
Levenberg-Marquardt modes that returns does not increase the error reported by `get_current_error`. -/
theorem C54_never_worse (e : EigSolver) (svd : Mat3 → SVD3) (ops : List Op) (hops : ∀ op ∈ ops, op.Smooth)
    (s : OptDense PlaneReg) (h : PlaneReg.run e svd ops (OptDense.new PlaneReg.new) = .ok s) (hn : 2 ≤ s.obj.numberPoses)
    (mode : SolveMode) (hm : mode = .lmSpher ∨ mode = .lmEllip) (single : Bool) (r : ℕ × OptDense PlaneReg)
    (hr : PlaneReg.solve e svd mode single s = .ok r) (c c' : ℝ) (x x' : PlaneReg) (hc : s.obj.error e = .ok (c, x))
    (hc' : r.2.obj.error e = .ok (c', x')) : c' ≤ c := by
  have hf := run_form new_form hops h
  have hm' : mode ≠ .initialize ∧ mode ≠ .gradientAllPoses := by rcases hm with rfl | rfl <;> exact ⟨by decide, by decide⟩
  have hf' := solve_form hf hm' hr
  have v : c = _ := (error_ok hf.wf hc).1
  have v' : c' = _ := (error_ok hf'.wf hc').1
  rw [v, v']
  rw [PlaneReg.solve] at hr
  obtain ⟨⟨c0, o⟩, h1, hr⟩ := Out.bind_eq_ok.mp hr
  have w0 : PlanesWf { s.obj with mode := mode } := hf.wf
  have sp := (error_ok w0 h1).2.1
  have fr := error_frame h1
  have e0 : Exact s.obj := ⟨hf.pose, hn, hf.interp (by omega), hf.wf⟩
  have e1 : Exact { s.obj with mode := mode } := ⟨hf.pose.frame rfl rfl rfl, hn, hf.interp (by omega), hf.wf⟩
  have e2 : Exact o := e1.planes fr sp
  have e3 : Exact { o with initialError := c0 } := ⟨e2.pose.frame rfl rfl rfl, e2.two, e2.interp, e2.wf⟩
  have hcost : errOf e o.planes o.traj = errOf e s.obj.planes s.obj.traj := by
    rw [sp.errOf]
    obtain ⟨ps, hps⟩ := fr
    have hps : o = _ := hps
    rw [hps]
  have key : ∀ m : OptMethod, m ≠ .newtonRaphson → ∀ q : ℕ × OptDense PlaneReg,
      OptDense.solve (problem e) m 100 1e-2 { s with obj := { o with initialError := c0 } } = .ok q →
      errOf e q.2.obj.planes q.2.obj.traj ≤ errOf e s.obj.planes s.obj.traj := by
    intro m hm q hq
    have := C46_never_worse (problem e) _ _ _ (contract e) { s with obj := { o with initialError := c0 } } e3 m hm 100 1e-2 q hq
    exact this.trans hcost.le
  dsimp only at hr
  rcases hm with rfl | rfl
  · obtain ⟨q, h2, hr⟩ := Out.bind_eq_ok.mp hr
    cases hr
    exact key _ (by decide) q h2
  · obtain ⟨q, h2, hr⟩ := Out.bind_eq_ok.mp hr
    cases hr
    exact key _ (by decide) q h2

/-- The object of `Demo.upReg` in a gradient mode. -/
theorem Demo.upReg_solvable {m : SolveMode} (hm : m = .gradient ∨ m = .gradientBengiosNag) :
    Solvable { Demo.upReg with mode := m } := by
  obtain ⟨svd, -⟩ := exists_svd
  obtain ⟨e, -⟩ := exists_sound
  have hi : PoseInv Demo.upReg := run_inv new_inv (Demo.upOps_run e svd)
  refine ⟨hi.frame rfl rfl rfl, fun q hq => (Demo.upReg_prepared q hq).1, by change 3 ≠ 0; decide,
    fun q hq => (Demo.upReg_prepared q hq).2.2, fun t h0 h3 => ?_, by exact List.cons_ne_nil _ _, hm⟩
  have h3 : t < 3 := h3
  have : t = 1 ∨ t = 2 := by omega
  rcases this with rfl | rfl <;> exact (by decide : (4 : ℕ) ≠ 0)

/-- `solve(GRADIENT_BENGIOS_NAG)` returns on it. -/
theorem Demo.upReg_solve (e : EigSolver) (svd : Mat3 → SVD3) (single : Bool) (s : OptDense PlaneReg) (hs : s.obj = Demo.upReg) :
    ∃ r, PlaneReg.solve e svd .gradientBengiosNag single s = .ok r := by
  have h := Demo.upReg_solvable (m := .gradientBengiosNag) (Or.inr rfl)
  obtain ⟨⟨c, o⟩, h1, -⟩ := error_est (e := e) h.wf (h.pose.len h.ne).ge h.time
  have h2 : Solvable { o with initialError := c } :=
    (h.planes (error_frame h1) (error_ok h.wf h1).2.1).frame rfl rfl rfl rfl rfl
  obtain ⟨o', h3⟩ := interpolateGradient_total (e := e) (single := single) h2
  refine ⟨(0, { s with obj := o' }), ?_⟩
  rw [PlaneReg.solve, hs, h1, Out.ok_bind]
  dsimp only
  rw [lift]
  dsimp only
  rw [h3]
  rfl

/-- The hypotheses of `C54_first_pose` and `C54_interpolated`: four planes seen from three poses, solved by gradient descent. -/
example (svd : Mat3 → SVD3) (e : EigSolver) : ∃ s r, PlaneReg.run e svd Demo.upOps (OptDense.new PlaneReg.new) = .ok s ∧
    PlaneReg.solve e svd .gradientBengiosNag false s = .ok r := by
  obtain ⟨r, hr⟩ := Demo.upReg_solve e svd false { OptDense.new PlaneReg.new with obj := Demo.upReg } rfl
  exact ⟨_, r, Demo.upOps_run e svd, hr⟩

/-! ## C55 -/

/-- Every mode but `INITIALIZE` returns 0, whatever was done. -/
theorem C55_returns_zero (e : EigSolver) (svd : Mat3 → SVD3) (mode : SolveMode) (hm : mode ≠ .initialize) (single : Bool)
    (s : OptDense PlaneReg) (r : ℕ × OptDense PlaneReg) (h : PlaneReg.solve e svd mode single s = .ok r) : r.1 = 0 := by
  rw [PlaneReg.solve] at h
  obtain ⟨⟨c, o⟩, -, h⟩ := Out.bind_eq_ok.mp h
  dsimp only at h
  split at h
  · exact absurd rfl hm
  all_goals first
    | (cases h; rfl)
    | (obtain ⟨s2, -, h⟩ := Out.bind_eq_ok.mp h; cases h; rfl)

/-- C55: the number kept in the object (entry 3 of `print_evaluate`) is the number of passes through the loop.
Missing: `solve` does not return it. -/
theorem C55_gradient_partial (e : EigSolver) (svd : Mat3 → SVD3) (single : Bool) (s : OptDense PlaneReg)
    (r : ℕ × OptDense PlaneReg) (h : PlaneReg.solve e svd .gradientBengiosNag single s = .ok r) :
    1 ≤ r.2.obj.solveIters ∧ r.2.obj.solveIters ≤ 10000 ∧ (single = true → r.2.obj.solveIters = 1) ∧
    ∃ (o : ℕ → PlaneReg) (err : ℕ → ℝ), o r.2.obj.solveIters = r.2.obj ∧ (o 0).traj = s.obj.traj ∧
      (∀ k < r.2.obj.solveIters, ∃ x, PlaneReg.gradStep e (o k) = .ok (err (k + 1), x) ∧ x.traj = (o (k + 1)).traj) ∧
      (∀ k, 0 < k → k + 1 < r.2.obj.solveIters → 1e-4 < |err k - err (k + 1)|) ∧
      (single = false → r.2.obj.solveIters < 10000 → 1 < r.2.obj.solveIters →
        |err (r.2.obj.solveIters - 1) - err r.2.obj.solveIters| ≤ 1e-4) := by
  rw [PlaneReg.solve] at h
  obtain ⟨⟨c, o0⟩, x1, h⟩ := Out.bind_eq_ok.mp h
  dsimp only at h
  obtain ⟨s2, x2, h⟩ := Out.bind_eq_ok.mp h
  cases h
  rw [lift] at x2
  obtain ⟨o', x3, x2⟩ := Out.bind_eq_ok.mp x2
  cases x2
  rw [interpolateGradient] at x3
  obtain ⟨n, os, er, a1, n1, a3, -, a5, a6, a7, a8, a9, a10⟩ := gradLoop_trace _ _ _ _ _ rfl x3
  rw [Nat.zero_add] at a1 a9 a10
  change 1 ≤ o'.solveIters ∧ o'.solveIters ≤ 10000 ∧ (single = true → o'.solveIters = 1) ∧
    ∃ (o : ℕ → PlaneReg) (err : ℕ → ℝ), o o'.solveIters = o' ∧ _
  rw [a1]
  refine ⟨n1, by omega, a8, os, er, a5, ?_, ?_, fun k _ hk => ?_, ?_⟩
  · rw [a3]
    obtain ⟨ps, hps⟩ := error_frame x1
    have hps : o0 = _ := hps
    rw [hps]
  · intro k hk
    obtain ⟨x, y1, y2⟩ := a6 k hk
    exact ⟨x, y1, by rw [y2]⟩
  · exact a7 k hk
  · intro hs hlt hgt
    exact a10 hs hlt

/-- C55, the modes using `Optimizer`: between 1 and 100 iterations are stored, those done by `Optimizer::solve` (C46, C47).
Missing: `solve` does not return them. -/
theorem C55_optimizer_partial (e : EigSolver) (svd : Mat3 → SVD3) (mode : SolveMode)
    (hm : mode = .gnHessian ∨ mode = .lmSpher ∨ mode = .lmEllip) (single : Bool) (s : OptDense PlaneReg)
    (r : ℕ × OptDense PlaneReg) (h : PlaneReg.solve e svd mode single s = .ok r) :
    1 ≤ r.2.obj.solveIters ∧ r.2.obj.solveIters ≤ 100 ∧
      ∃ (m : OptMethod) (l : ℝ) (x : OptDense PlaneReg) (q : ℕ × OptDense PlaneReg),
        x.solve (problem e) m 100 l = .ok q ∧ x.obj.traj = s.obj.traj ∧ r.2.obj.solveIters = q.1 ∧
        r.2.obj.traj = q.2.obj.traj := by
  rw [PlaneReg.solve] at h
  obtain ⟨⟨c, o⟩, x1, h⟩ := Out.bind_eq_ok.mp h
  have ht : o.traj = s.obj.traj := by
    obtain ⟨ps, hps⟩ := error_frame x1
    have hps : o = _ := hps
    rw [hps]
  dsimp only at h
  rcases hm with rfl | rfl | rfl
  · obtain ⟨q, x2, h⟩ := Out.bind_eq_ok.mp h
    cases h
    obtain ⟨b1, b2, -⟩ := C47_newton_raphson _ _ _ _ _ x2
    exact ⟨b1, b2, _, _, _, q, x2, ht, rfl, rfl⟩
  · obtain ⟨q, x2, h⟩ := Out.bind_eq_ok.mp h
    cases h
    obtain ⟨b1, b2, -⟩ := C46_iterations _ _ _ (by decide) _ _ _ x2
    exact ⟨b1, b2, _, _, _, q, x2, ht, rfl, rfl⟩
  · obtain ⟨q, x2, h⟩ := Out.bind_eq_ok.mp h
    cases h
    obtain ⟨b1, b2, -⟩ := C46_iterations _ _ _ (by decide) _ _ _ x2
    exact ⟨b1, b2, _, _, _, q, x2, ht, rfl, rfl⟩

/-- C55 is false: one pass of gradient descent over four planes seen from three poses, and the returned number is 0. -/
theorem C55_fails (e : EigSolver) (svd : Mat3 → SVD3) : ∃ s r,
    PlaneReg.run e svd Demo.upOps (OptDense.new PlaneReg.new) = .ok s ∧
    PlaneReg.solve e svd .gradientBengiosNag true s = .ok r ∧ r.1 = 0 ∧ r.2.obj.solveIters = 1 := by
  obtain ⟨r, hr⟩ := Demo.upReg_solve e svd true { OptDense.new PlaneReg.new with obj := Demo.upReg } rfl
  exact ⟨_, r, Demo.upOps_run e svd, hr, C55_returns_zero e svd _ (by decide) _ _ r hr,
    (C55_gradient_partial e svd _ _ r hr).2.2.1 rfl⟩

/-- Levenberg-Marquardt on a plane with a point in the first of two poses returns (so the hypotheses of
`C55_optimizer_partial` and `C54_never_worse` are met). -/
theorem Demo.single_lm (e : EigSolver) (svd : Mat3 → SVD3) : ∃ s r,
    PlaneReg.run e svd [.setNumbers 1 2, .addNewPlane 0, .pushPoint 0 0 ![1, 2, 3]] (OptDense.new PlaneReg.new) = .ok s ∧
    2 ≤ s.obj.numberPoses ∧ PlaneReg.solve e svd .lmSpher false s = .ok r := by
  obtain ⟨s, hs⟩ : ∃ s, PlaneReg.run e svd [.setNumbers 1 2, .addNewPlane 0, .pushPoint 0 0 ![1, 2, 3]]
      (OptDense.new PlaneReg.new) = .ok s ∧ s.obj.planes = [(0, { Plane.new 2 with points := [[![1, 2, 3]], []], numberPoints := 1 })] ∧
      s.obj.numberPoses = 2 ∧ s.tol = 1e-4 := ⟨_, rfl, rfl, rfl, rfl⟩
  obtain ⟨hs, hp, hn, htol⟩ := hs
  have hf := run_form new_form (by
    intro op hop
    simp only [List.mem_cons, List.not_mem_nil, or_false] at hop
    rcases hop with rfl | rfl | rfl <;> trivial) hs
  have hex : Exact s.obj := ⟨hf.pose, hn.ge, hf.interp (by omega), hf.wf⟩
  have time : ∀ q ∈ s.obj.planes, q.2.timeLength = s.obj.numberPoses := by
    intro q hq
    rw [hp, List.mem_singleton] at hq
    rw [hq, hn]
    rfl
  obtain ⟨⟨c, o⟩, h1, -⟩ := error_est (e := e) (s := { s.obj with mode := .lmSpher }) hf.wf
    (hf.pose.len (by omega)).ge time
  have sp : SamePlanes s.obj o := (error_ok (s := { s.obj with mode := .lmSpher }) hf.wf h1).2.1
  have hst : Still s.obj := by
    refine ⟨hex, time, ?_, ?_⟩
    · intro q hq
      rw [hp, List.mem_singleton] at hq
      rw [hq]
      exact Or.inl rfl
    · intro q hq t ht
      rw [hp, List.mem_singleton] at hq
      rw [hq]
      rcases t with _ | _ | t
      · exact absurd ht (lt_irrefl 0)
      · rfl
      · rfl
  have hst' : Still { o with initialError := c } := by
    have hst0 : Still { s.obj with mode := .lmSpher } :=
      ⟨⟨hex.pose.frame rfl rfl rfl, hex.two, hex.interp, hex.wf⟩, hst.time, hst.sync, hst.empty⟩
    have := hst0.error h1
    exact ⟨⟨this.exact.pose.frame rfl rfl rfl, this.exact.two, this.exact.interp, this.exact.wf⟩, this.time, this.sync, this.empty⟩
  obtain ⟨q, hq⟩ := lm_still (e := e) (s := { s with obj := { o with initialError := c } }) hst' (by
    change 0 < s.tol; rw [htol]; norm_num) (n := 100) (l := 1e-2) (by norm_num)
  refine ⟨s, (0, storeIters q), hs, hn.ge, ?_⟩
  rw [PlaneReg.solve, h1, Out.ok_bind]
  dsimp only
  rw [hq]
  rfl

/-- The hypotheses of `C54_never_worse` and `C55_optimizer_partial`. -/
example (e : EigSolver) (svd : Mat3 → SVD3) : ∃ (ops : List Op) (s : OptDense PlaneReg) (r : ℕ × OptDense PlaneReg),
    (∀ op ∈ ops, op.Smooth) ∧ PlaneReg.run e svd ops (OptDense.new PlaneReg.new) = .ok s ∧ 2 ≤ s.obj.numberPoses ∧
      PlaneReg.solve e svd .lmSpher false s = .ok r := by
  obtain ⟨s, r, h1, h2, h3⟩ := Demo.single_lm e svd
  refine ⟨_, s, r, ?_, h1, h2, h3⟩
  intro op hop
  simp only [List.mem_cons, List.not_mem_nil, or_false] at hop
  rcases hop with rfl | rfl | rfl <;> trivial

/-- The hypothesis of `C55_gradient_partial`. -/
example (e : EigSolver) (svd : Mat3 → SVD3) : ∃ (s : OptDense PlaneReg) (r : ℕ × OptDense PlaneReg), s.obj = Demo.upReg ∧
    PlaneReg.solve e svd .gradientBengiosNag false s = .ok r := by
  obtain ⟨r, h⟩ := Demo.upReg_solve e svd false { OptDense.new PlaneReg.new with obj := Demo.upReg } rfl
  exact ⟨_, r, rfl, h⟩

/-! ## C69 -/

/-- A pose without points stops the gradient loop. -/
theorem PlaneReg.interpolateGradient_nan {e : EigSolver} {single : Bool} {s : PlaneReg} {t : ℕ} (hi : s.PoseInv)
    (hw : s.PlanesWf) (ht : ∀ q ∈ s.planes, q.2.timeLength = s.numberPoses) (h0 : 0 < t) (h1 : t < s.numberPoses)
    (hz : s.seen t = 0) : s.interpolateGradient e single = .nan := by
  rw [interpolateGradient, gradLoop, gradStep_nan (s := { s with solveIters := 0 }) (t := t) (hi.frame rfl rfl rfl) hw ht h0 h1 hz]
  rfl

/-- C69, exactly when: with planes for all the poses, `solve(GRADIENT_BENGIOS_NAG)` returns exactly when every pose after the first one
sees at least one point.  Missing: the other problems, where the result is NaN (`C69_fails`). -/
theorem C69_iff_partial (e : EigSolver) (svd : Mat3 → SVD3) (single : Bool) (s : OptDense PlaneReg) (hi : s.obj.PoseInv)
    (hn : s.obj.numberPoses ≠ 0) (hw : s.obj.PlanesWf) (ht : ∀ q ∈ s.obj.planes, q.2.timeLength = s.obj.numberPoses)
    (hp : s.obj.prev ≠ []) :
    (∃ r, PlaneReg.solve e svd .gradientBengiosNag single s = .ok r) ↔
      ∀ t, 0 < t → t < s.obj.numberPoses → ∃ q ∈ s.obj.planes, q.2.cloudAt t ≠ [] := by
  have hseen : ∀ t, s.obj.seen t ≠ 0 ↔ ∃ q ∈ s.obj.planes, q.2.cloudAt t ≠ [] := by
    intro t
    rw [seen, Ne, List.sum_eq_zero_iff]
    simp
  obtain ⟨⟨c, o⟩, h1, -⟩ := error_est (e := e) (s := { s.obj with mode := .gradientBengiosNag }) hw (hi.len hn).ge ht
  have sp : SamePlanes s.obj o := (error_ok (s := { s.obj with mode := .gradientBengiosNag }) hw h1).2.1
  have fr := error_frame h1
  obtain ⟨ps, hps⟩ := fr
  have hps : o = _ := hps
  have hsolve : PlaneReg.solve e svd .gradientBengiosNag single s =
      lift (interpolateGradient e single) { s with obj := { o with initialError := c } } >>= fun s => .ok (0, s) := by
    rw [PlaneReg.solve, h1, Out.ok_bind]
  have hio : PoseInv o := by rw [hps]; exact hi.frame rfl rfl rfl
  have hno : o.numberPoses = s.obj.numberPoses := by rw [hps]
  constructor
  · rintro ⟨r, hr⟩ t h0 h2
    rw [← hseen]
    intro hz
    rw [hsolve] at hr
    obtain ⟨x, hx, -⟩ := Out.bind_eq_ok.mp hr
    rw [lift] at hx
    obtain ⟨y, hy, -⟩ := Out.bind_eq_ok.mp hx
    have hy : interpolateGradient e single { o with initialError := c } = .ok y := hy
    rw [interpolateGradient_nan (s := { o with initialError := c }) (t := t) (hio.frame rfl rfl rfl) sp.wf (by
        change ∀ q ∈ o.planes, q.2.timeLength = o.numberPoses
        rw [hno]
        exact sp.timeLength ht) h0 (by change t < o.numberPoses; rw [hno]; exact h2) (by
        change o.seen t = 0
        rw [sp.seen, hz])] at hy
    cases hy
  · intro hall
    have hsol : Solvable { o with initialError := c } := by
      refine ⟨hio.frame rfl rfl rfl, sp.wf, by change o.numberPoses ≠ 0; rw [hno]; exact hn, ?_, ?_, ?_, ?_⟩
      · change ∀ q ∈ o.planes, q.2.timeLength = o.numberPoses
        rw [hno]
        exact sp.timeLength ht
      · intro t h0 h2
        change o.seen t ≠ 0
        rw [sp.seen, hseen]
        exact hall t h0 (by rw [← hno]; exact h2)
      · change o.prev ≠ []
        rw [hps]
        exact hp
      · change o.mode = _ ∨ o.mode = _
        rw [hps]
        exact Or.inr rfl
    obtain ⟨o', h3⟩ := interpolateGradient_total (e := e) (single := single) hsol
    refine ⟨(0, { s with obj := o' }), ?_⟩
    rw [hsolve, lift]
    dsimp only
    rw [h3]
    rfl

/-- C69 is false in general: a plane seen from the first two of three poses; the last pose sees nothing and the step divides
zero by zero. -/
theorem C69_fails (e : EigSolver) (svd : Mat3 → SVD3) (single : Bool) : ∃ s,
    PlaneReg.run e svd [.setNumbers 1 3, .addNewPlane 0, .pushPoint 0 0 ![1, 0, 0], .pushPoint 0 1 ![1, 0, 0]]
      (OptDense.new PlaneReg.new) = .ok s ∧ PlaneReg.solve e svd .gradientBengiosNag single s = .nan := by
  obtain ⟨s, hs⟩ : ∃ s, PlaneReg.run e svd [.setNumbers 1 3, .addNewPlane 0, .pushPoint 0 0 ![1, 0, 0],
      .pushPoint 0 1 ![1, 0, 0]] (OptDense.new PlaneReg.new) = .ok s ∧ s.obj.planes = [(0, { Plane.new 3 with
        points := [[![1, 0, 0]], [![1, 0, 0]], []], numberPoints := 2 })] ∧ s.obj.numberPoses = 3 := ⟨_, rfl, rfl, rfl⟩
  obtain ⟨hs, hp, hn⟩ := hs
  have hf := run_form new_form (by
    intro op hop
    simp only [List.mem_cons, List.not_mem_nil, or_false] at hop
    rcases hop with rfl | rfl | rfl | rfl <;> trivial) hs
  have time : ∀ q ∈ s.obj.planes, q.2.timeLength = s.obj.numberPoses := by
    intro q hq
    rw [hp, List.mem_singleton] at hq
    rw [hq, hn]
    rfl
  obtain ⟨⟨c, o⟩, h1, -⟩ := error_est (e := e) (s := { s.obj with mode := .gradientBengiosNag }) hf.wf
    (hf.pose.len (by omega)).ge time
  have sp : SamePlanes s.obj o := (error_ok (s := { s.obj with mode := .gradientBengiosNag }) hf.wf h1).2.1
  obtain ⟨ps, hps⟩ := error_frame h1
  have hps : o = _ := hps
  have hno : o.numberPoses = 3 := by rw [hps]; exact hn
  refine ⟨s, hs, ?_⟩
  rw [PlaneReg.solve, h1, Out.ok_bind]
  dsimp only
  rw [lift, interpolateGradient_nan (t := 2)]
  · rfl
  · rw [hps]
    exact hf.pose.frame rfl rfl rfl
  · exact sp.wf
  · change ∀ q ∈ o.planes, q.2.timeLength = o.numberPoses
    rw [hno, ← hn]
    exact sp.timeLength time
  · norm_num
  · change 2 < o.numberPoses
    rw [hno]
    norm_num
  · change o.seen 2 = 0
    rw [sp.seen, seen, hp]
    rfl

/-- The hypotheses of `C69_iff_partial`. -/
example : PoseInv Demo.upReg ∧ Demo.upReg.numberPoses ≠ 0 ∧ Demo.upReg.PlanesWf ∧
    (∀ q ∈ Demo.upReg.planes, q.2.timeLength = Demo.upReg.numberPoses) ∧ Demo.upReg.prev ≠ [] := by
  have h := Demo.upReg_solvable (m := .gradient) (Or.inl rfl)
  exact ⟨h.pose.frame rfl rfl rfl, h.ne, h.wf, h.time, h.prev⟩

end Mrob
