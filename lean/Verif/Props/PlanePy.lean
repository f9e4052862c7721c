import Verif.Lemmas.PlanePyCalls
import Verif.Props.Plane
import Verif.Props.PlaneInit

/-! # Properties C77 and C78: the Python class `PlaneRegistration` -/

open Matrix

namespace Mrob

open Spec PlanePy

/-! ## C77: histories of calls never run into undefined behaviour -/

/-- A careful user never meets undefined behaviour or an exception, whatever the eigenvalue and singular value solvers return.

Missing: careless histories, see the `_fails` theorems below. -/
theorem C77_safe_partial (e : EigSolver) (eig6 : Mat6 → EigDec I6 6) (svd : Mat3 → SVD3) (cs : List Call)
    (h : Sheet.blank.Legal cs) : run e eig6 svd cs new ≠ .ub ∧ run e eig6 svd cs new ≠ .throw := by
  rcases (run_safe (e := e) (eig6 := eig6) (svd := svd) new_inv h).cases with ⟨s, hs, -⟩ | ⟨hs, -⟩ <;> rw [hs] <;> simp

/-- Without solving, the calls of a careful user always return proper values. -/
theorem C77_value_partial (e : EigSolver) (eig6 : Mat6 → EigDec I6 6) (svd : Mat3 → SVD3) (cs : List Call)
    (h : Sheet.blank.Legal cs) (hs : ∀ mode single, Call.solve mode single ∉ cs) : ∃ s, run e eig6 svd cs new = .ok s := by
  have key : ∀ (cs : List Call) (d : Sheet), d.mode = none → (∀ mode single, Call.solve mode single ∉ cs) → ¬ SomeDoubt d cs := by
    intro cs
    induction cs with
    | nil => intro d _ _ h; exact h
    | cons c cs ih =>
      intro d hd hs
      have hs' : ∀ mode single, Call.solve mode single ∉ cs := fun m b hm => hs m b (List.mem_cons_of_mem _ hm)
      rintro (hc | hc)
      · cases c with
        | solve m b => exact hs m b List.mem_cons_self
        | evaluate => rcases hc with hc | hc <;> rw [hd] at hc <;> cases hc
        | _ => exact hc
      · refine ih (d.after c) ?_ hs' hc
        cases c with
        | solve m b => exact absurd List.mem_cons_self (hs m b)
        | addPlane id =>
          rw [Sheet.after]
          split_ifs <;> exact hd
        | _ => exact hd
  rcases (run_safe (e := e) (eig6 := eig6) (svd := svd) new_inv h).cases with ⟨s, hs', -⟩ | ⟨-, hd⟩
  · exact ⟨s, hs'⟩
  · exact absurd hd (key cs _ rfl hs)

/-- Two planes seen from two poses, solved in three ways, evaluated, declared anew. -/
def Demo.planeCalls : List Call :=
  [.setNumbers 2 2, .addPlane 4, .addPlane 7, .pushPoint 4 0 ![1, 0, 0], .pushPoint 7 0 ![0, 1, 0], .pushPoint 7 1 ![0, 1, 1],
    .error, .solve .initialize true, .solve .gradientBengiosNag false, .evaluate, .solve .lmSpher false, .evaluate, .pointCloud 1,
    .lastPose, .setNumbers 1 3, .addPlane 4, .trajectory 5]

example : Sheet.blank.Legal Demo.planeCalls := by
  simp [Demo.planeCalls, Sheet.Legal, Sheet.Allows, Sheet.after, Sheet.blank, Sheet.ids]

/-- Solving in the default mode before declaring the number of poses reads the last element of an empty vector. -/
theorem C77_undeclared_fails (e : EigSolver) (eig6 : Mat6 → EigDec I6 6) (svd : Mat3 → SVD3) (single : Bool) :
    run e eig6 svd [.solve .gradientBengiosNag single] new = .ub := by
  have h : (PlaneReg.gradStep e { PlaneReg.new with mode := .gradientBengiosNag, initialError := 0, solveIters := 0 }) = .ub := rfl
  have h2 : PlaneReg.interpolateGradient e single { PlaneReg.new with mode := .gradientBengiosNag, initialError := 0 } = .ub := by
    rw [PlaneReg.interpolateGradient, PlaneReg.gradLoop]
    exact (congrArg (· >>= _) h).trans rfl
  have he : PlaneReg.error e { PlaneReg.new with mode := .gradientBengiosNag } =
      .ok (0, { PlaneReg.new with mode := .gradientBengiosNag }) := rfl
  have hsolve : PlaneReg.solve e svd .gradientBengiosNag single new.opt = .ub := by
    rw [PlaneReg.solve]
    change (PlaneReg.error e { PlaneReg.new with mode := .gradientBengiosNag } >>= _) = _
    rw [he, Out.ok_bind]
    dsimp only
    rw [PlaneReg.lift]
    exact (congrArg (fun x => (x >>= _) >>= _) h2).trans rfl
  change (((PlaneReg.solve e svd .gradientBengiosNag single new.opt >>= fun r => .ok r.2) >>= fun o => .ok { new with opt := o })
    >>= fun s => run e eig6 svd [] s) = _
  rw [hsolve]
  rfl

/-- Declaring zero poses and asking for the last one. -/
theorem C77_no_pose_fails (e : EigSolver) (eig6 : Mat6 → EigDec I6 6) (svd : Mat3 → SVD3) :
    run e eig6 svd [.setNumbers 1 0, .lastPose] new = .ub := rfl

/-- `print_evaluate` writes beyond the end of its matrices when there are more planes than declared. -/
theorem C77_evaluate_fails (e : EigSolver) (eig6 : Mat6 → EigDec I6 6) (svd : Mat3 → SVD3) (x : Vec3) :
    run e eig6 svd [.setNumbers 1 1, .addPlane 0, .addPlane 1, .pushPoint 0 0 x, .pushPoint 1 0 x, .evaluate] new = .ub := by
  rfl

/-- Initialising when a plane is not seen from the first pose reads beyond the end of a vector. -/
theorem C77_unseen_fails (e : EigSolver) (eig6 : Mat6 → EigDec I6 6) (svd : Mat3 → SVD3) (x y : Vec3) (single : Bool) :
    run e eig6 svd [.setNumbers 2 2, .addPlane 0, .pushPoint 0 1 x, .addPlane 1, .pushPoint 1 0 y, .pushPoint 1 1 y,
      .solve .initialize single] new = .ub := by
  let p : Plane := { Plane.new 2 with points := [[], [x]], numberPoints := 1 }
  let p' : Plane := { Plane.new 2 with points := [[y], [y]], numberPoints := 2 }
  obtain ⟨o, ho⟩ : ∃ o : PlaneReg, o = { PlaneReg.new with
      numberPlanes := 2, numberPoses := 2, traj := [SE3.default, SE3.default], prev := [0, 0]
      planes := [(0, p), (1, p')] } := ⟨_, rfl⟩
  have hs : run e eig6 svd [.setNumbers 2 2, .addPlane 0, .pushPoint 0 1 x, .addPlane 1, .pushPoint 1 0 y,
      .pushPoint 1 1 y] new = .ok { new with opt := { new.opt with obj := o } } := by
    rw [ho]
    rfl
  have hp : ∀ q ∈ o.planes, q.2.Wf ∧ q.2.timeLength = 2 ∧ q.2.S = [] := by
    rw [ho]
    intro q hq
    rcases List.mem_cons.mp hq with rfl | hq
    · exact ⟨⟨rfl, Or.inl rfl⟩, rfl, rfl⟩
    · rw [List.mem_singleton.mp hq]
      exact ⟨⟨rfl, Or.inl rfl⟩, rfl, rfl⟩
  have htraj : o.traj.length = 2 := by rw [ho]; rfl
  have hn : o.numberPoses = 2 := by rw [ho]
  have herr := PlaneReg.error_all (e := e) (s := { o with mode := .initialize }) fun q hq =>
    ⟨(hp q hq).1, by rw [(hp q hq).2.1]; exact htraj.ge⟩
  have hini : ∀ err : ℝ, PlaneReg.solveInitialize svd { o with
      mode := .initialize, initialError := err
      planes := o.planes.map fun q => (q.1, q.2.estimated e o.traj q.2.usedS) } = .ub := by
    intro err
    refine C66_unseen_fails svd _ hn.ge ?_ ⟨(0, p.estimated e o.traj p.usedS), ?_, rfl⟩ (1, p'.estimated e o.traj p'.usedS) ?_
      (List.cons_ne_nil y [])
    · intro q hq
      obtain ⟨q', hq', rfl⟩ := List.mem_map.mp hq
      obtain ⟨h1, h2, h3⟩ := hp q' hq'
      exact ⟨Plane.estimated_wf h1, Or.inr (Plane.usedS_inSync (Or.inl h3)), h2.trans hn.symm⟩
    · refine List.mem_map.mpr ⟨(0, p), ?_, rfl⟩
      rw [ho]
      exact List.mem_cons_self
    · have : o.planes = [(0, p), (1, p')] := by rw [ho]
      dsimp only
      rw [this]
      rfl
  have hsolve : PlaneReg.solve e svd .initialize single { new.opt with obj := o } = .ub := by
    rw [PlaneReg.solve]
    dsimp only
    rw [herr, Out.ok_bind]
    exact (congrArg (· >>= _) (hini _)).trans rfl
  refine (PlanePy.run_append [.setNumbers 2 2, .addPlane 0, .pushPoint 0 1 x, .addPlane 1, .pushPoint 1 0 y, .pushPoint 1 1 y]
    [.solve .initialize single] new).trans ?_
  rw [hs, Out.ok_bind]
  change (((PlaneReg.solve e svd .initialize single { new.opt with obj := o } >>= fun r => .ok r.2) >>= fun o => .ok { new with opt := o })
    >>= fun s => run e eig6 svd [] s) = _
  rw [hsolve]
  rfl

/-- A point for a plane which was not created raises an exception. -/
theorem C77_unknown_throws (e : EigSolver) (eig6 : Mat6 → EigDec I6 6) (svd : Mat3 → SVD3) (x : Vec3) :
    run e eig6 svd [.setNumbers 1 1, .pushPoint 0 0 x] new = .throw := rfl

/-- `print_evaluate` after the initialisation reports values without meaning. -/
theorem C77_evaluate_meaningless (e : EigSolver) (eig6 : Mat6 → EigDec I6 6) (svd : Mat3 → SVD3) (single : Bool) :
    run e eig6 svd [.setNumbers 1 1, .solve .initialize single, .evaluate] new = .nan := by
  rfl

/-! ## C78: the object holds the data handed over -/

/-- Whatever else has been called in between, `get_point_cloud(t)` returns exactly the points handed over for time `t` since the
last declaration of the numbers, plane by plane in the order of creation. -/
theorem C78_point_cloud (e : EigSolver) (eig6 : Mat6 → EigDec I6 6) (svd : Mat3 → SVD3) (cs : List Call) (h : Sheet.blank.Legal cs)
    (s : PlanePy) (hs : run e eig6 svd cs new = .ok s) (t : ℕ) (ht : t < (Sheet.blank.afterAll cs).poses) :
    s.opt.obj.pointCloud t = .ok ((Sheet.blank.afterAll cs).cloud t) := by
  have hi := (run_safe (e := e) (eig6 := eig6) (svd := svd) new_inv h).out
  rw [hs] at hi
  exact pointCloud_ok (hi.fits (by omega)) ht

/-- The points of time 1 after some calls, among them a point for a time out of range and an unused plane. -/
example (x y z : Vec3) : ∃ (e : EigSolver) (eig6 : Mat6 → EigDec I6 6) (svd : Mat3 → SVD3) (s : PlanePy),
    run e eig6 svd [.setNumbers 3 2, .addPlane 9, .addPlane 4, .addPlane 1, .pushPoint 4 1 x, .error, .pushPoint 9 1 y,
      .pushPoint 9 2 z, .pushPoint 4 1 z] new = .ok s ∧ s.opt.obj.pointCloud 1 = .ok [y, x, z] := by
  obtain ⟨e, -⟩ := exists_sound
  have hl : Sheet.blank.Legal [.setNumbers 3 2, .addPlane 9, .addPlane 4, .addPlane 1, .pushPoint 4 1 x, .error, .pushPoint 9 1 y,
      .pushPoint 9 2 z, .pushPoint 4 1 z] := by
    simp [Sheet.Legal, Sheet.Allows, Sheet.after, Sheet.blank, Sheet.ids]
  obtain ⟨s, hs⟩ := C77_value_partial e (fun _ => ⟨0, 0⟩) (fun _ => ⟨0, 0, 0⟩) _ hl (by simp)
  refine ⟨e, _, _, s, hs, ?_⟩
  rw [C78_point_cloud e _ _ _ hl s hs 1 (by simp [Sheet.afterAll, Sheet.after, Sheet.blank, Sheet.ids])]
  simp [Sheet.afterAll, Sheet.after, Sheet.blank, Sheet.ids, Sheet.cloud]

/-- `print_evaluate` reports the declared numbers, the number of points handed over with a valid time and the number of
iterations and errors of the object, followed by the eigenvalues of some matrix. -/
theorem C78_evaluate (e : EigSolver) (eig6 : Mat6 → EigDec I6 6) (svd : Mat3 → SVD3) (cs : List Call) (h : Sheet.blank.Legal cs)
    (s s' : PlanePy) (hs : run e eig6 svd cs new = .ok s) (hp : 0 < (Sheet.blank.afterAll cs).poses) (l : List ℝ)
    (hl : s.evaluate e eig6 = .ok (l, s')) : ∃ err H, l = [((Sheet.blank.afterAll cs).planes : ℝ), (Sheet.blank.afterAll cs).poses,
      (Sheet.blank.afterAll cs).size, s.opt.obj.solveIters, s.opt.obj.initialError, err] ++ List.ofFn (eig6 H).val ∧
      ∃ o, s.opt.obj.error e = .ok (err, o) := by
  have hi := (run_safe (e := e) (eig6 := eig6) (svd := svd) new_inv h).out
  rw [hs] at hi
  have hf := hi.fits hp
  rw [PlanePy.evaluate] at hl
  obtain ⟨⟨l1, o'⟩, h1, hl⟩ := Out.bind_eq_ok.mp hl
  obtain ⟨H, -, hl⟩ := Out.bind_eq_ok.mp hl
  dsimp only at hl
  cases H with
  | none => cases hl
  | some H =>
    cases hl
    rw [PlaneReg.evaluate] at h1
    obtain ⟨⟨err, o⟩, h2, h1⟩ := Out.bind_eq_ok.mp h1
    dsimp only at h1
    split_ifs at h1
    cases h1
    have h3 := (PlaneReg.error_safe (N := False) e hf).out
    rw [h2] at h3
    obtain ⟨hk, ps, hps⟩ := h3
    have hk := hk.imp (R' := PlaneReg.Holds) fun n c q hq => hq.holds
    refine ⟨err, H, ?_, _, h2⟩
    rw [totalPoints_eq hk, hk.nplanes, hk.nposes]
    dsimp only at hps
    rw [hps]

/-- One plane with a point: the hypotheses hold. -/
example (x : Vec3) : ∃ (e : EigSolver) (eig6 : Mat6 → EigDec I6 6) (svd : Mat3 → SVD3) (s s' : PlanePy) (l : List ℝ),
    Sheet.blank.Legal [.setNumbers 1 1, .addPlane 0, .pushPoint 0 0 x] ∧
    run e eig6 svd [.setNumbers 1 1, .addPlane 0, .pushPoint 0 0 x] new = .ok s ∧ s.evaluate e eig6 = .ok (l, s') := by
  obtain ⟨e, -⟩ := exists_sound
  exact ⟨e, fun _ => ⟨0, 0⟩, fun _ => ⟨0, 0, 0⟩, _, _, _, by simp [Sheet.Legal, Sheet.Allows, Sheet.after, Sheet.blank, Sheet.ids],
    rfl, rfl⟩

/-- In the gradient modes the reported eigenvalues are zero. -/
theorem C78_no_hessian (eig6 : Mat6 → EigDec I6 6) (he : ∀ A : Mat6, Aᵀ = A → (eig6 A).Decomposes A) (e : EigSolver) (s s' : PlanePy)
    (l : List ℝ) (hm : s.opt.obj.mode = .gradientBengiosNag ∨ s.opt.obj.mode = .gradientAllPoses)
    (hl : s.evaluate e eig6 = .ok (l, s')) : l.drop 6 = List.replicate 6 0 := by
  rw [PlanePy.evaluate] at hl
  obtain ⟨⟨l1, o⟩, h1, hl⟩ := Out.bind_eq_ok.mp hl
  obtain ⟨H, h2, hl⟩ := Out.bind_eq_ok.mp hl
  have hH : H = some 0 := by
    rw [lastHessian] at h2
    rcases hm with hm | hm <;> rw [hm] at h2 <;> cases h2 <;> rfl
  subst hH
  cases hl
  rw [PlaneReg.evaluate] at h1
  obtain ⟨⟨err, o1⟩, -, h1⟩ := Out.bind_eq_ok.mp h1
  dsimp only at h1
  split_ifs at h1
  cases h1
  obtain ⟨-, h3, h4⟩ := he 0 (transpose_zero)
  rw [Matrix.zero_mul] at h4
  have h5 : diagonal (eig6 0).val = 0 := by
    have : (eig6 0).vecᵀ * ((eig6 0).vec * diagonal (eig6 0).val) = 0 := by rw [← h4, Matrix.mul_zero]
    rwa [← Matrix.mul_assoc, h3, Matrix.one_mul] at this
  have h6 : (eig6 0).val = fun _ => 0 := by
    funext i
    have := congrFun (congrFun h5 i) i
    simpa using this
  rw [h6]
  simp [List.ofFn_const]

/-- The solver of the hypothesis exists, and the hypotheses hold for a new object in a gradient mode. -/
example : ∃ (eig6 : Mat6 → EigDec I6 6) (e : EigSolver) (s s' : PlanePy) (l : List ℝ),
    (∀ A : Mat6, Aᵀ = A → (eig6 A).Decomposes A) ∧ s.opt.obj.mode = .gradientBengiosNag ∧ s.evaluate e eig6 = .ok (l, s') := by
  classical
  obtain ⟨e, -⟩ := exists_sound
  refine ⟨fun A => if h : Aᵀ = A then (exists_decomposes h (n := 6) (by simp)).choose else ⟨0, 0⟩, e,
    { new with opt := { new.opt with obj := { PlaneReg.new with mode := .gradientBengiosNag } } }, _, _, fun A h => ?_, rfl, rfl⟩
  simp only [dif_pos h]
  exact (exists_decomposes h (n := 6) (by simp)).choose_spec

/-- A time out of range is replaced by the last one: points are returned for a time for which none were handed over. -/
theorem C78_range_fails (e : EigSolver) (eig6 : Mat6 → EigDec I6 6) (svd : Mat3 → SVD3) (x : Vec3) :
    ∃ s, run e eig6 svd [.setNumbers 1 2, .addPlane 0, .pushPoint 0 1 x] new = .ok s ∧ s.opt.obj.pointCloud 2 = .ok [x] :=
  ⟨_, rfl, rfl⟩

/-- A point handed over for a time out of range is dropped without notice. -/
theorem C78_dropped_fails (e : EigSolver) (eig6 : Mat6 → EigDec I6 6) (svd : Mat3 → SVD3) (x : Vec3) :
    ∃ s, run e eig6 svd [.setNumbers 1 2, .addPlane 0, .pushPoint 0 2 x] new = .ok s ∧ s.opt.obj.totalPoints = 0 ∧
      s.opt.obj.pointCloud 2 = .ok [] := ⟨_, rfl, rfl, rfl⟩

/-- The error depends on when the points were handed over, not only on the points: three corners of a tetrahedron, a call of
`get_error`, and the fourth corner give the error `0`; without the first call of `get_error` the error is positive. -/
theorem C78_stale_fails (e : EigSolver) (he : e.Sound) (eig6 : Mat6 → EigDec I6 6) (svd : Mat3 → SVD3) :
    ∃ s s' : PlanePy, run e eig6 svd [.setNumbers 1 1, .addPlane 0, .pushPoint 0 0 corner0, .pushPoint 0 0 corner1,
        .pushPoint 0 0 corner2, .error, .pushPoint 0 0 corner3] new = .ok s ∧
      run e eig6 svd [.setNumbers 1 1, .addPlane 0, .pushPoint 0 0 corner0, .pushPoint 0 0 corner1,
        .pushPoint 0 0 corner2, .pushPoint 0 0 corner3] new = .ok s' ∧
      s.opt.obj.pointCloud 0 = s'.opt.obj.pointCloud 0 ∧ s.opt.obj.traj = s'.opt.obj.traj ∧
      (∃ o, s.opt.obj.error e = .ok (0, o)) ∧ ∃ err o, s'.opt.obj.error e = .ok (err, o) ∧ 0 < err := by
  obtain ⟨p3, h3⟩ : ∃ p : Plane, p = { Plane.new 1 with points := [[corner0, corner1, corner2]], numberPoints := 3 } := ⟨_, rfl⟩
  obtain ⟨p4, h4⟩ : ∃ p : Plane, p = { Plane.new 1 with points := [[corner0, corner1, corner2, corner3]], numberPoints := 4 } :=
    ⟨_, rfl⟩
  have w3 : p3.Wf := by rw [h3]; exact ⟨rfl, Or.inl rfl⟩
  have w4 : p4.Wf := by rw [h4]; exact ⟨rfl, Or.inl rfl⟩
  have u3 : p3.usedS = [[corner0, corner1, corner2]].map sumOuter := by rw [Plane.usedS_inSync (Or.inl (by rw [h3]; rfl)), h3]
  have u4 : p4.usedS = [[corner0, corner1, corner2, corner3]].map sumOuter := by
    rw [Plane.usedS_inSync (Or.inl (by rw [h4]; rfl)), h4]
  have t3 : p3.timeLength = 1 := by rw [h3]; rfl
  have t4 : p4.timeLength = 1 := by rw [h4]; rfl
  -- the object holding one plane
  let obj (p : Plane) : PlaneReg := { PlaneReg.new with
    numberPlanes := 1, numberPoses := 1, traj := [SE3.default], prev := [0], planes := [(0, p)] }
  have r3 : run e eig6 svd [.setNumbers 1 1, .addPlane 0, .pushPoint 0 0 corner0, .pushPoint 0 0 corner1, .pushPoint 0 0 corner2] new =
      .ok { new with opt := { new.opt with obj := obj p3 } } := by rw [h3]; rfl
  have r4 : run e eig6 svd [.setNumbers 1 1, .addPlane 0, .pushPoint 0 0 corner0, .pushPoint 0 0 corner1, .pushPoint 0 0 corner2,
      .pushPoint 0 0 corner3] new = .ok { new with opt := { new.opt with obj := obj p4 } } := by rw [h4]; rfl
  have herr : ∀ p : Plane, p.Wf → p.timeLength = 1 → (obj p).error e =
      .ok ((e.eig4 (Plane.qList [SE3.default] p.usedS).sum).val 0, obj (p.estimated e [SE3.default] p.usedS)) := by
    intro p hw ht
    have := PlaneReg.error_all (e := e) (s := obj p) fun q hq => by
      rw [List.mem_singleton.mp hq]
      exact ⟨hw, ht.le⟩
    rw [this]
    simp only [obj, List.map_cons, List.map_nil, List.sum_cons, List.sum_nil, add_zero]
  have hrig : ∀ T ∈ [SE3.default], LastRow T.T := fun T hT => by
    rw [List.mem_singleton.mp hT]
    exact rigid_default.lastRow
  obtain ⟨p5, h5⟩ : ∃ p : Plane, p = { p3.estimated e [SE3.default] p3.usedS with
    points := [[corner0, corner1, corner2, corner3]], numberPoints := 4 } := ⟨_, rfl⟩
  have w5 : p5.Wf := by
    rw [h5]
    refine ⟨t3.symm, Or.inr ?_⟩
    exact Plane.usedS_length w3
  have u5 : p5.usedS = [[corner0, corner1, corner2]].map sumOuter := by
    rw [Plane.usedS, if_neg, h5]
    · exact u3
    · rw [h5]
      change p3.usedS ≠ []
      rw [u3]
      exact List.cons_ne_nil _ _
  have t5 : p5.timeLength = 1 := by rw [h5]; exact t3
  have r5 : run e eig6 svd [.setNumbers 1 1, .addPlane 0, .pushPoint 0 0 corner0, .pushPoint 0 0 corner1, .pushPoint 0 0 corner2,
      .error, .pushPoint 0 0 corner3] new = .ok { new with opt := { new.opt with obj := obj p5 } } := by
    refine (PlanePy.run_append [.setNumbers 1 1, .addPlane 0, .pushPoint 0 0 corner0, .pushPoint 0 0 corner1, .pushPoint 0 0 corner2]
      [.error, .pushPoint 0 0 corner3] new).trans ?_
    rw [r3, Out.ok_bind]
    have hstep : Call.error.run e eig6 svd { new with opt := { new.opt with obj := obj p3 } } =
        .ok { new with opt := { new.opt with obj := obj (p3.estimated e [SE3.default] p3.usedS) } } := by
      change (((PlaneReg.error e (obj p3) >>= _) >>= _) >>= _) = _
      rw [herr p3 w3 t3]
      rfl
    rw [PlanePy.run, hstep, Out.ok_bind, h5, h3]
    rfl
  obtain ⟨pl, -, -, o5⟩ := estimate_optimal he hrig w5 u5 (Plane.estimate_ok w5 t5.le)
  obtain ⟨pl', -, -, o4⟩ := estimate_optimal he hrig w4 u4 (Plane.estimate_ok w4 t4.le)
  refine ⟨_, _, r5, r4, ?_, rfl, ⟨obj (p5.estimated e [SE3.default] p5.usedS), ?_⟩, _, _, herr p4 w4 t4, ?_⟩
  · change PlaneReg.pointCloud 0 (obj p5) = PlaneReg.pointCloud 0 (obj p4)
    rw [h5, h4, h3]
    rfl
  · have h0 : (e.eig4 (Plane.qList [SE3.default] p5.usedS).sum).val 0 = 0 := by
      refine le_antisymm ?_ ?_
      · have := o5.2.2 (Sum.elim ![0, 0, 1] fun _ => 0) (by simp [Unit4, dotProduct, Fintype.sum_sum_type, Fin.sum_univ_three])
        rw [planeCost_single] at this
        simpa [planeEval, corner0, corner1, corner2, Fin.sum_univ_three] using this
      · rw [← o5.2.1, planeCost_single]
        exact List.sum_nonneg fun y hy => by
          obtain ⟨p, -, rfl⟩ := List.mem_map.mp hy
          exact sq_nonneg _
    have := herr p5 w5 t5
    rw [h0] at this
    exact this
  · obtain ⟨-, -, -, -, hpos⟩ := C50_fails e he
    rw [← o4.2.1]
    exact hpos pl' o4.1

end Mrob
