import Verif.Lemmas.SensorFrame
import Verif.Props.PlaneDescentDemo

/-! # Property C110: registering planes does not depend on the frame of the sensor -/

open Matrix

namespace Mrob

open Spec PlaneReg

/-- C110, comparison for all frames of the sensor: with the points moved by a rigid transformation with translation `t`, the
registration errors of the same trajectory differ by a factor of at most `(1 + |t|)²`.  In particular one is zero when the
other is.  Missing: the errors are not equal (`C110_displaced_fails`). -/
theorem C110_bounds_partial (e e' : EigSolver) (he : e.Sound) (he' : e'.Sound) (G : Mat4) (hG : IsRigid G) (s s' : PlaneReg)
    (h : Reframed G s s') (hi : s.PoseInv) (hi' : s'.PoseInv) (hn : s.numberPoses ≠ 0) (hp : s.Prepared) (hp' : s'.Prepared)
    (ht : ∀ T ∈ s.traj, IsRigid T.T) : ∃ err o err' o', s.error e = .ok (err, o) ∧ s'.error e' = .ok (err', o') ∧
      err' ≤ (1 + Spec.len fun i => G (.inl i) (.inr ())) ^ 2 * err ∧
      err ≤ (1 + Spec.len fun i => G (.inl i) (.inr ())) ^ 2 * err' := by
  have ht' : ∀ T ∈ s.traj, LastRow T.T := fun T hT => (ht T hT).lastRow
  have u1 := h.errOf_le hG he he' hp hp' ht'
  have u2 := (h.symm hG).errOf_le (rigid_inv_rigid hG) he' he hp' hp (h.lastRow hG ht')
  rw [len_inv hG] at u2
  exact ⟨_, _, _, _, (error_value hp (hi.len hn).ge).1, (error_value hp' (hi'.len (by rw [h.poses]; exact hn)).ge).1, u1, u2⟩

/-- C110 for turned frames: with the points turned by a rotation, the registration error is the same.  Missing: displaced
frames (`C110_displaced_fails`). -/
theorem C110_turned_partial (e e' : EigSolver) (he : e.Sound) (he' : e'.Sound) (R : Mat3) (hR : IsRotation R) (s s' : PlaneReg)
    (h : Reframed (homog R 0 1) s s') (hi : s.PoseInv) (hi' : s'.PoseInv) (hn : s.numberPoses ≠ 0) (hp : s.Prepared)
    (hp' : s'.Prepared) (ht : ∀ T ∈ s.traj, IsRigid T.T) :
    ∃ err o o', s.error e = .ok (err, o) ∧ s'.error e' = .ok (err, o') := by
  refine ⟨_, _, s'.estd e', (error_value hp (hi.len hn).ge).1, ?_⟩
  rw [← errOf_turn hR h he he' hp hp' fun T hT => (ht T hT).lastRow]
  exact (error_value hp' (hi'.len (by rw [h.poses]; exact hn)).ge).1

/-- C110 for turned frames and a step of `solve_gradient_all_poses`: where the best planes are unique, the step on the turned
points gives the poses of the turned sensor.  Missing: displaced frames (`C110_displaced_fails`), problems with several best
planes. -/
theorem C110_step_partial (e e' : EigSolver) (he : e.Sound) (he' : e'.Sound) (R : Mat3) (hR : IsRotation R)
    (s s' s1 : PlaneReg) (h : Reframed (homog R 0 1) s s') (hi : s.PoseInv) (hi' : s'.PoseInv) (hn : 2 ≤ s.numberPoses)
    (hp : s.Prepared) (hp' : s'.Prepared) (ht : ∀ T ∈ s.traj, IsRigid T.T) (hu : UniquePlanes s) (err : ℝ)
    (hs : s.allPosesStep e = .ok (err, s1)) :
    ∃ s1', s'.allPosesStep e' = .ok (err, s1') ∧ Reframed (homog R 0 1) s1 s1' := by
  have ht' : ∀ T ∈ s.traj, LastRow T.T := fun T hT => (ht T hT).lastRow
  exact step_turn hR h he he' ⟨hi, hp, hn, ht'⟩ ⟨hi', hp', by rw [h.poses]; exact hn, h.lastRow (isRigid_homog hR 0) ht'⟩ hu hs

/-- C110 for turned frames and `solve_gradient_all_poses`: where the best planes are unique in all states passed by the loop,
the registration of the turned points makes the same number of iterations and gives the poses of the turned sensor.
Missing: displaced frames (`C110_displaced_fails`), problems with several best planes, the other modes. -/
theorem C110_solve_partial (e e' : EigSolver) (he : e.Sound) (he' : e'.Sound) (R : Mat3) (hR : IsRotation R)
    (s s' s1 : PlaneReg) (h : Reframed (homog R 0 1) s s') (hi : s.PoseInv) (hi' : s'.PoseInv) (hn : 2 ≤ s.numberPoses)
    (hp : s.Prepared) (hp' : s'.Prepared) (ht : ∀ T ∈ s.traj, IsRigid T.T) (I : PlaneReg → Prop)
    (hI : I { s with solveIters := 0 })
    (hu : ∀ o, I o → UniquePlanes o ∧ ∀ err o' k, o.allPosesStep e = .ok (err, o') → I { o' with solveIters := k })
    (single : Bool) (hs : s.gradientAllPoses e single = .ok s1) :
    ∃ s1', s'.gradientAllPoses e' single = .ok s1' ∧ Reframed (homog R 0 1) s1 s1' ∧ s1'.solveIters = s1.solveIters := by
  have ht' : ∀ T ∈ s.traj, LastRow T.T := fun T hT => (ht T hT).lastRow
  exact loop_turn hR he he' hu single _ 0 1e20 { s with solveIters := 0 } { s' with solveIters := 0 } s1 rfl
    ⟨h.poses, h.alpha, h.traj, h.planes⟩ ⟨hi.frame rfl rfl rfl, hp, hn, ht'⟩
    ⟨hi'.frame rfl rfl rfl, hp', by rw [← h.poses] at hn; exact hn, h.lastRow (isRigid_homog hR 0) ht'⟩ hI hs

namespace Demo

/-! ### A displaced frame -/

/-- The calls of `stackOps` with the points displaced upwards by one. -/
noncomputable def raisedOps (a : ℝ) : List Op :=
  [.setNumbers 1 3, .addNewPlane 0] ++ (level (3 / 5)).map (.pushPoint 0 0 ·) ++
    (level (13 / 10) ++ level (13 / 10)).map (.pushPoint 0 1 ·) ++ (level (4 / 5)).map (.pushPoint 0 2 ·) ++ [.setAlpha a]

/-- The displaced points. -/
noncomputable def raisedPts : List (List Vec3) := [level (3 / 5), level (13 / 10) ++ level (13 / 10), level (4 / 5)]

/-- The object built by the calls. -/
noncomputable def raisedReg (a : ℝ) : PlaneReg :=
  { stackReg a with planes := [(0, { stackPlane with points := raisedPts })] }

theorem raisedOps_run (e : EigSolver) (svd : Mat3 → SVD3) (a : ℝ) :
    PlaneReg.run e svd (raisedOps a) (OptDense.new PlaneReg.new) = .ok { OptDense.new PlaneReg.new with obj := raisedReg a } := rfl

theorem stackReg_prepared (a : ℝ) : (stackReg a).Prepared := by
  intro q hq
  obtain rfl : q = (0, stackPlane) := List.mem_singleton.mp hq
  exact ⟨⟨rfl, Or.inl rfl⟩, Or.inl rfl, rfl⟩

theorem raisedReg_prepared (a : ℝ) : (raisedReg a).Prepared := by
  intro q hq
  obtain rfl : q = (0, { stackPlane with points := raisedPts }) := List.mem_singleton.mp hq
  exact ⟨⟨rfl, Or.inl rfl⟩, Or.inl rfl, rfl⟩

theorem move_up (h x y z : ℝ) : movePoint (up h).T ![x, y, z] = ![x, y, z + h] := by
  funext i
  fin_cases i <;> simp [movePoint, up, homog, Fin.sum_univ_three, Matrix.one_apply]

theorem up_rigid (h : ℝ) : IsRigid (up h).T := isRigid_homog isRotation_one _

theorem raised {a : ℝ} : Reframed (up 1).T (stackReg a) (raisedReg a) := by
  refine ⟨rfl, rfl, ?_, ?_⟩
  · change (List.replicate 3 SE3.default).map SE3.T = (List.replicate 3 SE3.default).map _
    refine List.map_congr_left fun T hT => ?_
    rw [List.eq_of_mem_replicate hT]
    change (1 : Mat4) = _ * 1 * _
    rw [Matrix.mul_one, mul_eq_one_comm.mp (rigid_inv_mul (up_rigid 1))]
  · refine .cons ⟨rfl, ?_⟩ .nil
    change raisedPts = stackPts.map _
    have e1 : (3 / 5 : ℝ) = -2 / 5 + 1 := by norm_num
    have e2 : (13 / 10 : ℝ) = 3 / 10 + 1 := by norm_num
    have e3 : (4 / 5 : ℝ) = -1 / 5 + 1 := by norm_num
    simp only [raisedPts, stackPts, level, List.map_cons, List.map_nil, List.map_append, move_up, e1, e2, e3]

theorem raised_cost (x : Vec4) : planeCost x ((trajTo 3 (up 0)).map SE3.T) raisedPts =
    16 * x (.inl 0) ^ 2 + 16 * x (.inl 1) ^ 2 + 1.52 * x (.inl 2) ^ 2 + 16 * (x (.inl 2) + x (.inr ())) ^ 2 := by
  rw [trajTo_up]
  simp [planeCost, raisedPts, level, cloudCost, up, SE3.default, planeEval, movePoint, homog, Fin.sum_univ_three, Matrix.one_apply]
  ring

end Demo

/-- C110 is false for displaced frames of the sensor: the 4-vectors of the planes, not their normals, are unit vectors, so the
error depends on the distance of the planes to the origin of the sensor.  With all points raised by one the same trajectory
has at most half of its error. -/
theorem C110_displaced_fails (e : EigSolver) (he : e.Sound) (svd : Mat3 → SVD3) (a : ℝ) :
    ∃ G s s' err o err' o', IsRigid G ∧ PlaneReg.run e svd (Demo.stackOps a) (OptDense.new PlaneReg.new) = .ok s ∧
      PlaneReg.run e svd (Demo.raisedOps a) (OptDense.new PlaneReg.new) = .ok s' ∧ Reframed G s.obj s'.obj ∧
      s.obj.error e = .ok (err, o) ∧ s'.obj.error e = .ok (err', o') ∧ 0 < err ∧ err' ≤ err / 2 := by
  obtain ⟨h1, -⟩ := error_value (e := e) (Demo.stackReg_prepared a) (le_refl 3)
  obtain ⟨h2, -⟩ := error_value (e := e) (Demo.raisedReg_prepared a) (le_refl 3)
  have e1 : errOf e (Demo.stackReg a).planes (Demo.stackReg a).traj = 1.52 := by
    have hD := he.1 _ (Demo.stack_sym (q := Demo.stackPlane) rfl (trajTo 3 (Demo.up 0)))
    have hle := Demo.stack_err_le he (q := Demo.stackPlane) rfl
    have h3 := hD.attains 0
    have h4 := hD.unit 0
    change planeErr e (List.replicate 3 SE3.default) Demo.stackPlane + 0 = _
    rw [add_zero, Demo.traj_stack]
    refine le_antisymm hle ?_
    rw [planeErr, ← h3]
    generalize (fun k => (e.eig4 (Plane.qList (trajTo 3 (Demo.up 0)) Demo.stackPlane.usedS).sum).vec k 0) = x at h4 ⊢
    rw [show Demo.stackPlane.usedS = Demo.stackPts.map sumOuter from rfl, Plane.quad_qList (Demo.lastRow_up 0), Demo.stack_cost]
    rw [Demo.sq4] at h4
    nlinarith [sq_nonneg (x (.inl 0)), sq_nonneg (x (.inl 1)), sq_nonneg (x (.inr ()))]
  have e2 : errOf e (Demo.raisedReg a).planes (Demo.raisedReg a).traj ≤ 0.76 := by
    change planeErr e (List.replicate 3 SE3.default) { Demo.stackPlane with points := Demo.raisedPts } + 0 ≤ _
    rw [add_zero, Demo.traj_stack, planeErr, show Plane.usedS { Demo.stackPlane with points := Demo.raisedPts } =
      Demo.raisedPts.map sumOuter from rfl]
    have h3 := (he.1 _ (Plane.qList_sum_transpose (traj := trajTo 3 (Demo.up 0)) (Plane.sym_map Demo.raisedPts))).le_quad
      (by simp [I4]) (Sum.elim ![0, 0, 1] fun _ => -1)
    rw [Plane.quad_qList (Demo.lastRow_up 0), Demo.raised_cost, Demo.sq4] at h3
    simp at h3
    linarith
  refine ⟨_, _, _, _, _, _, _, Demo.up_rigid 1, Demo.stackOps_run e svd a, Demo.raisedOps_run e svd a, Demo.raised, h1, h2, ?_, ?_⟩
  · rw [e1]; norm_num
  · rw [e1]; linarith

/-- The problems meet the hypotheses of the comparison. -/
example (a : ℝ) : ∃ (e : EigSolver) (G : Mat4) (s s' : PlaneReg), e.Sound ∧ IsRigid G ∧ Reframed G s s' ∧ s.PoseInv ∧
    s'.PoseInv ∧ s.numberPoses ≠ 0 ∧ s.Prepared ∧ s'.Prepared ∧ (∀ T ∈ s.traj, IsRigid T.T) ∧ s.planes ≠ [] := by
  obtain ⟨e, he⟩ := exists_sound
  refine ⟨e, _, Demo.stackReg a, Demo.raisedReg a, he, Demo.up_rigid 1, Demo.raised,
    run_inv new_inv (Demo.stackOps_run e (fun _ => ⟨1, 0, 1⟩) a), run_inv new_inv (Demo.raisedOps_run e (fun _ => ⟨1, 0, 1⟩) a),
    show 3 ≠ 0 by decide, Demo.stackReg_prepared a, Demo.raisedReg_prepared a, ?_, List.cons_ne_nil _ _⟩
  intro T hT
  rw [List.eq_of_mem_replicate (show T ∈ List.replicate 3 SE3.default from hT)]
  exact rigid_default

namespace Demo

/-! ### A turned frame -/

/-- Points of one plane seen from two poses. -/
noncomputable def terracePts : List (List Vec3) := [level 0, level (1 / 2)]

/-- A registration of one plane with the given points. -/
noncomputable def terraceReg (pts : List (List Vec3)) (a : ℝ) : PlaneReg :=
  { PlaneReg.new with
    numberPlanes := 1
    numberPoses := 2
    planes := [(0, { Plane.new 2 with points := pts, numberPoints := 8 })]
    traj := List.replicate 2 SE3.default
    prev := List.replicate 2 0
    alpha := a }

/-- The calls. -/
noncomputable def terraceOps (a : ℝ) : List Op :=
  [.setNumbers 1 2, .addNewPlane 0] ++ (level 0).map (.pushPoint 0 0 ·) ++ (level (1 / 2)).map (.pushPoint 0 1 ·) ++ [.setAlpha a]

theorem terraceOps_run (e : EigSolver) (svd : Mat3 → SVD3) (a : ℝ) :
    PlaneReg.run e svd (terraceOps a) (OptDense.new PlaneReg.new) =
      .ok { OptDense.new PlaneReg.new with obj := terraceReg terracePts a } := rfl

theorem terrace_cost (c : ℝ) (x : Vec4) : planeCost x ([SE3.default, up c].map SE3.T) terracePts =
    8 * x (.inl 0) ^ 2 + 8 * x (.inl 1) ^ 2 + 4 * ((1 / 2 + c) * x (.inl 2) + x (.inr ())) ^ 2 + 4 * x (.inr ()) ^ 2 := by
  simp [planeCost, terracePts, level, cloudCost, up, SE3.default, planeEval, movePoint, homog, Fin.sum_univ_three, Matrix.one_apply]
  ring

/-- The best plane of the terrace, for all heights of the second pose. -/
theorem terrace_best {c : ℝ} {pl : Vec4} (h : BestPlane ([SE3.default, up c].map SE3.T) terracePts pl) :
    ∃ l < 8, planeCost pl ([SE3.default, up c].map SE3.T) terracePts = l ∧
      ∀ x : Vec4, l * (x ⬝ᵥ x) ≤ planeCost x ([SE3.default, up c].map SE3.T) terracePts := by
  obtain ⟨h1, h2⟩ := h
  have h3 : ∀ x : Vec4, planeCost pl ([SE3.default, up c].map SE3.T) terracePts * (x ⬝ᵥ x) ≤
      planeCost x ([SE3.default, up c].map SE3.T) terracePts := by
    intro x
    by_cases hx : x ⬝ᵥ x = 0
    · rw [hx, mul_zero]
      exact planeCost_nonneg _ _ _
    · have h0 : 0 ≤ x ⬝ᵥ x := by rw [sq4]; positivity
      have hs := Real.sq_sqrt h0
      have hr : Real.sqrt (x ⬝ᵥ x) ≠ 0 := fun h => hx (by rw [← hs, h]; norm_num)
      have h4 := h2 ((Real.sqrt (x ⬝ᵥ x))⁻¹ • x) (by
        rw [Unit4, smul_dotProduct, dotProduct_smul, smul_eq_mul, smul_eq_mul]
        field_simp
        exact hs.symm)
      have h5 : planeCost ((Real.sqrt (x ⬝ᵥ x))⁻¹ • x) ([SE3.default, up c].map SE3.T) terracePts =
          (x ⬝ᵥ x)⁻¹ * planeCost x ([SE3.default, up c].map SE3.T) terracePts := by
        rw [terrace_cost, terrace_cost]
        simp only [Pi.smul_apply, smul_eq_mul]
        conv_rhs => rw [← hs]
        field_simp
      rw [h5] at h4
      have h6 : 0 < x ⬝ᵥ x := lt_of_le_of_ne h0 (Ne.symm hx)
      calc _ ≤ (x ⬝ᵥ x)⁻¹ * planeCost x ([SE3.default, up c].map SE3.T) terracePts * (x ⬝ᵥ x) :=
            mul_le_mul_of_nonneg_right h4 h0
        _ = _ := by field_simp
  refine ⟨_, ?_, rfl, h3⟩
  by_contra hl
  rw [not_lt] at hl
  set l := planeCost pl ([SE3.default, up c].map SE3.T) terracePts
  have h7 := h3 (Sum.elim ![0, 0, (1 / 2 + c)] fun _ => -((1 / 2 + c) ^ 2 + 1))
  have h8 := h3 (Sum.elim ![0, 0, 1] fun _ => 0)
  rw [terrace_cost, sq4] at h7 h8
  simp at h7 h8
  set u := 2⁻¹ + c
  nlinarith [sq_nonneg u, sq_nonneg (u ^ 2), mul_nonneg (sub_nonneg.mpr hl) (sq_nonneg u)]

theorem terrace_level {c : ℝ} {pl : Vec4} (h : BestPlane ([SE3.default, up c].map SE3.T) terracePts pl) :
    pl (.inl 0) = 0 ∧ pl (.inl 1) = 0 := by
  obtain ⟨l, hl, h1, h2⟩ := terrace_best h
  have h3 := h2 (Sum.elim ![0, 0, pl (.inl 2)] fun _ => pl (.inr ()))
  have h4 : pl ⬝ᵥ pl = 1 := h.1
  rw [terrace_cost] at h1 h3
  rw [sq4] at h3 h4
  simp at h3
  have h5 : (8 - l) * (pl (.inl 0) ^ 2 + pl (.inl 1) ^ 2) ≤ 0 := by
    have : pl (.inl 2) ^ 2 + pl (.inr ()) ^ 2 = 1 - pl (.inl 0) ^ 2 - pl (.inl 1) ^ 2 := by linarith
    rw [this] at h3
    linarith
  have h6 : pl (.inl 0) ^ 2 + pl (.inl 1) ^ 2 ≤ 0 := by
    by_contra hc
    exact absurd h5 (not_le.mpr (mul_pos (by linarith) (not_le.mp hc)))
  constructor
  · nlinarith [sq_nonneg (pl (.inl 0)), sq_nonneg (pl (.inl 1))]
  · nlinarith [sq_nonneg (pl (.inl 0)), sq_nonneg (pl (.inl 1))]

theorem terrace_unique {c : ℝ} {pl pl' : Vec4} (h : BestPlane ([SE3.default, up c].map SE3.T) terracePts pl)
    (h' : BestPlane ([SE3.default, up c].map SE3.T) terracePts pl') : pl' = pl ∨ pl' = -pl := by
  obtain ⟨l, hl, h1, h2⟩ := terrace_best h
  obtain ⟨a0, a1⟩ := terrace_level h
  obtain ⟨b0, b1⟩ := terrace_level h'
  have h1' : planeCost pl' ([SE3.default, up c].map SE3.T) terracePts = l :=
    le_antisymm ((h'.2 pl h.1).trans_eq h1) (h1.symm.trans_le (h.2 pl' h'.1))
  have u : pl ⬝ᵥ pl = 1 := h.1
  have u' : pl' ⬝ᵥ pl' = 1 := h'.1
  rw [terrace_cost] at h1 h1'
  rw [sq4, a0, a1] at u
  rw [sq4, b0, b1] at u'
  rw [a0, a1] at h1
  rw [b0, b1] at h1'
  set n := pl (.inl 2) with hn
  set d := pl (.inr ()) with hd
  set n' := pl' (.inl 2) with hn'
  set d' := pl' (.inr ()) with hd'
  have k1 := h2 (Sum.elim ![0, 0, n' * n + n * n'] fun _ => n' * d + n * d')
  have k2 := h2 (Sum.elim ![0, 0, n' * n - n * n'] fun _ => n' * d - n * d')
  rw [terrace_cost, sq4] at k1 k2
  simp at k1 k2
  have k3 : 8 * (n' * d - n * d') ^ 2 - l * (n' * d - n * d') ^ 2 ≤ 0 := by
    have : (8 * (n' * d - n * d') ^ 2 - l * (n' * d - n * d') ^ 2) +
        (4 * ((2⁻¹ + c) * (n' * n + n * n') + (n' * d + n * d')) ^ 2 + 4 * (n' * d + n * d') ^ 2 -
          l * ((n' * n + n * n') ^ 2 + (n' * d + n * d') ^ 2)) = 0 := by
      have v1 : 4 * ((2⁻¹ + c) * n + d) ^ 2 + 4 * d ^ 2 = l * (n ^ 2 + d ^ 2) := by
        have : n ^ 2 + d ^ 2 = 1 := by linarith
        rw [this, mul_one, ← h1]; norm_num
      have v2 : 4 * ((2⁻¹ + c) * n' + d') ^ 2 + 4 * d' ^ 2 = l * (n' ^ 2 + d' ^ 2) := by
        have : n' ^ 2 + d' ^ 2 = 1 := by linarith
        rw [this, mul_one, ← h1']; norm_num
      linear_combination 2 * n' ^ 2 * v1 + 2 * n ^ 2 * v2
    linarith
  have k4 : n' * d - n * d' = 0 := by
    have : (8 - l) * (n' * d - n * d') ^ 2 ≤ 0 := by linarith
    by_contra hc
    exact absurd this (not_le.mpr (mul_pos (by linarith) (by positivity)))
  have k5 : n' ^ 2 = n ^ 2 := by
    linear_combination n' ^ 2 * (-u) + n ^ 2 * u' + k4 * (n' * d + n * d')
  have k6 : d' ^ 2 = d ^ 2 := by linarith
  have n0 : n ≠ 0 := by
    intro h0
    rw [h0] at h1 u
    nlinarith
  rcases sq_eq_sq_iff_eq_or_eq_neg.mp k5 with e | e
  · left
    have : d' = d := by
      rw [e] at k4
      have := mul_left_cancel₀ n0 (sub_eq_zero.mp k4)
      exact this.symm
    funext i
    rcases i with i | ⟨⟩
    · fin_cases i
      · exact b0.trans a0.symm
      · exact b1.trans a1.symm
      · exact e
    · exact this
  · right
    have : d' = -d := by
      rw [e] at k4
      have : n * (-d - d') = 0 := by linarith
      rcases mul_eq_zero.mp this with h | h
      · exact absurd h n0
      · linarith
    funext i
    rcases i with i | ⟨⟩
    · fin_cases i
      · rw [Pi.neg_apply]; exact b0.trans (by rw [show pl (.inl ⟨0, _⟩) = 0 from a0, neg_zero])
      · rw [Pi.neg_apply]; exact b1.trans (by rw [show pl (.inl ⟨1, _⟩) = 0 from a1, neg_zero])
      · exact e
    · exact this

/-- The states passed by the loop: the second pose moves up and down. -/
structure Terrace (s : PlaneReg) : Prop where
  posed : s.Posed
  two : s.numberPoses = 2
  traj : ∃ c, s.traj = [SE3.default, up c]
  planes : ∃ q, s.planes = [(0, q)] ∧ q.points = terracePts

theorem Terrace.unique {s : PlaneReg} (h : Terrace s) : UniquePlanes s := by
  obtain ⟨c, hc⟩ := h.traj
  obtain ⟨q, hq, hp⟩ := h.planes
  intro q' hq' pl pl' h1 h2
  rw [hq] at hq'
  obtain rfl := List.mem_singleton.mp hq'
  rw [hc] at h1 h2
  dsimp only at h1 h2
  rw [hp] at h1 h2
  exact terrace_unique h1 h2

theorem terrace_grad {pl : Vec4} (h0 : pl (.inl 0) = 0) (h1 : pl (.inl 1) = 0) (c : ℝ) : ∃ g : ℝ,
    (fun i => pl ⬝ᵥ (gradOf ((up c).T * sumOuter (level (1 / 2)) * (up c).Tᵀ) i *ᵥ pl)) = vec6 0 ![0, 0, g] := by
  refine ⟨8 * pl (.inl 2) * ((1 / 2 + c) * pl (.inl 2) + pl (.inr ())), dotProduct_eq _ _ fun xi => ?_⟩
  rw [grad_dot]
  simp only [add_mulVec, dotProduct_add, quad_pair]
  obtain ⟨w, v, rfl⟩ : ∃ w v, xi = vec6 w v := ⟨_, _, (vec6_eta xi).symm⟩
  rw [hat6_eq, head3_vec6, tail3_vec6]
  simp [level, hat3, homPt, homog, up, mulVec, dotProduct, Matrix.mul_apply, Fintype.sum_sum_type,
    Fin.sum_univ_three, Matrix.one_apply, vec6, h0, h1]
  ring

theorem Terrace.step {e : EigSolver} (he : e.Sound) {s s1 : PlaneReg} (h : Terrace s) {err : ℝ}
    (hs : s.allPosesStep e = .ok (err, s1)) (k : ℕ) : Terrace { s1 with solveIters := k } := by
  have p1 := h.posed.step hs
  obtain ⟨-, -, k3, k4, k5⟩ := allPosesStep_value h.posed.pose h.posed.prep h.posed.two hs
  obtain ⟨c, hc⟩ := h.traj
  obtain ⟨q, hq, hp⟩ := h.planes
  have hm : (0, q) ∈ s.planes := by rw [hq]; exact List.mem_singleton.mpr rfl
  refine ⟨⟨p1.pose.frame rfl rfl rfl, p1.prep, p1.two, p1.last⟩, k4.trans h.two, ?_, ?_⟩
  · have hb := planeOf_best he h.posed.prep h.posed.last hm
    rw [hc] at hb
    dsimp only at hb
    rw [hp] at hb
    obtain ⟨z0, z1⟩ := terrace_level hb
    have hn0 : s.poseNow 0 = SE3.default := by rw [poseNow, hc]; rfl
    have hn1 : s.poseNow 1 = up c := by rw [poseNow, hc]; rfl
    have hg : ∃ g : ℝ, s.poseGrad e 1 = vec6 0 ![0, 0, g] := by
      have := gAt_dot (e := e) h.posed.prep (by rw [hc, h.two]; rfl) hm (t := 1) (by rw [h.two]; norm_num)
      rw [hn1, show (0, q).2.cloudAt 1 = level (1 / 2) by rw [Plane.cloudAt]; dsimp only; rw [hp]; rfl] at this
      obtain ⟨g, hg⟩ := terrace_grad z0 z1 c
      exact ⟨g, by rw [poseGrad, hq, List.map_singleton, List.sum_singleton]; exact this.trans hg⟩
    obtain ⟨g, hg⟩ := hg
    set r := s.alpha / s.seen (s.numberPoses - 1) / s.numberPoses
    refine ⟨c - r * g, ?_⟩
    change s1.traj = _
    rw [k5, movedTraj, h.two]
    change [(s.poseNow 0).updateLhs 0, (s.poseNow 1).updateLhs (-(r • s.poseGrad e 1))] = _
    rw [updateLhs_zero', hn0, hn1, hg]
    have : -(r • vec6 0 ![0, 0, g]) = (1 : ℝ) • vec6 0 ![0, 0, -(r * g)] := by
      funext i
      rcases i with i | i <;> fin_cases i <;> simp [vec6]
    rw [this, up, updateLhs_homog_translation, up]
    congr 4
    funext i
    fin_cases i <;> simp
    ring
  · have h1 := forall2_points k3
    rw [hq] at h1
    obtain ⟨q', l, hq', hl, h2⟩ := List.forall₂_cons_left_iff.mp h1
    cases hl
    refine ⟨q'.2, ?_, hq'.2.trans hp⟩
    change s1.planes = _
    rw [h2]
    exact congrArg (fun x => [x]) (Prod.ext hq'.1 rfl)

/-- A quarter turn about the first axis. -/
def tipped : Mat3 := !![1, 0, 0; 0, 0, -1; 0, 1, 0]

theorem tipped_rot : IsRotation tipped := by
  constructor
  · ext i j
    fin_cases i <;> fin_cases j <;> simp [tipped, Matrix.mul_apply, Fin.sum_univ_three]
  · simp [tipped, det_fin_three]

theorem terraceReg_inv {pts : List (List Vec3)} (a : ℝ) : (terraceReg pts a).PoseInv :=
  ⟨show 2 < 2 ^ 32 by norm_num, fun _ => rfl, fun _ => rfl, fun h => absurd (show 2 = 1 from h) (by norm_num)⟩

theorem terraceReg_prepared {pts : List (List Vec3)} (hl : pts.length = 2) (a : ℝ) : (terraceReg pts a).Prepared := by
  intro q hq
  obtain rfl : q = (0, { Plane.new 2 with points := pts, numberPoints := 8 }) := List.mem_singleton.mp hq
  exact ⟨⟨hl, Or.inl rfl⟩, Or.inl rfl, rfl⟩

end Demo

/-- The problem of two poses seeing a level square, and the same with the points turned by a quarter turn, meet the hypotheses. -/
example (e : EigSolver) (he : e.Sound) (a : ℝ) (single : Bool) : ∃ (s s' s1 : PlaneReg), Reframed (homog Demo.tipped 0 1) s s' ∧
    IsRotation Demo.tipped ∧ s.PoseInv ∧ s'.PoseInv ∧ 2 ≤ s.numberPoses ∧ s.Prepared ∧ s'.Prepared ∧
    (∀ T ∈ s.traj, IsRigid T.T) ∧ Demo.Terrace { s with solveIters := 0 } ∧
    (∀ o, Demo.Terrace o → UniquePlanes o ∧ ∀ err o' k, o.allPosesStep e = .ok (err, o') → Demo.Terrace { o' with solveIters := k }) ∧
    s.gradientAllPoses e single = .ok s1 := by
  have hr : ∀ T ∈ (Demo.terraceReg Demo.terracePts a).traj, IsRigid T.T := by
    intro T hT
    rw [List.eq_of_mem_replicate (show T ∈ List.replicate 2 SE3.default from hT)]
    exact rigid_default
  have ht : Demo.Terrace { Demo.terraceReg Demo.terracePts a with solveIters := 0 } := by
    refine ⟨⟨(Demo.terraceReg_inv a).frame rfl rfl rfl, Demo.terraceReg_prepared rfl a, le_refl 2, fun T hT => (hr T hT).lastRow⟩,
      rfl, ⟨0, ?_⟩, _, rfl, rfl⟩
    rw [Demo.up_zero]
    rfl
  obtain ⟨s1, hs1⟩ := gradLoop_total (I := Demo.Terrace) (step := allPosesStep e) (single := single)
    (fun s k h => ⟨⟨h.posed.pose.frame rfl rfl rfl, h.posed.prep, h.posed.two, h.posed.last⟩, h.two, h.traj, h.planes⟩)
    (fun s h => by
      obtain ⟨err, s1, h1⟩ := allPosesStep_total (e := e) h.posed.pose h.posed.prep h.posed.two (by
        obtain ⟨q, hq, hp⟩ := h.planes
        rw [h.two, seen, hq]
        simp [Plane.cloudAt, hp, Demo.terracePts, Demo.level])
      have := h.step he h1 s1.solveIters
      exact ⟨(err, s1), h1, this⟩) _ 0 1e20 _ rfl ht
  refine ⟨Demo.terraceReg Demo.terracePts a, Demo.terraceReg (Demo.terracePts.map (List.map (movePoint (homog Demo.tipped 0 1)))) a,
    s1, ⟨rfl, rfl, ?_, ?_⟩, Demo.tipped_rot, Demo.terraceReg_inv a, Demo.terraceReg_inv a, le_refl 2,
    Demo.terraceReg_prepared rfl a, Demo.terraceReg_prepared rfl a, hr, ht, fun o ho => ⟨ho.unique, fun err o' k h => ho.step he h k⟩,
    hs1⟩
  · refine List.map_congr_left fun T hT => ?_
    rw [List.eq_of_mem_replicate (show T ∈ List.replicate 2 SE3.default from hT)]
    change (1 : Mat4) = _ * 1 * _
    rw [Matrix.mul_one, mul_eq_one_comm.mp (rigid_inv_mul (isRigid_homog Demo.tipped_rot 0))]
  · exact .cons ⟨rfl, rfl⟩ .nil

end Mrob
