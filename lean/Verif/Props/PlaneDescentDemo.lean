import Verif.Props.PlaneDescent

/-! # Property C90: a step of the interpolated gradient which increases the error for all step sizes -/

open Matrix

namespace Mrob

open Spec PlaneReg

namespace Demo

/-- The corners of a square at height `z`. -/
def level (z : ℝ) : List Vec3 := [![1, 1, z], ![1, -1, z], ![-1, 1, z], ![-1, -1, z]]

/-- Points of one plane seen from three poses, the middle one seeing more of them. -/
noncomputable def stackPts : List (List Vec3) := [level (-2 / 5), level (3 / 10) ++ level (3 / 10), level (-1 / 5)]

/-- The plane. -/
noncomputable def stackPlane : Plane := { Plane.new 3 with points := stackPts, numberPoints := 16 }

/-- The calls: one plane, three poses. -/
noncomputable def stackOps (a : ℝ) : List Op :=
  [.setNumbers 1 3, .addNewPlane 0] ++ (level (-2 / 5)).map (.pushPoint 0 0 ·) ++
    (level (3 / 10) ++ level (3 / 10)).map (.pushPoint 0 1 ·) ++ (level (-1 / 5)).map (.pushPoint 0 2 ·) ++ [.setAlpha a]

/-- The object built by the calls. -/
noncomputable def stackReg (a : ℝ) : PlaneReg :=
  { PlaneReg.new with
    numberPlanes := 1
    numberPoses := 3
    planes := [(0, stackPlane)]
    traj := List.replicate 3 SE3.default
    prev := List.replicate 3 0
    alpha := a }

theorem stackOps_run (e : EigSolver) (svd : Mat3 → SVD3) (a : ℝ) :
    PlaneReg.run e svd (stackOps a) (OptDense.new PlaneReg.new) = .ok { OptDense.new PlaneReg.new with obj := stackReg a } := rfl

/-- A pose at height `d`. -/
noncomputable def up (d : ℝ) : SE3 := ⟨homog 1 ![0, 0, d] 1⟩

theorem up_zero : up 0 = SE3.default := by
  rw [up, SE3.default, ← homog_one]
  congr 2
  funext i
  fin_cases i <;> rfl

theorem trajTo_up (d : ℝ) : trajTo 3 (up d) = [SE3.default, up (d / 2), up d] := by
  have h1 : trajTo 3 (up d) = [SE3.default, SE3.ofVec (((1 : ℕ) / ((3 : ℕ) - 1) : ℝ) • (up d).lnVee), up d] := rfl
  rw [h1, up, interp_at, up]
  congr 4
  funext i
  fin_cases i <;> simp
  ring

theorem traj_stack : List.replicate 3 SE3.default = trajTo 3 (up 0) := by
  rw [trajTo_up, zero_div, up_zero]
  rfl

theorem lastRow_up (d : ℝ) : ∀ T ∈ trajTo 3 (up d), LastRow T.T := by
  intro T hT
  have hR : ∀ v, LastRow (homog 1 v 1) := fun v => (isRigid_homog isRotation_one v).lastRow
  rw [trajTo_up] at hT
  simp only [List.mem_cons, List.not_mem_nil, or_false] at hT
  rcases hT with rfl | rfl | rfl
  · exact rigid_default.lastRow
  · exact hR _
  · exact hR _

theorem stack_cost (d : ℝ) (x : Vec4) : planeCost x ((trajTo 3 (up d)).map SE3.T) stackPts =
    16 * x (.inl 0) ^ 2 + 16 * x (.inl 1) ^ 2 + (1.52 + 0.8 * d + 6 * d ^ 2) * x (.inl 2) ^ 2 +
      16 * d * x (.inl 2) * x (.inr ()) + 16 * x (.inr ()) ^ 2 := by
  rw [trajTo_up]
  simp [planeCost, stackPts, level, cloudCost, up, SE3.default, planeEval, movePoint, homog, Fin.sum_univ_three, Matrix.one_apply]
  ring

theorem stack_sym {q : Plane} (hq : q.usedS = stackPts.map sumOuter) (traj : List SE3) :
    (Plane.qList traj q.usedS).sumᵀ = (Plane.qList traj q.usedS).sum := by
  rw [hq]
  exact Plane.qList_sum_transpose (Plane.sym_map _)

theorem sq4 (x : Vec4) : x ⬝ᵥ x = x (.inl 0) ^ 2 + x (.inl 1) ^ 2 + x (.inl 2) ^ 2 + x (.inr ()) ^ 2 := by
  simp [dotProduct, Fintype.sum_sum_type, Fin.sum_univ_three, pow_two]

theorem stack_err_le {e : EigSolver} (he : e.Sound) {q : Plane} (hq : q.usedS = stackPts.map sumOuter) :
    planeErr e (trajTo 3 (up 0)) q ≤ 1.52 := by
  have h1 := (he.1 _ (stack_sym hq (trajTo 3 (up 0)))).le_quad (by simp [I4]) (Sum.elim ![0, 0, 1] fun _ => 0)
  rw [hq, Plane.quad_qList (lastRow_up 0), stack_cost, sq4] at h1
  rw [planeErr, hq]
  simpa using h1

theorem stack_err_lt {e : EigSolver} (he : e.Sound) {q : Plane} (hq : q.usedS = stackPts.map sumOuter) {d : ℝ} (hd : 0 < d) :
    1.52 < planeErr e (trajTo 3 (up d)) q := by
  have hD := he.1 _ (stack_sym hq (trajTo 3 (up d)))
  have h1 := hD.attains 0
  have h2 := hD.unit 0
  set x : Vec4 := fun k => (e.eig4 (Plane.qList (trajTo 3 (up d)) q.usedS).sum).vec k 0 with hx
  rw [sq4] at h2
  have h3 : x ⬝ᵥ ((Plane.qList (trajTo 3 (up d)) q.usedS).sum *ᵥ x) = planeErr e (trajTo 3 (up d)) q := h1
  rw [← h3]
  rw [hq, Plane.quad_qList (lastRow_up d), stack_cost]
  by_cases hz : x (.inl 2) = 0
  · rw [hz] at h2 ⊢
    nlinarith
  · have : 0 < d * x (.inl 2) ^ 2 := mul_pos hd (by positivity)
    nlinarith [sq_nonneg (x (.inl 0)), sq_nonneg (x (.inl 1)), sq_nonneg (x (.inr ())), sq_nonneg (3 * d * x (.inl 2) + 4 * x (.inr ()))]

/-- The estimated plane is `z = 0`. -/
theorem stack_plane {e : EigSolver} (he : e.Sound) {s : PlaneReg} (hs : s.traj = trajTo 3 (up 0)) {q : Plane}
    (hq : q.usedS = stackPts.map sumOuter) : ∃ c : ℝ, c ^ 2 = 1 ∧ planeOf e s q = Sum.elim ![0, 0, c] fun _ => 0 := by
  have hD := he.1 _ (stack_sym hq (trajTo 3 (up 0)))
  have h1 := hD.attains 0
  have h2 := hD.unit 0
  have hle := stack_err_le he hq
  set x : Vec4 := fun k => (e.eig4 (Plane.qList (trajTo 3 (up 0)) q.usedS).sum).vec k 0 with hx
  rw [sq4] at h2
  have h3 : x ⬝ᵥ ((Plane.qList (trajTo 3 (up 0)) q.usedS).sum *ᵥ x) = planeErr e (trajTo 3 (up 0)) q := h1
  rw [← h3, hq, Plane.quad_qList (lastRow_up 0), stack_cost] at hle
  have hp : planeOf e s q = x := by rw [planeOf, hs]; rfl
  have z0 : x (.inl 0) = 0 := by
    apply pow_eq_zero_iff (n := 2) (by norm_num) |>.mp
    nlinarith [sq_nonneg (x (.inl 0)), sq_nonneg (x (.inl 1)), sq_nonneg (x (.inr ()))]
  have z1 : x (.inl 1) = 0 := by
    apply pow_eq_zero_iff (n := 2) (by norm_num) |>.mp
    nlinarith [sq_nonneg (x (.inl 0)), sq_nonneg (x (.inl 1)), sq_nonneg (x (.inr ()))]
  have z3 : x (.inr ()) = 0 := by
    apply pow_eq_zero_iff (n := 2) (by norm_num) |>.mp
    nlinarith [sq_nonneg (x (.inl 0)), sq_nonneg (x (.inl 1)), sq_nonneg (x (.inr ()))]
  refine ⟨x (.inl 2), by rw [z0, z1, z3] at h2; linarith, ?_⟩
  rw [hp]
  funext i
  rcases i with i | i
  · fin_cases i <;> simp [z0, z1]
  · simpa using z3

theorem stack_seen {s : PlaneReg} {q : Plane} (hps : s.planes = [(0, q)]) (hq : q.points = stackPts) :
    s.seen 1 = 8 ∧ s.seen 2 = 4 := by
  rw [seen, seen, hps]
  simp [Plane.cloudAt, hq, stackPts, level]

theorem poseNow_default {s : PlaneReg} {n : ℕ} (hs : s.traj = List.replicate n SE3.default) (t : ℕ) : s.poseNow t = SE3.default := by
  rw [poseNow, hs, List.getElem?_replicate]
  split_ifs <;> rfl

/-- The gradients of the middle pose and of the last pose have opposite signs; the mean gradient, in which each point of the
middle pose counts half, has the sign of the last one. -/
theorem stack_acc {e : EigSolver} (he : e.Sound) {s : PlaneReg} (hn : s.numberPoses = 3)
    (hs : s.traj = List.replicate 3 SE3.default) (hp : s.Prepared) {q : Plane} (hps : s.planes = [(0, q)])
    (hq : q.points = stackPts) : s.accOf e = vec6 0 ![0, 0, -1 / 30] := by
  have hmem : (0, q) ∈ s.planes := by rw [hps]; exact List.mem_singleton.mpr rfl
  have hu : q.usedS = stackPts.map sumOuter := by rw [Plane.usedS_inSync (hp _ hmem).2.1, hq]
  obtain ⟨c, hc, hpl⟩ := stack_plane he (hs.trans traj_stack) hu
  have hg : ∀ t, t < 3 → s.poseGrad e t = fun i => planeOf e s q ⬝ᵥ
      (gradOf ((1 : Mat4) * sumOuter (q.cloudAt t) * (1 : Mat4)ᵀ) i *ᵥ planeOf e s q) := by
    intro t ht
    rw [poseGrad, hps, List.map_singleton, List.sum_singleton]
    have := gAt_dot (e := e) hp (by rw [hs, hn]; rfl) hmem (by rw [hn]; exact ht)
    rw [poseNow_default hs] at this
    exact this
  have ht : s.times = [1, 2] := by rw [times, hn]; rfl
  obtain ⟨s1, s2⟩ := stack_seen hps hq
  have hl : s.lastIdx = 2 := by rw [lastIdx, hn]; norm_num
  have c1 : q.cloudAt 1 = level (3 / 10) ++ level (3 / 10) := by rw [Plane.cloudAt, hq]; rfl
  have c2 : q.cloudAt 2 = level (-1 / 5) := by rw [Plane.cloudAt, hq]; rfl
  rw [accOf, ht]
  simp only [List.map_cons, List.map_nil, List.sum_cons, List.sum_nil, add_zero]
  rw [hg 1 (by norm_num), hg 2 (by norm_num), s1, s2, hn, tau, hl, c1, c2, hpl]
  have key : ∀ xi : Vec6, ((1 / ((2 : ℕ) : ℝ) * ((1 : ℕ) : ℝ) / ((8 : ℕ) : ℝ) / ((3 : ℕ) : ℝ)) • (fun i =>
        (Sum.elim ![0, 0, c] fun _ => 0 : Vec4) ⬝ᵥ (gradOf ((1 : Mat4) * sumOuter (level (3 / 10) ++ level (3 / 10)) * (1 : Mat4)ᵀ) i *ᵥ
          (Sum.elim ![0, 0, c] fun _ => 0 : Vec4))) +
      (1 / ((2 : ℕ) : ℝ) * ((2 : ℕ) : ℝ) / ((4 : ℕ) : ℝ) / ((3 : ℕ) : ℝ)) • (fun i =>
        (Sum.elim ![0, 0, c] fun _ => 0 : Vec4) ⬝ᵥ (gradOf ((1 : Mat4) * sumOuter (level (-1 / 5)) * (1 : Mat4)ᵀ) i *ᵥ
          (Sum.elim ![0, 0, c] fun _ => 0 : Vec4)))) ⬝ᵥ xi = vec6 0 ![0, 0, -1 / 30] ⬝ᵥ xi := by
    intro xi
    rw [add_dotProduct, smul_dotProduct, smul_dotProduct, grad_dot, grad_dot]
    simp only [add_mulVec, dotProduct_add, quad_pair]
    obtain ⟨w, v, rfl⟩ : ∃ w v, xi = vec6 w v := ⟨_, _, (vec6_eta xi).symm⟩
    rw [hat6_eq, head3_vec6, tail3_vec6]
    simp [level, hat3, homPt, homog, mulVec, dotProduct, Matrix.mul_apply, Fintype.sum_sum_type,
      Fin.sum_univ_three, Matrix.one_apply, vec6]
    linear_combination (-1 / 30) * v 2 * hc
  funext i
  have := key (Pi.single i 1)
  rwa [dotProduct_single, dotProduct_single, mul_one, mul_one] at this

end Demo

/-- C90 is false for `solve_interpolate_gradient` when the poses see different numbers of points: the gradient of each pose is
divided by the number of points it sees.  A first step increases the error, for every step size. -/
theorem C90_interpolated_fails (e : EigSolver) (he : e.Sound) (svd : Mat3 → SVD3) (a : ℝ) (ha : 0 < a) :
    ∃ s err o n s' err' o', PlaneReg.run e svd (Demo.stackOps a) (OptDense.new PlaneReg.new) = .ok s ∧
      s.obj.error e = .ok (err, o) ∧ solve e svd .gradientBengiosNag true s = .ok (n, s') ∧
      s'.obj.error e = .ok (err', o') ∧ err < err' := by
  have hi : PoseInv (Demo.stackReg a) := run_inv new_inv (Demo.stackOps_run e svd a)
  have hp : (Demo.stackReg a).Prepared := by
    intro q hq
    obtain rfl : q = (0, Demo.stackPlane) := List.mem_singleton.mp hq
    exact ⟨⟨rfl, Or.inl rfl⟩, Or.inl rfl, rfl⟩
  have hu : Demo.stackPlane.usedS = Demo.stackPts.map sumOuter := rfl
  have htr : (Demo.stackReg a).traj = List.replicate 3 SE3.default := rfl
  obtain ⟨h0, -⟩ := error_value (e := e) (s := Demo.stackReg a) hp (le_refl 3)
  obtain ⟨r, hr⟩ : ∃ r : PlaneReg, r = { Demo.stackReg a with mode := .gradientBengiosNag } := ⟨_, rfl⟩
  have hrp : r.Prepared := by rw [hr]; exact hp
  obtain ⟨h1, -⟩ := error_value (e := e) (s := r) hrp (by rw [hr]; exact le_refl 3)
  have hsame := (error_ok (fun q hq => (hrp q hq).1) h1).2.1
  obtain ⟨u, hud⟩ : ∃ u : PlaneReg, u = { r.estd e with initialError := errOf e r.planes r.traj, solveIters := 0 } := ⟨_, rfl⟩
  have hus : SamePlanes r u := by rw [hud]; exact hsame
  have hun : u.numberPoses = 3 := by rw [hud, estd, hr]; rfl
  have hut : u.traj = List.replicate 3 SE3.default := by rw [hud, estd, hr]; rfl
  have hua : u.alpha = a := by rw [hud, estd, hr]; rfl
  have hub : u.beta = 0.1 := by rw [hud, estd, hr]; rfl
  have huv : u.prev = List.replicate 3 0 := by rw [hud, estd, hr]; rfl
  have hum : u.mode = .gradientBengiosNag := by rw [hud, estd, hr]
  have hui : u.PoseInv := hi.frame (by rw [hun]; rfl) (by rw [hut]; rfl) (by rw [huv]; rfl)
  have hup : u.Prepared := hus.prepared hrp (by rw [hun, hr]; rfl)
  obtain ⟨q, hq⟩ : ∃ q, u.planes = [(0, q)] := by rw [hud, estd, hr]; exact ⟨_, rfl⟩
  have hqp : q.points = Demo.stackPts := by
    rw [SamePlanes, hq, hr] at hus
    change List.Forall₂ _ [(0, Demo.stackPlane)] _ at hus
    rw [List.forall₂_cons] at hus
    exact hus.1.2.2.2.1
  have hqm : (0, q) ∈ u.planes := by rw [hq]; exact List.mem_singleton.mpr rfl
  have hacc := Demo.stack_acc he hun hut hup hq hqp
  obtain ⟨k1, k2⟩ := Demo.stack_seen hq hqp
  obtain ⟨⟨err1, x⟩, hx, -⟩ := gradStep_total (e := e) (s := u) ⟨hui, fun q hq => (hup q hq).1, by rw [hun]; norm_num,
    fun q hq => (hup q hq).2.2, fun t h3 h4 => by
      rw [hun] at h4
      have : t = 1 ∨ t = 2 := by omega
      rcases this with rfl | rfl
      · rw [k1]; norm_num
      · rw [k2]; norm_num, by rw [huv]; exact List.cons_ne_nil _ _, Or.inr hum⟩
  obtain ⟨-, -, hsx, dxi, ps, prev, hx1, hx2⟩ := gradStep_value (T := SE3.default) hui hup (by rw [hun]; norm_num)
    (by rw [hut]; rfl) hx
  have hdxi : dxi = (1.1 * a / 30) • vec6 0 ![0, 0, 1] := by
    rcases hx2 with ⟨hm, -⟩ | ⟨-, v, hv, hd, -⟩
    · rw [hum] at hm; simp at hm
    · have hv : (0 : Vec6) = v := by rw [huv] at hv; exact Option.some.inj hv
      rw [hd, ← hv, hacc, hua, hub, smul_zero, zero_sub]
      funext i
      rcases i with i | i <;> fin_cases i <;> simp [vec6]
      ring
  have hxt : x.traj = trajTo 3 (Demo.up (1.1 * a / 30)) := by
    rw [hx1]
    change trajTo u.numberPoses _ = _
    rw [hun, hdxi, ← Demo.up_zero, Demo.up, updateLhs_homog_translation]
    rw [Demo.up]
    congr 3
    funext i
    fin_cases i <;> simp
  have hxp : x.Prepared := hsx.prepared hup (by rw [hx1])
  obtain ⟨y, hy⟩ : ∃ y : PlaneReg, y = { x with solveIters := 1 } := ⟨_, rfl⟩
  have hyp : y.Prepared := by rw [hy]; exact hxp
  obtain ⟨h5, -⟩ := error_value (e := e) (s := y) hyp (by
    rw [hy]
    change x.numberPoses ≤ x.traj.length
    rw [hxt, Demo.trajTo_up, hx1]
    exact hun.le)
  refine ⟨_, _, _, 0, { OptDense.new PlaneReg.new with obj := y }, _, _, Demo.stackOps_run e svd a, h0, ?_, h5, ?_⟩
  · rw [hy]
    refine solve_nag_single (s := { OptDense.new PlaneReg.new with obj := Demo.stackReg a }) (o := r.estd e) (err := err1) ?_ ?_
      (err0 := errOf e r.planes r.traj)
    · rw [← h1, hr]
    · rw [← hx, hud]
  · have e1 : errOf e (Demo.stackReg a).planes (Demo.stackReg a).traj ≤ 1.52 := by
      rw [htr, Demo.traj_stack]
      change (planeErr e (trajTo 3 (Demo.up 0)) Demo.stackPlane + 0) ≤ _
      rw [add_zero]
      exact Demo.stack_err_le he hu
    have e2 : errOf e y.planes y.traj = errOf e [(0, q)] (trajTo 3 (Demo.up (1.1 * a / 30))) := by
      rw [← hq, ← hxt, hy]
      exact hsx.errOf _
    rw [e2]
    refine e1.trans_lt ?_
    change _ < planeErr e (trajTo 3 (Demo.up (1.1 * a / 30))) q + 0
    rw [add_zero]
    exact Demo.stack_err_lt he (by rw [Plane.usedS_inSync (hup _ hqm).2.1, hqp]) (by positivity)

end Mrob
