import Verif.Lemmas.Nesterov
import Verif.Props.PlaneDescentDemo

/-! # Property C91: the momentum mode of the plane registration is Nesterov's method -/

open Matrix

namespace Mrob

open Spec PlaneReg

/-- C91: started without momentum, `solve_interpolate_gradient` in the mode `GRADIENT_BENGIOS_NAG` follows the points at which
Nesterov's method evaluates the gradient.  The gradient is the sum over the poses of the derivatives `G k t` of the cost of
the estimated planes, with weight `t / ((n-1) * n * points seen)`.  The last pose moves, from the left, by the differences of
these points; the other poses are interpolated; the stored momentum is the velocity.  Missing: an object which has momentum
from an earlier call (`C91_restart_fails`). -/
theorem C91_nesterov_partial (e : EigSolver) (single : Bool) (s s' : PlaneReg) (hi : s.PoseInv) (hp : s.Prepared)
    (hn : 2 ≤ s.numberPoses) (ht : ∀ T ∈ s.traj, LastRow T.T) (hm : s.mode = .gradientBengiosNag)
    (hv : s.prev.getLast? = some 0) (h : s.interpolateGradient e single = .ok s') :
    ∃ (o : ℕ → PlaneReg) (G : ℕ → ℕ → Vec6) (g x v : ℕ → Vec6), o 0 = { s with solveIters := 0 } ∧ o s'.solveIters = s' ∧
      Nesterov s.alpha s.beta g x v ∧
      (∀ k < s'.solveIters, g k = ∑ t ∈ Finset.Ico 1 s.numberPoses,
        ((t : ℝ) / (s.numberPoses - 1) / (s.seen t) / s.numberPoses) • G k t) ∧
      (∀ k < s'.solveIters, ∀ t < s.numberPoses, ∀ xi : Vec6,
        HasDerivAt (fun r : ℝ => ((o k).planes.map fun q => planeCost (planeOf e (o k) q.2)
          (((o k).traj.modify t fun T => T.updateLhs (r • xi)).map SE3.T) q.2.points).sum) (G k t ⬝ᵥ xi) 0) ∧
      ∀ k < s'.solveIters, (o (k + 1)).prev.getLast? = some (v (k + 1)) ∧ ∃ T, (o k).traj.getLast? = some T ∧
        (o (k + 1)).traj = trajTo s.numberPoses
          (T.updateLhs (lookAhead s.beta x v (k + 1) - lookAhead s.beta x v k)) := by
  rw [interpolateGradient] at h
  obtain ⟨n, o, err, h1, -, h2, -, h3, h4, -⟩ := gradLoop_trace _ 0 1e20 { s with solveIters := 0 } s' rfl h
  rw [zero_add] at h1
  set g : ℕ → Vec6 := fun k => (o k).accOf e with hg
  set v := velo s.alpha s.beta g with hvd
  set x := posn s.alpha s.beta g with hxd
  have key : ∀ k ≤ n, (o k).Momentum s.numberPoses s.alpha s.beta ∧ (o k).prev.getLast? = some (v k) ∧
      SamePlanes s (o k) := by
    intro k
    induction k with
    | zero =>
      intro _
      rw [h2]
      exact ⟨⟨hi.frame rfl rfl rfl, hp, rfl, hm, rfl, rfl, ht⟩, hv, SamePlanes.refl fun q hq => (hp q hq).1⟩
    | succ k ih =>
      intro hk
      obtain ⟨m1, m2, m3⟩ := ih (by omega)
      obtain ⟨y, hy, ho⟩ := h4 k (by omega)
      obtain ⟨n1, n2, -⟩ := m1.step hn m2 hy
      rw [ho]
      refine ⟨n1.iters _, n2, m3.trans ?_⟩
      obtain ⟨T, hT⟩ : ∃ T, (o k).traj.getLast? = some T := by
        have hl := m1.pose.len (by rw [m1.num]; omega)
        rw [List.getLast?_eq_getElem?, hl, m1.num]
        exact ⟨_, List.getElem?_eq_getElem (by rw [hl, m1.num]; omega)⟩
      exact (gradStep_value m1.pose m1.prep (by rw [m1.num]; exact hn) hT hy).2.2.1
  rw [h1]
  refine ⟨o, fun k t => (o k).poseGrad e t, g, x, v, h2, h3, nesterov_velo _ _ _, fun k hk => ?_, fun k hk t htn xi => ?_,
    fun k hk => ?_⟩
  · obtain ⟨m1, -, m3⟩ := key k hk.le
    have := accOf_sum (e := e) m1.pose (by rw [m1.num]; exact hn)
    simp only [m1.num, m3.seen] at this
    exact this
  · obtain ⟨m1, -, -⟩ := key k hk.le
    exact poseGrad_deriv m1.prep (m1.pose.len (by rw [m1.num]; omega)) m1.row (by rw [m1.num]; exact htn) xi
  · obtain ⟨m1, m2, -⟩ := key k hk.le
    obtain ⟨y, hy, ho⟩ := h4 k hk
    obtain ⟨-, n2, T, hT, hy2⟩ := m1.step hn m2 hy
    refine ⟨(key (k + 1) hk).2.1, T, hT, ?_⟩
    rw [look_step, ho]
    exact hy2

/-! ## An object which is used twice -/

namespace Demo

/-- Points of one plane seen from two poses, at heights `1/2` and `-1/2`: the second pose is `1` too low. -/
noncomputable def pairPts : List (List Vec3) := [level (1 / 2), level (-1 / 2)]

/-- The calls: one plane, two poses. -/
noncomputable def pairOps : List Op :=
  [.setNumbers 1 2, .addNewPlane 0] ++ (level (1 / 2)).map (.pushPoint 0 0 ·) ++ (level (-1 / 2)).map (.pushPoint 0 1 ·)

/-- The object built by the calls. -/
noncomputable def pairReg : PlaneReg :=
  { PlaneReg.new with
    numberPlanes := 1
    numberPoses := 2
    planes := [(0, { Plane.new 2 with points := pairPts, numberPoints := 8 })]
    traj := List.replicate 2 SE3.default
    prev := List.replicate 2 0 }

theorem pairOps_run (e : EigSolver) (svd : Mat3 → SVD3) :
    PlaneReg.run e svd pairOps (OptDense.new PlaneReg.new) = .ok { OptDense.new PlaneReg.new with obj := pairReg } := rfl

theorem trajTo_two (T : SE3) : trajTo 2 T = [SE3.default, T] := rfl

/-- The object holds these points, its last pose is at height `d`, the momentum is `w` along `z`. -/
structure Pair (s : PlaneReg) (d w : ℝ) : Prop where
  pose : s.PoseInv
  prep : s.Prepared
  num : s.numberPoses = 2
  planes : ∃ q, s.planes = [(0, q)] ∧ q.points = pairPts
  traj : s.traj = [SE3.default, up d]
  prev : s.prev = [0, vec6 0 ![0, 0, w]]
  alpha : s.alpha = 0.75
  beta : s.beta = 0.1

theorem vec6_zero : vec6 0 ![0, 0, 0] = 0 := by
  funext i
  rcases i with i | i <;> fin_cases i <;> rfl

theorem pairReg_pair : Pair pairReg 0 0 := by
  obtain ⟨e, he⟩ := exists_sound
  refine ⟨run_inv new_inv (pairOps_run e fun _ => ⟨0, 0, 0⟩), ?_, rfl, ⟨_, rfl, rfl⟩, ?_, ?_, rfl, rfl⟩
  · intro q hq
    obtain rfl := List.mem_singleton.mp hq
    exact ⟨⟨rfl, Or.inl rfl⟩, Or.inl rfl, rfl⟩
  · rw [up_zero]; rfl
  · rw [vec6_zero]; rfl

theorem lastRow_two (d : ℝ) : ∀ T ∈ [SE3.default, up d], LastRow T.T := by
  intro T hT
  simp only [List.mem_cons, List.not_mem_nil, or_false] at hT
  rcases hT with rfl | rfl
  · exact rigid_default.lastRow
  · exact lastRow_homog _ _

theorem pair_cost (d : ℝ) (x : Vec4) : planeCost x ([SE3.default, up d].map SE3.T) pairPts =
    8 * x (.inl 0) ^ 2 + 8 * x (.inl 1) ^ 2 + 8 * (x (.inr ()) + d / 2 * x (.inl 2)) ^ 2 + 2 * (d - 1) ^ 2 * x (.inl 2) ^ 2 := by
  simp [planeCost, pairPts, level, cloudCost, up, SE3.default, planeEval, movePoint, homog, Fin.sum_univ_three, Matrix.one_apply]
  ring

theorem Pair.plane {e : EigSolver} (he : e.Sound) {s : PlaneReg} {d w : ℝ} (h : Pair s d w) : ∃ q, s.planes = [(0, q)] ∧
    q.points = pairPts ∧ planeOf e s q ⬝ᵥ planeOf e s q = 1 ∧
    planeCost (planeOf e s q) ([SE3.default, up d].map SE3.T) pairPts = errOf e s.planes s.traj ∧
    ∀ x : Vec4, errOf e s.planes s.traj * (x ⬝ᵥ x) ≤ planeCost x ([SE3.default, up d].map SE3.T) pairPts := by
  obtain ⟨q, hq, hqp⟩ := h.planes
  have hm : (0, q) ∈ s.planes := by rw [hq]; exact List.mem_singleton.mpr rfl
  have he1 := errOf_eq he h.prep (by rw [h.traj]; exact lastRow_two d)
  rw [hq, List.map_singleton, List.sum_singleton, h.traj] at he1
  rw [hq, h.traj]
  refine ⟨q, rfl, hqp, planeOf_unit he h.prep hm, by rw [he1, hqp], fun x => ?_⟩
  have h1 := (he.1 _ (h.prep.sym hm s.traj)).le_quad (by simp [I4]) x
  have hu : q.usedS = pairPts.map sumOuter := by rw [Plane.usedS_inSync (h.prep _ hm).2.1, hqp]
  have h2 := Plane.quad_qList (traj := [SE3.default, up d]) (lastRow_two d) (clouds := pairPts) x
  rw [← h2, ← hu, ← h.traj]
  refine le_trans (le_of_eq ?_) h1
  congr 1
  change planeErr e _ q + 0 = _
  rw [add_zero, planeErr]

theorem Pair.err_zero {e : EigSolver} (he : e.Sound) {s : PlaneReg} {w : ℝ} (h : Pair s 1 w) : errOf e s.planes s.traj = 0 := by
  obtain ⟨q, -, -, -, h1, h2⟩ := h.plane he
  refine le_antisymm ?_ ?_
  · have := h2 (Sum.elim ![0, 0, 2] fun _ => -1)
    rw [pair_cost, sq4] at this
    simp at this
    nlinarith
  · rw [← h1, pair_cost]
    positivity

theorem Pair.err_pos {e : EigSolver} (he : e.Sound) {s : PlaneReg} {d w : ℝ} (h : Pair s d w) (hd : d ≠ 1) :
    0 < errOf e s.planes s.traj := by
  obtain ⟨q, -, -, h0, h1, h2⟩ := h.plane he
  rw [← h1, pair_cost]
  rw [sq4] at h0
  have hd' : 0 < (d - 1) ^ 2 := by have := sub_ne_zero.mpr hd; positivity
  generalize planeOf e s q = x at *
  by_contra hc
  push Not at hc
  have p0 := sq_nonneg (x (.inl 0))
  have p1 := sq_nonneg (x (.inl 1))
  have p2 := mul_nonneg hd'.le (sq_nonneg (x (.inl 2)))
  have p3 := sq_nonneg (x (.inr ()) + d / 2 * x (.inl 2))
  have z2 : x (.inl 2) = 0 := by
    have : (d - 1) ^ 2 * x (.inl 2) ^ 2 = 0 := by nlinarith
    rcases mul_eq_zero.mp this with h | h
    · exact absurd h hd'.ne'
    · exact pow_eq_zero_iff (by norm_num) |>.mp h
  rw [z2] at hc h0
  nlinarith

/-- The estimated plane. -/
theorem Pair.normal {e : EigSolver} (he : e.Sound) {s : PlaneReg} {d w : ℝ} (h : Pair s d w) (hd : d = 0 ∨ d = 1) : ∃ q c,
    s.planes = [(0, q)] ∧ q.points = pairPts ∧ (d = 0 → c ^ 2 = 1) ∧ planeOf e s q = Sum.elim ![0, 0, c] fun _ => -(d / 2 * c) := by
  obtain ⟨q, hq, hqp, h0, h1, h2⟩ := h.plane he
  have hle := h2 (Sum.elim ![0, 0, 2] fun _ => -d)
  rw [← h1, pair_cost, pair_cost, sq4] at hle
  rw [sq4] at h0
  generalize hx : planeOf e s q = x at *
  simp at hle
  have p0 := sq_nonneg (x (.inl 0))
  have p1 := sq_nonneg (x (.inl 1))
  have p2 := sq_nonneg (x (.inl 2))
  have p3 := sq_nonneg (x (.inr ()) + d / 2 * x (.inl 2))
  have key : x (.inl 0) ^ 2 = 0 ∧ x (.inl 1) ^ 2 = 0 ∧ (x (.inr ()) + d / 2 * x (.inl 2)) ^ 2 = 0 := by
    rcases hd with rfl | rfl
    · refine ⟨?_, ?_, ?_⟩ <;> norm_num at * <;> nlinarith
    · refine ⟨?_, ?_, ?_⟩ <;> norm_num at * <;> nlinarith
  obtain ⟨z0, z1, z3⟩ := key
  rw [pow_eq_zero_iff (by norm_num)] at z0 z1 z3
  refine ⟨q, x (.inl 2), hq, hqp, fun hd => ?_, ?_⟩
  · rw [hd] at z3
    have : x (.inr ()) = 0 := by linarith
    rw [z0, z1, this] at h0
    linarith
  · rw [hx]
    funext i
    rcases i with i | i
    · fin_cases i <;> simp [z0, z1]
    · simp only [Sum.elim_inr]; linarith

/-- The gradient is zero at the solution. -/
theorem Pair.acc {e : EigSolver} (he : e.Sound) {s : PlaneReg} {d w : ℝ} (h : Pair s d w) (hd : d = 0 ∨ d = 1) :
    s.accOf e = vec6 0 ![0, 0, (d - 1) / 2] := by
  obtain ⟨q, c, hq, hqp, hc, hpl⟩ := h.normal he hd
  have hmem : (0, q) ∈ s.planes := by rw [hq]; exact List.mem_singleton.mpr rfl
  have hp1 : s.poseNow 1 = up d := by rw [poseNow, h.traj]; rfl
  have hg : s.poseGrad e 1 = fun i => planeOf e s q ⬝ᵥ
      (gradOf ((up d).T * sumOuter (q.cloudAt 1) * (up d).Tᵀ) i *ᵥ planeOf e s q) := by
    rw [poseGrad, hq, List.map_singleton, List.sum_singleton]
    have := gAt_dot (e := e) h.prep (by rw [h.traj, h.num]; rfl) hmem (t := 1) (by rw [h.num]; norm_num)
    rw [hp1] at this
    exact this
  have ht : s.times = [1] := by rw [times, h.num]; rfl
  have c1 : q.cloudAt 1 = level (-1 / 2) := by rw [Plane.cloudAt, hqp]; rfl
  have hs : s.seen 1 = 4 := by rw [seen, hq, List.map_singleton, List.sum_singleton, c1]; rfl
  have hl : s.lastIdx = 1 := by rw [lastIdx, h.num]; norm_num
  rw [accOf, ht]
  simp only [List.map_cons, List.map_nil, List.sum_cons, List.sum_nil, add_zero]
  rw [hg, hs, h.num, tau, hl, c1, hpl]
  have key : ∀ xi : Vec6, ((1 / ((1 : ℕ) : ℝ) * ((1 : ℕ) : ℝ) / ((4 : ℕ) : ℝ) / ((2 : ℕ) : ℝ)) • (fun i =>
        (Sum.elim ![0, 0, c] fun _ => -(d / 2 * c) : Vec4) ⬝ᵥ (gradOf ((up d).T * sumOuter (level (-1 / 2)) * (up d).Tᵀ) i *ᵥ
          (Sum.elim ![0, 0, c] fun _ => -(d / 2 * c) : Vec4)))) ⬝ᵥ xi = vec6 0 ![0, 0, (d - 1) / 2] ⬝ᵥ xi := by
    intro xi
    rw [smul_dotProduct, grad_dot]
    simp only [add_mulVec, dotProduct_add, quad_pair]
    obtain ⟨w, v, rfl⟩ : ∃ w v, xi = vec6 w v := ⟨_, _, (vec6_eta xi).symm⟩
    rw [hat6_eq, head3_vec6, tail3_vec6]
    simp [level, up, hat3, homPt, homog, mulVec, dotProduct, Matrix.mul_apply, Fintype.sum_sum_type,
      Fin.sum_univ_three, Matrix.one_apply, vec6]
    rcases hd with rfl | rfl
    · linear_combination (-1 / 2) * v 2 * hc rfl
    · ring
  funext i
  have := key (Pi.single i 1)
  rwa [dotProduct_single, dotProduct_single, mul_one, mul_one] at this

theorem Pair.samePlanes {s u : PlaneReg} {d w : ℝ} (h : Pair s d w) (hs : SamePlanes s u) :
    ∃ q, u.planes = [(0, q)] ∧ q.points = pairPts := by
  obtain ⟨q, hq, hqp⟩ := h.planes
  rw [SamePlanes, hq] at hs
  cases hup : u.planes with
  | nil => rw [hup] at hs; simp at hs
  | cons a l =>
    rw [hup, List.forall₂_cons] at hs
    obtain ⟨⟨h1, h2⟩, h3⟩ := hs
    rw [List.forall₂_nil_left_iff] at h3
    obtain ⟨k, p⟩ := a
    refine ⟨p, ?_, h2.2.2.1.trans hqp⟩
    rw [h3, show k = 0 from h1]

theorem Pair.step {e : EigSolver} (he : e.Sound) (svd : Mat3 → SVD3) {s : OptDense PlaneReg} {d w : ℝ} (h : Pair s.obj d w)
    (hd : d = 0 ∨ d = 1) : ∃ s', solve e svd .gradientBengiosNag true s = .ok (0, s') ∧
      Pair s'.obj (d + 0.01 * w - 0.825 * ((d - 1) / 2)) (0.1 * w - 0.75 * ((d - 1) / 2)) := by
  obtain ⟨r, hr⟩ : ∃ r : PlaneReg, r = { s.obj with mode := .gradientBengiosNag } := ⟨_, rfl⟩
  have hrp : r.Prepared := by rw [hr]; exact h.prep
  obtain ⟨h1, -⟩ := error_value (e := e) (s := r) hrp (by
    rw [hr]
    change s.obj.numberPoses ≤ s.obj.traj.length
    rw [h.num, h.traj]
    exact le_refl 2)
  have hsame := (error_ok (fun q hq => (hrp q hq).1) h1).2.1
  obtain ⟨u, hud⟩ : ∃ u : PlaneReg, u = { r.estd e with initialError := errOf e r.planes r.traj, solveIters := 0 } := ⟨_, rfl⟩
  have hus : SamePlanes s.obj u := by rw [hud, hr] at *; exact hsame
  have hun : u.numberPoses = s.obj.numberPoses := by rw [hud, estd, hr]
  have hut : u.traj = s.obj.traj := by rw [hud, estd, hr]
  have hua : u.alpha = s.obj.alpha := by rw [hud, estd, hr]
  have hub : u.beta = s.obj.beta := by rw [hud, estd, hr]
  have huv : u.prev = s.obj.prev := by rw [hud, estd, hr]
  have hum : u.mode = .gradientBengiosNag := by rw [hud, estd, hr]
  have hu : Pair u d w := ⟨h.pose.frame hun hut huv, hus.prepared h.prep hun, hun.trans h.num, h.samePlanes hus,
    hut.trans h.traj, huv.trans h.prev, hua.trans h.alpha, hub.trans h.beta⟩
  have hk : u.seen 1 = 4 := by
    obtain ⟨q, hq, hqp⟩ := hu.planes
    rw [seen, hq]
    simp [Plane.cloudAt, hqp, pairPts, level]
  obtain ⟨⟨err1, x⟩, hx, -⟩ := gradStep_total (e := e) (s := u) ⟨hu.pose, fun q hq => (hu.prep q hq).1, by rw [hu.num]; norm_num,
    fun q hq => (hu.prep q hq).2.2, fun t h3 h4 => by
      rw [hu.num] at h4
      obtain rfl : t = 1 := by omega
      rw [hk]; norm_num, by rw [hu.prev]; exact List.cons_ne_nil _ _, Or.inr hum⟩
  obtain ⟨-, -, hsx, dxi, ps, prev, hx1, hx2⟩ := gradStep_value (T := up d) hu.pose hu.prep (by rw [hu.num])
    (by rw [hu.traj]; rfl) hx
  rcases hx2 with ⟨hm, -⟩ | ⟨-, v, hv, hdx, hpv⟩
  · rw [hum] at hm; simp at hm
  obtain rfl : vec6 0 ![0, 0, w] = v := by rw [hu.prev] at hv; exact Option.some.inj hv
  rw [hu.acc he hd, hu.alpha, hu.beta] at hdx hpv
  have hdxi : dxi = (0.01 * w - 0.825 * ((d - 1) / 2)) • vec6 0 ![0, 0, 1] := by
    rw [hdx]
    funext i
    rcases i with i | i <;> fin_cases i <;> simp [vec6]
    ring
  have hxt : x.traj = [SE3.default, up (d + 0.01 * w - 0.825 * ((d - 1) / 2))] := by
    rw [hx1]
    change trajTo u.numberPoses _ = _
    rw [hu.num, hdxi, trajTo_two, up, updateLhs_homog_translation, up]
    congr 4
    funext i
    fin_cases i <;> simp
    ring
  have hxv : x.prev = [0, vec6 0 ![0, 0, 0.1 * w - 0.75 * ((d - 1) / 2)]] := by
    have : x.prev = prev := by rw [hx1]
    rw [this, hpv, hu.prev]
    change [0, _] = _
    congr 2
    funext i
    rcases i with i | i <;> fin_cases i <;> simp [vec6]
  have hxn : x.numberPoses = 2 := by rw [hx1]; exact hu.num
  refine ⟨{ s with obj := { x with solveIters := 1 } }, ?_, ⟨⟨?_, fun _ => ?_, fun _ => ?_, fun h => ?_⟩, ?_, hxn, hu.samePlanes hsx, hxt, hxv, ?_, ?_⟩⟩
  · refine solve_nag_single (s := s) (o := r.estd e) (err := err1) (err0 := errOf e r.planes r.traj) ?_ ?_
    · rw [← h1, hr]
    · rw [← hx, hud]
  · rw [hxn]; norm_num
  · rw [hxn, hxt]; rfl
  · rw [hxt]; rfl
  · rw [hxn] at h; omega
  · exact hsx.prepared hu.prep (by rw [hx1])
  · rw [hx1]; exact hu.alpha
  · rw [hx1]; exact hu.beta

theorem Pair.setLast {s : PlaneReg} {d w : ℝ} (h : Pair s d w) : ∃ s', s.setLastPose (up 1) = .ok s' ∧ Pair s' 1 w := by
  have ht : s.times = [1] := by rw [times, h.num]; rfl
  have hl : s.lastIdx = 1 := by rw [lastIdx, h.num]; norm_num
  have h1 : s.setLastPose (up 1) = .ok { s with traj := [SE3.default, up 1] } := by
    have hv : SE3.ofVec ((s.tau * (1 : ℕ)) • (up 1).lnVee) = up 1 := by
      rw [up, interp_at, tau, hl]
      simp
    rw [setLastPose, ht, h.traj]
    change (interpolate s.tau (up 1).lnVee [] ([SE3.default, up d].set 1 (SE3.ofVec ((s.tau * (1 : ℕ)) • (up 1).lnVee))) >>= _) = _
    rw [hv]
    rfl
  have hn : s.numberPoses = 2 := h.num
  exact ⟨_, h1, ⟨⟨h.pose.bound, fun _ => by change 2 = _; rw [hn], fun _ => rfl, fun h => by rw [hn] at h; omega⟩, h.prep,
    h.num, h.planes, rfl, h.prev, h.alpha, h.beta⟩⟩

theorem Pair.error {e : EigSolver} {s : PlaneReg} {d w : ℝ} (h : Pair s d w) :
    ∃ o, s.error e = .ok (errOf e s.planes s.traj, o) :=
  ⟨_, (error_value (e := e) h.prep (by rw [h.num, h.traj]; exact le_refl 2)).1⟩

theorem run_snoc (e : EigSolver) (svd : Mat3 → SVD3) : ∀ (l : List Op) (op : Op) (s : OptDense PlaneReg),
    PlaneReg.run e svd (l ++ [op]) s = PlaneReg.run e svd l s >>= op.run e svd := by
  intro l op
  induction l with
  | nil =>
    intro s
    change (op.run e svd s >>= fun s => Out.ok s) = op.run e svd s
    cases op.run e svd s <;> rfl
  | cons a l ih =>
    intro s
    change (a.run e svd s >>= fun s => PlaneReg.run e svd (l ++ [op]) s) = ((a.run e svd s >>= fun s => PlaneReg.run e svd l s) >>= _)
    simp only [ih]
    cases a.run e svd s <;> rfl

end Demo

/-- C91 is false for an object which was used before: `solve` does not clear the momentum.  The two objects hold the same points
and the same trajectory, which fits the points exactly.  On the object which has made a step before, `solve` leaves the
solution; on the other one it stays. -/
theorem C91_restart_fails (e : EigSolver) (he : e.Sound) (svd : Mat3 → SVD3) : ∃ s t s' t' os ot os' err',
    PlaneReg.run e svd (Demo.pairOps ++ [.solve .gradientBengiosNag true] ++ [.setLastPose (Demo.up 1)])
      (OptDense.new PlaneReg.new) = .ok s ∧
    PlaneReg.run e svd (Demo.pairOps ++ [.setLastPose (Demo.up 1)]) (OptDense.new PlaneReg.new) = .ok t ∧
    s.obj.traj = t.obj.traj ∧ s.obj.planes.map (·.2.points) = t.obj.planes.map (·.2.points) ∧
    s.obj.error e = .ok (0, os) ∧ t.obj.error e = .ok (0, ot) ∧
    solve e svd .gradientBengiosNag true s = .ok (0, s') ∧ solve e svd .gradientBengiosNag true t = .ok (0, t') ∧
    t'.obj.traj = t.obj.traj ∧ s'.obj.error e = .ok (err', os') ∧ 0 < err' := by
  set b : OptDense PlaneReg := { OptDense.new PlaneReg.new with obj := Demo.pairReg } with hb
  have h0 : Demo.Pair b.obj 0 0 := Demo.pairReg_pair
  obtain ⟨s1, k1, p1⟩ := h0.step he svd (Or.inl rfl)
  obtain ⟨s2, k2, p2⟩ := p1.setLast
  obtain ⟨t2, k3, q2⟩ := h0.setLast
  obtain ⟨s3, k4, p3⟩ := Demo.Pair.step he svd (s := { s1 with obj := s2 }) p2 (Or.inr rfl)
  obtain ⟨t3, k5, q3⟩ := Demo.Pair.step he svd (s := { b with obj := t2 }) q2 (Or.inr rfl)
  obtain ⟨os, e1⟩ := p2.error (e := e)
  obtain ⟨ot, e2⟩ := q2.error (e := e)
  obtain ⟨os', e3⟩ := p3.error (e := e)
  rw [p2.err_zero he] at e1
  rw [q2.err_zero he] at e2
  refine ⟨{ s1 with obj := s2 }, { b with obj := t2 }, s3, t3, os, ot, os', _, ?_, ?_, ?_, ?_, e1, e2, k4, k5, ?_, e3,
    p3.err_pos he (by norm_num)⟩
  · rw [Demo.run_snoc, Demo.run_snoc, Demo.pairOps_run, Out.ok_bind]
    change ((solve e svd .gradientBengiosNag true b >>= fun r => .ok r.2) >>= _) = _
    rw [k1, Out.ok_bind, Out.ok_bind]
    change lift (PlaneReg.setLastPose (Demo.up 1)) s1 = _
    rw [lift, k2, Out.ok_bind]
  · rw [Demo.run_snoc, Demo.pairOps_run, Out.ok_bind]
    change lift (PlaneReg.setLastPose (Demo.up 1)) b = _
    rw [lift, k3, Out.ok_bind]
  · exact p2.traj.trans q2.traj.symm
  · obtain ⟨x, hx, hx'⟩ := p2.planes
    obtain ⟨y, hy, hy'⟩ := q2.planes
    change s2.planes.map (·.2.points) = t2.planes.map (·.2.points)
    rw [hx, hy, List.map_singleton, List.map_singleton, hx', hy']
  · refine q3.traj.trans (Eq.trans ?_ q2.traj.symm)
    norm_num

/-- The hypotheses of `C91_nesterov_partial` are met, and the first step moves the last pose and leaves a momentum. -/
example (e : EigSolver) (he : e.Sound) : ∃ s s' : PlaneReg, s.PoseInv ∧ s.Prepared ∧ 2 ≤ s.numberPoses ∧
    (∀ T ∈ s.traj, LastRow T.T) ∧ s.mode = .gradientBengiosNag ∧ s.prev.getLast? = some 0 ∧
    s.interpolateGradient e true = .ok s' ∧ s'.traj = [SE3.default, Demo.up 0.4125] ∧
    s'.prev.getLast? = some (vec6 0 ![0, 0, 0.375]) := by
  set b : OptDense PlaneReg := { OptDense.new PlaneReg.new with obj := Demo.pairReg } with hb
  have h0 : Demo.Pair b.obj 0 0 := Demo.pairReg_pair
  obtain ⟨s1, k1, p1⟩ := h0.step he (fun _ => ⟨0, 0, 0⟩) (Or.inl rfl)
  obtain ⟨r, hr⟩ : ∃ r : PlaneReg, r = { b.obj with mode := .gradientBengiosNag } := ⟨_, rfl⟩
  have hrp : r.Prepared := by rw [hr]; exact h0.prep
  obtain ⟨h1, -⟩ := error_value (e := e) (s := r) hrp (by rw [hr]; exact le_refl 2)
  have hsame := (error_ok (fun q hq => (hrp q hq).1) h1).2.1
  rw [solve, ← hr, h1, Out.ok_bind] at k1
  dsimp only at k1
  rw [lift] at k1
  obtain ⟨y, k2, k3⟩ := Out.bind_eq_ok.mp k1
  obtain ⟨x, k4, k5⟩ := Out.bind_eq_ok.mp k2
  cases k5
  cases k3
  refine ⟨_, x, ?_, ?_, ?_, ?_, ?_, ?_, k4, p1.traj.trans ?_, ?_⟩
  · exact h0.pose.frame (by change r.numberPoses = _; rw [hr]) (by change r.traj = _; rw [hr]) (by change r.prev = _; rw [hr])
  · exact hsame.prepared hrp rfl
  · change 2 ≤ r.numberPoses
    rw [hr]
    exact le_refl 2
  · change ∀ T ∈ r.traj, _
    have : r.traj = _ := (by rw [hr] : r.traj = b.obj.traj).trans h0.traj
    rw [this]
    exact Demo.lastRow_two 0
  · change r.mode = _
    rw [hr]
  · change r.prev.getLast? = _
    rw [hr]
    rfl
  · norm_num
  · have : x.prev = _ := p1.prev
    rw [this]
    norm_num

/-- The hypotheses of `C90_all_poses` are met, and a step changes the trajectory. -/
example (e : EigSolver) (he : e.Sound) (a : ℝ) (ha : 0 < a) : ∃ s : PlaneReg, s.PoseInv ∧ s.Prepared ∧
    (∀ T ∈ s.traj, IsRigid T.T) ∧ 2 ≤ s.numberPoses ∧ ∃ err s1 err' s2, allPosesStep e { s with alpha := a } = .ok (err, s1) ∧
      s1.error e = .ok (err', s2) ∧ s1.traj ≠ s.traj := by
  have h0 : Demo.Pair Demo.pairReg 0 0 := Demo.pairReg_pair
  have hi : ({ Demo.pairReg with alpha := a } : PlaneReg).PoseInv := h0.pose.frame rfl rfl rfl
  have hk : Demo.pairReg.seen 1 = 4 := rfl
  obtain ⟨err, s1, h1⟩ := allPosesStep_total (e := e) (s := { Demo.pairReg with alpha := a }) hi h0.prep (le_refl 2)
    (by change Demo.pairReg.seen 1 ≠ 0; rw [hk]; norm_num)
  obtain ⟨-, -, h2, h3, h4⟩ := allPosesStep_value hi h0.prep (le_refl 2) h1
  obtain ⟨h5, -⟩ := error_value (e := e) (h2.prepared h0.prep h3) (by
    rw [h4, movedTraj, List.length_map, List.length_range, h3])
  refine ⟨Demo.pairReg, h0.pose, h0.prep, fun T hT => ?_, le_refl 2, err, s1, _, _, h1, h5, ?_⟩
  · rw [List.eq_of_mem_replicate hT]; exact rigid_default
  have hg : Demo.pairReg.poseGrad e 1 = vec6 0 ![0, 0, -4] := by
    have hacc := h0.acc he (Or.inl rfl)
    have ht : Demo.pairReg.times = [1] := rfl
    have hl : Demo.pairReg.lastIdx = 1 := by rw [lastIdx, h0.num]; norm_num
    rw [accOf, ht, List.map_singleton, List.sum_singleton, hk, h0.num, tau, hl] at hacc
    have : Demo.pairReg.poseGrad e 1 = (8 : ℝ) • vec6 0 ![0, 0, (0 - 1) / 2] := by
      rw [← hacc, smul_smul]
      norm_num
    rw [this]
    funext i
    rcases i with i | i <;> fin_cases i <;> simp [vec6]
    norm_num
  intro hc
  have hc1 : s1.traj[1]? = Demo.pairReg.traj[1]? := by rw [hc]
  rw [h4] at hc1
  have hc1 : some ((SE3.default).updateLhs (-((a / (Demo.pairReg.seen 1) / ((2 : ℕ) : ℝ)) • Demo.pairReg.poseGrad e 1))) =
    some SE3.default := hc1
  rw [hk, hg, Option.some.injEq] at hc1
  have e1 : -((a / ((4 : ℕ) : ℝ) / ((2 : ℕ) : ℝ)) • vec6 0 ![0, 0, -4]) = (a / 2) • vec6 0 ![0, 0, 1] := by
    funext i
    rcases i with i | i <;> fin_cases i <;> simp [vec6]
    ring
  rw [e1, ← Demo.up_zero, Demo.up, updateLhs_homog_translation, SE3.mk.injEq] at hc1
  have := congrFun (congrFun hc1 (.inl 2)) (.inr ())
  simp [homog] at this
  linarith

/-- The hypotheses of `C90_interpolated_partial` are met. -/
example : ∃ (s : PlaneReg) (T : SE3), s.Ready T ∧ s.numberPoses = 2 ∧ IsRigid T.T ∧ (∀ t, 0 < t → t < s.numberPoses → s.seen t = s.seen 1) ∧
    s.mode = .gradientBengiosNag ∧ -1 < s.beta ∧ s.prev.getLast? = some 0 ∧ s.seen 1 = 4 := by
  have h0 : Demo.Pair Demo.pairReg 0 0 := Demo.pairReg_pair
  refine ⟨{ Demo.pairReg with mode := .gradientBengiosNag }, SE3.default, ⟨h0.pose.frame rfl rfl rfl, le_refl 2, ?_,
    fun q hq => (h0.prep q hq).1, fun q hq => (h0.prep q hq).2.1, fun q hq => (h0.prep q hq).2.2, rfl⟩, rfl, rigid_default, ?_,
    rfl, ?_, rfl, rfl⟩
  · intro T _ t h1 h2
    have h2 : t + 1 < 2 := h2
    omega
  · intro t h1 h2
    have h2 : t < 2 := h2
    obtain rfl : t = 1 := by omega
    rfl
  · change (-1 : ℝ) < 0.1
    norm_num

end Mrob
