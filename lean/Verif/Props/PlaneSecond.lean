import Verif.Props.PlaneGrad
import Verif.Props.PlaneLast
import Verif.Lemmas.PlaneSecond

/-! # Properties C63 and C65: by how much the Hessians of the plane errors are off -/

open Matrix

namespace Mrob

open Spec

/-- The matrices behind the results of `gradient` and `hessian`. -/
theorem hessian_unpack {e : EigSolver} {n : ℕ} {pushes calls : List Plane.Op} {s s1 s2 : Plane}
    (hp : ∀ op ∈ pushes, op.isPush = true) (hc : ∀ op ∈ calls, op.isPush = false)
    (h : Plane.run e (pushes ++ calls) (Plane.new n) = .ok s) {traj : List SE3} {lam : ℝ}
    (h1 : s.estimate e traj = .ok (lam, s1)) {t : ℕ} {T : SE3} (hT : traj[t]? = some T) {g : Vec6} {H : Mat6}
    (hg : s1.gradient t = .ok (g, s2)) (hH : s2.hessian t = .ok H) {pl : Vec4} (hpl : s1.plane = some pl) :
    H = Matrix.of fun i j : I6 => if pos6 i ≤ pos6 j then
      pl ⬝ᵥ (ddQ (T.T * sumOuter (Plane.pushedAt pushes t) * T.Tᵀ)
        (gradOf (T.T * sumOuter (Plane.pushedAt pushes t) * T.Tᵀ)) i j *ᵥ pl) else 0 := by
  obtain ⟨w, tl, hu⟩ := history_state hp hc h
  obtain ⟨hl, hr⟩ := Plane.estimate_inv w h1
  obtain ⟨rfl, rfl⟩ := Prod.mk.inj hr
  obtain ⟨Q, pl', hQ, hpl', hgr⟩ := Plane.gradient_inv hg
  obtain ⟨rfl, rfl⟩ := Prod.mk.inj hgr
  obtain rfl : pl' = pl := Option.some.inj (hpl'.symm.trans hpl)
  obtain ⟨ht1, rfl⟩ := List.getElem?_eq_some_iff.mp hT
  have hQ : (Plane.qList traj s.usedS)[t]? = some Q := hQ
  have hH : (Out.index (Plane.qList traj s.usedS) t >>= fun Q' => Out.ok (Matrix.of fun i j : I6 => if pos6 i ≤ pos6 j then
      Plane.firstVec (e.eig4 (Plane.qList traj s.usedS).sum) ⬝ᵥ (ddQ Q' (gradOf Q) i j *ᵥ
        Plane.firstVec (e.eig4 (Plane.qList traj s.usedS).sum)) else 0)) = .ok H := hH
  rw [Out.index_eq_ok.mpr hQ, Out.ok_bind, show Plane.firstVec (e.eig4 (Plane.qList traj s.usedS).sum) = pl' from
    Option.some.inj hpl'] at hH
  obtain rfl := Out.ok.inj hH
  obtain ⟨ht2, rfl⟩ := List.getElem?_eq_some_iff.mp hQ
  have hul : s.usedS.length = n := by rw [Plane.usedS_length w, tl]
  have ht3 : t < s.usedS.length := by rwa [Plane.qList_length (by omega)] at ht2
  rw [Plane.qList_getElem ht1 ht3]
  have e1 : s.usedS[t] = sumOuter (Plane.pushedAt pushes t) := by
    simp [hu]
  rw [e1]

/-- The exact error of `calculate_hessian`. For every twist the quadratic form of the returned matrix (read as the upper
triangle of a symmetric matrix) is the second derivative, along the pose update of the library, of the cost of the estimated
plane, plus twice a sum over the points: the value of the plane at the point times the normal component of the ordered
product of generators. -/
theorem C63_exact (e : EigSolver) (n : ℕ) (pushes calls : List Plane.Op) (s s1 s2 : Plane)
    (hp : ∀ op ∈ pushes, op.isPush = true) (hc : ∀ op ∈ calls, op.isPush = false)
    (h : Plane.run e (pushes ++ calls) (Plane.new n) = .ok s) (traj : List SE3) (ht : ∀ T ∈ traj, IsRigid T.T) (lam : ℝ)
    (h1 : s.estimate e traj = .ok (lam, s1)) (t : ℕ) (T : SE3) (hT : traj[t]? = some T) (g : Vec6) (H : Mat6)
    (hg : s1.gradient t = .ok (g, s2)) (hH : s2.hessian t = .ok H) (pl : Vec4) (hpl : s1.plane = some pl) (xi : Vec6) :
    ∑ i, ∑ j, xi i * xi j * (if pos6 i ≤ pos6 j then H i j else H j i) =
      deriv (deriv fun k : ℝ => cloudCost pl (T.updateLhs (k • xi)).T (Plane.pushedAt pushes t)) 0 +
        2 * cloudExcess pl T.T (Plane.pushedAt pushes t) (fun i => xi (.inl i)) (fun i => xi (.inr i)) := by
  have hX : LastRow T.T := (ht _ (List.mem_of_getElem? hT)).lastRow
  rw [hessian_unpack hp hc h h1 hT hg hH hpl, cloudCost_second hX]
  have hx := quad_ordered hX pl (Plane.pushedAt pushes t) xi
  have e1 : head3 xi = fun i => xi (.inl i) := by funext i; fin_cases i <;> rfl
  have e2 : tail3 xi = fun i => xi (.inr i) := by funext i; fin_cases i <;> rfl
  rw [e1, e2] at hx
  rw [← hx, ← hessian_quad _ (conj_transpose (sumOuter_transpose _))]
  refine Finset.sum_congr rfl fun i _ => Finset.sum_congr rfl fun j _ => ?_
  simp only [Matrix.of_apply]
  rcases le_total (pos6 i) (pos6 j) with hij | hij
  · simp [hij]
  · by_cases h2 : pos6 i ≤ pos6 j
    · simp [h2]
    · rw [if_neg h2, if_pos hij, if_neg h2]

/-- The part which is right for rotations too: when every point seen at time `t` lies on the estimated plane, the quadratic
form of `calculate_hessian` is the second derivative of the cost.

Missing: points off the plane, where `C63_exact` gives the difference and `C63_fails` shows that it does not vanish. -/
theorem C63_coplanar_partial (e : EigSolver) (n : ℕ) (pushes calls : List Plane.Op) (s s1 s2 : Plane)
    (hp : ∀ op ∈ pushes, op.isPush = true) (hc : ∀ op ∈ calls, op.isPush = false)
    (h : Plane.run e (pushes ++ calls) (Plane.new n) = .ok s) (traj : List SE3) (ht : ∀ T ∈ traj, IsRigid T.T) (lam : ℝ)
    (h1 : s.estimate e traj = .ok (lam, s1)) (t : ℕ) (T : SE3) (hT : traj[t]? = some T) (g : Vec6) (H : Mat6)
    (hg : s1.gradient t = .ok (g, s2)) (hH : s2.hessian t = .ok H) (pl : Vec4) (hpl : s1.plane = some pl)
    (hon : ∀ p ∈ Plane.pushedAt pushes t, planeEval pl (movePoint T.T p) = 0) (xi : Vec6) :
    ∑ i, ∑ j, xi i * xi j * (if pos6 i ≤ pos6 j then H i j else H j i) =
      deriv (deriv fun k : ℝ => cloudCost pl (T.updateLhs (k • xi)).T (Plane.pushedAt pushes t)) 0 := by
  rw [C63_exact e n pushes calls s s1 s2 hp hc h traj ht lam h1 t T hT g H hg hH pl hpl xi]
  have : cloudExcess pl T.T (Plane.pushedAt pushes t) (fun i => xi (.inl i)) (fun i => xi (.inr i)) = 0 := by
    refine List.sum_eq_zero fun x hx => ?_
    obtain ⟨p, hp, rfl⟩ := List.mem_map.mp hx
    rw [hon p hp, zero_mul]
  rw [this, mul_zero, add_zero]

/-- Three points at height one seen from one pose: every sound solver finds a plane through them. -/
example : ∃ (e : EigSolver) (s s1 s2 : Plane) (lam : ℝ) (g : Vec6) (H : Mat6) (pl : Vec4), e.Sound ∧
    Plane.run e ([.push ![0, 0, 1] 0, .push ![1, 0, 1] 0, .push ![0, 1, 1] 0] ++ []) (Plane.new 1) = .ok s ∧
    s.estimate e [SE3.default] = .ok (lam, s1) ∧ s1.gradient 0 = .ok (g, s2) ∧ s2.hessian 0 = .ok H ∧
    s1.plane = some pl ∧ ∀ p ∈ Plane.pushedAt [.push ![0, 0, 1] 0, .push ![1, 0, 1] 0, .push ![0, 1, 1] 0] 0,
      planeEval pl (movePoint SE3.default.T p) = 0 := by
  obtain ⟨e, he⟩ := exists_sound
  obtain ⟨s, hs⟩ : ∃ s, Plane.run e ([.push ![0, 0, 1] 0, .push ![1, 0, 1] 0, .push ![0, 1, 1] 0] ++ []) (Plane.new 1) =
    .ok s := ⟨_, rfl⟩
  obtain ⟨w, tl, hu⟩ := history_state (by simp [Plane.Op.isPush]) (by simp) hs
  have hest := Plane.estimate_ok (e := e) (traj := [SE3.default]) w (by rw [tl]; exact le_refl 1)
  have hu : s.usedS = [[![0, 0, 1], ![1, 0, 1], ![0, 1, 1]]].map sumOuter := hu
  obtain ⟨pl, hpl, -, ho⟩ := estimate_optimal he (fun A hA => by
    rw [show A = SE3.default by simpa using hA]; exact rigid_default.lastRow) w hu hest
  let Q : Mat4 := SE3.default.T * sumOuter [![0, 0, 1], ![1, 0, 1], ![0, 1, 1]] * SE3.default.Tᵀ
  have hQ : Out.index (s.estimated e [SE3.default] s.usedS).Q 0 = .ok Q := by
    rw [Plane.estimated, hu]; rfl
  have hf : Plane.firstVec (e.eig4 (Plane.qList [SE3.default] s.usedS).sum) = pl := Option.some.inj hpl
  refine ⟨e, s, _, { s.estimated e [SE3.default] s.usedS with gradQ := some (gradOf Q) }, _,
    fun i => pl ⬝ᵥ (gradOf Q i *ᵥ pl),
    Matrix.of fun i j => if pos6 i ≤ pos6 j then pl ⬝ᵥ (ddQ Q (gradOf Q) i j *ᵥ pl) else 0, pl, he, hs, hest, ?_, ?_, hpl, ?_⟩
  · rw [Plane.gradient, hQ, Out.ok_bind, ← hf]
    rfl
  · rw [Plane.hessian]
    have hQ' : Out.index ({ s.estimated e [SE3.default] s.usedS with gradQ := some (gradOf Q) } : Plane).Q 0 = .ok Q := hQ
    rw [hQ', Out.ok_bind, ← hf]
    rfl
  · have hcost : ∀ x : Vec4, planeCost x ([SE3.default].map SE3.T) [[![0, 0, 1], ![1, 0, 1], ![0, 1, 1]]] =
        (x (.inl 2) + x (.inr ())) ^ 2 + (x (.inl 0) + x (.inl 2) + x (.inr ())) ^ 2 +
          (x (.inl 1) + x (.inl 2) + x (.inr ())) ^ 2 := by
      intro x
      rw [planeCost_single]
      simp [planeEval, Fin.sum_univ_three]
      ring
    have hr : (1 / Real.sqrt 2) ^ 2 = (1 / 2 : ℝ) := by rw [div_pow, Real.sq_sqrt (by norm_num)]; norm_num
    have hle := ho.2.2 (Sum.elim ![0, 0, 1 / Real.sqrt 2] fun _ => -(1 / Real.sqrt 2)) (by
      simp only [Unit4, dotProduct, Fintype.sum_sum_type, Fin.sum_univ_three]
      simp
      linear_combination 2 * hr)
    rw [← ho.2.1, hcost, hcost] at hle
    have z : (pl (.inl 2) + pl (.inr ())) ^ 2 + (pl (.inl 0) + pl (.inl 2) + pl (.inr ())) ^ 2 +
        (pl (.inl 1) + pl (.inl 2) + pl (.inr ())) ^ 2 ≤ 0 := by
      refine hle.trans (le_of_eq ?_)
      simp
    have z0 : pl (.inl 2) + pl (.inr ()) = 0 := by
      refine pow_eq_zero_iff (n := 2) (by norm_num) |>.mp ?_
      nlinarith [sq_nonneg (pl (.inl 2) + pl (.inr ())), sq_nonneg (pl (.inl 0) + pl (.inl 2) + pl (.inr ())),
        sq_nonneg (pl (.inl 1) + pl (.inl 2) + pl (.inr ()))]
    have z1 : pl (.inl 0) + pl (.inl 2) + pl (.inr ()) = 0 := by
      refine pow_eq_zero_iff (n := 2) (by norm_num) |>.mp ?_
      nlinarith [sq_nonneg (pl (.inl 2) + pl (.inr ())), sq_nonneg (pl (.inl 0) + pl (.inl 2) + pl (.inr ())),
        sq_nonneg (pl (.inl 1) + pl (.inl 2) + pl (.inr ()))]
    have z2 : pl (.inl 1) + pl (.inl 2) + pl (.inr ()) = 0 := by
      refine pow_eq_zero_iff (n := 2) (by norm_num) |>.mp ?_
      nlinarith [sq_nonneg (pl (.inl 2) + pl (.inr ())), sq_nonneg (pl (.inl 0) + pl (.inl 2) + pl (.inr ())),
        sq_nonneg (pl (.inl 1) + pl (.inl 2) + pl (.inr ()))]
    intro p hp
    have hp : p = ![0, 0, 1] ∨ p = ![1, 0, 1] ∨ p = ![0, 1, 1] := by
      simpa [Plane.pushedAt] using hp
    have hmv : movePoint SE3.default.T p = p := by
      funext i
      fin_cases i <;> simp [movePoint, SE3.default, Fin.sum_univ_three]
    rw [hmv]
    rcases hp with rfl | rfl | rfl <;> simp [planeEval, Fin.sum_univ_three] <;> linarith

/-! ## C65 -/

namespace PlaneReg

theorem symUpper_sum (L : List Mat6) : symUpper L.sum = (L.map symUpper).sum := by
  induction L with
  | nil => ext i j; simp [symUpper]
  | cons A L ih =>
    rw [List.sum_cons, List.map_cons, List.sum_cons, ← ih]
    ext i j
    simp only [symUpper, Matrix.of_apply, Matrix.add_apply]
    split_ifs <;> rfl

theorem quad_list_sum (L : List Mat6) (xi : Vec6) : xi ⬝ᵥ (L.sum *ᵥ xi) = (L.map fun A => xi ⬝ᵥ (A *ᵥ xi)).sum := by
  induction L with
  | nil => simp
  | cons A L ih => rw [List.sum_cons, add_mulVec, dotProduct_add, ih, List.map_cons, List.sum_cons]

theorem quad_symUpper (A : Mat6) (xi : Vec6) : xi ⬝ᵥ (symUpper A *ᵥ xi) =
    ∑ i, ∑ j, xi i * xi j * (if pos6 i ≤ pos6 j then A i j else A j i) := by
  simp only [dotProduct, mulVec, Finset.mul_sum, symUpper, Matrix.of_apply]
  exact Finset.sum_congr rfl fun i _ => Finset.sum_congr rfl fun j _ => by ring

/-- The quadratic form of the Hessian of the code for two poses. -/
theorem Ready.hess_two {e : EigSolver} {s : PlaneReg} {T : SE3} (h : s.Ready T) (hn : s.numberPoses = 2) (hT : LastRow T.T)
    {g : Vec6} {H : Mat6} {s' : PlaneReg} (hg : s.gradHess6 e = .ok ((g, H), s')) (xi : Vec6) :
    xi ⬝ᵥ (H *ᵥ xi) = (s.planes.map fun q =>
      2 * (planeOf e s q.2 ⬝ᵥ ((hat6 xi * hat6 xi * (T.T * sumOuter (q.2.cloudAt 1) * T.Tᵀ)) *ᵥ planeOf e s q.2)) +
      2 * (planeOf e s q.2 ⬝ᵥ ((hat6 xi * (T.T * sumOuter (q.2.cloudAt 1) * T.Tᵀ) * (hat6 xi)ᵀ) *ᵥ planeOf e s q.2)) +
      2 * cloudExcess (planeOf e s q.2) T.T (q.2.cloudAt 1) (fun i => xi (.inl i)) (fun i => xi (.inr i))).sum := by
  have hl := h.pose.len (by have := h.two; omega)
  obtain ⟨s1, h1, -, -, -⟩ := gradHess6_value (e := e) h.wf hl.ge h.time
  rw [hg, Out.ok.injEq, Prod.mk.injEq, Prod.mk.injEq] at h1
  obtain ⟨⟨-, h1⟩, -⟩ := h1
  have ht : s.times = [1] := by rw [times, hn]; rfl
  have hτ : s.tau * ((1 : ℕ) : ℝ) = 1 := by
    rw [tau_eq (by have := h.two; omega) h.pose.bound, hn]; norm_num
  rw [h1, ht, List.map_singleton, List.sum_singleton, hτ, one_smul, symUpper_sum, quad_list_sum, List.map_map, List.map_map]
  refine congrArg List.sum (List.map_congr_left fun q hq => ?_)
  have e0 : poseAt s.numberPoses T 1 = T := by rw [hn, poseAt, if_neg one_ne_zero, if_pos (by norm_num)]
  have hQ := h.Q_at (e := e) hq (t := 1) (by omega)
  rw [e0] at hQ
  have hx := quad_ordered hT (planeOf e s q.2) (q.2.cloudAt 1) xi
  have e1 : head3 xi = fun i => xi (.inl i) := by funext i; fin_cases i <;> rfl
  have e2 : tail3 xi = fun i => xi (.inr i) := by funext i; fin_cases i <;> rfl
  rw [e1, e2] at hx
  rw [← hx, ← hessian_quad _ (conj_transpose (sumOuter_transpose _)), Function.comp_apply, Function.comp_apply, quad_symUpper]
  refine Finset.sum_congr rfl fun i _ => Finset.sum_congr rfl fun j _ => ?_
  simp only [Plane.hAt, hQ, Option.getD_some, Matrix.of_apply]
  rcases le_total (pos6 i) (pos6 j) with hij | hij
  · simp only [hij, if_true]
    rfl
  · by_cases h2 : pos6 i ≤ pos6 j
    · simp only [h2, if_true]
      rfl
    · simp only [h2, hij, if_false, if_true]
      rfl

end PlaneReg

/-- C65, second order, for two poses: for every twist the quadratic form of the Hessian of the code is the second derivative
of the cost of the estimated planes along the twist, plus twice the excess found for a single plane in `C63_exact`, summed over
the planes.  Missing: more than two poses, see `C65_hessian_fails`. -/
theorem C65_hessian_exact_partial (e : EigSolver) (s : PlaneReg) (T : SE3) (h : s.Ready T) (hn : s.numberPoses = 2)
    (hT : IsRigid T.T) (g : Vec6) (H : Mat6) (s' : PlaneReg) (hg : s.gradHess6 e = .ok ((g, H), s')) (xi : Vec6) :
    ∃ E : ℝ → ℝ, (∀ k : ℝ, s'.lastCost (k • xi) = .ok (E k)) ∧ xi ⬝ᵥ (H *ᵥ xi) = deriv (deriv E) 0 +
      2 * (s.planes.map fun q => cloudExcess (PlaneReg.planeOf e s q.2) T.T (q.2.cloudAt 1) (fun i => xi (.inl i))
        (fun i => xi (.inr i))).sum := by
  refine ⟨fun k => (s.planes.map fun q => cloudCost (PlaneReg.planeOf e s q.2) SE3.default.T (q.2.cloudAt 0) +
    cloudCost (PlaneReg.planeOf e s q.2) (T.updateLhs (k • xi)).T (q.2.cloudAt 1)).sum, fun k => ?_, ?_⟩
  · rw [h.lastCost hg, hn]
    congr 2
    refine List.map_congr_left fun q _ => ?_
    rw [Finset.sum_range_succ, Finset.sum_range_one]
    rfl
  · rw [h.hess_two hn hT.lastRow hg xi, sum_cloudCost_second hT.lastRow]
    generalize s.planes = l
    induction l with
    | nil => simp
    | cons a l ih =>
      simp only [List.map_cons, List.sum_cons, ih]
      ring

/-- Two poses, points of the last pose on the estimated planes (noise-free data): the Hessian of the code is the second
derivative of the cost in every direction.  Missing: points off the planes and more than two poses. -/
theorem C65_hessian_coplanar_partial (e : EigSolver) (s : PlaneReg) (T : SE3) (h : s.Ready T) (hn : s.numberPoses = 2)
    (hT : IsRigid T.T) (g : Vec6) (H : Mat6) (s' : PlaneReg) (hg : s.gradHess6 e = .ok ((g, H), s'))
    (hon : ∀ q ∈ s.planes, ∀ p ∈ q.2.cloudAt 1, planeEval (PlaneReg.planeOf e s q.2) (movePoint T.T p) = 0) (xi : Vec6) :
    ∃ E : ℝ → ℝ, (∀ k : ℝ, s'.lastCost (k • xi) = .ok (E k)) ∧ xi ⬝ᵥ (H *ᵥ xi) = deriv (deriv E) 0 := by
  obtain ⟨E, h1, h2⟩ := C65_hessian_exact_partial e s T h hn hT g H s' hg xi
  refine ⟨E, h1, h2.trans ?_⟩
  have : (s.planes.map fun q => cloudExcess (PlaneReg.planeOf e s q.2) T.T (q.2.cloudAt 1) (fun i => xi (.inl i))
      (fun i => xi (.inr i))).sum = 0 := by
    refine List.sum_eq_zero fun x hx => ?_
    obtain ⟨q, hq, rfl⟩ := List.mem_map.mp hx
    refine List.sum_eq_zero fun y hy => ?_
    obtain ⟨p, hp, rfl⟩ := List.mem_map.mp hy
    rw [hon q hq p hp, zero_mul]
  rw [this, mul_zero, add_zero]

/-- One point seen from the second of two poses: every sound solver finds a plane through it. -/
example (svd : Mat3 → SVD3) : ∃ (e : EigSolver) (s : _) (g : Vec6) (H : Mat6) (s' : PlaneReg), e.Sound ∧
    PlaneReg.run e svd [.setNumbers 1 2, .addNewPlane 0, .pushPoint 0 1 ![1, 2, 3]] (OptDense.new PlaneReg.new) = .ok s ∧
    s.obj.Ready SE3.default ∧ s.obj.numberPoses = 2 ∧ s.obj.gradHess6 e = .ok ((g, H), s') ∧
    ∀ q ∈ s.obj.planes, ∀ p ∈ q.2.cloudAt 1, planeEval (PlaneReg.planeOf e s.obj q.2) (movePoint SE3.default.T p) = 0 := by
  obtain ⟨e, he⟩ := exists_sound
  obtain ⟨s, hs, hp⟩ : ∃ s, PlaneReg.run e svd [.setNumbers 1 2, .addNewPlane 0, .pushPoint 0 1 ![1, 2, 3]]
      (OptDense.new PlaneReg.new) = .ok s ∧ s.obj.planes = [(0, { Plane.new 2 with points := [[], [![1, 2, 3]]], numberPoints := 1 })] ∧
      s.obj.numberPoses = 2 ∧ s.obj.traj = List.replicate 2 SE3.default := ⟨_, rfl, rfl, rfl, rfl⟩
  have hr : s.obj.Ready SE3.default := by
    refine ⟨PlaneReg.run_inv PlaneReg.new_inv hs, hp.2.1.ge, PlaneReg.interpolated_replicate (by rw [hp.2.1]; exact hp.2.2), ?_, ?_, ?_,
      by rw [hp.2.2]; rfl⟩
    all_goals
      intro q hq
      rw [hp.1] at hq
      obtain rfl := List.mem_singleton.mp hq
    · exact ⟨rfl, Or.inl rfl⟩
    · exact Or.inl rfl
    · rw [hp.2.1]; rfl
  obtain ⟨s', h1, -, -, -⟩ := PlaneReg.gradHess6_value (e := e) hr.wf (by rw [hp.2.1, hp.2.2]; rfl) hr.time
  refine ⟨e, s, _, _, s', he, hs, hr, hp.2.1, h1, fun q hq p hpp => ?_⟩
  rw [hp.1] at hq
  obtain rfl := List.mem_singleton.mp hq
  obtain rfl : p = ![1, 2, 3] := List.mem_singleton.mp hpp
  set P : Plane := { Plane.new 2 with points := [[], [![1, 2, 3]]], numberPoints := 1 } with hP
  have hw : P.Wf := ⟨rfl, Or.inl rfl⟩
  have hu : P.usedS = [[], [![1, 2, 3]]].map sumOuter := rfl
  have hest := Plane.estimate_ok (e := e) (traj := s.obj.traj) hw (by rw [hp.2.2]; exact le_refl 2)
  obtain ⟨pl, hpl, -, ho⟩ := estimate_optimal he (fun A hA => by
    rw [hp.2.2] at hA
    rw [List.eq_of_mem_replicate hA]; exact rigid_default.lastRow) hw hu hest
  have hf : PlaneReg.planeOf e s.obj P = pl := Option.some.inj hpl
  have hmv : movePoint SE3.default.T ![1, 2, 3] = ![1, 2, 3] := by
    funext i
    fin_cases i <;> simp [movePoint, SE3.default, Fin.sum_univ_three]
  have hcost : ∀ x : Vec4, planeCost x (s.obj.traj.map SE3.T) [[], [![1, 2, 3]]] = planeEval x ![1, 2, 3] ^ 2 := by
    intro x
    rw [hp.2.2]
    simp [planeCost, cloudCost, List.replicate, hmv]
  have hr2 : (1 / Real.sqrt 2) ^ 2 = (1 / 2 : ℝ) := by rw [div_pow, Real.sq_sqrt (by norm_num)]; norm_num
  have hle := ho.2.2 (Sum.elim ![1 / Real.sqrt 2, 0, 0] fun _ => -(1 / Real.sqrt 2)) (by
    simp only [Unit4, dotProduct, Fintype.sum_sum_type, Fin.sum_univ_three]
    simp
    linear_combination 2 * hr2)
  rw [← ho.2.1, hcost, hcost] at hle
  rw [hf, hmv]
  refine pow_eq_zero_iff (n := 2) (by norm_num) |>.mp (le_antisymm (hle.trans (le_of_eq ?_)) (sq_nonneg _))
  simp [planeEval, Fin.sum_univ_three]

end Mrob
