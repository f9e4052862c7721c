import Verif.Lemmas.PlaneObj

/-! # Properties C49, C50, C51, C53: accumulation, estimation and incremental evaluation of planes -/

open Matrix

namespace Mrob

open Spec

/-! ## C49: the matrices accumulate all points and measure squared distances -/

/-- After any sequence of calls on a new plane for `n` poses, the points held for pose `t < n` are exactly the points
pushed for `t`, in order, and the number of points reported is the number of pushes with a valid time. -/
theorem C49_points (e : EigSolver) (n : ℕ) (ops : List Plane.Op) (s : Plane)
    (h : Plane.run e ops (Plane.new n) = .ok s) :
    (∀ t < n, s.points[t]? = some (Plane.pushedAt ops t)) ∧ s.points.length = n ∧
      s.numberPoints = Plane.pushCount n ops := by
  refine ⟨fun t ht => ?_, ?_, ?_⟩
  · obtain ⟨l, h1, h2⟩ := Plane.run_points (Plane.new_wf n) h t ht
    rw [h2]
    have : l = [] := by
      have h1 : (List.replicate n ([] : List Vec3))[t]? = some l := h1
      rw [List.getElem?_replicate, if_pos ht] at h1
      exact (Option.some.inj h1).symm
    rw [this, List.nil_append]
  · obtain ⟨w, t⟩ := Plane.run_wf (Plane.new_wf n) h
    exact w.pts.trans t
  · rw [Plane.run_count (Plane.new_wf n) h]
    exact Nat.zero_add _

/-- Two pushes for the first of two poses, one for the second, one ignored. -/
example (e : EigSolver) : ∃ s, Plane.run e [.push 0 0, .push 1 1, .push 1 0, .push 0 7] (Plane.new 2) = .ok s ∧
    s.points = [[0, 1], [1]] ∧ s.numberPoints = 3 := ⟨_, rfl, rfl, rfl⟩

/-- The matrix `S` computed for a cloud holds the second moments, the first moments and the number of its points; it is
symmetric and positive semidefinite and does not depend on the order of the points. -/
theorem C49_moments (l : List Vec3) :
    (∀ i j, sumOuter l (.inl i) (.inl j) = (l.map fun p => p i * p j).sum) ∧
    (∀ i, sumOuter l (.inl i) (.inr ()) = (l.map fun p => p i).sum) ∧
    sumOuter l (.inr ()) (.inr ()) = l.length ∧ (sumOuter l).PosSemidef ∧
    ∀ l', l.Perm l' → sumOuter l' = sumOuter l := by
  refine ⟨fun i j => ?_, fun i => ?_, ?_, ?_, fun l' h => ?_⟩
  · induction l with
    | nil => rfl
    | cons p l ih => rw [sumOuter_cons, Matrix.add_apply, ih, List.map_cons, List.sum_cons]; rfl
  · induction l with
    | nil => rfl
    | cons p l ih =>
      rw [sumOuter_cons, Matrix.add_apply, ih, List.map_cons, List.sum_cons]
      exact congrArg (· + _) (mul_one _)
  · induction l with
    | nil => simp [sumOuter_nil]
    | cons p l ih =>
      rw [sumOuter_cons, Matrix.add_apply, ih, List.length_cons, Nat.cast_add, add_comm]
      exact congrArg _ ((mul_one _).trans Nat.cast_one.symm)
  · refine Matrix.PosSemidef.of_dotProduct_mulVec_nonneg ?_ fun x => ?_
    · rw [IsHermitian, conjTranspose_eq_transpose_of_trivial, sumOuter_transpose]
    · rw [star_trivial, quad_sumOuter]
      exact List.sum_nonneg fun y hy => by
        obtain ⟨p, -, rfl⟩ := List.mem_map.mp hy
        exact sq_nonneg _
  · rw [sumOuter_eq, sumOuter_eq]
    exact (h.map _).sum_eq.symm

/-- After an estimation on an object whose cache is empty, `S` is computed from the points held. -/
theorem C49_S (e : EigSolver) (traj : List SE3) (n : ℕ) (ops : List Plane.Op) (s s' : Plane) (lam : ℝ)
    (h : Plane.run e ops (Plane.new n) = .ok s) (hS : s.S = []) (he : s.estimate e traj = .ok (lam, s')) :
    ∀ t < n, s'.S[t]? = some (sumOuter (Plane.pushedAt ops t)) := by
  intro t ht
  obtain ⟨w, -⟩ := Plane.run_wf (Plane.new_wf n) h
  obtain ⟨-, hr⟩ := Plane.estimate_inv w he
  obtain ⟨-, rfl⟩ := Prod.mk.inj hr
  change s.usedS[t]? = _
  rw [Plane.usedS_inSync (Or.inl hS), List.getElem?_map, (C49_points e n ops s h).1 t ht]
  rfl

/-- The quadratic form of `Q` for pose `t` is the sum of the squared values of the plane equation at the points pushed for
`t`, moved by the pose; that of the accumulated matrix is the sum over all poses. -/
theorem C49_squared_distances (e : EigSolver) (traj : List SE3) (n : ℕ) (ops : List Plane.Op) (s s' : Plane) (lam : ℝ)
    (h : Plane.run e ops (Plane.new n) = .ok s) (hS : s.S = []) (he : s.estimate e traj = .ok (lam, s'))
    (ht : ∀ T ∈ traj, IsRigid T.T) :
    (∀ t < n, ∃ T Q, traj[t]? = some T ∧ s'.Q[t]? = some Q ∧
      ∀ pl, pl ⬝ᵥ (Q *ᵥ pl) = cloudCost pl T.T (Plane.pushedAt ops t)) ∧
    ∃ acc, s'.accQ = some acc ∧
      ∀ pl, pl ⬝ᵥ (acc *ᵥ pl) = planeCost pl (traj.map SE3.T) ((List.range n).map (Plane.pushedAt ops)) := by
  obtain ⟨w, tl⟩ := Plane.run_wf (Plane.new_wf n) h
  obtain ⟨hlen, hr⟩ := Plane.estimate_inv w he
  obtain ⟨-, rfl⟩ := Prod.mk.inj hr
  obtain ⟨hp, hpl, -⟩ := C49_points e n ops s h
  have hn : n ≤ traj.length := by rw [tl] at hlen; exact hlen
  have hU : s.usedS = s.points.map sumOuter := Plane.usedS_inSync (Or.inl hS)
  have hpts : s.points = (List.range n).map (Plane.pushedAt ops) := by
    refine List.ext_getElem? fun t => ?_
    rcases lt_or_ge t n with h1 | h1
    · rw [hp t h1, List.getElem?_map, List.getElem?_range h1]; rfl
    · rw [List.getElem?_eq_none (by omega), List.getElem?_eq_none (by simpa using h1)]
  refine ⟨fun t h1 => ?_, (Plane.qList traj s.usedS).sum, rfl, fun pl => ?_⟩
  · have h2 : t < s.usedS.length := by rw [hU]; simp; omega
    have h3 : t < (Plane.qList traj s.usedS).length := by rw [Plane.qList_length (by rw [hU]; simp; omega)]; exact h2
    refine ⟨traj[t], (Plane.qList traj s.usedS)[t], List.getElem?_eq_getElem (by omega), List.getElem?_eq_getElem h3,
      fun pl => ?_⟩
    rw [Plane.qList_getElem (by omega) h2 h3, ← quad_cloud (ht _ (List.getElem_mem _)).lastRow]
    have : s.usedS[t] = sumOuter (Plane.pushedAt ops t) := by
      have h4 : s.usedS[t]? = some (sumOuter (Plane.pushedAt ops t)) := by
        rw [hU, List.getElem?_map, hp t h1]; rfl
      exact Option.some.inj ((List.getElem?_eq_getElem h2).symm.trans h4)
    rw [this]
  · rw [hU, hpts]
    exact Plane.quad_qList (fun T hT => (ht T hT).lastRow) _ _

theorem rigid_default : IsRigid SE3.default.T := by
  change IsRigid (1 : Mat4)
  rw [← homog_one]
  exact isRigid_homog ⟨by simp, by simp⟩ 0

/-- A plane seen from two poses with three points. -/
example (e : EigSolver) : ∃ s lam s', Plane.run e [.push 0 0, .push 1 1, .push 1 0] (Plane.new 2) = .ok s ∧ s.S = [] ∧
    s.estimate e [SE3.default, SE3.default] = .ok (lam, s') ∧ ∀ T ∈ [SE3.default, SE3.default], IsRigid T.T := by
  refine ⟨_, _, _, rfl, rfl, Plane.estimate_ok ⟨rfl, Or.inl rfl⟩ (by exact le_refl 2), ?_⟩
  intro T hT
  have : T = SE3.default := by simpa using hT
  rw [this]
  exact rigid_default

/-- The mean point of pose `t` is the mean of the points pushed for it. -/
theorem C49_mean (e : EigSolver) (traj : List SE3) (n : ℕ) (ops : List Plane.Op) (s s' : Plane) (lam : ℝ)
    (h : Plane.run e ops (Plane.new n) = .ok s) (hS : s.S = []) (he : s.estimate e traj = .ok (lam, s')) (t : ℕ)
    (ht : t < n) (hne : Plane.pushedAt ops t ≠ []) :
    s'.meanPoint t = .ok (((Plane.pushedAt ops t).length : ℝ)⁻¹ • (Plane.pushedAt ops t).sum) := by
  have h1 := C49_S e traj n ops s s' lam h hS he t ht
  obtain ⟨-, m2, m3, -, -⟩ := C49_moments (Plane.pushedAt ops t)
  rw [Plane.meanPoint, Out.index_eq_ok.mpr h1, Out.ok_bind, m3, if_neg (by simpa using hne)]
  congr 1
  ext i
  rw [m2, div_eq_inv_mul, Pi.smul_apply, smul_eq_mul]
  congr 1
  induction Plane.pushedAt ops t with
  | nil => rfl
  | cons p l ih => rw [List.map_cons, List.sum_cons, List.sum_cons, Pi.add_apply, ih]

/-! ## C50: points pushed after an estimation -/

/-- The estimated plane minimises the cost for the given clouds. -/
def OptimalFor (traj : List SE3) (clouds : List (List Vec3)) (pl : Vec4) (lam : ℝ) : Prop :=
  Unit4 pl ∧ planeCost pl (traj.map SE3.T) clouds = lam ∧
    ∀ x, Unit4 x → lam ≤ planeCost x (traj.map SE3.T) clouds

theorem estimate_optimal {e : EigSolver} (he : e.Sound) {traj : List SE3} (ht : ∀ T ∈ traj, LastRow T.T)
    {s s' : Plane} {lam : ℝ} {clouds : List (List Vec3)} (hw : s.Wf) (hu : s.usedS = clouds.map sumOuter)
    (hr : s.estimate e traj = .ok (lam, s')) : ∃ pl, s'.plane = some pl ∧ s'.lambda = lam ∧ OptimalFor traj clouds pl lam := by
  obtain ⟨-, hr⟩ := Plane.estimate_inv hw hr
  obtain ⟨rfl, rfl⟩ := Prod.mk.inj hr
  have hd := he.1 _ (Plane.qList_sum_transpose (traj := traj) (Plane.sym_map clouds))
  have hq := Plane.quad_qList ht clouds
  refine ⟨_, rfl, rfl, ?_⟩
  rw [hu]
  refine ⟨hd.unit 0, ?_, fun x hx => ?_⟩
  · rw [← hq]
    exact hd.attains 0
  · rw [← hq]
    have := hd.le_quad (by simp) x
    rwa [show x ⬝ᵥ x = 1 from hx, mul_one] at this

/-- Points pushed before the first estimation, or since the last `reset`, are all taken into account: with an empty cache
the next estimation is optimal for the points pushed so far, whatever happened before.

Missing: points pushed after an estimation without a `reset` in between are ignored, see `C50_fails`. -/
theorem C50_fresh_partial (e : EigSolver) (he : e.Sound) (n : ℕ) (ops pushes : List Plane.Op) (s : Plane)
    (hp : ∀ op ∈ pushes, op.isPush = true) (h : Plane.run e (ops ++ .reset :: pushes) (Plane.new n) = .ok s)
    (traj : List SE3) (ht : ∀ T ∈ traj, IsRigid T.T) (hn : n ≤ traj.length) :
    ∃ lam s' pl, s.estimate e traj = .ok (lam, s') ∧ s'.plane = some pl ∧
      OptimalFor traj ((List.range n).map (Plane.pushedAt (ops ++ pushes))) pl lam := by
  obtain ⟨w, tl⟩ := Plane.run_wf (Plane.new_wf n) h
  have hest := Plane.estimate_ok (e := e) w (by rw [tl]; exact hn)
  obtain ⟨hpt, hpl, -⟩ := C49_points e n _ s h
  have hpts : s.points = (List.range n).map (Plane.pushedAt (ops ++ pushes)) := by
    refine List.ext_getElem? fun t => ?_
    rcases lt_or_ge t n with h1 | h1
    · rw [hpt t h1, List.getElem?_map, List.getElem?_range h1]
      simp [Plane.pushedAt]
    · rw [List.getElem?_eq_none (by omega), List.getElem?_eq_none (by simpa using h1)]
  have hS : s.S = [] := by
    rw [Plane.run_append] at h
    obtain ⟨s1, h1, h⟩ := Out.bind_eq_ok.mp h
    obtain ⟨w1, -⟩ := Plane.run_wf (Plane.new_wf n) h1
    obtain ⟨s2, h2, h⟩ := Out.bind_eq_ok.mp h
    cases h2
    exact Plane.run_pushes_S (Plane.reset_wf w1) hp h
  obtain ⟨pl, h1, -, h3⟩ := estimate_optimal he (fun T hT => (ht T hT).lastRow) w (by rw [Plane.usedS_inSync (Or.inl hS), hpts]) hest
  exact ⟨_, _, pl, hest, h1, h3⟩

/-- Estimation, reset, push. -/
example : ∃ (e : EigSolver) (s : Plane), e.Sound ∧
    Plane.run e ([.push 0 0, .estimate [SE3.default]] ++ .reset :: [.push 1 0]) (Plane.new 1) = .ok s := by
  obtain ⟨e, he⟩ := exists_sound
  exact ⟨e, _, he, rfl⟩

/-- What happens instead: an estimation freezes the points.  Whatever is pushed afterwards, the next estimation with the
same trajectory returns the same error and the same plane. -/
theorem C50_frozen (e : EigSolver) (n : ℕ) (hn : 0 < n) (ops pushes : List Plane.Op) (s s1 s2 : Plane) (lam : ℝ)
    (traj : List SE3) (h : Plane.run e ops (Plane.new n) = .ok s) (h1 : s.estimate e traj = .ok (lam, s1))
    (hp : ∀ op ∈ pushes, op.isPush = true) (h2 : Plane.run e pushes s1 = .ok s2) :
    ∃ s3, s2.estimate e traj = .ok (lam, s3) ∧ s3.plane = s1.plane ∧ s3.lambda = s1.lambda := by
  obtain ⟨w, tl⟩ := Plane.run_wf (Plane.new_wf n) h
  obtain ⟨hl, hr⟩ := Plane.estimate_inv w h1
  obtain ⟨rfl, rfl⟩ := Prod.mk.inj hr
  have w1 := Plane.estimated_wf (e := e) (traj := traj) w
  obtain ⟨w2, tl2⟩ := Plane.run_wf w1 h2
  have hS : s2.S = s.usedS := Plane.run_pushes_S w1 hp h2
  have hne : s2.S ≠ [] := by
    intro h0
    have := Plane.usedS_length w
    rw [← hS, h0, tl] at this
    change 0 = n at this
    omega
  have hu : s2.usedS = s.usedS := by rw [Plane.usedS, if_neg hne, hS]
  refine ⟨s2.estimated e traj s2.usedS, ?_, ?_, ?_⟩
  · rw [Plane.estimate_ok w2 (by rw [tl2]; exact hl), hu]
  · rw [hu]; rfl
  · rw [hu]; rfl

/-- The corner points of a unit tetrahedron. -/
def corner0 : Vec3 := ![0, 0, 0]
/-- Second corner. -/
def corner1 : Vec3 := ![1, 0, 0]
/-- Third corner. -/
def corner2 : Vec3 := ![0, 1, 0]
/-- Fourth corner. -/
def corner3 : Vec3 := ![0, 0, 1]

theorem planeCost_single (pl : Vec4) (l : List Vec3) :
    planeCost pl ([SE3.default].map SE3.T) [l] = (l.map fun p => planeEval pl p ^ 2).sum := by
  have : ∀ p : Vec3, movePoint SE3.default.T p = p := by
    intro p
    ext i
    simp [movePoint, SE3.default, Matrix.one_apply]
  simp [planeCost, cloudCost, this]

/-- Points pushed after an estimation are ignored: three corners of a tetrahedron are pushed and the plane is estimated;
then the fourth corner is pushed.  The next estimation reports error `0` although every unit plane has a positive cost. -/
theorem C50_fails (e : EigSolver) (he : e.Sound) :
    ∃ s, Plane.run e [.push corner0 0, .push corner1 0, .push corner2 0, .estimate [SE3.default], .push corner3 0]
        (Plane.new 1) = .ok s ∧
      s.points = [[corner0, corner1, corner2, corner3]] ∧
      (∃ s', s.estimate e [SE3.default] = .ok (0, s')) ∧
      ∀ x, Unit4 x → 0 < planeCost x ([SE3.default].map SE3.T) [[corner0, corner1, corner2, corner3]] := by
  have hrig : ∀ T ∈ [SE3.default], IsRigid T.T := fun T hT => by
    have : T = SE3.default := by simpa using hT
    rw [this]; exact rigid_default
  let ops : List Plane.Op := [.push corner0 0, .push corner1 0, .push corner2 0]
  obtain ⟨s, hs⟩ : ∃ s, Plane.run e ops (Plane.new 1) = .ok s := ⟨_, rfl⟩
  obtain ⟨w, tl⟩ := Plane.run_wf (Plane.new_wf 1) hs
  have hS : s.S = [] := by cases hs; rfl
  have hpts : s.points = [[corner0, corner1, corner2]] := by cases hs; rfl
  have hest := Plane.estimate_ok (e := e) (traj := [SE3.default]) w (by rw [tl]; exact le_refl 1)
  obtain ⟨pl, h1, h2, h3⟩ := estimate_optimal he (fun T hT => (hrig T hT).lastRow) (clouds := [[corner0, corner1, corner2]]) w
    (by rw [Plane.usedS_inSync (Or.inl hS), hpts]) hest
  set lam := (e.eig4 (Plane.qList [SE3.default] s.usedS).sum).val 0 with hlam
  have h0 : lam = 0 := by
    refine le_antisymm ?_ ?_
    · have := h3.2.2 (Sum.elim ![0, 0, 1] fun _ => 0) (by simp [Unit4, dotProduct, Fintype.sum_sum_type, Fin.sum_univ_three])
      rw [planeCost_single] at this
      simpa [planeEval, corner0, corner1, corner2, Fin.sum_univ_three] using this
    · rw [← h3.2.1, planeCost_single]
      exact List.sum_nonneg fun y hy => by
        obtain ⟨p, -, rfl⟩ := List.mem_map.mp hy
        exact sq_nonneg _
  obtain ⟨s2, hs2⟩ : ∃ s2, Plane.run e [.push corner3 0] (s.estimated e [SE3.default] s.usedS) = .ok s2 := by
    rw [Plane.run, Plane.Op.run, Plane.push_ok (Plane.estimated_wf w)]
    exact ⟨_, rfl⟩
  have hall : Plane.run e [.push corner0 0, .push corner1 0, .push corner2 0, .estimate [SE3.default], .push corner3 0]
      (Plane.new 1) = .ok s2 := by
    have := Plane.run_append (e := e) (ops := ops) (ops' := [.estimate [SE3.default], .push corner3 0]) (s := Plane.new 1)
    rw [hs, Out.ok_bind, Plane.run, Plane.Op.run, hest, Out.ok_bind] at this
    exact this.trans hs2
  refine ⟨s2, hall, ?_, ?_, fun x hx => ?_⟩
  · have hp2 := (C49_points e 1 _ s2 hall).1 0 (by norm_num)
    have hl2 := (C49_points e 1 _ s2 hall).2.1
    match hh : s2.points with
    | [] => rw [hh] at hl2; simp at hl2
    | [a] =>
      rw [hh] at hp2
      rw [show a = _ from Option.some.inj hp2]
      rfl
    | _ :: _ :: _ => rw [hh] at hl2; simp at hl2
  · obtain ⟨s3, h4, -⟩ := C50_frozen e 1 (by norm_num) ops [.push corner3 0] s _ s2 lam [SE3.default] hs hest
      (by simp [Plane.Op.isPush]) hs2
    exact ⟨s3, by rw [h4, h0]⟩
  · rw [planeCost_single]
    have e1 : ([corner0, corner1, corner2, corner3].map fun p => planeEval x p ^ 2).sum =
        x (.inr ()) ^ 2 + ((x (.inl 0) + x (.inr ())) ^ 2 + ((x (.inl 1) + x (.inr ())) ^ 2 +
          (x (.inl 2) + x (.inr ())) ^ 2)) := by
      simp [planeEval, corner0, corner1, corner2, corner3, Fin.sum_univ_three]
    rw [e1]
    have hx' : x (.inl 0) ^ 2 + x (.inl 1) ^ 2 + x (.inl 2) ^ 2 + x (.inr ()) ^ 2 = 1 := by
      have : x ⬝ᵥ x = 1 := hx
      rw [← this]
      simp [dotProduct, Fintype.sum_sum_type, Fin.sum_univ_three, pow_two]
    by_contra hneg
    have z3 : x (.inr ()) = 0 := by
      apply pow_eq_zero_iff (n := 2) (by norm_num) |>.mp; nlinarith [sq_nonneg (x (.inr ())),
        sq_nonneg (x (.inl 0) + x (.inr ())), sq_nonneg (x (.inl 1) + x (.inr ())), sq_nonneg (x (.inl 2) + x (.inr ()))]
    rw [z3] at hneg hx'
    simp only [add_zero] at hneg
    nlinarith [sq_nonneg (x (.inl 0)), sq_nonneg (x (.inl 1)), sq_nonneg (x (.inl 2))]

/-! ## C51: the estimated plane is optimal -/

/-- After any pushes, followed by any calls other than pushes, an estimation over the rigid trajectory `traj` succeeds; the
plane is a unit vector, the value returned and reported by `get_error` is its sum of squared values at the moved points, and
no unit 4-vector has a smaller sum. -/
theorem C51_optimal (e : EigSolver) (he : e.Sound) (n : ℕ) (pushes calls : List Plane.Op) (s : Plane)
    (hp : ∀ op ∈ pushes, op.isPush = true) (hc : ∀ op ∈ calls, op.isPush = false)
    (h : Plane.run e (pushes ++ calls) (Plane.new n) = .ok s)
    (traj : List SE3) (ht : ∀ T ∈ traj, IsRigid T.T) (hn : n ≤ traj.length) :
    ∃ lam s' pl, s.estimate e traj = .ok (lam, s') ∧ s'.plane = some pl ∧ s'.lambda = lam ∧
      OptimalFor traj ((List.range n).map (Plane.pushedAt pushes)) pl lam := by
  rw [Plane.run_append] at h
  obtain ⟨s1, h1, h2⟩ := Out.bind_eq_ok.mp h
  obtain ⟨w1, tl1⟩ := Plane.run_wf (Plane.new_wf n) h1
  obtain ⟨w, tl⟩ := Plane.run_wf w1 h2
  obtain ⟨hpt, hpl, -⟩ := C49_points e n _ s1 h1
  have hpts : s1.points = (List.range n).map (Plane.pushedAt pushes) := by
    refine List.ext_getElem? fun t => ?_
    rcases lt_or_ge t n with h1 | h1
    · rw [hpt t h1, List.getElem?_map, List.getElem?_range h1]
      rfl
    · rw [List.getElem?_eq_none (by omega), List.getElem?_eq_none (by simpa using h1)]
  have hS1 : s1.S = [] := Plane.run_pushes_S (Plane.new_wf n) hp h1
  obtain ⟨p2, i2⟩ := Plane.run_noPush w1 hc h2
  have hest := Plane.estimate_ok (e := e) (traj := traj) w (by rw [tl, tl1]; exact hn)
  obtain ⟨pl, h3, h4, h5⟩ := estimate_optimal he (fun T hT => (ht T hT).lastRow) w (by rw [Plane.usedS_inSync (i2 (Or.inl hS1)), p2, hpts]) hest
  exact ⟨_, _, pl, hest, h3, h4, h5⟩

/-- Two pushes followed by two estimations with different trajectories. -/
example : ∃ (e : EigSolver) (s : Plane), e.Sound ∧
    Plane.run e ([.push 0 0, .push 1 0] ++ [.estimate [SE3.default], .estimate [SE3.ofVec 1]]) (Plane.new 1) = .ok s := by
  obtain ⟨e, he⟩ := exists_sound
  exact ⟨e, _, he, rfl⟩

/-! ## C53: incremental evaluation -/

theorem qList_set {traj : List SE3} {S : List Mat4} {t : ℕ} {T : SE3} (h1 : t < traj.length) (h2 : t < S.length) :
    (Plane.qList (traj.set t T) S).sum =
      (Plane.qList traj S).sum - traj[t].T * S[t] * traj[t].Tᵀ + T.T * S[t] * T.Tᵀ := by
  induction traj generalizing S t with
  | nil => simp at h1
  | cons A traj ih =>
    cases S with
    | nil => simp at h2
    | cons B S =>
      cases t with
      | zero => simp [Plane.qList, add_comm]
      | succ t =>
        have := ih (S := S) (t := t) (by simpa using h1) (by simpa using h2)
        simp only [Plane.qList, List.set_cons_succ, List.zipWith_cons_cons, List.sum_cons, List.getElem_cons_succ] at this ⊢
        rw [this]
        abel

theorem incQ_set {e : EigSolver} {traj : List SE3} {s : Plane} (w : s.Wf) (hl : s.timeLength ≤ traj.length) {t : ℕ}
    (ht : t < s.timeLength) (T : SE3) :
    (s.estimated e traj s.usedS).incQ (traj.set t T) t = .ok (Plane.qList (traj.set t T) s.usedS).sum := by
  have h2 : t < s.usedS.length := by rw [Plane.usedS_length w]; exact ht
  have h3 : t < (Plane.qList traj s.usedS).length := by
    rw [Plane.qList_length (by rw [Plane.usedS_length w]; exact hl)]; exact h2
  change (Out.index (Plane.qList traj s.usedS) t >>= fun Qt => _) = _
  rw [Out.index_ok h3, Out.ok_bind, Plane.rotS_ok (s := s.estimated e traj s.usedS) (by simp; omega) h2, Out.ok_bind,
    qList_set (by omega) h2, Plane.qList_getElem (by omega) h2]
  simp only [List.getElem_set_self]
  rfl

/-- After a full estimation, changing one pose: `get_error_incremental` returns the error of a full re-estimation with the
new trajectory; the first call of `estimate_plane_incrementally` returns it too, and leaves the same accumulated matrix and
plane as the full re-estimation.  Any object, any number of poses, any new pose.

Missing: further calls of `estimate_plane_incrementally`, and the error reported afterwards by `get_error`, see
`C53_twice_fails` and `C53_reported_fails`. -/
theorem C53_incremental_partial (e : EigSolver) (n : ℕ) (ops : List Plane.Op) (s s1 : Plane) (lam : ℝ) (traj : List SE3)
    (h : Plane.run e ops (Plane.new n) = .ok s) (h1 : s.estimate e traj = .ok (lam, s1)) (t : ℕ) (ht : t < n) (T : SE3) :
    ∃ lam' s2 s3, s1.estimate e (traj.set t T) = .ok (lam', s2) ∧ s1.errorInc e (traj.set t T) t = .ok lam' ∧
      s1.estimateInc e (traj.set t T) t = .ok (lam', s3) ∧ s3.accQ = s2.accQ ∧ s3.plane = s2.plane := by
  obtain ⟨w, tl⟩ := Plane.run_wf (Plane.new_wf n) h
  obtain ⟨hl, hr⟩ := Plane.estimate_inv w h1
  obtain ⟨rfl, rfl⟩ := Prod.mk.inj hr
  have tl : s.timeLength = n := tl
  have w1 := Plane.estimated_wf (e := e) (traj := traj) w
  have hne : s.usedS ≠ [] := by
    intro h0
    have := Plane.usedS_length w
    rw [h0, tl] at this
    simp at this
    omega
  have hu : (s.estimated e traj s.usedS).usedS = s.usedS := by
    rw [Plane.usedS]
    exact if_neg hne
  have hinc := incQ_set (e := e) w hl (by omega : t < s.timeLength) T
  refine ⟨(e.eig4 (Plane.qList (traj.set t T) s.usedS).sum).val 0,
    (s.estimated e traj s.usedS).estimated e (traj.set t T) (s.estimated e traj s.usedS).usedS,
    { s.estimated e traj s.usedS with
      accQ := some (Plane.qList (traj.set t T) s.usedS).sum
      plane := some (Plane.firstVec (e.eig4 (Plane.qList (traj.set t T) s.usedS).sum)) }, ?_, ?_, ?_, ?_, ?_⟩
  · rw [Plane.estimate_ok w1 (by rw [List.length_set]; exact hl), hu]
  · rw [Plane.errorInc, hinc, Out.ok_bind]
  · rw [Plane.estimateInc, hinc, Out.ok_bind]
  · rw [hu]; rfl
  · rw [hu]; rfl

/-- Two poses, one point each, the second pose changes. -/
example (e : EigSolver) : ∃ s lam s1, Plane.run e [.push 0 0, .push 1 1] (Plane.new 2) = .ok s ∧
    s.estimate e [SE3.default, SE3.default] = .ok (lam, s1) :=
  ⟨_, _, _, rfl, Plane.estimate_ok ⟨rfl, Or.inl rfl⟩ (by exact le_refl 2)⟩

/-- The translation by one unit along `x`. -/
def shiftX : SE3 := SE3.ofRt 1 ![1, 0, 0]
/-- The translation by one unit along `z`. -/
def shiftZ : SE3 := SE3.ofRt 1 ![0, 0, 1]

theorem rigid_ofRt_one (t : Vec3) : IsRigid (SE3.ofRt 1 t).T := isRigid_homog ⟨by simp, by simp⟩ t

theorem movePoint_ofRt_one (t p : Vec3) : movePoint (SE3.ofRt 1 t).T p = p + t := by
  rw [← transform_eq_movePoint, SE3.transform, SE3.ofRt, R_mk_homog, t_mk_homog, one_mulVec]

theorem movePoint_default (p : Vec3) : movePoint SE3.default.T p = p := by
  ext i
  simp [movePoint, SE3.default, Matrix.one_apply]

/-- Calling `estimate_plane_incrementally` twice without any change in between: one point at the origin, estimated from the
identity; the pose moves by one unit.  The first incremental call returns `0`, as a full re-estimation does; the second one,
with the same trajectory, returns a negative "sum of squares", because `matrixQ_` still holds the matrix of the old pose. -/
theorem C53_twice_fails (e : EigSolver) (he : e.Sound) :
    ∃ s s1 s2 s3 lam2, Plane.run e [.push 0 0, .estimate [SE3.default]] (Plane.new 1) = .ok s ∧
      s.estimateInc e [shiftX] 0 = .ok (0, s1) ∧ s1.estimateInc e [shiftX] 0 = .ok (lam2, s2) ∧ lam2 ≤ -1 / 2 ∧
      s.estimate e [shiftX] = .ok (0, s3) := by
  obtain ⟨s0, hs0⟩ : ∃ s, Plane.run e [.push 0 0] (Plane.new 1) = .ok s := ⟨_, rfl⟩
  have w : s0.Wf := (Plane.run_wf (Plane.new_wf 1) hs0).1
  have tl : s0.timeLength = 1 := by cases hs0; rfl
  have hu : s0.usedS = [sumOuter [0]] := by cases hs0; rfl
  have hest := Plane.estimate_ok (e := e) (traj := [SE3.default]) w (by rw [tl]; exact le_refl 1)
  have hall : Plane.run e [.push 0 0, .estimate [SE3.default]] (Plane.new 1) =
      .ok (s0.estimated e [SE3.default] s0.usedS) := by
    have := Plane.run_append (e := e) (ops := [.push 0 0]) (ops' := [.estimate [SE3.default]]) (s := Plane.new 1)
    rw [hs0, Out.ok_bind, Plane.run, Plane.Op.run, hest, Out.ok_bind] at this
    exact this
  obtain ⟨lam1, s3, s1, h1, -, h3, h4, h5⟩ := C53_incremental_partial e 1 _ s0 _ _ [SE3.default] hs0 hest 0 (by norm_num) shiftX
  change _ = Out.ok (lam1, s3) at h1
  have hset : [SE3.default].set 0 shiftX = [shiftX] := rfl
  rw [hset] at h1 h3
  have w1 := Plane.estimated_wf (e := e) (traj := [SE3.default]) w
  have hu1 : (s0.estimated e [SE3.default] s0.usedS).usedS = [[(0 : Vec3)]].map sumOuter := by rw [hu]; rfl
  obtain ⟨pl, -, -, h6⟩ := estimate_optimal he (fun T hT => by
    rw [show T = shiftX by simpa using hT]; exact (rigid_ofRt_one _).lastRow) w1 hu1 h1
  have e1 : ∀ x : Vec4, planeCost x ([shiftX].map SE3.T) [[(0 : Vec3)]] = (x (.inl 0) + x (.inr ())) ^ 2 := by
    intro x
    simp [planeCost, cloudCost, shiftX, movePoint_ofRt_one, planeEval, Fin.sum_univ_three]
  have h0 : lam1 = 0 := by
    refine le_antisymm ?_ ?_
    · have := h6.2.2 (Sum.elim ![0, 0, 1] fun _ => 0) (by simp [Unit4, dotProduct, Fintype.sum_sum_type, Fin.sum_univ_three])
      rw [e1] at this
      simpa using this
    · rw [← h6.2.1, e1]
      exact sq_nonneg _
  subst h0
  -- the second call
  have hinc := incQ_set (e := e) (traj := [SE3.default]) w (by rw [tl]; exact le_refl 1) (by rw [tl]; norm_num : 0 < s0.timeLength) shiftX
  rw [hset] at hinc
  rw [Plane.estimateInc, hinc, Out.ok_bind] at h3
  obtain ⟨-, h3'⟩ := Prod.mk.inj (Out.ok.inj h3)
  let Q0 : Mat4 := SE3.default.T * sumOuter [0] * SE3.default.Tᵀ
  let Q1 : Mat4 := shiftX.T * sumOuter [0] * shiftX.Tᵀ
  have hq : s1.incQ [shiftX] 0 = .ok (Q1 - Q0 + Q1) := by
    rw [← h3', hu]
    change Out.ok ((Plane.qList [shiftX] [sumOuter [0]]).sum - Q0 + Q1) = _
    simp [Plane.qList, Q1]
  have sym : (Q1 - Q0 + Q1)ᵀ = Q1 - Q0 + Q1 := by
    rw [transpose_add, transpose_sub, conj_transpose (sumOuter_transpose _), conj_transpose (sumOuter_transpose _)]
  refine ⟨_, s1, { s1 with accQ := some (Q1 - Q0 + Q1), plane := some (Plane.firstVec (e.eig4 (Q1 - Q0 + Q1))) }, s3,
    (e.eig4 (Q1 - Q0 + Q1)).val 0, hall, ?_, ?_, ?_, h1⟩
  · rw [Plane.estimateInc, hinc, Out.ok_bind]
    exact h3
  · rw [Plane.estimateInc, hq, Out.ok_bind]
  · have := (he.1 _ sym).le_quad (by simp) (Sum.elim ![1, 0, 0] fun _ => -1)
    rw [add_mulVec, sub_mulVec, dotProduct_add, dotProduct_sub, quad_cloud rigid_default.lastRow,
      quad_cloud (T := shiftX.T) (rigid_ofRt_one _).lastRow] at this
    simp [shiftX, cloudCost, movePoint_default, movePoint_ofRt_one, planeEval, Fin.sum_univ_three, dotProduct,
      Fintype.sum_sum_type] at this
    linarith

/-- `estimate_plane_incrementally` does not update the error reported by `get_error`: three points of the plane `z = 0`
observed from two poses.  The second pose moves by one unit along `z`: the call returns a positive error, `get_error`
still reports `0`. -/
theorem C53_reported_fails (e : EigSolver) (he : e.Sound) :
    ∃ s s1 lam1, Plane.run e [.push corner0 0, .push corner1 0, .push corner2 0, .push corner0 1, .push corner1 1,
        .push corner2 1, .estimate [SE3.default, SE3.default]] (Plane.new 2) = .ok s ∧
      s.estimateInc e [SE3.default, shiftZ] 1 = .ok (lam1, s1) ∧ 0 < lam1 ∧ s1.lambda = 0 := by
  let ops : List Plane.Op := [.push corner0 0, .push corner1 0, .push corner2 0, .push corner0 1, .push corner1 1,
    .push corner2 1]
  let clouds : List (List Vec3) := [[corner0, corner1, corner2], [corner0, corner1, corner2]]
  obtain ⟨s0, hs0⟩ : ∃ s, Plane.run e ops (Plane.new 2) = .ok s := ⟨_, rfl⟩
  have w : s0.Wf := (Plane.run_wf (Plane.new_wf 2) hs0).1
  have tl : s0.timeLength = 2 := by cases hs0; rfl
  have hu : s0.usedS = clouds.map sumOuter := by cases hs0; rfl
  have hest := Plane.estimate_ok (e := e) (traj := [SE3.default, SE3.default]) w (by rw [tl]; exact le_refl 2)
  have hall : Plane.run e (ops ++ [.estimate [SE3.default, SE3.default]]) (Plane.new 2) =
      .ok (s0.estimated e [SE3.default, SE3.default] s0.usedS) := by
    rw [Plane.run_append, hs0, Out.ok_bind, Plane.run, Plane.Op.run, hest, Out.ok_bind]
    rfl
  have hrig : ∀ T ∈ [SE3.default, SE3.default], IsRigid T.T := fun T hT => by
    rw [show T = SE3.default by simpa using hT]; exact rigid_default
  obtain ⟨pl0, -, -, h6⟩ := estimate_optimal he (fun T hT => (hrig T hT).lastRow) w hu hest
  obtain ⟨lam1, s3, s1, h1, -, h3, -, -⟩ := C53_incremental_partial e 2 _ s0 _ _ _ hs0 hest 1 (by norm_num) shiftZ
  have w1 := Plane.estimated_wf (e := e) (traj := [SE3.default, SE3.default]) w
  have hu1 : (s0.estimated e [SE3.default, SE3.default] s0.usedS).usedS = clouds.map sumOuter := by rw [hu]; rfl
  have hrig' : ∀ T ∈ [SE3.default, shiftZ], IsRigid T.T := fun T hT => by
    rcases List.mem_pair.mp hT with rfl | rfl
    · exact rigid_default
    · exact rigid_ofRt_one _
  obtain ⟨pl, -, -, h7⟩ := estimate_optimal he (fun T hT => (hrig' T hT).lastRow) w1 hu1 h1
  have hlam : (e.eig4 (Plane.qList [SE3.default, SE3.default] s0.usedS).sum).val 0 = 0 := by
    refine le_antisymm ?_ ?_
    · have := h6.2.2 (Sum.elim ![0, 0, 1] fun _ => 0) (by simp [Unit4, dotProduct, Fintype.sum_sum_type, Fin.sum_univ_three])
      simpa [planeCost, clouds, cloudCost, movePoint_default, planeEval, corner0, corner1, corner2,
        Fin.sum_univ_three] using this
    · rw [← h6.2.1]
      exact planeCost_nonneg _ _ _
  refine ⟨_, s1, lam1, hall, h3, ?_, ?_⟩
  · rw [← h7.2.1]
    have hx' : pl (.inl 0) ^ 2 + pl (.inl 1) ^ 2 + pl (.inl 2) ^ 2 + pl (.inr ()) ^ 2 = 1 := by
      rw [← show pl ⬝ᵥ pl = 1 from h7.1]
      simp [dotProduct, Fintype.sum_sum_type, Fin.sum_univ_three, pow_two]
    have e1 : planeCost pl ([SE3.default, shiftZ].map SE3.T) clouds =
        pl (.inr ()) ^ 2 + (pl (.inl 0) + pl (.inr ())) ^ 2 + (pl (.inl 1) + pl (.inr ())) ^ 2 +
          ((pl (.inl 2) + pl (.inr ())) ^ 2 + (pl (.inl 0) + pl (.inl 2) + pl (.inr ())) ^ 2 +
            (pl (.inl 1) + pl (.inl 2) + pl (.inr ())) ^ 2) := by
      simp [planeCost, clouds, cloudCost, movePoint_default, movePoint_ofRt_one, shiftZ, planeEval, corner0, corner1,
        corner2, Fin.sum_univ_three]
      ring
    rw [e1]
    generalize pl (.inl 0) = a at *
    generalize pl (.inl 1) = b at *
    generalize pl (.inl 2) = c at *
    generalize pl (.inr ()) = d at *
    by_contra hneg
    have z : d = 0 := by
      apply pow_eq_zero_iff (n := 2) (by norm_num) |>.mp
      nlinarith [sq_nonneg d, sq_nonneg (a + d), sq_nonneg (b + d), sq_nonneg (c + d), sq_nonneg (a + c + d),
        sq_nonneg (b + c + d)]
    subst z
    simp only [add_zero] at hneg
    nlinarith [sq_nonneg a, sq_nonneg b, sq_nonneg c, sq_nonneg (a + c), sq_nonneg (b + c)]
  · have hinc := incQ_set (e := e) (traj := [SE3.default, SE3.default]) w (by rw [tl]; exact le_refl 2)
      (by rw [tl]; norm_num : 1 < s0.timeLength) shiftZ
    rw [Plane.estimateInc, hinc, Out.ok_bind] at h3
    obtain ⟨-, h3'⟩ := Prod.mk.inj (Out.ok.inj h3)
    rw [← h3']
    exact hlam

end Mrob
