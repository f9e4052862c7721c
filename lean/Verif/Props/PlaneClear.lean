import Verif.Props.Plane

/-!
# C114: a plane whose points have been cleared

`Plane::clear_points` (plane.cpp 117-120) empties the vector of the lists of points and changes nothing else.
-/

open Matrix

namespace Mrob

/-- The calls which need no points once the matrices have been computed: everything but `push_back_point`, `reset` and
`calculate_all_matrices_S(true)`. -/
def Spec.Pointless : Plane.Op → Prop
  | .push _ _ => False
  | .reset => False
  | .calcS b => b = false
  | _ => True

namespace Plane

theorem clear_rotS (traj : List SE3) (s : Plane) (t : ℕ) : s.clearPoints.rotS traj t = s.rotS traj t := rfl

theorem clear_estimate (e : EigSolver) (traj : List SE3) {s : Plane} (hS : s.S ≠ []) :
    s.clearPoints.estimate e traj = s.estimate e traj >>= fun r => .ok (r.1, r.2.clearPoints) := by
  have h1 : ∀ q : Plane, q.S ≠ [] → q.calcS false = .ok q := fun q hq => by
    have : q.S.isEmpty = false := by simpa using hq
    simp [calcS, this]
  rw [estimate, estimate, h1 s hS, h1 s.clearPoints hS, Out.ok_bind, Out.ok_bind, calcQ, calcQ]
  change (Out.traverse (s.rotS traj) (List.range s.timeLength) >>= _) >>= _ = _
  cases Out.traverse (s.rotS traj) (List.range s.timeLength) <;> rfl

theorem clear_estimateInc (e : EigSolver) (traj : List SE3) (t : ℕ) (s : Plane) :
    s.clearPoints.estimateInc e traj t = s.estimateInc e traj t >>= fun r => .ok (r.1, r.2.clearPoints) := by
  rw [estimateInc, estimateInc]
  change s.incQ traj t >>= _ = _
  cases s.incQ traj t <;> rfl

theorem clear_gradient (t : ℕ) (s : Plane) :
    s.clearPoints.gradient t = s.gradient t >>= fun r => .ok (r.1, r.2.clearPoints) := by
  rw [gradient, gradient]
  change Out.index s.Q t >>= _ = _
  cases Out.index s.Q t with
  | ok Q =>
    rw [Out.ok_bind, Out.ok_bind]
    obtain ⟨n, p, k, pl, l, S, Q', a, g⟩ := s
    cases pl <;> rfl
  | _ => rfl

theorem pointless_S {e : EigSolver} {op : Op} (ho : Spec.Pointless op) {s s' : Plane} (hS : s.S ≠ []) (h : op.run e s = .ok s') :
    s'.S = s.S := by
  have h1 : s.calcS false = .ok s := by
    have : s.S.isEmpty = false := by simpa using hS
    simp [calcS, this]
  cases op with
  | push p t => exact ho.elim
  | reset => exact ho.elim
  | calcS b =>
    cases (ho : b = false)
    rw [Op.run, h1] at h
    cases h; rfl
  | estimate traj =>
    rw [Op.run, estimate, h1, Out.ok_bind, calcQ] at h
    cases hq : Out.traverse (s.rotS traj) (List.range s.timeLength) with
    | ok Q => rw [hq] at h; cases h; rfl
    | _ => rw [hq] at h; cases h
  | estimateInc traj t =>
    rw [Op.run, estimateInc] at h
    cases hq : s.incQ traj t with
    | ok Q => rw [hq] at h; cases h; rfl
    | _ => rw [hq] at h; cases h
  | gradient t =>
    rw [Op.run, gradient] at h
    cases hq : Out.index s.Q t with
    | ok Q =>
      rw [hq, Out.ok_bind] at h
      cases hp : s.plane with
      | none => rw [hp] at h; cases h
      | some pl => rw [hp] at h; cases h; rfl
    | _ => rw [hq] at h; cases h

theorem clear_op {e : EigSolver} {op : Op} (ho : Spec.Pointless op) {s : Plane} (hS : s.S ≠ []) :
    op.run e s.clearPoints = op.run e s >>= fun s => .ok s.clearPoints := by
  cases op with
  | push p t => exact ho.elim
  | reset => exact ho.elim
  | calcS b =>
    cases (ho : b = false)
    have : s.S.isEmpty = false := by simpa using hS
    have h' : s.clearPoints.S.isEmpty = false := this
    simp only [Op.run, calcS, this, h', Bool.false_eq_true, if_false]
    rfl
  | estimate traj =>
    rw [Op.run, Op.run, clear_estimate e traj hS]
    cases s.estimate e traj <;> rfl
  | estimateInc traj t =>
    rw [Op.run, Op.run, clear_estimateInc]
    cases s.estimateInc e traj t <;> rfl
  | gradient t =>
    rw [Op.run, Op.run, clear_gradient]
    cases s.gradient t <;> rfl

theorem clear_run {e : EigSolver} {ops : List Op} (ho : ∀ op ∈ ops, Spec.Pointless op) {s : Plane} (hS : s.S ≠ []) :
    run e ops s.clearPoints = (run e ops s >>= fun s => .ok s.clearPoints) ∧ ∀ s', run e ops s = .ok s' → s'.S = s.S := by
  induction ops generalizing s with
  | nil => exact ⟨rfl, fun s' h => by cases h; rfl⟩
  | cons op ops ih =>
    have h0 := ho op (by simp)
    rw [run, run, clear_op h0 hS]
    cases h1 : op.run e s with
    | ok s1 =>
      have h2 := pointless_S h0 hS h1
      obtain ⟨h3, h4⟩ := ih (fun o h => ho o (by simp [h])) (s := s1) (by rw [h2]; exact hS)
      refine ⟨?_, fun s' h => (h4 s' h).trans h2⟩
      simpa only [Out.ok_bind] using h3
    | nan => exact ⟨rfl, fun s' h => by cases h⟩
    | ub => exact ⟨rfl, fun s' h => by cases h⟩
    | throw => exact ⟨rfl, fun s' h => by cases h⟩

end Plane

/-- C114: clearing the points does not give a plane which can be filled again.  For every plane with at least one pose and
every history of calls, after `clear_points` a point pushed for any of the poses is undefined behaviour, as is asking for the
points or their number, and as is an estimation after `reset`; the total number of points reported is still the number pushed
before. -/
theorem C114_refill_fails (e : EigSolver) (n : ℕ) (hn : 0 < n) (ops : List Plane.Op) (s : Plane)
    (h : Plane.run e ops (Plane.new n) = .ok s) :
    (∀ p, ∀ t < n, s.clearPoints.push p t = .ub) ∧
      (∀ t, s.clearPoints.getPoints t = .ub ∧ s.clearPoints.getNumberPoints t = .ub) ∧
      (∀ traj, s.clearPoints.reset.estimate e traj = .ub) ∧
      s.clearPoints.numberPoints = Plane.pushCount n ops := by
  obtain ⟨-, tl⟩ := Plane.run_wf (Plane.new_wf n) h
  have tl : s.timeLength = n := tl
  refine ⟨fun p t ht => ?_, fun t => ⟨?_, rfl⟩, fun traj => ?_, (C49_points e n ops s h).2.2⟩
  · rw [Plane.push, if_pos (by change t < s.timeLength; omega)]
    rfl
  · rw [Plane.getPoints]
    split_ifs <;> rfl
  · obtain ⟨m, rfl⟩ : ∃ m, n = m + 1 := ⟨n - 1, by omega⟩
    have h1 : s.clearPoints.reset.calcS false = .ub := by
      change (Out.traverse (fun t => Out.index ([] : List (List Vec3)) t >>= fun l => .ok (sumOuter l)) (List.range s.timeLength) >>=
        fun S => _) = _
      rw [tl, List.range_succ_eq_map]
      rfl
    rw [Plane.estimate, h1]
    rfl

/-- C114: what remains true.  Once the plane has been estimated its points are no longer needed: after `clear_points` every
sequence of calls other than `push_back_point`, `reset` and `calculate_all_matrices_S(true)` has the same outcome as
without, and the plane, the errors, the mean points, the gradients and the Hessians obtained afterwards are the same.

Missing: new points, see `C114_refill_fails`. -/
theorem C114_release_partial (e : EigSolver) (n : ℕ) (hn : 0 < n) (ops : List Plane.Op) (s s1 : Plane) (lam : ℝ)
    (traj : List SE3) (h : Plane.run e ops (Plane.new n) = .ok s) (h1 : s.estimate e traj = .ok (lam, s1))
    (later : List Plane.Op) (hl : ∀ op ∈ later, Spec.Pointless op) :
    (Plane.run e later s1.clearPoints = Plane.run e later s1 >>= fun s => .ok s.clearPoints) ∧
      ∀ s2, Plane.run e later s1 = .ok s2 → s2.clearPoints.plane = s2.plane ∧
        (∀ traj', s2.clearPoints.estimate e traj' = s2.estimate e traj' >>= fun r => .ok (r.1, r.2.clearPoints)) ∧
        ∀ t, (∀ traj', s2.clearPoints.errorInc e traj' t = s2.errorInc e traj' t) ∧
          s2.clearPoints.meanPoint t = s2.meanPoint t ∧
          (s2.clearPoints.gradient t = s2.gradient t >>= fun r => .ok (r.1, r.2.clearPoints)) ∧
          s2.clearPoints.hessian t = s2.hessian t := by
  obtain ⟨w, tl⟩ := Plane.run_wf (Plane.new_wf n) h
  obtain ⟨-, hr⟩ := Plane.estimate_inv w h1
  obtain ⟨rfl, rfl⟩ := Prod.mk.inj hr
  have hS : (s.estimated e traj s.usedS).S ≠ [] := by
    intro h0
    have h2 := Plane.usedS_length w
    have h0 : s.usedS = [] := h0
    rw [h0, tl] at h2
    change 0 = n at h2
    omega
  obtain ⟨h2, h3⟩ := Plane.clear_run (e := e) hl hS
  refine ⟨h2, fun s2 hs => ⟨rfl, fun traj' => ?_, fun t => ⟨fun traj' => rfl, rfl, Plane.clear_gradient t s2, rfl⟩⟩⟩
  exact Plane.clear_estimate e traj' (by rw [h3 s2 hs]; exact hS)

/-- Three corners pushed and estimated, cleared, and estimated again: the same plane and error; a fourth corner cannot be
pushed. -/
example (e : EigSolver) : ∃ s s1 lam,
    Plane.run e [.push corner0 0, .push corner1 0, .push corner2 0] (Plane.new 1) = .ok s ∧
      s.estimate e [SE3.default] = .ok (lam, s1) ∧ s1.clearPoints.push corner3 0 = .ub ∧ s1.clearPoints.numberPoints = 3 ∧
      ∃ s2, s1.clearPoints.estimate e [SE3.default] = .ok (lam, s2) ∧ s2.plane = s1.plane := by
  obtain ⟨s, hs⟩ : ∃ s, Plane.run e [.push corner0 0, .push corner1 0, .push corner2 0] (Plane.new 1) = .ok s := ⟨_, rfl⟩
  obtain ⟨w, tl⟩ := Plane.run_wf (Plane.new_wf 1) hs
  have h1 := Plane.estimate_ok (e := e) (traj := [SE3.default]) w (by rw [tl]; exact le_refl 1)
  have h2 : Plane.run e [.push corner0 0, .push corner1 0, .push corner2 0, .estimate [SE3.default]] (Plane.new 1) =
      .ok (s.estimated e [SE3.default] s.usedS) := by
    have := Plane.run_append (e := e) (ops := [.push corner0 0, .push corner1 0, .push corner2 0]) (ops' := [.estimate [SE3.default]])
      (s := Plane.new 1)
    rw [hs, Out.ok_bind] at this
    refine Eq.trans this ?_
    rw [Plane.run, Plane.Op.run, h1]
    rfl
  obtain ⟨h3, -, -, h4⟩ := C114_refill_fails e 1 one_pos _ _ h2
  obtain ⟨-, h5⟩ := C114_release_partial e 1 one_pos _ s _ _ [SE3.default] hs h1 [] (by simp)
  obtain ⟨-, h6, -⟩ := h5 _ rfl
  have hu : (s.estimated e [SE3.default] s.usedS).usedS = s.usedS := by
    have : s.usedS ≠ [] := by
      intro h0
      have h2 := Plane.usedS_length w
      rw [h0, tl] at h2
      cases h2
    rw [Plane.usedS]
    exact if_neg this
  have h7 := Plane.estimate_ok (e := e) (traj := [SE3.default]) (s := s.estimated e [SE3.default] s.usedS)
    (Plane.estimated_wf w) (by change s.timeLength ≤ 1; rw [tl]; exact le_refl 1)
  rw [hu] at h7
  refine ⟨s, _, _, hs, h1, h3 corner3 0 one_pos, h4, ?_⟩
  rw [h6, h7]
  exact ⟨_, rfl, rfl⟩

end Mrob
