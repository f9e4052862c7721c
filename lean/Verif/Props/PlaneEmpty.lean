import Verif.Lemmas.PlaneEmptyHist
import Verif.Props.PlaneOrder

/-!
# Property C118: a plane without points has no influence on the registration
-/

open Matrix

namespace Mrob

open Spec PlaneReg

namespace Spec

/-- The same object with one more plane, which has no points and as many poses as one of the other planes. -/
def PlusEmpty (id : ℕ) (s s' : OptDense PlaneReg) : Prop :=
  ∃ z ps, Inserted (id, z) s.obj.planes ps ∧ (∃ q ∈ s.obj.planes, Plane.Fits q.2 z) ∧
    s' = { s with obj := { s.obj with planes := ps } }

/-- The same object with one more plane, which has no points and `n` poses, as all the other planes. -/
def PlusEmptyAll (n id : ℕ) (s s' : OptDense PlaneReg) : Prop :=
  ∃ z ps, Inserted (id, z) s.obj.planes ps ∧ z.timeLength = n ∧ s.obj.planes ≠ [] ∧ (∀ q ∈ s.obj.planes, Plane.Fits q.2 z) ∧
    s' = { s with obj := { s.obj with planes := ps } }

/-- Calls which are not about the plane `id`, and neither start over nor initialise; added and changed planes have `n` poses. -/
def Elsewhere (n id : ℕ) : PlaneReg.Op → Prop
  | .resetSolution => True
  | .addPlane id' p => id' ≠ id ∧ p.timeLength = n ∧ p.points.length ≤ n
  | .pushPoint id' _ _ => id' ≠ id
  | .setLastPose _ => True
  | .setAlpha _ => True
  | .setBeta _ => True
  | .solve mode _ => mode ≠ .initialize
  | .interpolateGradient _ => True
  | .gradientAllPoses _ => True
  | .currentError => True
  | .external id' p => id' ≠ id ∧ p.timeLength = n ∧ p.points.length ≤ n
  | _ => False

end Spec

theorem PlaneReg.Empty.plusEmptyAll_iff {n id : ℕ} {s s' : OptDense PlaneReg} :
    PlusEmptyAll n id s s' ↔ OptDense.Rel (Via (Empty.KA Plane.Fits n id)) s s' :=
  ⟨fun ⟨z, ps, h1, h2, h3, h4, hs⟩ => ⟨_, ⟨ps, ⟨z, h1, h2, h3, h4⟩, rfl⟩, hs⟩,
    fun ⟨_, ⟨ps, ⟨z, h1, h2, h3, h4⟩, ho⟩, hs⟩ => ⟨z, ps, h1, h2, h3, h4, by rw [hs, ho]⟩⟩

theorem PlaneReg.Empty.op_leads {e : EigSolver} (he : e.Sound) (svd : Mat3 → SVD3) {n id : ℕ} {op : PlaneReg.Op}
    (ho : Elsewhere n id op) {s s' : OptDense PlaneReg} (h : OptDense.Rel (Via (Empty.KA Plane.Fits n id)) s s') :
    Leads (OptDense.Rel (Via (Empty.KA Plane.Fits n id))) (op.run e svd s) (op.run e svd s') := by
  have h5 : ∀ t t' : PlaneReg, Via (Empty.KA Plane.Fits n id) t t' →
      Via (Empty.KA Plane.Fits n id) { t with solveIters := 0 } { t' with solveIters := 0 } := by
    rintro t t' ⟨ps, hp, rfl⟩
    exact ⟨ps, hp, rfl⟩
  cases op with
  | resetSolution => exact Via.lift_leads (K := Empty.KA Plane.Fits n id) (fun t t' h => Leads.ok (by
      obtain ⟨ps, hp, rfl⟩ := h
      exact ⟨ps, hp, rfl⟩)) h
  | addPlane id' p =>
    exact Via.lift_leads (K := Empty.KA Plane.Fits n id) (fun t t' h => Leads.ok (Empty.emplace_all ho.1 ho.2.1 ho.2.2 h)) h
  | pushPoint id' t x => exact Via.lift_leads (K := Empty.KA Plane.Fits n id) (fun _ _ h => Empty.pushPoint_all ho t x h) h
  | setLastPose T => exact Via.lift_leads (K := Empty.KA Plane.Fits n id) (fun t t' h => by
      obtain ⟨ps, hp, rfl⟩ := h
      exact Leads.bind (Leads.refl (interpolate t.tau T.lnVee t.times t.traj)) fun x y hxy =>
        Leads.ok ⟨ps, hp, by rw [hxy]⟩) h
  | setAlpha a =>
    exact Via.lift_leads (K := Empty.KA Plane.Fits n id) (f := fun o => .ok { o with alpha := a })
      (f' := fun o => .ok { o with alpha := a }) (fun t t' h => Leads.ok (by
        obtain ⟨ps, hp, rfl⟩ := h
        exact ⟨ps, hp, rfl⟩)) h
  | setBeta a =>
    exact Via.lift_leads (K := Empty.KA Plane.Fits n id) (f := fun o => .ok { o with beta := a })
      (f' := fun o => .ok { o with beta := a }) (fun t t' h => Leads.ok (by
        obtain ⟨ps, hp, rfl⟩ := h
        exact ⟨ps, hp, rfl⟩)) h
  | solve mode single =>
    intro x hx
    obtain ⟨⟨v, s1⟩, h1, h2⟩ := Out.bind_eq_ok.mp hx
    obtain ⟨s1', h3, o, h4, h5⟩ := Via.solve_leads (Empty.each_all he n id) (Empty.error_all he) svd mode
      (fun h => absurd h ho) single s s' h v s1 h1
    cases h2
    exact ⟨s1', by rw [Op.run, h3]; rfl, o, Empty.KA.weaken h4, h5⟩
  | currentError =>
    exact Via.lift_leads (K := Empty.KA Plane.Fits n id) (fun t t' h => Leads.bind (Empty.error_all he h) fun _ _ h =>
      Leads.ok (Empty.KA.weaken h.2)) h
  | setNumbers a b => exact absurd ho (fun h => h)
  | addNewPlane a => exact absurd ho (fun h => h)
  | solveInitialize => exact absurd ho (fun h => h)
  | interpolateGradient single =>
    exact Via.lift_leads (K := Empty.KA Plane.Fits n id) (fun t t' h => Via.gradLoop_leads (fun s s' h =>
      Empty.weaken_leads (Via.gradStep_leads (Empty.each_all he n id) (Empty.error_all he) s s' h)) _ _ 0 rfl _ (h5 t t' h)) h
  | gradientAllPoses single =>
    exact Via.lift_leads (K := Empty.KA Plane.Fits n id) (fun t t' h => Via.gradLoop_leads (fun s s' h =>
      Empty.weaken_leads (Via.allPosesStep_leads (Empty.each_all he n id) (Empty.error_all he) s s' h)) _ _ 0 rfl _ (h5 t t' h)) h
  | evaluate => exact absurd ho (fun h => h)
  | external id' p =>
    exact Via.lift_leads (K := Empty.KA Plane.Fits n id) (fun t t' h => Leads.ok (Empty.replace_all ho.1 ho.2.1 ho.2.2 h)) h

theorem PlaneReg.Empty.plusEmpty_iff {id : ℕ} {s s' : OptDense PlaneReg} :
    PlusEmpty id s s' ↔ OptDense.Rel (Via (Empty.K0 id)) s s' :=
  ⟨fun ⟨z, ps, h1, h2, hs⟩ => ⟨_, ⟨ps, ⟨z, h1, h2⟩, rfl⟩, hs⟩,
    fun ⟨_, ⟨ps, ⟨z, h1, h2⟩, ho⟩, hs⟩ => ⟨z, ps, h1, h2, by rw [hs, ho]⟩⟩

/-- C118, `solve`: with one more plane which has no points `solve` returns the same value and leaves the same trajectory and
the same members; the additional plane still has no points, so that the statement applies to the next call again.
Missing: the initialisation, for which this is false (`C118_initialize_fails`). -/
theorem C118_solve_partial (e : EigSolver) (he : e.Sound) (svd : Mat3 → SVD3) (mode : SolveMode) (hm : mode ≠ .initialize)
    (single : Bool) (id : ℕ) (s s' : OptDense PlaneReg) (h : PlusEmpty id s s') (v : ℕ) (s1 : OptDense PlaneReg)
    (hs : PlaneReg.solve e svd mode single s = .ok (v, s1)) :
    ∃ s1', PlaneReg.solve e svd mode single s' = .ok (v, s1') ∧ PlusEmpty id s1 s1' ∧ s1'.obj.traj = s1.obj.traj := by
  obtain ⟨s1', h1, h2⟩ := Via.solve_leads (Empty.each he id) (Empty.error_leads he) svd mode (fun h => absurd h hm) single s s'
    (Empty.plusEmpty_iff.mp h) v s1 hs
  obtain ⟨o, ho, rfl⟩ := h2
  refine ⟨_, h1, Empty.plusEmpty_iff.mpr ⟨o, Empty.K.weaken ho, rfl⟩, ?_⟩
  obtain ⟨ps, -, rfl⟩ := ho
  rfl

/-- C118, the error: it is the same with one more plane which has no points. -/
theorem C118_error (e : EigSolver) (he : e.Sound) (id : ℕ) (s s' : OptDense PlaneReg) (h : PlusEmpty id s s') (err : ℝ)
    (o : PlaneReg) (hs : s.obj.error e = .ok (err, o)) : ∃ o', s'.obj.error e = .ok (err, o') := by
  obtain ⟨o1, h1, rfl⟩ := Empty.plusEmpty_iff.mp h
  obtain ⟨⟨v, o'⟩, h2, h3, -⟩ := Empty.error_leads he h1 _ hs
  dsimp only at h3
  subst h3
  exact ⟨o', h2⟩

/-- C118, a new plane: `add_new_plane` adds such a plane at any time. -/
theorem C118_addNewPlane (id : ℕ) (s : OptDense PlaneReg) (hid : id ∉ s.obj.planes.map (·.1))
    (hq : ∃ q ∈ s.obj.planes, q.2.timeLength = s.obj.numberPoses ∧ q.2.points.length = s.obj.numberPoses) :
    PlusEmpty id s { s with obj := s.obj.addNewPlane id } := by
  obtain ⟨q, hq, h1, h2⟩ := hq
  refine ⟨Plane.new s.obj.numberPoses, s.obj.planes ++ [(id, Plane.new s.obj.numberPoses)], ?_, ⟨q, hq, ?_⟩, ?_⟩
  · clear hq hid
    induction s.obj.planes with
    | nil => exact .here _
    | cons a l ih => exact .cons a ih
  · exact ⟨h1.symm, h2.le, rfl, Or.inl rfl⟩
  · rw [addNewPlane, emplace, if_neg fun h => hid (List.contains_iff_mem.mp h)]

/-- C118, histories: a sequence of calls about the other planes (more points, more planes, changed parameters, errors, `solve`
in every mode but the initialisation) returns with the additional plane if it returns without, and leaves the same trajectory
and the same members.  Missing: the initialisation (`C118_initialize_fails`), `set_number_planes_and_poses`, `add_new_plane` (but
`add_plane` of a new plane is there) and `print_evaluate`, which counts the planes. -/
theorem C118_history_partial (e : EigSolver) (he : e.Sound) (svd : Mat3 → SVD3) (n id : ℕ) (ops : List PlaneReg.Op)
    (ho : ∀ op ∈ ops, Elsewhere n id op) (s s' : OptDense PlaneReg) (h : PlusEmptyAll n id s s') (s1 : OptDense PlaneReg)
    (hs : PlaneReg.run e svd ops s = .ok s1) :
    ∃ s1', PlaneReg.run e svd ops s' = .ok s1' ∧ PlusEmptyAll n id s1 s1' ∧ s1'.obj.traj = s1.obj.traj := by
  have key : Leads (OptDense.Rel (Via (Empty.KA Plane.Fits n id))) (PlaneReg.run e svd ops s) (PlaneReg.run e svd ops s') := by
    have h := Empty.plusEmptyAll_iff.mp h
    clear hs
    induction ops generalizing s s' with
    | nil => exact Leads.ok h
    | cons op ops ih =>
      exact Leads.bind (Empty.op_leads he svd (ho op List.mem_cons_self) h) fun a b hab =>
        ih (fun o h => ho o (List.mem_cons_of_mem _ h)) a b (Empty.plusEmptyAll_iff.mpr hab) hab
  obtain ⟨s1', h1, h2⟩ := key s1 hs
  refine ⟨s1', h1, Empty.plusEmptyAll_iff.mpr h2, ?_⟩
  obtain ⟨o, ⟨ps, -, rfl⟩, rfl⟩ := h2
  rfl

theorem traverse_last {α β : Type} {f : α → Out β} {x : α} {y : β} (hx : f x = .ok y) :
    ∀ {l : List α} {r : List β}, Out.traverse f l = .ok r → Out.traverse f (l ++ [x]) = .ok (r ++ [y])
  | [], r, h => by
    cases h
    change (f x >>= fun y => Out.ok [] >>= fun l => Out.ok (y :: l)) = _
    rw [hx]
    rfl
  | a :: l, r, h => by
    obtain ⟨b, h1, h⟩ := Out.bind_eq_ok.mp h
    obtain ⟨m, h2, h⟩ := Out.bind_eq_ok.mp h
    cases h
    rw [List.cons_append, Out.traverse, h1, Out.ok_bind, traverse_last hx h2]
    rfl

/-- C118, the initialisation: it is not influenced by a plane without points which is visited after all the others.
Missing: other places, for which this is false (`C118_initialize_fails`). -/
theorem C118_initialize_partial (svd : Mat3 → SVD3) (s : PlaneReg) (id : ℕ) (z : Plane) (hz : ∃ q ∈ s.planes, Plane.Fits q.2 z)
    (b : ℕ) (s1 : PlaneReg) (hs : s.solveInitialize svd = .ok (b, s1)) :
    ∃ s1', solveInitialize svd { s with planes := s.planes ++ [(id, z)] } = .ok (b, s1') ∧ s1'.traj = s1.traj := by
  obtain ⟨q, hq, hz⟩ := hz
  obtain ⟨⟨l, s2⟩, h1, h2⟩ := Out.bind_eq_ok.mp hs
  obtain ⟨r, h3, h4⟩ := Out.bind_eq_ok.mp h1
  cases h4
  obtain ⟨⟨b', traj⟩, h5, h6⟩ := Out.bind_eq_ok.mp h2
  cases h6
  obtain ⟨y, hy, h7⟩ := traverse_member h3 hq
  obtain ⟨⟨o, q1⟩, h8, h9⟩ := Out.bind_eq_ok.mp h7
  cases h9
  obtain ⟨q2, h10, h11⟩ := Out.bind_eq_ok.mp h8
  obtain ⟨k, h12, h13⟩ := Out.bind_eq_ok.mp h11
  obtain ⟨e1, e2, -⟩ := Plane.calcS_points h10
  have hq2 : q1 = q2 := by
    split at h13
    · obtain ⟨m, -, h13⟩ := Out.bind_eq_ok.mp h13
      cases h13
      rfl
    · cases h13
      rfl
  subst hq2
  obtain ⟨z1, hz1, hfirst⟩ : ∃ z1, Plane.Fits q1 z1 ∧ firstMean z = .ok (none, z1) := by
    have hz1 : Plane.Fits q1 { z with S := List.replicate z.timeLength 0 } :=
      ⟨hz.time.trans e2.symm, by rw [e1]; exact hz.len, hz.pts, Or.inr rfl⟩
    refine ⟨_, hz1, ?_⟩
    rw [firstMean, hz.calcS, Out.ok_bind, hz1.number 0 h12]
    rfl
  have heach := traverse_last (f := fun p : ℕ × Plane => firstMean p.2 >>= fun r => .ok (r.1, (p.1, r.2))) (x := (id, z))
    (y := (none, (id, z1))) (by dsimp only; rw [hfirst]; rfl) h3
  have rows : ∀ (yAll : List Vec3) (t : ℕ) (rs : List (Vec3 × Vec3)), rowsAt yAll t { s with planes := r.map (·.2) } = .ok rs →
      rowsAt yAll t { s with planes := r.map (·.2) ++ [(id, z1)] } = .ok rs := by
    intro yAll t rs hr
    obtain ⟨m, h1, h2⟩ := Out.bind_eq_ok.mp hr
    cases h2
    obtain ⟨i, hi⟩ : ∃ i, ((q.1, q1), i) ∈ (r.map (·.2)).zipIdx := by
      obtain ⟨i, hi, hget⟩ := List.getElem_of_mem (List.mem_map.mpr ⟨_, hy, rfl⟩ : (q.1, q1) ∈ r.map (·.2))
      exact ⟨i, List.mk_mem_zipIdx_iff_getElem?.mpr (by rw [← hget]; exact List.getElem?_eq_getElem hi)⟩
    obtain ⟨w, -, h3⟩ := traverse_member h1 hi
    obtain ⟨c, h4, -⟩ := Out.bind_eq_ok.mp h3
    have hn := hz1.number t h4
    unfold rowsAt
    dsimp only
    rw [List.zipIdx_append, List.zipIdx_singleton,
      traverse_last (x := ((id, z1), 0 + (r.map (·.2)).length)) (y := none) (by dsimp only; rw [hn]; rfl) h1, Out.ok_bind,
      List.filterMap_append]
    simp
  have loop : ∀ (yAll : List Vec3) (ts : List ℕ) (tr : List SE3) (x : ℕ × List SE3),
      initLoop svd yAll { s with planes := r.map (·.2) } ts tr = .ok x →
      initLoop svd yAll { s with planes := r.map (·.2) ++ [(id, z1)] } ts tr = .ok x := by
    intro yAll ts
    induction ts with
    | nil => exact fun tr x hx => hx
    | cons t ts ih =>
      intro tr x hx
      rw [initLoop] at hx ⊢
      obtain ⟨rs, h1, hx⟩ := Out.bind_eq_ok.mp hx
      obtain ⟨⟨c, T⟩, h2, hx⟩ := Out.bind_eq_ok.mp hx
      rw [rows yAll t rs h1, Out.ok_bind, h2, Out.ok_bind]
      dsimp only at hx ⊢
      cases c with
      | false => exact hx
      | true =>
        rw [if_pos rfl] at hx ⊢
        by_cases ht : t < tr.length
        · rw [if_pos ht] at hx ⊢
          exact ih _ _ hx
        · rw [if_neg ht] at hx
          cases hx
  refine ⟨{ s with
    planes := r.map (·.2) ++ [(id, z1)]
    traj := traj }, ?_, rfl⟩
  have h6 := loop _ _ _ _ h5
  unfold solveInitialize eachPlane
  dsimp only
  rw [heach, Out.ok_bind, Out.ok_bind]
  dsimp only
  rw [List.map_append, List.map_append, List.filterMap_append]
  simp only [List.map_cons, List.map_nil, List.filterMap_cons, List.filterMap_nil, List.append_nil, id_eq]
  change (initLoop svd _ _ s.times s.traj >>= _) = _
  dsimp only at h6
  change initLoop svd (List.filterMap (fun x => x) (List.map (fun x => x.1) r)) _ s.times s.traj = _ at h6
  rw [h6]
  rfl

/-- C118 is false of the initialisation: with one plane which has a point in both poses it returns; with a plane without
points before this plane it reads beyond the end of `Y_points_all`. -/
theorem C118_initialize_fails (e : EigSolver) (svd : Mat3 → SVD3) (hsvd : ∀ H, (svd H).Decomposes H) : ∃ s s' : OptDense PlaneReg,
    PlaneReg.run e svd [.setNumbers 2 2, .addNewPlane 0, .pushPoint 0 0 ![1, 0, 0], .pushPoint 0 1 ![1, 0, 0]]
      (OptDense.new PlaneReg.new) = .ok s ∧
    PlaneReg.run e svd [.setNumbers 2 2, .addNewPlane 1, .addNewPlane 0, .pushPoint 0 0 ![1, 0, 0], .pushPoint 0 1 ![1, 0, 0]]
      (OptDense.new PlaneReg.new) = .ok s' ∧ PlusEmpty 1 s s' ∧ (∃ r, s.obj.solveInitialize svd = .ok r) ∧
      s'.obj.solveInitialize svd = .ub := by
  refine ⟨_, _, rfl, rfl, ⟨Plane.new 2, _, .here _, ⟨_, List.mem_singleton.mpr rfl, ?_⟩, rfl⟩, ?_, ?_⟩
  · exact ⟨rfl, le_refl _, rfl, Or.inl rfl⟩
  · have key : ∀ o : PlaneReg, o.numberPoses ≠ 0 → o.traj.length = o.numberPoses → o.Prepared →
        (∀ q ∈ o.planes, q.2.cloudAt 0 ≠ []) → ∃ r, o.solveInitialize svd = .ok r := fun o h1 h2 h3 h4 => by
      obtain ⟨b, s1, h, -⟩ := C66_optimal_partial svd hsvd o h1 h2 h3 h4
      exact ⟨_, h⟩
    refine key _ (by exact two_ne_zero) rfl ?_ ?_
    · intro q hq
      rw [List.mem_singleton.mp hq]
      exact ⟨⟨rfl, Or.inl rfl⟩, Or.inl rfl, rfl⟩
    · intro q hq
      rw [List.mem_singleton.mp hq]
      exact List.cons_ne_nil _ _
  · refine C66_unseen_fails svd _ (by exact le_refl 2) ?_ ⟨_, List.mem_cons_self, rfl⟩ (0, _) rfl (List.cons_ne_nil _ _)
    intro q hq
    rcases List.mem_cons.mp hq with rfl | hq
    · exact ⟨⟨rfl, Or.inl rfl⟩, Or.inl rfl, rfl⟩
    · rw [List.mem_singleton.mp hq]
      exact ⟨⟨rfl, Or.inl rfl⟩, Or.inl rfl, rfl⟩

/-- The hypotheses of `C118_initialize_fails`. -/
example : ∃ (e : EigSolver) (svd : Mat3 → SVD3), e.Sound ∧ ∀ H, (svd H).Decomposes H := by
  obtain ⟨svd, h⟩ := exists_svd
  obtain ⟨e, he⟩ := exists_sound
  exact ⟨e, svd, he, h⟩

/-- The hypotheses of `C118_solve_partial`, `C118_error` and `C118_addNewPlane`: two planes with points, a third one without,
and the loop over the last pose. -/
example (svd : Mat3 → SVD3) : ∃ (e : EigSolver) (s : OptDense PlaneReg) (r : ℕ × OptDense PlaneReg), e.Sound ∧
    PlaneReg.run e svd [.setNumbers 2 2, .addNewPlane 0, .pushPoint 0 0 ![1, 0, 0], .addNewPlane 1, .pushPoint 1 1 ![0, 1, 0]]
      (OptDense.new PlaneReg.new) = .ok s ∧ PlusEmpty 2 s { s with obj := s.obj.addNewPlane 2 } ∧
      (∃ err o, s.obj.error e = .ok (err, o)) ∧ PlaneReg.solve e svd .gradientBengiosNag false s = .ok r := by
  obtain ⟨e, he⟩ := exists_sound
  obtain ⟨s, hs, hp, hn, hv, herr⟩ : ∃ s, PlaneReg.run e svd [.setNumbers 2 2, .addNewPlane 0, .pushPoint 0 0 ![1, 0, 0], .addNewPlane 1,
      .pushPoint 1 1 ![0, 1, 0]] (OptDense.new PlaneReg.new) = .ok s ∧ s.obj.planes =
      [(0, { Plane.new 2 with points := [[![1, 0, 0]], []], numberPoints := 1 }),
        (1, { Plane.new 2 with points := [[], [![0, 1, 0]]], numberPoints := 1 })] ∧ s.obj.numberPoses = 2 ∧
      s.obj.prev = [0, 0] ∧ ∃ err o, s.obj.error e = .ok (err, o) :=
    ⟨_, rfl, rfl, rfl, rfl, _, _, rfl⟩
  have hf := run_form new_form (by
    intro op hop
    simp only [List.mem_cons, List.not_mem_nil, or_false] at hop
    rcases hop with rfl | rfl | rfl | rfl | rfl <;> trivial) hs
  obtain ⟨r, hr⟩ := (C69_iff_partial e svd false s hf.pose (by omega) hf.wf (by
      intro q hq
      rw [hp] at hq
      simp only [List.mem_cons, List.not_mem_nil, or_false] at hq
      rcases hq with rfl | rfl <;> rw [hn] <;> rfl) (by rw [hv]; simp)).mpr (by
    intro t h0 h1
    have : t = 1 := by omega
    subst this
    rw [hp]
    exact ⟨_, List.mem_cons_of_mem _ List.mem_cons_self, List.cons_ne_nil _ _⟩)
  refine ⟨e, s, r, he, hs, C118_addNewPlane 2 s ?_ ?_, herr, hr⟩
  · rw [hp]; decide
  · rw [hp, hn]
    exact ⟨_, List.mem_cons_self, rfl, rfl⟩

/-- The hypotheses of `C118_initialize_partial`: the object of `C118_initialize_fails`, the plane without points comes last. -/
example : ∃ (svd : Mat3 → SVD3) (s : PlaneReg) (z : Plane) (b : ℕ) (s1 : PlaneReg), (∃ q ∈ s.planes, Plane.Fits q.2 z) ∧
    s.solveInitialize svd = .ok (b, s1) := by
  obtain ⟨svd, hsvd⟩ := exists_svd
  obtain ⟨e, -⟩ := exists_sound
  obtain ⟨s, s', -, -, ⟨z, ps, -, hz, -⟩, ⟨⟨b, s1⟩, hr⟩, -⟩ := C118_initialize_fails e svd hsvd
  exact ⟨svd, s.obj, z, b, s1, hz, hr⟩

/-- The hypotheses of `C118_history_partial`: a plane with a point, an empty one before it, further points and a further plane. -/
example (e : EigSolver) (svd : Mat3 → SVD3) : ∃ (ops : List PlaneReg.Op) (s s' s1 : OptDense PlaneReg),
    PlaneReg.run e svd [.setNumbers 2 2, .addNewPlane 0, .pushPoint 0 0 ![1, 0, 0]] (OptDense.new PlaneReg.new) = .ok s ∧
    PlaneReg.run e svd [.setNumbers 2 2, .addNewPlane 7, .addNewPlane 0, .pushPoint 0 0 ![1, 0, 0]] (OptDense.new PlaneReg.new) = .ok s' ∧
    PlusEmptyAll 2 7 s s' ∧ (∀ op ∈ ops, Elsewhere 2 7 op) ∧ PlaneReg.run e svd ops s = .ok s1 ∧ s1.obj.planes.length = 2 := by
  refine ⟨[.currentError, .addPlane 1 (Plane.new 2), .pushPoint 1 1 ![0, 1, 0], .setAlpha 3, .solve .gradient false], _, _, _, rfl, rfl,
    ⟨Plane.new 2, _, .here _, rfl, List.cons_ne_nil _ _, ?_, rfl⟩, ?_, rfl, rfl⟩
  · intro q hq
    rw [List.mem_singleton.mp hq]
    exact ⟨rfl, le_refl _, rfl, Or.inl rfl⟩
  · intro op hop
    simp only [List.mem_cons, List.not_mem_nil, or_false] at hop
    rcases hop with rfl | rfl | rfl | rfl | rfl
    · trivial
    · exact ⟨by decide, rfl, le_refl _⟩
    · exact (by decide : (1 : ℕ) ≠ 7)
    · trivial
    · exact fun h => by cases h

end Mrob
