import Verif.Lemmas.OutSafe
import Verif.Spec.PlanePy

/-! # Calls on the Python class `PlaneRegistration` -/

open Matrix

namespace Mrob

namespace PlaneReg

/-- The plane holds the noted points. -/
structure Holds (n : ℕ) (c : ℕ × (ℕ → List Vec3)) (q : ℕ × Plane) : Prop where
  id : q.1 = c.1
  wf : q.2.Wf
  time : q.2.timeLength = n
  pts : q.2.points = (List.range n).map c.2
  num : q.2.numberPoints = ((List.range n).map fun t => (c.2 t).length).sum

/-- In addition it has been estimated. -/
structure Known (n : ℕ) (c : ℕ × (ℕ → List Vec3)) (q : ℕ × Plane) : Prop where
  holds : Holds n c q
  plane : ∃ pl, q.2.plane = some pl
  Q : q.2.Q.length = n

/-- In addition its matrices have been computed. -/
structure Cached (n : ℕ) (c : ℕ × (ℕ → List Vec3)) (q : ℕ × Plane) : Prop where
  holds : Holds n c q
  S : q.2.S.length = n

/-- The object agrees with the notes. -/
structure Fits (R : ℕ → ℕ × (ℕ → List Vec3) → ℕ × Plane → Prop) (d : PlanePy.Sheet) (s : PlaneReg) : Prop where
  pos : 0 < d.poses
  bound : d.poses < 2 ^ 32
  nplanes : s.numberPlanes = d.planes
  nposes : s.numberPoses = d.poses
  traj : s.traj.length = d.poses
  prev : s.prev.length = d.poses
  data : List.Forall₂ (R d.poses) d.clouds s.planes

variable {R R' : ℕ → ℕ × (ℕ → List Vec3) → ℕ × Plane → Prop} {d : PlanePy.Sheet} {s : PlaneReg} {N : Prop}

theorem Fits.imp (h : s.Fits R d) (hr : ∀ n c q, R n c q → R' n c q) : s.Fits R' d :=
  ⟨h.pos, h.bound, h.nplanes, h.nposes, h.traj, h.prev, h.data.imp fun c q => hr _ c q⟩

theorem Fits.frame {s' : PlaneReg} (h : s.Fits R d) (h1 : s'.numberPlanes = s.numberPlanes) (h2 : s'.numberPoses = s.numberPoses)
    (h3 : s'.traj.length = s.traj.length) (h4 : s'.prev.length = s.prev.length) (h5 : s'.planes = s.planes) : s'.Fits R d :=
  ⟨h.pos, h.bound, h1.trans h.nplanes, h2.trans h.nposes, h3.trans h.traj, h4.trans h.prev, by rw [h5]; exact h.data⟩

theorem eachPlane_safe {β : Type} {f : Plane → Out (β × Plane)} {B : β → Prop} (h : s.Fits R d)
    (hf : ∀ c q, R d.poses c q → (f q.2).Safe N fun r => B r.1 ∧ R' d.poses c (q.1, r.2)) :
    (s.eachPlane f).Safe N fun r => r.2.Fits R' d ∧ PlanesOnly s r.2 ∧ (∀ b ∈ r.1, B b) ∧ r.1.length = d.clouds.length := by
  refine Out.Safe.bind (Out.traverse_safe₂ (S := fun c (x : β × ℕ × Plane) => B x.1 ∧ R' d.poses c x.2)
    (fun c q hq => (hf c q hq).bind fun r hr => Out.Safe.of hr) h.data) fun l hl => ?_
  refine ⟨⟨h.pos, h.bound, h.nplanes, h.nposes, h.traj, h.prev, ?_⟩, ⟨_, rfl⟩, ?_, ?_⟩
  · change List.Forall₂ _ _ (l.map (·.2))
    rw [List.forall₂_map_right_iff]
    exact hl.imp fun c x hx => hx.2
  · intro b hb
    obtain ⟨x, hx, rfl⟩ := List.mem_map.mp hb
    obtain ⟨i, hi, rfl⟩ := List.getElem_of_mem hx
    exact ((List.forall₂_iff_get.mp hl).2 i (by rw [hl.length_eq]; exact hi) hi).1
  · change (l.map (·.1)).length = _
    rw [List.length_map, hl.length_eq]

theorem error_safe (e : EigSolver) (h : s.Fits Holds d) : (s.error e).Safe N fun r => r.2.Fits Known d ∧ PlanesOnly s r.2 := by
  rw [error]
  refine (eachPlane_safe (R' := Known) (B := fun _ => True) h fun c q hq => ?_).bind fun r hr => ⟨hr.1, hr.2.1⟩
  have hl : q.2.timeLength ≤ s.traj.length := by rw [hq.time, h.traj]
  refine Out.Safe.ok (Plane.estimate_ok hq.wf hl) ⟨trivial, ⟨hq.id, Plane.estimated_wf hq.wf, hq.time, hq.pts, hq.num⟩,
    ⟨_, rfl⟩, ?_⟩
  change (Plane.qList s.traj q.2.usedS).length = _
  have := Plane.usedS_length hq.wf
  rw [Plane.qList_length (by omega), this, hq.time]

theorem gradient_safe {n t : ℕ} (ht : t < n) {c : ℕ × (ℕ → List Vec3)} {q : ℕ × Plane} (hq : Known n c q) :
    (q.2.gradient t).Safe N fun r => Known n c (q.1, r.2) ∧ ∃ g, r.2.gradQ = some g := by
  obtain ⟨pl, hp⟩ := hq.plane
  have ht' : t < q.2.Q.length := by rw [hq.Q]; exact ht
  rw [Plane.gradient, Out.index_ok ht', Out.ok_bind, hp]
  exact ⟨⟨⟨hq.holds.id, ⟨hq.holds.wf.pts, hq.holds.wf.S⟩, hq.holds.time, hq.holds.pts, hq.holds.num⟩, ⟨pl, rfl⟩, hq.Q⟩, _, rfl⟩

theorem getNumberPoints_safe {n t : ℕ} (ht : t < n) {c : ℕ × (ℕ → List Vec3)} {q : ℕ × Plane} (hq : Holds n c q) :
    (q.2.getNumberPoints t) = .ok (c.2 t).length := by
  have h1 : t < q.2.points.length := by rw [hq.wf.pts, hq.time]; exact ht
  rw [Plane.getNumberPoints, Out.index_ok h1, Out.ok_bind]
  simp only [hq.pts, List.getElem_map, List.getElem_range]

theorem gradAt_safe {t : ℕ} (h : s.Fits Known d) (ht : t < d.poses) :
    (s.gradAt t).Safe N fun r => r.2.Fits Known d ∧ PlanesOnly s r.2 := by
  rw [gradAt]
  refine (eachPlane_safe (R' := Known) (B := fun _ => True) h fun c q hq => ?_).bind fun r hr => ⟨hr.1, hr.2.1⟩
  refine (gradient_safe ht hq).bind fun r hr => ?_
  dsimp only
  rw [show r.2.getNumberPoints t = _ from getNumberPoints_safe ht hr.1.holds, Out.ok_bind]
  exact ⟨trivial, hr.1⟩

theorem gradHessAt_safe {t : ℕ} (h : s.Fits Known d) (ht : t < d.poses) :
    (s.gradHessAt t).Safe N fun r => r.2.Fits Known d ∧ PlanesOnly s r.2 := by
  rw [gradHessAt]
  refine (eachPlane_safe (R' := Known) (B := fun _ => True) h fun c q hq => ?_).bind fun r hr => ⟨hr.1, hr.2.1⟩
  refine (gradient_safe ht hq).bind fun r hr => ?_
  obtain ⟨pl, hp⟩ := hr.1.plane
  obtain ⟨g, hg⟩ := hr.2
  have hp : r.2.plane = some pl := hp
  have hQ : r.2.Q.length = d.poses := hr.1.Q
  dsimp only
  rw [Plane.hessian, Out.index_ok (by rw [hQ]; exact ht), Out.ok_bind, hg, hp]
  exact ⟨trivial, hr.1⟩

theorem times_bounds {t : ℕ} (h : t ∈ s.times) : 0 < t ∧ t < s.numberPoses := by
  rw [times, List.mem_range'_1] at h
  omega

theorem interpolate_safe {tau : ℝ} {xi : Vec6} : ∀ {ts : List ℕ} {traj : List SE3}, (∀ t ∈ ts, t < traj.length) →
    (interpolate tau xi ts traj).Safe N fun r => r.length = traj.length := by
  intro ts
  induction ts with
  | nil => intro traj _; exact ⟨rfl⟩
  | cons t ts ih =>
    intro traj h
    rw [interpolate, if_pos (h t List.mem_cons_self)]
    refine (ih fun u hu => ?_).mono fun r hr => hr.trans List.length_set
    rw [List.length_set]
    exact h u (List.mem_cons_of_mem _ hu)

theorem placeLast_safe (h : s.Fits R d) (T : SE3) :
    (s.placeLast T).Safe N fun s' => s'.Fits R d ∧ s'.mode = s.mode := by
  have hb : ∀ t ∈ s.innerTimes, t < (s.traj.set (s.traj.length - 1) T).length := by
    intro t ht
    have := h.pos
    have hb := h.bound
    have e1 := h.nposes
    rw [innerTimes, List.mem_range'_1, lastIdx_eq (by omega) (by omega)] at ht
    rw [List.length_set, h.traj]
    omega
  have key := interpolate_safe (N := N) (tau := s.tau) (xi := T.lnVee) hb
  rw [placeLast]
  refine Out.Safe.bind (Q := fun r => r.length = (s.traj.set (s.traj.length - 1) T).length) key fun traj htraj => ?_
  exact ⟨h.frame rfl rfl (htraj.trans List.length_set) rfl rfl, rfl⟩

theorem lastPose_safe (h : s.Fits R d) : (s.lastPose).Safe N fun _ => True := by
  have hne : s.traj ≠ [] := fun h0 => by
    have := h.traj
    have := h.pos
    rw [h0] at *
    simp at *
    omega
  exact Out.Safe.ok (lastPose_eq hne) trivial

theorem moveLast_safe (h : s.Fits R d) (dxi : Vec6) :
    (s.moveLast dxi).Safe N fun s' => s'.Fits R d ∧ s'.mode = s.mode := by
  rw [moveLast]
  refine Out.Safe.bind (Q := fun _ => True) (lastPose_safe h) fun T _ => ?_
  exact placeLast_safe h (T.updateLhs dxi)

theorem setLastPose_safe (h : s.Fits R d) (T : SE3) :
    (s.setLastPose T).Safe N fun s' => s'.Fits R d ∧ s'.mode = s.mode := by
  have hb : ∀ t ∈ s.times, t < s.traj.length := by
    intro t ht
    rw [h.traj, ← h.nposes]
    exact (times_bounds ht).2
  have key := interpolate_safe (N := N) (tau := s.tau) (xi := T.lnVee) hb
  rw [setLastPose]
  exact key.bind fun traj htraj => Out.Safe.of ⟨h.frame rfl rfl htraj rfl rfl, rfl⟩

theorem planesOnly_mode {s' : PlaneReg} (h : PlanesOnly s s') : s'.mode = s.mode := by
  obtain ⟨ps, rfl⟩ := h
  rfl

theorem accGradient_safe (h : s.Fits Known d) : (s.accGradient).Safe True fun r => r.2.Fits Known d ∧ r.2.mode = s.mode := by
  rw [accGradient]
  refine (Out.mapAccum_safe (J := fun x => x.Fits Known d ∧ x.mode = s.mode) (fun t ht x hx => ?_) ⟨h, rfl⟩).bind fun r hr => Out.Safe.of hr
  have ht := (times_bounds ht).2
  rw [h.nposes] at ht
  refine (gradAt_safe hx.1 ht).bind fun r hr => ?_
  dsimp only
  split_ifs
  · exact ⟨trivial⟩
  · exact ⟨hr.1, (planesOnly_mode hr.2).trans hx.2⟩

theorem gradStep_safe (e : EigSolver) (h : s.Fits Holds d) (hm : s.mode = .gradientBengiosNag) :
    (s.gradStep e).Safe True fun r => r.2.Fits Holds d ∧ r.2.mode = .gradientBengiosNag := by
  rw [gradStep]
  refine (error_safe e h).bind fun r hr => (accGradient_safe hr.1).bind fun r' hr' => ?_
  have hm' : r'.2.mode = .gradientBengiosNag := hr'.2.trans ((planesOnly_mode hr.2).trans hm)
  refine Out.Safe.bind (Q := fun x => x.2.Fits Known d ∧ x.2.mode = .gradientBengiosNag) ?_ fun x hx =>
    (moveLast_safe hx.1 _).bind fun y hy => ⟨hy.1.imp fun n c q hq => hq.holds, hy.2.trans hx.2⟩
  rw [increment]
  simp only [hm']
  have hne : r'.2.prev ≠ [] := fun h0 => by
    have := hr'.1.prev
    have := h.pos
    rw [h0] at *
    simp at *
    omega
  rw [List.getLast?_eq_getLast_of_ne_nil hne]
  exact ⟨hr'.1.frame rfl rfl rfl List.length_set rfl, rfl⟩

theorem updatePoses_safe {c : ℝ} : ∀ {l : List (ℕ × Vec6)} {traj : List SE3}, (∀ x ∈ l, x.1 < traj.length) →
    (updatePoses c l traj).Safe N fun r => r.length = traj.length := by
  intro l
  induction l with
  | nil => intro traj _; exact ⟨rfl⟩
  | cons x l ih =>
    intro traj h
    have hx := h x List.mem_cons_self
    rw [updatePoses, Out.atT, List.getElem?_eq_getElem hx]
    refine (ih fun u hu => ?_).mono fun r hr => hr.trans List.length_set
    rw [List.length_set]
    exact h u (List.mem_cons_of_mem _ hu)

theorem allPosesStep_safe (e : EigSolver) (h : s.Fits Holds d) (m : SolveMode) (hm : s.mode = m) :
    (s.allPosesStep e).Safe True fun r => r.2.Fits Holds d ∧ r.2.mode = m := by
  rw [allPosesStep]
  refine (error_safe e h).bind fun r hr => ?_
  have hm1 : r.2.mode = m := (planesOnly_mode hr.2).trans hm
  refine (Out.mapAccum_safe (J := fun x => x.Fits Known d ∧ x.mode = m) (fun t ht x hx => ?_) ⟨hr.1, hm1⟩).bind fun r' hr' => ?_
  · have ht := (times_bounds ht).2
    rw [hr.1.nposes] at ht
    exact (gradAt_safe hx.1 ht).mono fun r hr => ⟨hr.1, (planesOnly_mode hr.2).trans hx.2⟩
  · have key : r'.2.Fits Holds d := hr'.1.imp fun n c q hq => hq.holds
    dsimp only
    split
    · exact ⟨key, hr'.2⟩
    · split_ifs
      · exact ⟨trivial⟩
      · refine (updatePoses_safe fun x hx => ?_).bind fun traj htraj => ⟨key.frame rfl rfl htraj rfl rfl, hr'.2⟩
        rw [key.traj, ← key.nposes]
        exact (times_bounds (List.of_mem_zip hx).1).2

theorem gradLoop_safe {step : PlaneReg → Out (ℝ × PlaneReg)} {single : Bool} {I : PlaneReg → Prop}
    (hI : ∀ s k, I s → I { s with solveIters := k }) (hs : ∀ s, I s → (step s).Safe True fun r => I r.2) :
    ∀ (k iters : ℕ) (prevErr : ℝ) (s : PlaneReg), 10000 - iters = k → I s →
      (gradLoop step single iters prevErr s).Safe True I := by
  intro k
  induction k using Nat.strong_induction_on with
  | _ k ih =>
    intro iters prevErr s hk hi
    rw [gradLoop]
    refine (hs s hi).bind fun r hr => ?_
    dsimp only
    split_ifs with hc
    · exact ih (10000 - (iters + 1)) (by omega) (iters + 1) _ _ rfl (hI _ _ hr)
    · exact ⟨hI _ _ hr⟩

/-! ### The initialisation -/

theorem firstMean_safe {n : ℕ} (hn : 0 < n) {c : ℕ × (ℕ → List Vec3)} {q : ℕ × Plane} (hq : Holds n c q) (hc : c.2 0 ≠ []) :
    (firstMean q.2).Safe True fun r => r.1.isSome ∧ Cached n c (q.1, r.2) := by
  have hl := Plane.usedS_length hq.wf
  have hS : Cached n c (q.1, { q.2 with S := q.2.usedS }) :=
    ⟨⟨hq.id, ⟨hq.wf.pts, Or.inr hl⟩, hq.time, hq.pts, hq.num⟩, hl.trans hq.time⟩
  rw [firstMean, Plane.calcS_used hq.wf, Out.ok_bind, getNumberPoints_safe (q := (q.1, { q.2 with S := q.2.usedS })) hn hS.holds,
    Out.ok_bind, if_pos (List.length_pos_iff.mpr hc), Plane.meanPoint]
  rw [Out.index_ok (l := ({ q.2 with S := q.2.usedS } : Plane).S) (by rw [hS.S]; exact hn), Out.ok_bind]
  split_ifs
  · exact ⟨trivial⟩
  · exact ⟨rfl, hS⟩

theorem rowsAt_safe {t : ℕ} {yAll : List Vec3} (h : s.Fits Cached d) (ht : t < d.poses) (hy : yAll.length = d.clouds.length) :
    (s.rowsAt yAll t).Safe True fun _ => True := by
  rw [rowsAt]
  refine (Out.traverse_safe fun a ha => ?_).bind fun l _ => ⟨trivial⟩
  have hi := List.snd_lt_of_mem_zipIdx ha
  have hm := List.fst_mem_of_mem_zipIdx ha
  obtain ⟨i, hi', he⟩ := List.getElem_of_mem hm
  have hd := (List.forall₂_iff_get.mp h.data).2 i (by rw [h.data.length_eq]; exact hi') hi'
  rw [List.get_eq_getElem, List.get_eq_getElem, he] at hd
  dsimp only
  rw [getNumberPoints_safe ht hd.holds, Out.ok_bind]
  split_ifs
  · rw [Plane.meanPoint, Out.index_ok (by rw [hd.S]; exact ht), Out.ok_bind]
    split_ifs
    · exact ⟨trivial⟩
    · rw [Out.ok_bind, Out.index_ok (by rw [hy, h.data.length_eq]; simpa using hi), Out.ok_bind]
      exact ⟨trivial⟩
  · exact ⟨trivial⟩

theorem initLoop_safe {svd : Mat3 → SVD3} {yAll : List Vec3} (h : s.Fits Cached d) (hy : yAll.length = d.clouds.length) :
    ∀ {ts : List ℕ} {traj : List SE3}, traj.length = d.poses → (∀ t ∈ ts, t < d.poses) →
      (initLoop svd yAll s ts traj).Safe True fun r => r.2.length = d.poses := by
  intro ts
  induction ts with
  | nil => intro traj hl _; exact ⟨hl⟩
  | cons t ts ih =>
    intro traj hl ht
    rw [initLoop]
    refine (rowsAt_safe h (ht t List.mem_cons_self) hy).bind fun rows _ => ?_
    refine Out.Safe.bind (Q := fun _ => True) ?_ fun r _ => ?_
    · rw [arun, if_neg (not_not.mpr (by simp))]
      dsimp only
      split_ifs <;> exact ⟨trivial⟩
    · dsimp only
      rw [if_pos (show t < traj.length by rw [hl]; exact ht t List.mem_cons_self)]
      split_ifs
      · exact ih (by rw [List.length_set]; exact hl) fun u hu => ht u (List.mem_cons_of_mem _ hu)
      · exact ⟨hl⟩

theorem solveInitialize_safe {svd : Mat3 → SVD3} (h : s.Fits Holds d) (hc : ∀ c ∈ d.clouds, c.2 0 ≠ []) :
    (s.solveInitialize svd).Safe True fun r => r.2.Fits Holds d ∧ r.2.mode = s.mode := by
  rw [solveInitialize]
  have h' : s.Fits (fun n c q => c.2 0 ≠ [] ∧ Holds n c q) d :=
    ⟨h.pos, h.bound, h.nplanes, h.nposes, h.traj, h.prev, (List.forall₂_and_left ..).mpr ⟨hc, h.data⟩⟩
  refine (eachPlane_safe (R' := Cached) (B := fun b : Option Vec3 => b.isSome) h' fun c q hq =>
    firstMean_safe h.pos hq.2 hq.1).bind fun r hr => ?_
  obtain ⟨h1, h2, h3, h4⟩ := hr
  have hlen : (r.1.filterMap id).length = d.clouds.length := by
    rw [← h4]
    clear h4
    revert h3
    generalize r.1 = l
    intro h3
    induction l with
    | nil => rfl
    | cons a l ih =>
      obtain ⟨x, rfl⟩ := Option.isSome_iff_exists.mp (h3 a List.mem_cons_self)
      change (x :: List.filterMap id l).length = _
      rw [List.length_cons, List.length_cons, ih fun b hb => h3 b (List.mem_cons_of_mem _ hb)]
  refine (initLoop_safe h1 hlen h1.traj fun t ht => ?_).bind fun x hx =>
    ⟨(h1.imp fun n c q hq => hq.holds).frame rfl rfl (hx.trans h1.traj.symm) rfl rfl, (planesOnly_mode h2 :)⟩
  rw [← h1.nposes]
  exact (times_bounds ht).2

/-! ### The functions called by `Optimizer` -/

theorem oneIteration_safe (e : EigSolver) (m : SolveMode) (x : OptDense PlaneReg) (b : Bool) (h : x.obj.Fits Holds d ∧ x.obj.mode = m) :
    (x.oneIteration (problem e) b).Safe True fun x' => (x'.obj.Fits Holds d ∧ x'.obj.mode = m) ∧ x'.sys.N = 6 := by
  rw [OptDense.oneIteration]
  refine Out.Safe.bind (Q := fun r : NormalEq × PlaneReg => r.1.N = 6 ∧ r.2.Fits Holds d ∧ r.2.mode = m) ?_ fun r hr => ?_
  · change Out.Safe True (x.obj.gradHess6 e >>= _) _
    refine Out.Safe.bind (Q := fun r => r.2.Fits Known d ∧ r.2.mode = m) ?_ fun r hr =>
      ⟨rfl, hr.1.imp fun n c q hq => hq.holds, hr.2⟩
    rw [gradHess6]
    refine (error_safe e h.1).bind fun r hr => ?_
    refine (Out.mapAccum_safe (J := fun x => x.Fits Known d ∧ x.mode = m) (fun t ht y hy => ?_)
      ⟨hr.1, (planesOnly_mode hr.2).trans h.2⟩).bind fun r' hr' => Out.Safe.of hr'
    have ht := (times_bounds ht).2
    rw [hr.1.nposes] at ht
    exact (gradHessAt_safe hy.1 ht).bind fun r hr => ⟨hr.1, (planesOnly_mode hr.2).trans hy.2⟩
  · obtain ⟨en, o⟩ := r
    obtain ⟨hN, ho, hm⟩ := hr
    dsimp only at hN ho hm ⊢
    generalize (if b = true then OptDense.damp x.method x.lambda en.H else en.H) = H
    split_ifs
    · change Out.Safe True ((if h : en.N = 6 then _ else _) >>= _) _
      rw [dif_pos hN]
      exact (moveLast_safe ho _).bind fun o' ho' => Out.Safe.of ⟨⟨ho'.1, ho'.2.trans hm⟩, hN⟩
    · exact ⟨trivial⟩

theorem optimizer_safe (e : EigSolver) (m : SolveMode) (om : OptMethod) (k : ℕ) (lambda : ℝ) {x : OptDense PlaneReg}
    (h : x.obj.Fits Holds d ∧ x.obj.mode = m) :
    (x.solve (problem e) om k lambda).Safe True fun r => (r.2.obj.Fits Holds d ∧ r.2.obj.mode = m) ∧ r.2.sys.N = 6 := by
  have known : ∀ o : PlaneReg, o.Fits Holds d ∧ o.mode = m → (o.error e).Safe True fun r => r.2.Fits Holds d ∧ r.2.mode = m :=
    fun o ho => (error_safe e ho.1).mono fun r hr => ⟨hr.1.imp fun n c q hq => hq.holds, (planesOnly_mode hr.2).trans ho.2⟩
  refine OptDense.solve_safe (I := fun o => o.Fits Holds d ∧ o.mode = m) (K := fun y => y.N = 6) known ?_ ?_
    (fun y b hy => oneIteration_safe e m y b hy) om k lambda h
  · intro o ho
    change Out.Safe True (o.restore e) _
    rw [restore]
    refine Out.Safe.bind (Q := fun _ => True) (lastPose_safe ho.1) fun _ _ => ?_
    refine Out.Safe.bind (Q := fun s' => s'.Fits Holds d ∧ s'.mode = o.mode) (placeLast_safe ho.1 o.booked) fun o' ho' => ?_
    exact (known o' ⟨ho'.1, ho'.2.trans ho.2⟩).bind fun r hr => Out.Safe.of hr
  · intro o ho
    change Out.Safe True o.bookkeep _
    rw [bookkeep]
    exact (lastPose_safe ho.1).bind fun _ _ => ⟨ho.1.frame rfl rfl rfl rfl rfl, ho.2⟩

/-- The modes which leave a Hessian. -/
def SolveMode.second : SolveMode → Prop
  | .gnHessian | .lmSpher | .lmEllip => True
  | _ => False

theorem solve_safe (e : EigSolver) (svd : Mat3 → SVD3) (mode : SolveMode) (single : Bool) {x : OptDense PlaneReg}
    (h : x.obj.Fits Holds d) (hc : mode = .initialize → ∀ c ∈ d.clouds, c.2 0 ≠ []) :
    (solve e svd mode single x).Safe True fun r => (r.2.obj.Fits Holds d ∧ r.2.obj.mode = mode) ∧
      (SolveMode.second mode → r.2.sys.N = 6) := by
  rw [solve]
  refine (error_safe e (h.frame (s' := { x.obj with mode := mode }) rfl rfl rfl rfl rfl)).bind fun r hr => ?_
  have hm : r.2.mode = mode := (planesOnly_mode hr.2)
  have h1 : Fits Holds d { r.2 with initialError := r.1 } := (hr.1.imp fun n c q hq => hq.holds).frame rfl rfl rfl rfl rfl
  dsimp only
  cases mode with
  | «initialize» => exact (solveInitialize_safe h1 (hc rfl)).bind fun y hy => ⟨⟨hy.1, hy.2.trans hm⟩, fun h => absurd h id⟩
  | gradient => exact ⟨⟨h1, hm⟩, fun h => absurd h id⟩
  | gradientBengiosNag =>
    refine Out.Safe.bind (Q := fun y : OptDense PlaneReg => y.obj.Fits Holds d ∧ y.obj.mode = .gradientBengiosNag) ?_
      fun y hy => ⟨hy, fun h => absurd h id⟩
    refine Out.Safe.bind (Q := fun o => o.Fits Holds d ∧ o.mode = .gradientBengiosNag) ?_ fun o ho => ⟨ho⟩
    exact gradLoop_safe (I := fun o => o.Fits Holds d ∧ o.mode = .gradientBengiosNag)
      (fun o k ho => ⟨ho.1.frame rfl rfl rfl rfl rfl, ho.2⟩) (fun o ho => gradStep_safe e ho.1 ho.2) _ _ _ _ rfl
      ⟨h1.frame rfl rfl rfl rfl rfl, hm⟩
  | gradientAllPoses =>
    refine Out.Safe.bind (Q := fun y : OptDense PlaneReg => y.obj.Fits Holds d ∧ y.obj.mode = .gradientAllPoses) ?_
      fun y hy => ⟨hy, fun h => absurd h id⟩
    refine Out.Safe.bind (Q := fun o => o.Fits Holds d ∧ o.mode = .gradientAllPoses) ?_ fun o ho => ⟨ho⟩
    exact gradLoop_safe (I := fun o => o.Fits Holds d ∧ o.mode = .gradientAllPoses)
      (fun o k ho => ⟨ho.1.frame rfl rfl rfl rfl rfl, ho.2⟩) (fun o ho => allPosesStep_safe e ho.1 _ ho.2) _ _ _ _ rfl
      ⟨h1.frame rfl rfl rfl rfl rfl, hm⟩
  | gnHessian =>
    exact (optimizer_safe e .gnHessian _ _ _ (x := { x with obj := { r.2 with initialError := r.1 } }) ⟨h1, hm⟩).bind
      fun y hy => ⟨⟨hy.1.1.frame rfl rfl rfl rfl rfl, hy.1.2⟩, fun _ => hy.2⟩
  | gnClampedHessian => exact ⟨⟨h1, hm⟩, fun h => absurd h id⟩
  | lmSpher =>
    exact (optimizer_safe e .lmSpher _ _ _ (x := { x with obj := { r.2 with initialError := r.1 } }) ⟨h1, hm⟩).bind
      fun y hy => ⟨⟨hy.1.1.frame rfl rfl rfl rfl rfl, hy.1.2⟩, fun _ => hy.2⟩
  | lmEllip =>
    exact (optimizer_safe e .lmEllip _ _ _ (x := { x with obj := { r.2 with initialError := r.1 } }) ⟨h1, hm⟩).bind
      fun y hy => ⟨⟨hy.1.1.frame rfl rfl rfl rfl rfl, hy.1.2⟩, fun _ => hy.2⟩

end PlaneReg

end Mrob
