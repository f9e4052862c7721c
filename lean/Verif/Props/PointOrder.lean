import Verif.Lemmas.PointOrder
import Verif.Lemmas.ArunSym
import Verif.Props.PlaneReg

/-!
# Property C116: the order in which the points are handed over does not matter
-/

open Matrix

namespace Mrob

open Spec PlaneReg

namespace Spec

/-- The calls of `plane_push_back_point` for a list of points, each with its plane and its time. -/
def pushes (l : List (ℕ × ℕ × Vec3)) : List PlaneReg.Op := l.map fun x => .pushPoint x.1 x.2.1 x.2.2

end Spec

namespace PlaneReg

namespace Resort

theorem reg_refl (s : PlaneReg) : ResortedReg s s :=
  ⟨_, List.forall₂_same.mpr fun _ _ => ⟨rfl, Plane.Resorted.refl _⟩, rfl⟩

theorem reg_trans {s s' s'' : PlaneReg} (h : ResortedReg s s') (h' : ResortedReg s' s'') : ResortedReg s s'' := by
  obtain ⟨ps, hp, rfl⟩ := h
  obtain ⟨qs, hq, rfl⟩ := h'
  refine ⟨qs, ?_, rfl⟩
  have key : ∀ {l m n : List (ℕ × Plane)}, List.Forall₂ (fun q q' : ℕ × Plane => q.1 = q'.1 ∧ Resorted q.2 q'.2) l m →
      List.Forall₂ (fun q q' : ℕ × Plane => q.1 = q'.1 ∧ Resorted q.2 q'.2) m n →
      List.Forall₂ (fun q q' : ℕ × Plane => q.1 = q'.1 ∧ Resorted q.2 q'.2) l n := by
    intro l m n h
    induction h generalizing n with
    | nil => exact fun h => h
    | cons h1 _ ih =>
      intro h
      cases h with
      | cons h3 h4 => exact .cons ⟨h1.1.trans h3.1, Plane.Resorted.trans h1.2 h3.2⟩ (ih h4)
  exact key hp hq

theorem find_resorted {l m : List (ℕ × Plane)} (id : ℕ)
    (h : List.Forall₂ (fun q q' : ℕ × Plane => q.1 = q'.1 ∧ Resorted q.2 q'.2) l m) :
    (l.find? (fun q => q.1 = id) = none ∧ m.find? (fun q => q.1 = id) = none) ∨
      ∃ q q', l.find? (fun q => q.1 = id) = some q ∧ m.find? (fun q => q.1 = id) = some q' ∧ Resorted q.2 q'.2 := by
  induction h with
  | nil => exact Or.inl ⟨rfl, rfl⟩
  | @cons a b l m h1 _ ih =>
    by_cases ha : a.1 = id
    · rw [List.find?_cons_of_pos (by simpa using ha), List.find?_cons_of_pos (by simpa [← h1.1] using ha)]
      exact Or.inr ⟨a, b, rfl, rfl, h1.2⟩
    · rw [List.find?_cons_of_neg (by simpa using ha), List.find?_cons_of_neg (by simpa [← h1.1] using ha)]
      exact ih

theorem replace_resorted' (id : ℕ) {p p' : Plane} (hpp : Resorted p p') {s s' : PlaneReg} (h : ResortedReg s s') :
    ResortedReg (s.replacePlane id p) (s'.replacePlane id p') := by
  obtain ⟨ps, hp, rfl⟩ := h
  refine ⟨_, ?_, rfl⟩
  refine List.forall₂_map_left_iff.mpr (List.forall₂_map_right_iff.mpr (hp.imp fun q q' h => ?_))
  by_cases hq : q.1 = id
  · rw [if_pos hq, if_pos (h.1 ▸ hq)]
    exact ⟨rfl, hpp⟩
  · rw [if_neg hq, if_neg (h.1 ▸ hq)]
    exact h

theorem replace_resorted (id : ℕ) (p : Plane) {s s' : PlaneReg} (h : ResortedReg s s') :
    ResortedReg (s.replacePlane id p) (s'.replacePlane id p) := replace_resorted' id (Plane.Resorted.refl p) h

theorem ids_resorted {l m : List (ℕ × Plane)}
    (h : List.Forall₂ (fun q q' : ℕ × Plane => q.1 = q'.1 ∧ Resorted q.2 q'.2) l m) : l.map (·.1) = m.map (·.1) :=
  forall₂_eq (List.forall₂_map_left_iff.mpr (List.forall₂_map_right_iff.mpr (h.imp fun _ _ h => h.1)))

theorem emplace_resorted (id : ℕ) (p : Plane) {s s' : PlaneReg} (h : ResortedReg s s') :
    ResortedReg (s.emplace id p) (s'.emplace id p) := by
  obtain ⟨ps, hp, rfl⟩ := h
  unfold emplace
  dsimp only
  rw [← ids_resorted hp]
  split_ifs
  · exact ⟨ps, hp, rfl⟩
  · exact ⟨_, List.rel_append hp (.cons ⟨rfl, Plane.Resorted.refl p⟩ .nil), rfl⟩

theorem pushPoint_leads (id t : ℕ) (x : Vec3) {s s' : PlaneReg} (h : ResortedReg s s') :
    Leads ResortedReg (s.pushPoint id t x) (s'.pushPoint id t x) := by
  have hf := h
  obtain ⟨ps, hp, hs⟩ := hf
  have hps : s'.planes = ps := by rw [hs]
  unfold pushPoint
  rw [hps]
  rcases find_resorted id hp with ⟨h1, h2⟩ | ⟨q, q', h1, h2, h3⟩
  · rw [h1, h2]; exact fun x hx => by cases hx
  · rw [h1, h2]
    exact Leads.bind (Plane.push_leads x t h3) fun a b hab => Leads.ok (replace_resorted' id hab h)

theorem find_replace (id id' : ℕ) (p : Plane) : ∀ l : List (ℕ × Plane),
    (l.map fun q => if q.1 = id then (id, p) else q).find? (fun q => q.1 = id') =
      if id = id' then (l.find? fun q => q.1 = id').map fun _ => (id, p) else l.find? fun q => q.1 = id'
  | [] => by split_ifs <;> rfl
  | a :: l => by
    have ih := find_replace id id' p l
    rw [List.map_cons]
    by_cases h1 : id = id'
    · subst h1
      rw [if_pos rfl] at ih ⊢
      by_cases ha : a.1 = id
      · rw [if_pos ha, List.find?_cons_of_pos (by simp), List.find?_cons_of_pos (by simpa using ha)]
        rfl
      · rw [if_neg ha, List.find?_cons_of_neg (by simpa using ha), List.find?_cons_of_neg (by simpa using ha), ih]
    · rw [if_neg h1] at ih ⊢
      by_cases ha : a.1 = id
      · rw [if_pos ha, List.find?_cons_of_neg (by simpa using h1), List.find?_cons_of_neg (by simpa [ha] using h1), ih]
      · rw [if_neg ha]
        by_cases hb : a.1 = id'
        · rw [List.find?_cons_of_pos (by simpa using hb), List.find?_cons_of_pos (by simpa using hb)]
        · rw [List.find?_cons_of_neg (by simpa using hb), List.find?_cons_of_neg (by simpa using hb), ih]

/-- Two points handed over in the other order. -/
theorem pushPoint_swap (id t : ℕ) (x : Vec3) (id' t' : ℕ) (x' : Vec3) (s : PlaneReg) :
    Leads ResortedReg (s.pushPoint id t x >>= fun s => s.pushPoint id' t' x') (s.pushPoint id' t' x' >>= fun s => s.pushPoint id t x) := by
  intro r hr
  obtain ⟨s1, h1, h2⟩ := Out.bind_eq_ok.mp hr
  unfold pushPoint at h1 h2 ⊢
  cases hq : s.planes.find? (fun q => q.1 = id) with
  | none => rw [hq] at h1; cases h1
  | some q =>
    rw [hq] at h1
    obtain ⟨p1, h3, h1⟩ := Out.bind_eq_ok.mp h1
    cases h1
    have hfind : (s.replacePlane id p1).planes.find? (fun q => q.1 = id') = _ := find_replace id id' p1 s.planes
    rw [hfind] at h2
    by_cases hid : id = id'
    · subst hid
      rw [if_pos rfl, hq] at h2
      obtain ⟨p2, h4, h2⟩ := Out.bind_eq_ok.mp h2
      cases h2
      obtain ⟨p3, h5, h6⟩ := Plane.push_swap x x' t t' q.2 p2 (by rw [h3]; exact h4)
      obtain ⟨p4, h7, h8⟩ := Out.bind_eq_ok.mp h5
      have hrr : ∀ a b : Plane, (s.replacePlane id a).replacePlane id b = s.replacePlane id b := by
        intro a b
        unfold replacePlane
        dsimp only
        rw [List.map_map]
        congr 1
        refine List.map_congr_left fun q _ => ?_
        change (if (if q.1 = id then (id, a) else q).1 = id then (id, b) else (if q.1 = id then (id, a) else q)) = _
        by_cases h : q.1 = id
        · rw [if_pos h, if_pos rfl, if_pos h]
        · rw [if_neg h, if_neg h]
      refine ⟨s.replacePlane id p3, ?_, ?_⟩
      · rw [show (s.planes.find? fun q => q.1 = id) = some q from hq]
        dsimp only
        rw [h7, Out.ok_bind, Out.ok_bind]
        have hfind2 : (s.replacePlane id p4).planes.find? (fun q => q.1 = id) = _ := find_replace id id p4 s.planes
        rw [hfind2, if_pos rfl, hq]
        dsimp only [Option.map]
        rw [h8, Out.ok_bind, hrr]
      · rw [hrr]
        exact replace_resorted' id h6 (reg_refl s)
    · rw [if_neg hid] at h2
      cases hq' : s.planes.find? (fun q => q.1 = id') with
      | none => rw [hq'] at h2; cases h2
      | some q' =>
        rw [hq'] at h2
        obtain ⟨p2, h4, h2⟩ := Out.bind_eq_ok.mp h2
        cases h2
        refine ⟨(s.replacePlane id' p2).replacePlane id p1, ?_, ?_⟩
        · dsimp only
          rw [h4, Out.ok_bind, Out.ok_bind]
          have hfind2 : (s.replacePlane id' p2).planes.find? (fun q => q.1 = id) = _ := find_replace id' id p2 s.planes
          rw [hfind2, if_neg (Ne.symm hid), hq]
          dsimp only
          rw [h3, Out.ok_bind]
        · have : (s.replacePlane id' p2).replacePlane id p1 = (s.replacePlane id p1).replacePlane id' p2 := by
            unfold replacePlane
            dsimp only
            rw [List.map_map, List.map_map]
            congr 1
            refine List.map_congr_left fun q _ => ?_
            change (if (if q.1 = id' then (id', p2) else q).1 = id then (id, p1) else (if q.1 = id' then (id', p2) else q)) =
              (if (if q.1 = id then (id, p1) else q).1 = id' then (id', p2) else (if q.1 = id then (id, p1) else q))
            by_cases h : q.1 = id
            · have h' : ¬ q.1 = id' := fun h' => hid (h.symm.trans h')
              rw [if_neg h', if_pos h, if_neg hid]
            · by_cases h' : q.1 = id'
              · rw [if_pos h', if_neg h, if_pos h', if_neg (Ne.symm hid)]
              · rw [if_neg h', if_neg h, if_neg h']
          rw [this]
          exact reg_refl _

theorem lift_leads {f f' : PlaneReg → Out PlaneReg} (hf : ∀ s s', ResortedReg s s' → Leads ResortedReg (f s) (f' s'))
    {s s' : OptDense PlaneReg} (h : ResortedOpt s s') : Leads ResortedOpt (lift f s) (lift f' s') := by
  obtain ⟨o, ho, rfl⟩ := h
  exact Leads.bind (hf _ _ ho) fun x y hxy => Leads.ok ⟨y, hxy, rfl⟩

theorem storeIters_leads {a b : Out (ℕ × OptDense PlaneReg)} (h : Leads (fun x y => x.1 = y.1 ∧ OptDense.Rel ResortedReg x.2 y.2) a b) :
    Leads (fun x y => x.1 = y.1 ∧ ResortedOpt x.2 y.2) (a >>= fun r => .ok (0, storeIters r)) (b >>= fun r => .ok (0, storeIters r)) :=
  Leads.bind h fun ⟨i, t⟩ ⟨i', t'⟩ ⟨h1, h2⟩ => by
    dsimp only at h1 h2
    subst h1
    obtain ⟨o, ⟨ps, hp, rfl⟩, rfl⟩ := h2
    exact Leads.ok ⟨rfl, _, ⟨ps, hp, rfl⟩, rfl⟩

end Resort

end PlaneReg

/-- C116, `solve`: with the points in another order `solve` returns the same value and leaves the same object up to the order
of the points, in every mode. -/
theorem C116_solve (e : EigSolver) (svd : Mat3 → SVD3) (mode : SolveMode) (single : Bool)
    (s s' : OptDense PlaneReg) (h : ResortedOpt s s') (v : ℕ) (s1 : OptDense PlaneReg)
    (hs : PlaneReg.solve e svd mode single s = .ok (v, s1)) :
    ∃ s1', PlaneReg.solve e svd mode single s' = .ok (v, s1') ∧ ResortedOpt s1 s1' := by
  have key : Leads (fun x y => x.1 = y.1 ∧ ResortedOpt x.2 y.2) (PlaneReg.solve e svd mode single s)
      (PlaneReg.solve e svd mode single s') := by
    obtain ⟨o, ho, rfl⟩ := h
    have ho' : ResortedReg { s.obj with mode := mode } { o with mode := mode } := by
      obtain ⟨ps, hp, rfl⟩ := ho
      exact ⟨ps, hp, rfl⟩
    unfold PlaneReg.solve
    refine Leads.bind (Resort.error_leads e ho') fun ⟨err, t⟩ ⟨err', t'⟩ ⟨h1, h2⟩ => ?_
    dsimp only at h1 h2
    subst h1
    have h3 : ResortedOpt { s with obj := { t with initialError := err } } { s with obj := { t' with initialError := err } } := by
      obtain ⟨ps, hp, rfl⟩ := h2
      exact ⟨_, ⟨ps, hp, rfl⟩, rfl⟩
    have h4 : ∀ i, ResortedReg t t' → ResortedReg { t with solveIters := i } { t' with solveIters := i } := by
      rintro i ⟨ps, hp, rfl⟩
      exact ⟨ps, hp, rfl⟩
    have h5 : ∀ t t' : PlaneReg, ResortedReg t t' → ResortedReg { t with solveIters := 0 } { t' with solveIters := 0 } := by
      rintro t t' ⟨ps, hp, rfl⟩
      exact ⟨ps, hp, rfl⟩
    dsimp only
    cases mode with
    | «initialize» => exact Leads.bind (Resort.initialize_leads svd (s := { t with initialError := err }) (s' := { t' with initialError := err })
        (by obtain ⟨ps, hp, rfl⟩ := h2; exact ⟨ps, hp, rfl⟩)) fun ⟨b, o⟩ ⟨b', o'⟩ ⟨h1, h2⟩ => Leads.ok ⟨h1, o', h2, rfl⟩
    | gradient => exact Leads.ok ⟨rfl, h3⟩
    | gnClampedHessian => exact Leads.ok ⟨rfl, h3⟩
    | gradientAllPoses =>
      exact Leads.bind (Resort.lift_leads (fun t t' h => Resort.gradLoop_leads (Resort.allPosesStep_leads e) _ _ 0 rfl _ (h5 t t' h)) h3)
        fun _ _ h => Leads.ok ⟨rfl, h⟩
    | gradientBengiosNag =>
      exact Leads.bind (Resort.lift_leads (fun t t' h => Resort.gradLoop_leads (Resort.gradStep_leads e) _ _ 0 rfl _ (h5 t t' h)) h3)
        fun _ _ h => Leads.ok ⟨rfl, h⟩
    | gnHessian => exact Resort.storeIters_leads (OptDense.solve_leads (Resort.respects e) _ _ _ h3)
    | lmSpher => exact Resort.storeIters_leads (OptDense.solve_leads (Resort.respects e) _ _ _ h3)
    | lmEllip => exact Resort.storeIters_leads (OptDense.solve_leads (Resort.respects e) _ _ _ h3)
  obtain ⟨⟨v', s1'⟩, h1, h2, h3⟩ := key _ hs
  dsimp only at h2
  subst h2
  exact ⟨s1', h1, h3⟩

/-- C116, what is reported: the error, the numbers of `print_evaluate` and the total number of points are the same, the
point cloud of a pose holds the same points. -/
theorem C116_reported (e : EigSolver) (s s' : PlaneReg) (h : ResortedReg s s') :
    (∀ err s1, s.error e = .ok (err, s1) → ∃ s1', s'.error e = .ok (err, s1') ∧ ResortedReg s1 s1') ∧
    (∀ l s1, s.evaluate e = .ok (l, s1) → ∃ s1', s'.evaluate e = .ok (l, s1') ∧ ResortedReg s1 s1') ∧
    s'.totalPoints = s.totalPoints ∧
    ∀ t l, s.pointCloud t = .ok l → ∃ l', s'.pointCloud t = .ok l' ∧ l.Perm l' := by
  have tot : ∀ s s' : PlaneReg, ResortedReg s s' → s'.totalPoints = s.totalPoints := by
    rintro s s' ⟨ps, hp, rfl⟩
    refine congrArg List.sum (forall₂_eq (List.forall₂_map_left_iff.mpr (List.forall₂_map_right_iff.mpr
      (hp.imp fun q q' h => ?_)))).symm
    obtain ⟨pts, -, h⟩ := h.2
    rw [h]
  refine ⟨fun err s1 hs => ?_, fun l s1 hs => ?_, tot s s' h, fun t l hl => ?_⟩
  · obtain ⟨⟨v, s1'⟩, h1, h2, h3⟩ := Resort.error_leads e h _ hs
    dsimp only at h2
    subst h2
    exact ⟨s1', h1, h3⟩
  · have key : Leads (OptDense.RelV ResortedReg) (s.evaluate e) (s'.evaluate e) := by
      refine Leads.bind (Resort.error_leads e h) fun ⟨v, t⟩ ⟨v', t'⟩ ⟨h1, h2⟩ => ?_
      dsimp only at h1 h2 ⊢
      subst h1
      rw [tot t t' h2]
      obtain ⟨ps, hp, rfl⟩ := h2
      dsimp only
      rw [← hp.length_eq]
      split_ifs
      · exact fun x hx => by cases hx
      · exact Leads.ok ⟨rfl, ps, hp, rfl⟩
    obtain ⟨⟨v, s1'⟩, h1, h2, h3⟩ := key _ hs
    dsimp only at h2
    subst h2
    exact ⟨s1', h1, h3⟩
  · obtain ⟨ps, hp, rfl⟩ := h
    exact Leads.bind (traverse_leads (fun q q' h => Plane.getPoints_leads t h.2) hp)
      (fun a b hab => Leads.ok (forall₂_flatten hab)) l hl

theorem PlaneReg.Resort.op_leads (e : EigSolver) (svd : Mat3 → SVD3) (op : PlaneReg.Op) {s s' : OptDense PlaneReg}
    (h : ResortedOpt s s') : Leads ResortedOpt (op.run e svd s) (op.run e svd s') := by
  have h5 : ∀ t t' : PlaneReg, ResortedReg t t' → ResortedReg { t with solveIters := 0 } { t' with solveIters := 0 } := by
    rintro t t' ⟨ps, hp, rfl⟩
    exact ⟨ps, hp, rfl⟩
  cases op with
  | setNumbers a b => exact Resort.lift_leads (fun t t' h => Leads.ok (by
      obtain ⟨ps, hp, rfl⟩ := h
      exact ⟨[], .nil, rfl⟩)) h
  | resetSolution => exact Resort.lift_leads (fun t t' h => Leads.ok (by
      obtain ⟨ps, hp, rfl⟩ := h
      exact ⟨ps, hp, rfl⟩)) h
  | addPlane id p => exact Resort.lift_leads (fun t t' h => Leads.ok (Resort.emplace_resorted id p h)) h
  | addNewPlane id => exact Resort.lift_leads (fun t t' h => Leads.ok (by
      have hn : t'.numberPoses = t.numberPoses := by obtain ⟨ps, hp, rfl⟩ := h; rfl
      rw [addNewPlane, addNewPlane, hn]
      exact Resort.emplace_resorted id _ h)) h
  | pushPoint id t x => exact Resort.lift_leads (fun _ _ h => Resort.pushPoint_leads id t x h) h
  | setLastPose T => exact Resort.lift_leads (fun t t' h => by
      obtain ⟨ps, hp, rfl⟩ := h
      exact Leads.bind (Leads.refl (interpolate t.tau T.lnVee t.times t.traj)) fun x y hxy =>
        Leads.ok ⟨ps, hp, by rw [hxy]⟩) h
  | setAlpha a => exact Resort.lift_leads (f := fun o => .ok { o with alpha := a }) (f' := fun o => .ok { o with alpha := a }) (fun t t' h => Leads.ok (by
      obtain ⟨ps, hp, rfl⟩ := h
      exact ⟨ps, hp, rfl⟩)) h
  | setBeta a => exact Resort.lift_leads (f := fun o => .ok { o with beta := a }) (f' := fun o => .ok { o with beta := a }) (fun t t' h => Leads.ok (by
      obtain ⟨ps, hp, rfl⟩ := h
      exact ⟨ps, hp, rfl⟩)) h
  | solve mode single =>
    intro x hx
    obtain ⟨⟨v, s1⟩, h1, h2⟩ := Out.bind_eq_ok.mp hx
    obtain ⟨s1', h3, h4⟩ := C116_solve e svd mode single s s' h v s1 h1
    cases h2
    exact ⟨s1', by rw [Op.run, h3]; rfl, h4⟩
  | solveInitialize => exact Resort.lift_leads (fun t t' h => Leads.bind (Resort.initialize_leads svd h) fun _ _ h => Leads.ok h.2) h
  | interpolateGradient single =>
    exact Resort.lift_leads (fun t t' h => Resort.gradLoop_leads (Resort.gradStep_leads e) _ _ 0 rfl _ (h5 t t' h)) h
  | gradientAllPoses single =>
    exact Resort.lift_leads (fun t t' h => Resort.gradLoop_leads (Resort.allPosesStep_leads e) _ _ 0 rfl _ (h5 t t' h)) h
  | currentError => exact Resort.lift_leads (fun t t' h => Leads.bind (Resort.error_leads e h) fun _ _ h => Leads.ok h.2) h
  | evaluate => exact Resort.lift_leads (f := fun o => o.evaluate e >>= fun r => .ok r.2) (f' := fun o => o.evaluate e >>= fun r => .ok r.2) (fun t t' h => by
      intro x hx
      obtain ⟨⟨l, s1⟩, h1, h2⟩ := Out.bind_eq_ok.mp hx
      obtain ⟨s1', h3, h4⟩ := (C116_reported e t t' h).2.1 l s1 h1
      cases h2
      exact ⟨s1', by rw [h3]; rfl, h4⟩) h
  | external id p => exact Resort.lift_leads (fun t t' h => Leads.ok (Resort.replace_resorted id p h)) h

theorem PlaneReg.Resort.run_leads (e : EigSolver) (svd : Mat3 → SVD3) : ∀ (ops : List PlaneReg.Op) {s s' : OptDense PlaneReg},
    ResortedOpt s s' → Leads ResortedOpt (PlaneReg.run e svd ops s) (PlaneReg.run e svd ops s')
  | [], _, _, h => Leads.ok h
  | op :: ops, _, _, h => Leads.bind (Resort.op_leads e svd op h) fun _ _ h => run_leads e svd ops h

theorem PlaneReg.Resort.run_append (e : EigSolver) (svd : Mat3 → SVD3) : ∀ (l m : List PlaneReg.Op) (s : OptDense PlaneReg),
    PlaneReg.run e svd (l ++ m) s = PlaneReg.run e svd l s >>= fun s => PlaneReg.run e svd m s
  | [], _, _ => rfl
  | op :: l, m, s => by
    change (op.run e svd s >>= fun s => PlaneReg.run e svd (l ++ m) s) =
      ((op.run e svd s >>= fun s => PlaneReg.run e svd l s) >>= _)
    rw [Out.bind_assoc']
    congr 1
    funext s
    exact run_append e svd l m s

/-- C116, histories: the points of all planes and poses may be handed over in any order.  Whatever was called before and is
called afterwards, if the one history returns, the other one returns too and leaves the same trajectory, the same planes and
the same members, up to the order of the points. -/
theorem C116_history (e : EigSolver) (svd : Mat3 → SVD3) (before after : List PlaneReg.Op) (l l' : List (ℕ × ℕ × Vec3))
    (hl : l.Perm l') (s0 s : OptDense PlaneReg) (h : PlaneReg.run e svd (before ++ (pushes l ++ after)) s0 = .ok s) :
    ∃ s', PlaneReg.run e svd (before ++ (pushes l' ++ after)) s0 = .ok s' ∧ ResortedOpt s s' := by
  have block : ∀ s, Leads ResortedOpt (PlaneReg.run e svd (pushes l) s) (PlaneReg.run e svd (pushes l') s) := by
    clear h
    induction hl with
    | nil => exact fun s => Leads.ok ⟨s.obj, Resort.reg_refl _, rfl⟩
    | cons x _ ih =>
      exact fun s => Leads.bind (Leads.refl _) fun a b hab => by rw [← hab]; exact ih a
    | swap x y l =>
      intro s
      have h2 : ∀ (x y : ℕ × ℕ × Vec3), PlaneReg.run e svd (pushes (y :: x :: l)) s =
          lift (fun o => o.pushPoint y.1 y.2.1 y.2.2 >>= fun o => o.pushPoint x.1 x.2.1 x.2.2) s >>=
            fun s => PlaneReg.run e svd (pushes l) s := by
        intro x y
        change ((s.obj.pushPoint y.1 y.2.1 y.2.2 >>= fun o => Out.ok { s with obj := o }) >>= fun s =>
          (s.obj.pushPoint x.1 x.2.1 x.2.2 >>= fun o => Out.ok { s with obj := o }) >>= fun s => PlaneReg.run e svd (pushes l) s) =
          (((s.obj.pushPoint y.1 y.2.1 y.2.2 >>= fun o => o.pushPoint x.1 x.2.1 x.2.2) >>= fun o => Out.ok { s with obj := o }) >>= _)
        simp only [Out.bind_assoc', Out.ok_bind]
      rw [h2, h2]
      refine Leads.bind (R := ResortedOpt) ?_ fun a b hab => Resort.run_leads e svd _ hab
      exact Leads.bind (Resort.pushPoint_swap _ _ _ _ _ _ s.obj) fun a b hab =>
        Leads.ok (R := ResortedOpt) (x := { s with obj := a }) ⟨b, hab, rfl⟩
    | trans _ _ h1 h2 =>
      intro s r hr
      obtain ⟨r1, h3, o, h4, rfl⟩ := h1 s r hr
      obtain ⟨r2, h5, o', h6, rfl⟩ := h2 s _ h3
      exact ⟨_, h5, o', Resort.reg_trans h4 h6, rfl⟩
  rw [Resort.run_append] at h ⊢
  refine Leads.bind (Leads.refl _) (fun a b hab => ?_) s h
  subst hab
  rw [Resort.run_append, Resort.run_append]
  exact Leads.bind (block a) fun x y hxy => Resort.run_leads e svd after hxy

/-- The hypotheses of `C116_history`: three points of a plane in the opposite order, then a registration. -/
example (e : EigSolver) (svd : Mat3 → SVD3) : ∃ s,
    ([(0, 0, ![1, 0, 0]), (0, 1, ![0, 1, 0]), (0, 1, ![0, 0, 1])] : List (ℕ × ℕ × Vec3)).Perm
      [(0, 1, ![0, 0, 1]), (0, 1, ![0, 1, 0]), (0, 0, ![1, 0, 0])] ∧
    PlaneReg.run e svd ([.setNumbers 1 2, .addNewPlane 0] ++ (pushes [(0, 0, ![1, 0, 0]), (0, 1, ![0, 1, 0]), (0, 1, ![0, 0, 1])] ++
      [.solve .gradientBengiosNag false])) (OptDense.new PlaneReg.new) = .ok s := by
  obtain ⟨s, hs, hp, hn, hv⟩ : ∃ s, PlaneReg.run e svd [.setNumbers 1 2, .addNewPlane 0, .pushPoint 0 0 ![1, 0, 0],
      .pushPoint 0 1 ![0, 1, 0], .pushPoint 0 1 ![0, 0, 1]] (OptDense.new PlaneReg.new) = .ok s ∧ s.obj.planes =
      [(0, { Plane.new 2 with points := [[![1, 0, 0]], [![0, 1, 0], ![0, 0, 1]]], numberPoints := 3 })] ∧ s.obj.numberPoses = 2 ∧
      s.obj.prev = [0, 0] :=
    ⟨_, rfl, rfl, rfl, rfl⟩
  have hf := run_form new_form (by
    intro op hop
    simp only [List.mem_cons, List.not_mem_nil, or_false] at hop
    rcases hop with rfl | rfl | rfl | rfl | rfl <;> trivial) hs
  obtain ⟨r, hr⟩ := (C69_iff_partial e svd false s hf.pose (by omega) hf.wf (by
      intro q hq
      rw [hp, List.mem_singleton] at hq
      rw [hq, hn]
      rfl) (by rw [hv]; simp)).mpr (by
    intro t h0 h1
    have : t = 1 := by omega
    subst this
    rw [hp]
    exact ⟨_, List.mem_cons_self, List.cons_ne_nil _ _⟩)
  refine ⟨r.2, (List.reverse_perm _).symm, ?_⟩
  rw [← List.append_assoc, Resort.run_append]
  rw [show PlaneReg.run e svd ([.setNumbers 1 2, .addNewPlane 0] ++ pushes [(0, 0, ![1, 0, 0]), (0, 1, ![0, 1, 0]), (0, 1, ![0, 0, 1])])
    (OptDense.new PlaneReg.new) = .ok s from hs, Out.ok_bind, PlaneReg.run, Op.run, hr]
  rfl

/-- The hypotheses of `C116_solve` and `C116_reported`: two objects with different lists of points. -/
example (e : EigSolver) (svd : Mat3 → SVD3) : ∃ s s', PlaneReg.run e svd ([.setNumbers 1 2, .addNewPlane 0] ++
      pushes [(0, 0, ![1, 0, 0]), (0, 0, ![0, 1, 0])]) (OptDense.new PlaneReg.new) = .ok s ∧ ResortedOpt s s' ∧
    s.obj.pointCloud 0 = .ok [![1, 0, 0], ![0, 1, 0]] ∧ s'.obj.pointCloud 0 = .ok [![0, 1, 0], ![1, 0, 0]] ∧
    ∃ r, s.obj.error e = .ok r := by
  refine ⟨_, { (_ : OptDense PlaneReg) with obj := { (_ : PlaneReg) with planes := [(0, { Plane.new 2 with
    points := [[![0, 1, 0], ![1, 0, 0]], []], numberPoints := 2 })] } }, rfl, ⟨_, ⟨_, ?_, rfl⟩, rfl⟩, rfl, rfl, _, rfl⟩
  exact .cons ⟨rfl, [[![0, 1, 0], ![1, 0, 0]], []], .cons (List.Perm.swap _ _ _) (.cons (.refl _) .nil), rfl⟩ .nil

end Mrob
