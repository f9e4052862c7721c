import Verif.Lemmas.PlaneOrder
import Verif.Props.PlaneInit
import Verif.Props.PlaneReg
import Verif.Props.ArunSym

/-!
# Property C115: plane registration does not depend on the order in which the planes are visited

`planes_` is a `std::unordered_map`; the order of its elements is not specified and may change whenever a plane is added.
-/

open Matrix

namespace Mrob

open Spec PlaneReg

namespace Spec

/-- Everything but the initialisation from the means of the planes. -/
def NotInit : PlaneReg.Op → Prop
  | .solveInitialize => False
  | .solve .initialize _ => False
  | _ => True

/-- A sequence of calls; before each of them the planes are put into another order. -/
noncomputable def runShuffled (e : EigSolver) (svd : Mat3 → SVD3) :
    List ((List (ℕ × Plane) → List (ℕ × Plane)) × PlaneReg.Op) → OptDense PlaneReg → Out (OptDense PlaneReg)
  | [], s => .ok s
  | x :: l, s => x.2.run e svd { s with obj := { s.obj with planes := x.1 s.obj.planes } } >>= fun s => runShuffled e svd l s

end Spec

namespace PlaneReg

theorem find_perm {l l' : List (ℕ × Plane)} (h : l.Perm l') (hn : (l.map (·.1)).Nodup) (id : ℕ) :
    l'.find? (fun q => q.1 = id) = l.find? fun q => q.1 = id := by
  have key : ∀ {l : List (ℕ × Plane)}, (l.map (·.1)).Nodup → ∀ q ∈ l, q.1 = id → l.find? (fun q => q.1 = id) = some q := by
    intro l
    induction l with
    | nil => intro _ q hq; cases hq
    | cons a l ih =>
      intro hn q hq he
      rw [List.map_cons, List.nodup_cons] at hn
      rcases List.mem_cons.mp hq with rfl | hq
      · rw [List.find?_cons_of_pos (by simpa using he)]
      · have : a.1 ≠ id := fun h0 => hn.1 (List.mem_map.mpr ⟨q, hq, he.trans h0.symm⟩)
        rw [List.find?_cons_of_neg (by simpa using this)]
        exact ih hn.2 q hq he
  cases h1 : l.find? (fun q => q.1 = id) with
  | some q =>
    have h2 := List.mem_of_find?_eq_some h1
    have h3 := List.find?_some h1
    exact key ((h.map _).nodup_iff.mp hn) q (h.mem_iff.mp h2) (by simpa using h3)
  | none =>
    rw [List.find?_eq_none] at h1 ⊢
    exact fun x hx => h1 x (h.mem_iff.mpr hx)

theorem replace_ids (id : ℕ) (p : Plane) (l : List (ℕ × Plane)) :
    (l.map fun q => if q.1 = id then (id, p) else q).map (·.1) = l.map (·.1) := by
  rw [List.map_map]
  refine List.map_congr_left fun q _ => ?_
  change (if q.1 = id then (id, p) else q).1 = q.1
  split_ifs with h
  · exact h.symm
  · rfl

theorem replace_shuffled (id : ℕ) (p : Plane) {s s' : PlaneReg} (h : Shuffled s s') :
    Shuffled (s.replacePlane id p) (s'.replacePlane id p) := by
  obtain ⟨ps, hp, rfl⟩ := h
  refine ⟨_, ⟨hp.1.map _, ?_⟩, rfl⟩
  change ((s.planes.map fun q => if q.1 = id then (id, p) else q).map (·.1)).Nodup
  rw [replace_ids]
  exact hp.2

theorem emplace_shuffled (id : ℕ) (p : Plane) {s s' : PlaneReg} (h : Shuffled s s') :
    Shuffled (s.emplace id p) (s'.emplace id p) := by
  obtain ⟨ps, hp, rfl⟩ := h
  have hm : id ∈ ps.map (·.1) ↔ id ∈ s.planes.map (·.1) := (hp.1.map _).mem_iff.symm
  unfold emplace
  by_cases hc : id ∈ s.planes.map (·.1)
  · rw [if_pos (List.contains_iff_mem.mpr hc), if_pos (List.contains_iff_mem.mpr (hm.mpr hc))]
    exact ⟨ps, hp, rfl⟩
  · rw [if_neg fun h => hc (List.contains_iff_mem.mp h), if_neg fun h => hc (hm.mp (List.contains_iff_mem.mp h))]
    refine ⟨_, ⟨hp.1.append_right _, ?_⟩, rfl⟩
    change ((s.planes ++ [(id, p)]).map (·.1)).Nodup
    rw [List.map_append]
    refine List.Nodup.append hp.2 (List.nodup_singleton _) ?_
    intro x h1 h2
    rw [List.map_singleton, List.mem_singleton] at h2
    rw [h2] at h1
    exact hc h1

theorem pushPoint_leads (id t : ℕ) (x : Vec3) {s s' : PlaneReg} (h : Shuffled s s') :
    Leads Shuffled (s.pushPoint id t x) (s'.pushPoint id t x) := by
  have hf : s'.planes.find? (fun q => q.1 = id) = s.planes.find? fun q => q.1 = id := by
    obtain ⟨ps, hp, rfl⟩ := h
    exact find_perm hp.1 hp.2 id
  unfold pushPoint
  rw [hf]
  cases s.planes.find? (fun q => q.1 = id) with
  | none => exact fun x hx => by cases hx
  | some q => exact Leads.bind (Leads.refl _) fun a b hab => by rw [hab]; exact Leads.ok (replace_shuffled id b h)

theorem lift_leads {f f' : PlaneReg → Out PlaneReg} (hf : ∀ s s', Shuffled s s' → Leads Shuffled (f s) (f' s'))
    {s s' : OptDense PlaneReg} (h : ShuffledOpt s s') : Leads ShuffledOpt (lift f s) (lift f' s') := by
  obtain ⟨o, ho, rfl⟩ := h
  exact Leads.bind (hf _ _ ho) fun x y hxy => Leads.ok ⟨y, hxy, rfl⟩

theorem storeIters_leads {a b : Out (ℕ × OptDense PlaneReg)} (h : Leads (fun x y => x.1 = y.1 ∧ OptDense.Rel Shuffled x.2 y.2) a b) :
    Leads (fun x y => x.1 = y.1 ∧ ShuffledOpt x.2 y.2) (a >>= fun r => .ok (0, storeIters r)) (b >>= fun r => .ok (0, storeIters r)) :=
  Leads.bind h fun ⟨i, t⟩ ⟨i', t'⟩ ⟨h1, h2⟩ => by
    dsimp only at h1 h2
    subst h1
    obtain ⟨o, ⟨ps, hp, rfl⟩, rfl⟩ := h2
    exact Leads.ok ⟨rfl, _, ⟨ps, hp, rfl⟩, rfl⟩

end PlaneReg

/-- C115, `solve`: with the planes in another order `solve` returns the same value and leaves the same object up to the order
of the planes, in every mode but the initialisation. -/
theorem C115_solve (e : EigSolver) (svd : Mat3 → SVD3) (mode : SolveMode) (hm : mode ≠ .initialize) (single : Bool)
    (s s' : OptDense PlaneReg) (h : ShuffledOpt s s') (v : ℕ) (s1 : OptDense PlaneReg)
    (hs : PlaneReg.solve e svd mode single s = .ok (v, s1)) :
    ∃ s1', PlaneReg.solve e svd mode single s' = .ok (v, s1') ∧ ShuffledOpt s1 s1' := by
  have key : Leads (fun x y => x.1 = y.1 ∧ ShuffledOpt x.2 y.2) (PlaneReg.solve e svd mode single s)
      (PlaneReg.solve e svd mode single s') := by
    obtain ⟨o, ho, rfl⟩ := h
    have ho' : Shuffled { s.obj with mode := mode } { o with mode := mode } := by
      obtain ⟨ps, hp, rfl⟩ := ho
      exact ⟨ps, hp, rfl⟩
    unfold PlaneReg.solve
    refine Leads.bind (PlaneReg.error_leads e ho') fun ⟨err, t⟩ ⟨err', t'⟩ ⟨h1, h2⟩ => ?_
    dsimp only at h1 h2
    subst h1
    have h3 : ShuffledOpt { s with obj := { t with initialError := err } } { s with obj := { t' with initialError := err } } := by
      obtain ⟨ps, hp, rfl⟩ := h2
      exact ⟨_, ⟨ps, hp, rfl⟩, rfl⟩
    have h4 : ∀ i, Shuffled t t' → Shuffled { t with solveIters := i } { t' with solveIters := i } := by
      rintro i ⟨ps, hp, rfl⟩
      exact ⟨ps, hp, rfl⟩
    have h5 : ∀ t t' : PlaneReg, Shuffled t t' → Shuffled { t with solveIters := 0 } { t' with solveIters := 0 } := by
      rintro t t' ⟨ps, hp, rfl⟩
      exact ⟨ps, hp, rfl⟩
    dsimp only
    cases mode with
    | «initialize» => exact absurd rfl hm
    | gradient => exact Leads.ok ⟨rfl, h3⟩
    | gnClampedHessian => exact Leads.ok ⟨rfl, h3⟩
    | gradientAllPoses =>
      exact Leads.bind (lift_leads (fun t t' h => gradLoop_leads (allPosesStep_leads e) _ _ 0 rfl _ (h5 t t' h)) h3)
        fun _ _ h => Leads.ok ⟨rfl, h⟩
    | gradientBengiosNag =>
      exact Leads.bind (lift_leads (fun t t' h => gradLoop_leads (gradStep_leads e) _ _ 0 rfl _ (h5 t t' h)) h3)
        fun _ _ h => Leads.ok ⟨rfl, h⟩
    | gnHessian => exact storeIters_leads (OptDense.solve_leads (respects e) _ _ _ h3)
    | lmSpher => exact storeIters_leads (OptDense.solve_leads (respects e) _ _ _ h3)
    | lmEllip => exact storeIters_leads (OptDense.solve_leads (respects e) _ _ _ h3)
  obtain ⟨⟨v', s1'⟩, h1, h2, h3⟩ := key _ hs
  dsimp only at h2
  subst h2
  exact ⟨s1', h1, h3⟩

/-- C115, what is reported: the error, the numbers of `print_evaluate` and the total number of points are the same, the
point cloud of a pose holds the same points. -/
theorem C115_reported (e : EigSolver) (s s' : PlaneReg) (h : Shuffled s s') :
    (∀ err s1, s.error e = .ok (err, s1) → ∃ s1', s'.error e = .ok (err, s1') ∧ Shuffled s1 s1') ∧
    (∀ l s1, s.evaluate e = .ok (l, s1) → ∃ s1', s'.evaluate e = .ok (l, s1') ∧ Shuffled s1 s1') ∧
    s'.totalPoints = s.totalPoints ∧
    ∀ t l, s.pointCloud t = .ok l → ∃ l', s'.pointCloud t = .ok l' ∧ l.Perm l' := by
  have tot : ∀ s s' : PlaneReg, Shuffled s s' → s'.totalPoints = s.totalPoints := by
    rintro s s' ⟨ps, hp, rfl⟩
    exact ((hp.1.map _).sum_eq).symm
  refine ⟨fun err s1 hs => ?_, fun l s1 hs => ?_, tot s s' h, fun t l hl => ?_⟩
  · obtain ⟨⟨v, s1'⟩, h1, h2, h3⟩ := PlaneReg.error_leads e h _ hs
    dsimp only at h2
    subst h2
    exact ⟨s1', h1, h3⟩
  · have key : Leads (OptDense.RelV Shuffled) (s.evaluate e) (s'.evaluate e) := by
      refine Leads.bind (PlaneReg.error_leads e h) fun ⟨v, t⟩ ⟨v', t'⟩ ⟨h1, h2⟩ => ?_
      dsimp only at h1 h2 ⊢
      subst h1
      rw [tot t t' h2]
      obtain ⟨ps, hp, rfl⟩ := h2
      dsimp only
      rw [hp.1.length_eq]
      split_ifs
      · exact fun x hx => by cases hx
      · exact Leads.ok ⟨rfl, ps, hp, rfl⟩
    obtain ⟨⟨v, s1'⟩, h1, h2, h3⟩ := key _ hs
    dsimp only at h2
    subst h2
    exact ⟨s1', h1, h3⟩
  · obtain ⟨ps, hp, rfl⟩ := h
    exact Leads.bind (traverse_shuffled _ hp.1) (fun a b hab => Leads.ok hab.flatten) l hl

theorem PlaneReg.op_leads (e : EigSolver) (svd : Mat3 → SVD3) {op : PlaneReg.Op} (ho : NotInit op) {s s' : OptDense PlaneReg}
    (h : ShuffledOpt s s') : Leads ShuffledOpt (op.run e svd s) (op.run e svd s') := by
  have h5 : ∀ t t' : PlaneReg, Shuffled t t' → Shuffled { t with solveIters := 0 } { t' with solveIters := 0 } := by
    rintro t t' ⟨ps, hp, rfl⟩
    exact ⟨ps, hp, rfl⟩
  cases op with
  | setNumbers a b => exact lift_leads (fun t t' h => Leads.ok (by
      obtain ⟨ps, hp, rfl⟩ := h
      exact ⟨[], ⟨List.Perm.nil, List.nodup_nil⟩, rfl⟩)) h
  | resetSolution => exact lift_leads (fun t t' h => Leads.ok (by
      obtain ⟨ps, hp, rfl⟩ := h
      exact ⟨ps, hp, rfl⟩)) h
  | addPlane id p => exact lift_leads (fun t t' h => Leads.ok (emplace_shuffled id p h)) h
  | addNewPlane id => exact lift_leads (fun t t' h => Leads.ok (by
      have hn : t'.numberPoses = t.numberPoses := by obtain ⟨ps, hp, rfl⟩ := h; rfl
      rw [addNewPlane, addNewPlane, hn]
      exact emplace_shuffled id _ h)) h
  | pushPoint id t x => exact lift_leads (fun _ _ h => pushPoint_leads id t x h) h
  | setLastPose T => exact lift_leads (fun t t' h => by
      obtain ⟨ps, hp, rfl⟩ := h
      exact Leads.bind (Leads.refl (interpolate t.tau T.lnVee t.times t.traj)) fun x y hxy =>
        Leads.ok ⟨ps, hp, by rw [hxy]⟩) h
  | setAlpha a => exact lift_leads (f := fun o => .ok { o with alpha := a }) (f' := fun o => .ok { o with alpha := a }) (fun t t' h => Leads.ok (by
      obtain ⟨ps, hp, rfl⟩ := h
      exact ⟨ps, hp, rfl⟩)) h
  | setBeta a => exact lift_leads (f := fun o => .ok { o with beta := a }) (f' := fun o => .ok { o with beta := a }) (fun t t' h => Leads.ok (by
      obtain ⟨ps, hp, rfl⟩ := h
      exact ⟨ps, hp, rfl⟩)) h
  | solve mode single =>
    have hm : mode ≠ .initialize := by rintro rfl; exact ho
    intro x hx
    obtain ⟨⟨v, s1⟩, h1, h2⟩ := Out.bind_eq_ok.mp hx
    obtain ⟨s1', h3, h4⟩ := C115_solve e svd mode hm single s s' h v s1 h1
    cases h2
    exact ⟨s1', by rw [Op.run, h3]; rfl, h4⟩
  | solveInitialize => exact ho.elim
  | interpolateGradient single =>
    exact lift_leads (fun t t' h => gradLoop_leads (gradStep_leads e) _ _ 0 rfl _ (h5 t t' h)) h
  | gradientAllPoses single =>
    exact lift_leads (fun t t' h => gradLoop_leads (allPosesStep_leads e) _ _ 0 rfl _ (h5 t t' h)) h
  | currentError => exact lift_leads (fun t t' h => Leads.bind (PlaneReg.error_leads e h) fun _ _ h => Leads.ok h.2) h
  | evaluate => exact lift_leads (f := fun o => o.evaluate e >>= fun r => .ok r.2) (f' := fun o => o.evaluate e >>= fun r => .ok r.2) (fun t t' h => by
      intro x hx
      obtain ⟨⟨l, s1⟩, h1, h2⟩ := Out.bind_eq_ok.mp hx
      obtain ⟨s1', h3, h4⟩ := (C115_reported e t t' h).2.1 l s1 h1
      cases h2
      exact ⟨s1', by rw [h3]; rfl, h4⟩) h
  | external id p => exact lift_leads (fun t t' h => Leads.ok (replace_shuffled id p h)) h

/-- C115, histories: whatever the order of the planes is before each call, a history of calls on a new object returns
whenever the one in the order of insertion does, and leaves the same object up to the order of the planes: the same
trajectory, the same number of iterations, the same planes.

Missing: the initialisation from the means of the planes, see `C115_initialize_partial` and `C115_initialize_fails`. -/
theorem C115_history_partial (e : EigSolver) (svd : Mat3 → SVD3)
    (l : List ((List (ℕ × Plane) → List (ℕ × Plane)) × PlaneReg.Op)) (hl : ∀ x ∈ l, (∀ ps : List (ℕ × Plane), ps.Perm (x.1 ps)) ∧ NotInit x.2)
    (s : OptDense PlaneReg) (h : PlaneReg.run e svd (l.map (·.2)) (OptDense.new PlaneReg.new) = .ok s) :
    ∃ s', runShuffled e svd l (OptDense.new PlaneReg.new) = .ok s' ∧ ShuffledOpt s s' := by
  have key : ∀ (l : List ((List (ℕ × Plane) → List (ℕ × Plane)) × PlaneReg.Op)),
      (∀ x ∈ l, (∀ ps : List (ℕ × Plane), ps.Perm (x.1 ps)) ∧ NotInit x.2) → ∀ s s', ShuffledOpt s s' →
      Leads ShuffledOpt (PlaneReg.run e svd (l.map (·.2)) s) (runShuffled e svd l s') := by
    intro l
    induction l with
    | nil => exact fun _ s s' h => Leads.ok h
    | cons x l ih =>
      intro hl s s' h
      obtain ⟨h1, h2⟩ := hl x (by simp)
      have h3 : ShuffledOpt s { s' with obj := { s'.obj with planes := x.1 s'.obj.planes } } := by
        obtain ⟨o, ⟨ps, hp, rfl⟩, rfl⟩ := h
        exact ⟨_, ⟨x.1 ps, ⟨hp.1.trans (h1 ps), hp.2⟩, rfl⟩, rfl⟩
      exact Leads.bind (PlaneReg.op_leads e svd h2 h3) fun a b hab => ih (fun y hy => hl y (by simp [hy])) a b hab
  exact key l hl (OptDense.new PlaneReg.new) (OptDense.new PlaneReg.new)
    ⟨PlaneReg.new, ⟨[], ⟨List.Perm.nil, List.nodup_nil⟩, rfl⟩, rfl⟩ s h

/-- C115, initialisation: if every plane has points in the first pose (and no points were added since the matrices were
computed), `solve_initialize` gives the same trajectory in every order of the planes. -/
theorem C115_initialize_partial (svd : Mat3 → SVD3) (hsvd : ∀ H, (svd H).Decomposes H) (s s' : PlaneReg) (h : Shuffled s s')
    (hn : s.numberPoses ≠ 0) (hp : s.Prepared) (h0 : ∀ q ∈ s.planes, q.2.cloudAt 0 ≠ []) (v : ℕ) (s1 : PlaneReg)
    (hs : s.solveInitialize svd = .ok (v, s1)) : ∃ s1', s'.solveInitialize svd = .ok (v, s1') ∧ Shuffled s1 s1' := by
  obtain ⟨ps, hperm, rfl⟩ := h
  have hp' : Prepared { s with planes := ps } := fun q hq => hp q (hperm.1.mem_iff.mpr hq)
  have h0' : ∀ q ∈ ps, q.2.cloudAt 0 ≠ [] := fun q hq => h0 q (hperm.1.mem_iff.mpr hq)
  have hy : ∀ l : List (ℕ × Plane), (∀ q ∈ l, q.2.cloudAt 0 ≠ []) →
      (l.map fun q => if q.2.cloudAt 0 = [] then none else some (q.2.meanAt 0)).filterMap id = l.map fun q => q.2.meanAt 0 := by
    intro l hl
    rw [List.filterMap_map, ← List.filterMap_eq_map]
    refine List.filterMap_congr fun q hq => ?_
    simp only [Function.comp_apply, if_neg (hl q hq), id]
  have loop : ∀ (ts : List ℕ), (∀ t ∈ ts, t < s.numberPoses) → ∀ traj r,
      initLoop svd (s.planes.map fun q => q.2.meanAt 0) { s with planes := s.planes.map fun q => (q.1, q.2.synced) } ts traj = .ok r →
      initLoop svd (ps.map fun q => q.2.meanAt 0) { s with planes := ps.map fun q => (q.1, q.2.synced) } ts traj = .ok r := by
    intro ts
    induction ts with
    | nil => intro _ traj r h; exact h
    | cons t ts ih =>
      intro ht traj r h
      have ht0 := ht t (by simp)
      have e1 := rowsAt_ok hp ht0
      have e2 : rowsAt (ps.map fun q => q.2.meanAt 0) t { s with planes := ps.map fun q => (q.1, q.2.synced) } =
          .ok (pairsAt t { s with planes := ps }) := rowsAt_ok hp' ht0
      have hpp : (s.pairsAt t).Perm (pairsAt t { s with planes := ps }) := hperm.1.filterMap _
      rw [initLoop, e1, Out.ok_bind] at h
      rw [initLoop, e2, Out.ok_bind]
      obtain ⟨⟨b, T⟩, h1, h2⟩ := Out.bind_eq_ok.mp h
      have hz : ∀ l : List (Vec3 × Vec3), (l.map (·.1)).zip (l.map (·.2)) = l := fun l => by
        rw [List.zip_map']; simp
      have h3 : arun svd ((pairsAt t { s with planes := ps }).map (·.1)) ((pairsAt t { s with planes := ps }).map (·.2)) SE3.default =
          .ok (b, T) := by
        cases b with
        | true => exact C83_reordered svd svd hsvd hsvd _ _ _ _ (by simp) (by simp) (by rw [hz, hz]; exact hpp) _ T _ h1
        | false =>
          have hT : T = SE3.default := by
            rw [arun] at h1
            dsimp only at h1
            split at h1
            · cases h1
            split at h1
            · cases h1; rfl
            split at h1
            · cases h1; rfl
            split at h1
            · cases h1; rfl
            · cases h1
          subst hT
          exact (C83_refused svd svd hsvd hsvd _ _ _ _ h1).2.2 _ _ (by simp) (by rw [hz, hz]; exact hpp)
      rw [h3, Out.ok_bind]
      dsimp only at h2 ⊢
      split_ifs at h2 ⊢ with hb hlt
      · exact ih (fun u hu => ht u (by simp [hu])) _ _ h2
      · exact h2
  rw [solveInitialize, firstMeans_ok hp hn, Out.ok_bind] at hs
  dsimp only at hs
  rw [hy _ h0] at hs
  obtain ⟨⟨b, traj⟩, h1, h2⟩ := Out.bind_eq_ok.mp hs
  have h3 := loop s.times (fun t ht => (mem_times.mp ht).2) s.traj _ h1
  cases h2
  refine ⟨{ s with planes := ps.map fun q => (q.1, q.2.synced), traj := traj }, ?_, ps.map fun q => (q.1, q.2.synced),
    ⟨hperm.1.map _, ?_⟩, rfl⟩
  · rw [solveInitialize, firstMeans_ok hp' hn, Out.ok_bind]
    dsimp only
    rw [hy _ h0']
    change (initLoop svd (ps.map fun q => q.2.meanAt 0) { s with planes := ps.map fun q => (q.1, q.2.synced) } s.times s.traj >>= _) = _
    rw [h3]
    rfl
  · change ((s.planes.map fun q => (q.1, q.2.synced)).map (·.1)).Nodup
    rw [List.map_map]
    exact hperm.2

/-- Two planes, the second one without points. -/
theorem PlaneReg.initialize_lastUnseen (svd : Mat3 → SVD3) (s : PlaneReg) (a b : ℕ × Plane) (hpl : s.planes = [a, b])
    (hp : s.Prepared) (hn : s.numberPoses = 2) (ht : s.traj.length = 2) (ha0 : a.2.cloudAt 0 ≠ []) (ha1 : a.2.cloudAt 1 ≠ [])
    (hb0 : b.2.cloudAt 0 = []) (hb1 : b.2.cloudAt 1 = []) : ∃ r, s.solveInitialize svd = .ok r := by
  have hrows : rowsAt [a.2.meanAt 0] 1 { s with planes := s.planes.map fun q => (q.1, q.2.synced) } =
      .ok [(a.2.meanAt 1, a.2.meanAt 0)] := by
    have h1 := row_ok hp (t := 1) (by omega) (q := a) (by rw [hpl]; simp) [a.2.meanAt 0] 0
    have h2 := row_ok hp (t := 1) (by omega) (q := b) (by rw [hpl]; simp) [a.2.meanAt 0] 1
    rw [if_neg ha1] at h1
    rw [if_pos hb1] at h2
    rw [rowsAt]
    dsimp only
    rw [hpl]
    change ((_ >>= fun x => (_ >>= fun y => Out.ok [] >>= fun z => Out.ok (y :: z)) >>= fun z => Out.ok (x :: z)) >>= _) = _
    dsimp only
    rw [h1, h2]
    rfl
  have hfirst := firstMeans_ok hp (by omega)
  rw [hpl] at hfirst
  simp only [List.map_cons, List.map_nil, if_neg ha0, if_pos hb0] at hfirst
  rw [hpl] at hrows
  obtain ⟨c, traj, h, -⟩ := initLoop_total (svd := svd) (ts := [1]) (traj := s.traj) (List.nodup_singleton 1) (by
    intro t h0
    rw [List.mem_singleton.mp h0]
    exact ⟨by omega, _, hrows⟩)
  rw [solveInitialize, hfirst, Out.ok_bind]
  have htimes : s.times = [1] := by rw [times, hn]; rfl
  change ∃ r, (initLoop svd [a.2.meanAt 0] _ s.times s.traj >>= _) = Out.ok r
  rw [List.map_cons, List.map_cons, List.map_nil] at h
  rw [htimes, h]
  exact ⟨_, rfl⟩

/-- C115 without the condition on the first pose is false of the initialisation: the first plane has a point in both poses,
the second plane has none at all.  In this order the initialisation returns; with the two planes exchanged it reads beyond
the end of `Y_points_all`. -/
theorem C115_initialize_fails (e : EigSolver) (svd : Mat3 → SVD3) : ∃ (s : OptDense PlaneReg) (s' : PlaneReg),
    PlaneReg.run e svd [.setNumbers 2 2, .addNewPlane 0, .pushPoint 0 0 ![1, 0, 0], .pushPoint 0 1 ![1, 0, 0], .addNewPlane 1]
      (OptDense.new PlaneReg.new) = .ok s ∧ Shuffled s.obj s' ∧ (∃ r, s.obj.solveInitialize svd = .ok r) ∧
      s'.solveInitialize svd = .ub := by
  refine ⟨_, { (_ : PlaneReg) with planes := _ }, rfl, ⟨_, ⟨(List.reverse_perm _).symm, by decide⟩, rfl⟩, ?_, ?_⟩
  · refine PlaneReg.initialize_lastUnseen svd _ (0, _) (1, _) rfl ?_ rfl rfl (List.cons_ne_nil _ _) (List.cons_ne_nil _ _) rfl rfl
    intro q hq
    rcases List.mem_cons.mp hq with rfl | hq
    · exact ⟨⟨rfl, Or.inl rfl⟩, Or.inl rfl, rfl⟩
    · rw [List.mem_singleton.mp hq]
      exact ⟨⟨rfl, Or.inl rfl⟩, Or.inl rfl, rfl⟩
  · refine C66_unseen_fails svd _ (by exact le_refl 2) ?_ ⟨_, List.mem_cons_self, rfl⟩ (0, _) rfl (List.cons_ne_nil _ _)
    intro q hq
    rcases List.mem_cons.mp hq with rfl | hq
    · exact ⟨⟨rfl, Or.inl rfl⟩, Or.inl rfl, rfl⟩
    · rw [List.mem_singleton.mp hq]
      exact ⟨⟨rfl, Or.inl rfl⟩, Or.inl rfl, rfl⟩

/-- The hypotheses of `C115_solve` with two planes in the other order and the loop over the last pose. -/
example (e : EigSolver) (svd : Mat3 → SVD3) : ∃ (s s' : OptDense PlaneReg) (r : ℕ × OptDense PlaneReg),
    PlaneReg.run e svd [.setNumbers 2 2, .addNewPlane 0, .pushPoint 0 0 ![1, 0, 0], .addNewPlane 1, .pushPoint 1 1 ![0, 1, 0]]
      (OptDense.new PlaneReg.new) = .ok s ∧ ShuffledOpt s s' ∧ s'.obj.planes.map (·.1) = [1, 0] ∧
      PlaneReg.solve e svd .gradientBengiosNag false s = .ok r := by
  obtain ⟨s, hs, hp, hn, hv⟩ : ∃ s, PlaneReg.run e svd [.setNumbers 2 2, .addNewPlane 0, .pushPoint 0 0 ![1, 0, 0], .addNewPlane 1,
      .pushPoint 1 1 ![0, 1, 0]] (OptDense.new PlaneReg.new) = .ok s ∧ s.obj.planes =
      [(0, { Plane.new 2 with points := [[![1, 0, 0]], []], numberPoints := 1 }),
        (1, { Plane.new 2 with points := [[], [![0, 1, 0]]], numberPoints := 1 })] ∧ s.obj.numberPoses = 2 ∧
      s.obj.prev = [0, 0] :=
    ⟨_, rfl, rfl, rfl, rfl⟩
  have hf := run_form new_form (by
    intro op hop
    simp only [List.mem_cons, List.not_mem_nil, or_false] at hop
    rcases hop with rfl | rfl | rfl | rfl | rfl <;> trivial) hs
  obtain ⟨r, hr⟩ := (C69_iff_partial e svd false s hf.pose (by omega) hf.wf (by
      intro q hq
      rw [hp] at hq
      simp only [List.mem_cons, List.not_mem_nil, or_false] at hq
      rcases hq with rfl | rfl <;> rw [hn] <;> rfl) (by rw [hv]; simp)).mpr (by
    intro t h0 h1
    have : t = 1 := by omega
    subst this
    rw [hp]
    exact ⟨_, List.mem_cons_of_mem _ List.mem_cons_self, List.cons_ne_nil _ _⟩)
  refine ⟨s, { s with obj := { s.obj with planes := s.obj.planes.reverse } }, r, hs, ⟨_, ⟨s.obj.planes.reverse,
    ⟨(List.reverse_perm _).symm, ?_⟩, rfl⟩, rfl⟩, ?_, hr⟩
  · rw [hp]; decide
  · change s.obj.planes.reverse.map (·.1) = [1, 0]
    rw [hp]; rfl

/-- A history whose planes change places before every call; it visits them in another order at the end. -/
example (e : EigSolver) (svd : Mat3 → SVD3) : ∃ s s', runShuffled e svd
    [(id, .setNumbers 2 2), (List.reverse, .addNewPlane 0), (List.reverse, .pushPoint 0 0 ![1, 0, 0]),
      (List.reverse, .addNewPlane 1), (List.reverse, .pushPoint 1 1 ![0, 1, 0])] (OptDense.new PlaneReg.new) = .ok s' ∧
    PlaneReg.run e svd [.setNumbers 2 2, .addNewPlane 0, .pushPoint 0 0 ![1, 0, 0], .addNewPlane 1, .pushPoint 1 1 ![0, 1, 0]]
      (OptDense.new PlaneReg.new) = .ok s ∧ s.obj.planes.map (·.1) = [0, 1] ∧ s'.obj.planes.map (·.1) = [1, 0] :=
  ⟨_, _, rfl, rfl, rfl, rfl⟩

end Mrob
