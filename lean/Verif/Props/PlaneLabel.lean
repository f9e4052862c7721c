import Verif.Lemmas.PlaneVia
import Verif.Lemmas.PointOrder
import Verif.Props.PlaneReg

/-!
# Property C117: the identifiers of the planes are labels
-/

open Matrix

namespace Mrob

open Spec PlaneReg

namespace Spec

/-- A correspondence of identifiers which is one-to-one. -/
def OneToOne (R : ℕ → ℕ → Prop) : Prop := ∀ a b c d, R a b → R c d → (a = c ↔ b = d)

/-- The same planes under corresponding identifiers. -/
def SamePlane (R : ℕ → ℕ → Prop) (q q' : ℕ × Plane) : Prop := R q.1 q'.1 ∧ q'.2 = q.2

/-- The same object, the planes have other identifiers. -/
def Relabelled (R : ℕ → ℕ → Prop) (s s' : OptDense PlaneReg) : Prop :=
  ∃ ps, List.Forall₂ (SamePlane R) s.obj.planes ps ∧ s' = { s with obj := { s.obj with planes := ps } }

/-- The same call with another identifier. -/
inductive SameCall (R : ℕ → ℕ → Prop) : PlaneReg.Op → PlaneReg.Op → Prop
  | setNumbers (a b : ℕ) : SameCall R (.setNumbers a b) (.setNumbers a b)
  | resetSolution : SameCall R .resetSolution .resetSolution
  | addPlane (id id' : ℕ) (p : Plane) (h : R id id') : SameCall R (.addPlane id p) (.addPlane id' p)
  | addNewPlane (id id' : ℕ) (h : R id id') : SameCall R (.addNewPlane id) (.addNewPlane id')
  | pushPoint (id id' t : ℕ) (x : Vec3) (h : R id id') : SameCall R (.pushPoint id t x) (.pushPoint id' t x)
  | setLastPose (T : SE3) : SameCall R (.setLastPose T) (.setLastPose T)
  | setAlpha (a : ℝ) : SameCall R (.setAlpha a) (.setAlpha a)
  | setBeta (b : ℝ) : SameCall R (.setBeta b) (.setBeta b)
  | solve (mode : SolveMode) (single : Bool) : SameCall R (.solve mode single) (.solve mode single)
  | solveInitialize : SameCall R .solveInitialize .solveInitialize
  | interpolateGradient (single : Bool) : SameCall R (.interpolateGradient single) (.interpolateGradient single)
  | gradientAllPoses (single : Bool) : SameCall R (.gradientAllPoses single) (.gradientAllPoses single)
  | currentError : SameCall R .currentError .currentError
  | evaluate : SameCall R .evaluate .evaluate
  | external (id id' : ℕ) (p : Plane) (h : R id id') : SameCall R (.external id p) (.external id' p)

end Spec

namespace PlaneReg

namespace Label

variable {R : ℕ → ℕ → Prop}

/-- The relation of the lists of planes. -/
def K (R : ℕ → ℕ → Prop) : List (ℕ × Plane) → List (ℕ × Plane) → Prop := List.Forall₂ (SamePlane R)

theorem eachPlane_leads {β : Type} (f : Plane → Out (β × Plane)) {s s' : PlaneReg} (h : Via (K R) s s') :
    Leads (OptDense.RelV (Via (K R))) (s.eachPlane f) (s'.eachPlane f) := by
  obtain ⟨ps, hp, rfl⟩ := h
  refine Leads.bind (traverse_leads (S := fun x y : β × ℕ × Plane => x.1 = y.1 ∧ SamePlane R x.2 y.2)
    (fun q q' hq => by rw [hq.2]; exact Leads.bind (Leads.refl _) fun a b hab => Leads.ok ⟨by rw [hab], hq.1, by rw [hab]⟩) hp)
    fun l m h => ?_
  refine Leads.ok ⟨forall₂_eq ?_, _, ?_, rfl⟩
  · exact List.forall₂_map_left_iff.mpr (List.forall₂_map_right_iff.mpr (h.imp fun _ _ h => h.1))
  · exact List.forall₂_map_left_iff.mpr (List.forall₂_map_right_iff.mpr (h.imp fun _ _ h => h.2))

theorem each (e : EigSolver) : Via.Each e (K R) where
  error {s s'} h := by
    have ht : s'.traj = s.traj := by obtain ⟨ps, hp, rfl⟩ := h; rfl
    unfold PlaneReg.error
    rw [ht]
    exact Leads.bind (eachPlane_leads _ h) fun ⟨l, t⟩ ⟨l', t'⟩ ⟨h1, h2⟩ => Leads.ok ⟨congrArg List.sum h1, h2⟩
  grad t s s' h := Leads.bind (eachPlane_leads _ h) fun ⟨l, t⟩ ⟨l', t'⟩ ⟨h1, h2⟩ => by
    dsimp only at h1
    subst h1
    exact Leads.ok ⟨rfl, h2⟩
  gradHess t s s' h := Leads.bind (eachPlane_leads _ h) fun ⟨l, t⟩ ⟨l', t'⟩ ⟨h1, h2⟩ => by
    dsimp only at h1
    subst h1
    exact Leads.ok ⟨rfl, h2⟩

theorem initialize_leads (svd : Mat3 → SVD3) (s s' : PlaneReg) (h : Via (K R) s s') :
    Leads (OptDense.RelV (Via (K R))) (s.solveInitialize svd) (s'.solveInitialize svd) := by
  refine Leads.bind (eachPlane_leads _ h) fun ⟨l, s⟩ ⟨l', s'⟩ ⟨h1, h⟩ => ?_
  dsimp only at h1 h ⊢
  subst h1
  obtain ⟨ps, hp, rfl⟩ := h
  have rows : ∀ (y : List Vec3) (t : ℕ), rowsAt y t { s with planes := ps } = rowsAt y t s := by
    intro y t
    have key : ∀ (l m : List (ℕ × Plane)) (k : ℕ), K R l m →
        Out.traverse (fun (p, cont) => Plane.getNumberPoints t p.2 >>= fun k =>
          if k > 0 then Plane.meanPoint t p.2 >>= fun x => Out.index y cont >>= fun y => .ok (some (x, y))
          else .ok none) (m.zipIdx k) =
        Out.traverse (fun (p, cont) => Plane.getNumberPoints t p.2 >>= fun k =>
          if k > 0 then Plane.meanPoint t p.2 >>= fun x => Out.index y cont >>= fun y => .ok (some (x, y))
          else .ok none) (l.zipIdx k) := by
      intro l m k h
      unfold K at h
      induction h generalizing k with
      | nil => rfl
      | cons h1 _ ih =>
        rw [List.zipIdx_cons, List.zipIdx_cons, Out.traverse, Out.traverse, ih (k + 1)]
        dsimp only
        rw [h1.2]
    unfold rowsAt
    dsimp only
    rw [key s.planes ps 0 hp]
  have loop : ∀ (y : List Vec3) (ts : List ℕ) (traj : List SE3),
      initLoop svd y { s with planes := ps } ts traj = initLoop svd y s ts traj := by
    intro y ts
    induction ts with
    | nil => exact fun traj => rfl
    | cons t ts ih =>
      intro traj
      rw [initLoop, initLoop, rows]
      simp only [ih]
  have ht : times { s with planes := ps } = s.times := rfl
  rw [loop, ht]
  refine Leads.bind (Leads.refl _) fun ⟨a, T⟩ ⟨a', T'⟩ hab => ?_
  cases hab
  exact Leads.ok ⟨rfl, ps, hp, rfl⟩

theorem find_label (hR : OneToOne R) {id id' : ℕ} (hid : R id id') {l m : List (ℕ × Plane)} (h : K R l m) :
    (l.find? (fun q => q.1 = id) = none ∧ m.find? (fun q => q.1 = id') = none) ∨
      ∃ q q', l.find? (fun q => q.1 = id) = some q ∧ m.find? (fun q => q.1 = id') = some q' ∧ q'.2 = q.2 := by
  unfold K at h
  induction h with
  | nil => exact Or.inl ⟨rfl, rfl⟩
  | @cons a b l m h1 _ ih =>
    have hab := hR _ _ _ _ h1.1 hid
    by_cases ha : a.1 = id
    · rw [List.find?_cons_of_pos (by simpa using ha), List.find?_cons_of_pos (by simpa using hab.mp ha)]
      exact Or.inr ⟨a, b, rfl, rfl, h1.2⟩
    · rw [List.find?_cons_of_neg (by simpa using ha), List.find?_cons_of_neg (by simpa using fun h => ha (hab.mpr h))]
      exact ih

theorem replace_label (hR : OneToOne R) {id id' : ℕ} (hid : R id id') (p : Plane) {s s' : PlaneReg} (h : Via (K R) s s') :
    Via (K R) (s.replacePlane id p) (s'.replacePlane id' p) := by
  obtain ⟨ps, hp, rfl⟩ := h
  refine ⟨_, ?_, rfl⟩
  refine List.forall₂_map_left_iff.mpr (List.forall₂_map_right_iff.mpr (List.Forall₂.imp (fun q q' h => ?_) hp))
  have hab := hR _ _ _ _ h.1 hid
  by_cases hq : q.1 = id
  · rw [if_pos hq, if_pos (hab.mp hq)]
    exact ⟨hid, rfl⟩
  · rw [if_neg hq, if_neg fun h => hq (hab.mpr h)]
    exact h

theorem mem_label (hR : OneToOne R) {id id' : ℕ} (hid : R id id') {l m : List (ℕ × Plane)} (h : K R l m) :
    id ∈ l.map (·.1) ↔ id' ∈ m.map (·.1) := by
  unfold K at h
  induction h with
  | nil => simp
  | cons h1 _ ih =>
    rw [List.map_cons, List.map_cons, List.mem_cons, List.mem_cons, ih, hR _ _ _ _ hid h1.1]

theorem emplace_label (hR : OneToOne R) {id id' : ℕ} (hid : R id id') (p : Plane) {s s' : PlaneReg} (h : Via (K R) s s') :
    Via (K R) (s.emplace id p) (s'.emplace id' p) := by
  obtain ⟨ps, hp, rfl⟩ := h
  have hm := mem_label hR hid hp
  unfold emplace
  by_cases hc : id ∈ s.planes.map (·.1)
  · rw [if_pos (List.contains_iff_mem.mpr hc), if_pos (List.contains_iff_mem.mpr (hm.mp hc))]
    exact ⟨ps, hp, rfl⟩
  · rw [if_neg fun h => hc (List.contains_iff_mem.mp h), if_neg fun h => hc (hm.mpr (List.contains_iff_mem.mp h))]
    exact ⟨ps ++ [(id', p)], List.rel_append hp (.cons ⟨hid, rfl⟩ .nil), rfl⟩

theorem pushPoint_leads (hR : OneToOne R) {id id' : ℕ} (hid : R id id') (t : ℕ) (x : Vec3) {s s' : PlaneReg}
    (h : Via (K R) s s') : Leads (Via (K R)) (s.pushPoint id t x) (s'.pushPoint id' t x) := by
  have hf := h
  obtain ⟨ps, hp, hs⟩ := hf
  have hps : s'.planes = ps := by rw [hs]
  unfold pushPoint
  rw [hps]
  rcases find_label hR hid hp with ⟨h1, h2⟩ | ⟨q, q', h1, h2, h3⟩
  · rw [h1, h2]; exact fun x hx => by cases hx
  · rw [h1, h2]
    dsimp only
    rw [h3]
    exact Leads.bind (Leads.refl _) fun a b hab => by rw [hab]; exact Leads.ok (replace_label hR hid b h)

theorem relabelled_iff {s s' : OptDense PlaneReg} : Relabelled R s s' ↔ OptDense.Rel (Via (K R)) s s' :=
  ⟨fun ⟨ps, hp, hs⟩ => ⟨_, ⟨ps, hp, rfl⟩, hs⟩, fun ⟨o, ⟨ps, hp, ho⟩, hs⟩ => ⟨ps, hp, by rw [hs, ho]⟩⟩

theorem evaluate_leads (e : EigSolver) {s s' : PlaneReg} (h : Via (K R) s s') :
    Leads (OptDense.RelV (Via (K R))) (s.evaluate e) (s'.evaluate e) := by
  refine Leads.bind ((each e).error h) fun ⟨v, t⟩ ⟨v', t'⟩ ⟨h1, h2⟩ => ?_
  dsimp only at h1 h2 ⊢
  subst h1
  have tot : t'.totalPoints = t.totalPoints := by
    obtain ⟨ps, hp, rfl⟩ := h2
    exact congrArg List.sum (forall₂_eq (List.forall₂_map_left_iff.mpr (List.forall₂_map_right_iff.mpr
      (List.Forall₂.imp (fun q q' h => by rw [h.2]) hp)))).symm
  rw [tot]
  obtain ⟨ps, hp, rfl⟩ := h2
  dsimp only
  rw [← List.Forall₂.length_eq hp]
  split_ifs
  · exact fun x hx => by cases hx
  · exact Leads.ok ⟨rfl, ps, hp, rfl⟩

theorem op_leads (hR : OneToOne R) (e : EigSolver) (svd : Mat3 → SVD3) {op op' : Op} (ho : SameCall R op op')
    {s s' : OptDense PlaneReg} (h : OptDense.Rel (Via (K R)) s s') :
    Leads (OptDense.Rel (Via (K R))) (op.run e svd s) (op'.run e svd s') := by
  have h5 : ∀ t t' : PlaneReg, Via (K R) t t' → Via (K R) { t with solveIters := 0 } { t' with solveIters := 0 } := by
    rintro t t' ⟨ps, hp, rfl⟩
    exact ⟨ps, hp, rfl⟩
  cases ho with
  | setNumbers a b => exact Via.lift_leads (K := K R) (fun t t' h => Leads.ok (by
      obtain ⟨ps, hp, rfl⟩ := h
      exact ⟨[], .nil, rfl⟩)) h
  | resetSolution => exact Via.lift_leads (K := K R) (fun t t' h => Leads.ok (by
      obtain ⟨ps, hp, rfl⟩ := h
      exact ⟨ps, hp, rfl⟩)) h
  | addPlane id id' p hid => exact Via.lift_leads (K := K R) (fun t t' h => Leads.ok (emplace_label hR hid p h)) h
  | addNewPlane id id' hid => exact Via.lift_leads (K := K R) (fun t t' h => Leads.ok (by
      have hn : t'.numberPoses = t.numberPoses := by obtain ⟨ps, hp, rfl⟩ := h; rfl
      rw [addNewPlane, addNewPlane, hn]
      exact emplace_label hR hid _ h)) h
  | pushPoint id id' t x hid => exact Via.lift_leads (K := K R) (fun _ _ h => pushPoint_leads hR hid t x h) h
  | setLastPose T => exact Via.lift_leads (K := K R) (fun t t' h => by
      obtain ⟨ps, hp, rfl⟩ := h
      exact Leads.bind (Leads.refl (interpolate t.tau T.lnVee t.times t.traj)) fun x y hxy =>
        Leads.ok ⟨ps, hp, by rw [hxy]⟩) h
  | setAlpha a =>
    exact Via.lift_leads (K := K R) (f := fun o => .ok { o with alpha := a }) (f' := fun o => .ok { o with alpha := a })
      (fun t t' h => Leads.ok (by
        obtain ⟨ps, hp, rfl⟩ := h
        exact ⟨ps, hp, rfl⟩)) h
  | setBeta a =>
    exact Via.lift_leads (K := K R) (f := fun o => .ok { o with beta := a }) (f' := fun o => .ok { o with beta := a })
      (fun t t' h => Leads.ok (by
        obtain ⟨ps, hp, rfl⟩ := h
        exact ⟨ps, hp, rfl⟩)) h
  | solve mode single =>
    intro x hx
    obtain ⟨⟨v, s1⟩, h1, h2⟩ := Out.bind_eq_ok.mp hx
    obtain ⟨s1', h3, h4⟩ := Via.solve_leads (each e) (each e).error svd mode (fun _ => initialize_leads svd) single s s' h v s1 h1
    cases h2
    exact ⟨s1', by rw [Op.run, h3]; rfl, h4⟩
  | solveInitialize => exact Via.lift_leads (K := K R) (fun t t' h => Leads.bind (initialize_leads svd t t' h) fun _ _ h => Leads.ok h.2) h
  | interpolateGradient single =>
    exact Via.lift_leads (K := K R) (fun t t' h => Via.gradLoop_leads (Via.gradStep_leads (each e) (each e).error) _ _ 0 rfl _ (h5 t t' h)) h
  | gradientAllPoses single =>
    exact Via.lift_leads (K := K R) (fun t t' h => Via.gradLoop_leads (Via.allPosesStep_leads (each e) (each e).error) _ _ 0 rfl _ (h5 t t' h)) h
  | currentError => exact Via.lift_leads (K := K R) (fun t t' h => Leads.bind ((each e).error h) fun _ _ h => Leads.ok h.2) h
  | evaluate =>
    exact Via.lift_leads (K := K R) (f := fun o => o.evaluate e >>= fun r => .ok r.2)
      (f' := fun o => o.evaluate e >>= fun r => .ok r.2) (fun t t' h => Leads.bind (evaluate_leads e h) fun _ _ h => Leads.ok h.2) h
  | external id id' p hid => exact Via.lift_leads (K := K R) (fun t t' h => Leads.ok (replace_label hR hid p h)) h

end Label

end PlaneReg

/-- C117, histories: calls with corresponding identifiers on corresponding objects return together and leave corresponding
objects: the same trajectory, the same members and the same planes in the same order. -/
theorem C117_history (R : ℕ → ℕ → Prop) (hR : OneToOne R) (e : EigSolver) (svd : Mat3 → SVD3) (ops ops' : List PlaneReg.Op)
    (ho : List.Forall₂ (SameCall R) ops ops') (s0 s0' : OptDense PlaneReg) (h0 : Relabelled R s0 s0') (s : OptDense PlaneReg)
    (h : PlaneReg.run e svd ops s0 = .ok s) : ∃ s', PlaneReg.run e svd ops' s0' = .ok s' ∧ Relabelled R s s' := by
  have key : Leads (OptDense.Rel (Via (Label.K R))) (PlaneReg.run e svd ops s0) (PlaneReg.run e svd ops' s0') := by
    have h0 := Label.relabelled_iff.mp h0
    clear h
    induction ho generalizing s0 s0' with
    | nil => exact Leads.ok h0
    | cons h1 _ ih => exact Leads.bind (Label.op_leads hR e svd h1 h0) fun a b hab => ih a b (Label.relabelled_iff.mpr hab) hab
  obtain ⟨s', h1, h2⟩ := key s h
  exact ⟨s', h1, Label.relabelled_iff.mpr h2⟩

/-- C117, return values: `solve`, the error and the evaluation report the same numbers. -/
theorem C117_values (R : ℕ → ℕ → Prop) (e : EigSolver) (svd : Mat3 → SVD3) (s s' : OptDense PlaneReg) (h : Relabelled R s s') :
    (∀ mode single v s1, PlaneReg.solve e svd mode single s = .ok (v, s1) →
      ∃ s1', PlaneReg.solve e svd mode single s' = .ok (v, s1') ∧ Relabelled R s1 s1') ∧
    (∀ err o, s.obj.error e = .ok (err, o) → ∃ o', s'.obj.error e = .ok (err, o')) ∧
    (∀ l o, s.obj.evaluate e = .ok (l, o) → ∃ o', s'.obj.evaluate e = .ok (l, o')) ∧
    ∀ t, s'.obj.pointCloud t = s.obj.pointCloud t := by
  have h' := Label.relabelled_iff.mp h
  refine ⟨fun mode single v s1 hs => ?_, fun err o ho => ?_, fun l o ho => ?_, fun t => ?_⟩
  · obtain ⟨s1', h1, h2⟩ := Via.solve_leads (Label.each e) (Label.each e).error svd mode (fun _ => Label.initialize_leads svd) single s s' h' v s1 hs
    exact ⟨s1', h1, Label.relabelled_iff.mpr h2⟩
  · obtain ⟨o1, h1, rfl⟩ := h'
    obtain ⟨⟨v, o'⟩, h2, h3, -⟩ := (Label.each e).error h1 _ ho
    dsimp only at h3
    subst h3
    exact ⟨o', h2⟩
  · obtain ⟨o1, h1, rfl⟩ := h'
    obtain ⟨⟨v, o'⟩, h2, h3, -⟩ := Label.evaluate_leads e h1 _ ho
    dsimp only at h3
    subst h3
    exact ⟨o', h2⟩
  · obtain ⟨ps, hp, rfl⟩ := h
    unfold pointCloud
    dsimp only
    congr 1
    clear h'
    generalize s.obj.planes = l at hp
    induction hp with
    | nil => rfl
    | cons h1 _ ih => rw [Out.traverse, Out.traverse, ih, h1.2]

/-- The hypotheses of `C117_history` and `C117_values`: the planes 0 and 1 are called 7 and 3. -/
example (e : EigSolver) (svd : Mat3 → SVD3) : ∃ (R : ℕ → ℕ → Prop) (ops ops' : List PlaneReg.Op) (s : OptDense PlaneReg), OneToOne R ∧
    List.Forall₂ (SameCall R) ops ops' ∧ Relabelled R (OptDense.new PlaneReg.new) (OptDense.new PlaneReg.new) ∧
    PlaneReg.run e svd ops (OptDense.new PlaneReg.new) = .ok s ∧ s.obj.planes.map (·.1) = [0, 1] ∧
    ∃ s', PlaneReg.run e svd ops' (OptDense.new PlaneReg.new) = .ok s' ∧ s'.obj.planes.map (·.1) = [7, 3] := by
  refine ⟨fun a b => a = 0 ∧ b = 7 ∨ a = 1 ∧ b = 3,
    [.setNumbers 2 2, .addNewPlane 0, .pushPoint 0 0 ![1, 0, 0], .addNewPlane 1, .pushPoint 1 1 ![0, 1, 0], .currentError],
    [.setNumbers 2 2, .addNewPlane 7, .pushPoint 7 0 ![1, 0, 0], .addNewPlane 3, .pushPoint 3 1 ![0, 1, 0], .currentError],
    _, ?_, ?_, ⟨[], .nil, rfl⟩, rfl, rfl, _, rfl, rfl⟩
  · intro a b c d h1 h2
    omega
  · exact .cons (.setNumbers ..) (.cons (.addNewPlane _ _ (by simp)) (.cons (.pushPoint _ _ _ _ (by simp))
      (.cons (.addNewPlane _ _ (by simp)) (.cons (.pushPoint _ _ _ _ (by simp)) (.cons .currentError .nil)))))

end Mrob
