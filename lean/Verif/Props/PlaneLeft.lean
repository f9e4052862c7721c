import Verif.Lemmas.PlaneVia
import Verif.Lemmas.PointOrder
import Verif.Lemmas.PlaneRegCost
import Verif.Props.PlaneReg

/-!
# Property C119: what an earlier estimation left in the planes has no influence
-/

open Matrix

namespace Mrob

open Spec PlaneReg

namespace Spec

/-- The same points; the accumulated matrices are the same or both those of the points (or not computed yet).  Everything
else in the planes (estimated parameters, transformed matrices, derivatives) may differ. -/
structure SameInput (p p' : Plane) : Prop where
  wf : p.points.length = p.timeLength ∧ (p.S = [] ∨ p.S.length = p.timeLength)
  time : p'.timeLength = p.timeLength
  points : p'.points = p.points
  number : p'.numberPoints = p.numberPoints
  S : p'.S = p.S ∨ ((p.S = [] ∨ p.S = p.points.map sumOuter) ∧ (p'.S = [] ∨ p'.S = p.points.map sumOuter))

/-- The same object with planes which have the same input. -/
def OtherLeftovers (s s' : OptDense PlaneReg) : Prop :=
  ∃ ps, List.Forall₂ (fun q q' : ℕ × Plane => q'.1 = q.1 ∧ SameInput q.2 q'.2) s.obj.planes ps ∧
    s' = { s with obj := { s.obj with planes := ps } }

end Spec

namespace PlaneReg

namespace Left

/-- Planes with the same input. -/
def K0 : List (ℕ × Plane) → List (ℕ × Plane) → Prop :=
  List.Forall₂ fun q q' : ℕ × Plane => q'.1 = q.1 ∧ SameInput q.2 q'.2

/-- Planes which differ in the matrices of `calculate_gradient` only. -/
def UpToGrad (p p' : Plane) : Prop := p.Wf ∧ ∃ g, p' = { p with gradQ := g }

/-- Lists of such planes. -/
def K : List (ℕ × Plane) → List (ℕ × Plane) → Prop :=
  List.Forall₂ fun q q' : ℕ × Plane => q'.1 = q.1 ∧ UpToGrad q.2 q'.2

theorem UpToGrad.same {p p' : Plane} (h : UpToGrad p p') : SameInput p p' := by
  obtain ⟨hw, g, rfl⟩ := h
  exact ⟨⟨hw.pts, hw.S⟩, rfl, rfl, rfl, Or.inl rfl⟩

theorem K.weaken {s s' : PlaneReg} (h : Via K s s') : Via K0 s s' := by
  obtain ⟨ps, hp, rfl⟩ := h
  exact ⟨ps, List.Forall₂.imp (fun q q' h => ⟨h.1, h.2.same⟩) hp, rfl⟩

theorem usedS_same {p p' : Plane} (h : SameInput p p') : p'.usedS = p.usedS := by
  rcases h.S with h0 | ⟨h1, h2⟩
  · rw [Plane.usedS, Plane.usedS, h0, h.points]
  · rw [Plane.usedS_inSync h1, Plane.usedS_inSync (s := p') (by rw [Plane.InSync, h.points]; exact h2), h.points]

theorem SameInput.wf' {p p' : Plane} (h : SameInput p p') : p'.Wf := by
  refine ⟨by rw [h.points, h.time]; exact h.wf.1, ?_⟩
  rw [h.time]
  rcases h.S with h0 | ⟨h1, h2⟩
  · rw [h0]; exact h.wf.2
  · rcases h2 with h2 | h2
    · exact Or.inl h2
    · exact Or.inr (by rw [h2, List.length_map]; exact h.wf.1)

theorem estimate_leads (e : EigSolver) (traj : List SE3) {p p' : Plane} (h : SameInput p p') :
    Leads (fun x y : ℝ × Plane => x.1 = y.1 ∧ UpToGrad x.2 y.2) (p.estimate e traj) (p'.estimate e traj) := by
  have hw : p.Wf := ⟨h.wf.1, h.wf.2⟩
  by_cases ht : p.timeLength ≤ traj.length
  · rw [Plane.estimate_ok hw ht, Plane.estimate_ok (SameInput.wf' h) (by rw [h.time]; exact ht), usedS_same h]
    refine Leads.ok ⟨rfl, ⟨hw.pts, Or.inr (Plane.usedS_length hw)⟩, p'.gradQ, ?_⟩
    unfold Plane.estimated
    dsimp only
    rw [h.time, h.points, h.number]
  · rw [Plane.estimate_short hw (by omega)]
    exact fun x hx => by cases hx

theorem eachPlane_leads {β : Type} {f : Plane → Out (β × Plane)} (P : Plane → Plane → Prop)
    (hf : ∀ p p', P p p' → Leads (fun x y : β × Plane => x.1 = y.1 ∧ UpToGrad x.2 y.2) (f p) (f p')) {s s' : PlaneReg}
    (h : Via (List.Forall₂ fun q q' : ℕ × Plane => q'.1 = q.1 ∧ P q.2 q'.2) s s') :
    Leads (OptDense.RelV (Via K)) (s.eachPlane f) (s'.eachPlane f) := by
  obtain ⟨ps, hp, rfl⟩ := h
  refine Leads.bind (traverse_leads (S := fun x y : β × ℕ × Plane => x.1 = y.1 ∧ y.2.1 = x.2.1 ∧ UpToGrad x.2.2 y.2.2)
    (fun q q' hq => Leads.bind (hf _ _ hq.2) fun a b hab => Leads.ok ⟨hab.1, hq.1, hab.2⟩) hp) fun l m h => ?_
  refine Leads.ok ⟨forall₂_eq ?_, _, ?_, rfl⟩
  · exact List.forall₂_map_left_iff.mpr (List.forall₂_map_right_iff.mpr (h.imp fun _ _ h => h.1))
  · exact List.forall₂_map_left_iff.mpr (List.forall₂_map_right_iff.mpr (h.imp fun _ _ h => h.2))

theorem error_leads (e : EigSolver) {s s' : PlaneReg} (h : Via K0 s s') :
    Leads (OptDense.RelV (Via K)) (s.error e) (s'.error e) := by
  have ht : s'.traj = s.traj := by obtain ⟨ps, hp, rfl⟩ := h; rfl
  unfold PlaneReg.error
  rw [ht]
  exact Leads.bind (eachPlane_leads SameInput (fun p p' hp => estimate_leads e s.traj hp) h) fun ⟨l, t⟩ ⟨l', t'⟩ ⟨h1, h2⟩ =>
    Leads.ok ⟨congrArg List.sum h1, h2⟩

theorem gradient_leads (t : ℕ) {p p' : Plane} (h : UpToGrad p p') :
    Leads (fun x y : Vec6 × Plane => x.1 = y.1 ∧ x.2.Wf ∧ x.2 = y.2) (p.gradient t) (p'.gradient t) := by
  obtain ⟨hw, g, rfl⟩ := h
  refine Leads.bind (Leads.refl _) fun Q Q' hQ => ?_
  subst hQ
  dsimp only
  cases p.plane with
  | none => exact fun x hx => by cases hx
  | some pl => exact Leads.ok ⟨rfl, ⟨hw.pts, hw.S⟩, rfl⟩

theorem each (e : EigSolver) : Via.Each e K where
  error h := error_leads e (K.weaken h)
  grad t s s' h := Leads.bind (eachPlane_leads UpToGrad (fun p p' hp => Leads.bind (gradient_leads t hp) fun ⟨g, p1⟩ ⟨g', p1'⟩ ⟨h1, h2, h3⟩ => by
      dsimp only at h1 h2 h3
      subst h1 h3
      exact Leads.bind (Leads.refl _) fun a b hab => by subst hab; exact Leads.ok ⟨rfl, h2, p1.gradQ, rfl⟩) h)
    fun ⟨l, t⟩ ⟨l', t'⟩ ⟨h1, h2⟩ => by
      dsimp only at h1
      subst h1
      exact Leads.ok ⟨rfl, h2⟩
  gradHess t s s' h := Leads.bind (eachPlane_leads UpToGrad (fun p p' hp => Leads.bind (gradient_leads t hp) fun ⟨g, p1⟩ ⟨g', p1'⟩ ⟨h1, h2, h3⟩ => by
      dsimp only at h1 h2 h3
      subst h1 h3
      exact Leads.bind (Leads.refl _) fun a b hab => by subst hab; exact Leads.ok ⟨rfl, h2, p1.gradQ, rfl⟩) h)
    fun ⟨l, t⟩ ⟨l', t'⟩ ⟨h1, h2⟩ => by
      dsimp only at h1
      subst h1
      exact Leads.ok ⟨rfl, h2⟩

theorem firstMean_leads {p p' : Plane} (h : UpToGrad p p') :
    Leads (fun x y : Option Vec3 × Plane => x.1 = y.1 ∧ UpToGrad x.2 y.2) (firstMean p) (firstMean p') := by
  obtain ⟨hw, g, rfl⟩ := h
  have hw' : ({ p with gradQ := g } : Plane).Wf := ⟨hw.pts, hw.S⟩
  have hu : ({ p with S := p.usedS } : Plane).Wf := ⟨hw.pts, Or.inr (Plane.usedS_length hw)⟩
  unfold firstMean
  rw [Plane.calcS_used hw, Plane.calcS_used hw', Out.ok_bind, Out.ok_bind]
  refine Leads.bind (R := Eq) (Leads.refl (Plane.getNumberPoints 0 p)) fun k k' hk => ?_
  subst hk
  split_ifs
  · refine Leads.bind (R := Eq) (Leads.refl (Plane.meanPoint 0 { p with S := p.usedS })) fun m m' hm => ?_
    subst hm
    exact Leads.ok ⟨rfl, hu, g, rfl⟩
  · exact Leads.ok ⟨rfl, hu, g, rfl⟩

theorem initialize_leads (svd : Mat3 → SVD3) (s s' : PlaneReg) (h : Via K s s') :
    Leads (OptDense.RelV (Via K)) (s.solveInitialize svd) (s'.solveInitialize svd) := by
  refine Leads.bind (eachPlane_leads UpToGrad (fun p p' hp => firstMean_leads hp) h) fun ⟨l, s⟩ ⟨l', s'⟩ ⟨h1, h⟩ => ?_
  dsimp only at h1 h ⊢
  subst h1
  obtain ⟨ps, hp, rfl⟩ := h
  have rows : ∀ (y : List Vec3) (t : ℕ), rowsAt y t { s with planes := ps } = rowsAt y t s := by
    intro y t
    have key : ∀ (l m : List (ℕ × Plane)) (k : ℕ), K l m →
        Out.traverse (fun (p, cont) => Plane.getNumberPoints t p.2 >>= fun k =>
          if k > 0 then Plane.meanPoint t p.2 >>= fun x => Out.index y cont >>= fun y => .ok (some (x, y))
          else .ok none) (m.zipIdx k) =
        Out.traverse (fun (p, cont) => Plane.getNumberPoints t p.2 >>= fun k =>
          if k > 0 then Plane.meanPoint t p.2 >>= fun x => Out.index y cont >>= fun y => .ok (some (x, y))
          else .ok none) (l.zipIdx k) := by
      intro l m k h
      unfold K at h
      induction h generalizing k with
      | nil => rfl
      | cons h1 _ ih =>
        obtain ⟨-, -, g, h1⟩ := h1
        rw [List.zipIdx_cons, List.zipIdx_cons, Out.traverse, Out.traverse, ih (k + 1)]
        dsimp only
        rw [h1]
        rfl
    unfold rowsAt
    dsimp only
    rw [key s.planes ps 0 hp]
  have loop : ∀ (y : List Vec3) (ts : List ℕ) (traj : List SE3),
      initLoop svd y { s with planes := ps } ts traj = initLoop svd y s ts traj := by
    intro y ts
    induction ts with
    | nil => exact fun traj => rfl
    | cons t ts ih =>
      intro traj
      rw [initLoop, initLoop, rows]
      simp only [ih]
  have ht : times { s with planes := ps } = s.times := rfl
  rw [loop, ht]
  refine Leads.bind (Leads.refl _) fun ⟨a, T⟩ ⟨a', T'⟩ hab => ?_
  cases hab
  exact Leads.ok ⟨rfl, ps, hp, rfl⟩

theorem leftovers_iff {s s' : OptDense PlaneReg} : OtherLeftovers s s' ↔ OptDense.Rel (Via K0) s s' :=
  ⟨fun ⟨ps, hp, hs⟩ => ⟨_, ⟨ps, hp, rfl⟩, hs⟩, fun ⟨_, ⟨ps, hp, ho⟩, hs⟩ => ⟨ps, hp, by rw [hs, ho]⟩⟩

end Left

end PlaneReg

/-- C119, `solve`: whatever an earlier estimation left in the planes, `solve` returns the same value and leaves the same
trajectory and members, in every mode; the planes have the same input again. -/
theorem C119_solve (e : EigSolver) (svd : Mat3 → SVD3) (mode : SolveMode) (single : Bool) (s s' : OptDense PlaneReg)
    (h : OtherLeftovers s s') (v : ℕ) (s1 : OptDense PlaneReg) (hs : PlaneReg.solve e svd mode single s = .ok (v, s1)) :
    ∃ s1', PlaneReg.solve e svd mode single s' = .ok (v, s1') ∧ OtherLeftovers s1 s1' ∧ s1'.obj.traj = s1.obj.traj := by
  obtain ⟨s1', h1, o, ho, rfl⟩ := Via.solve_leads (Left.each e) (Left.error_leads e) svd mode
    (fun _ => Left.initialize_leads svd) single s s' (Left.leftovers_iff.mp h) v s1 hs
  refine ⟨_, h1, Left.leftovers_iff.mpr ⟨o, Left.K.weaken ho, rfl⟩, ?_⟩
  obtain ⟨ps, -, rfl⟩ := ho
  rfl

/-- C119, after `solve`: the planes of the two objects agree in everything but the matrices of `calculate_gradient`; in
particular the estimated planes are the same. -/
theorem C119_planes (e : EigSolver) (svd : Mat3 → SVD3) (mode : SolveMode) (single : Bool) (s s' : OptDense PlaneReg)
    (h : OtherLeftovers s s') (v : ℕ) (s1 : OptDense PlaneReg) (hs : PlaneReg.solve e svd mode single s = .ok (v, s1)) :
    ∃ s1', PlaneReg.solve e svd mode single s' = .ok (v, s1') ∧
      s1'.obj.planes.map (fun q => (q.1, { q.2 with gradQ := none })) = s1.obj.planes.map fun q => (q.1, { q.2 with gradQ := none }) := by
  obtain ⟨s1', h1, o, ho, rfl⟩ := Via.solve_leads (Left.each e) (Left.error_leads e) svd mode
    (fun _ => Left.initialize_leads svd) single s s' (Left.leftovers_iff.mp h) v s1 hs
  refine ⟨_, h1, ?_⟩
  obtain ⟨ps, hp, rfl⟩ := ho
  refine (forall₂_eq (List.forall₂_map_left_iff.mpr (List.forall₂_map_right_iff.mpr (List.Forall₂.imp ?_ hp)))).symm
  rintro q q' ⟨h1, -, g, h2⟩
  rw [h1, h2]

/-- C119, the error: it does not depend on what is left in the planes. -/
theorem C119_error (e : EigSolver) (s s' : OptDense PlaneReg) (h : OtherLeftovers s s') (err : ℝ) (o : PlaneReg)
    (hs : s.obj.error e = .ok (err, o)) : ∃ o', s'.obj.error e = .ok (err, o') := by
  obtain ⟨o1, h1, rfl⟩ := Left.leftovers_iff.mp h
  obtain ⟨⟨v, o'⟩, h2, h3, -⟩ := Left.error_leads e h1 _ hs
  dsimp only at h3
  subst h3
  exact ⟨o', h2⟩

/-- C119, planes from elsewhere: a plane which was estimated for any other trajectory, and whose gradient was taken there, has
the input of the plane before these calls. -/
theorem C119_elsewhere (e : EigSolver) (traj : List SE3) (p p1 p2 : Plane) (h1 : p.points.length = p.timeLength)
    (h2 : p.S = [] ∨ p.S = p.points.map sumOuter) (v : ℝ) (he : p.estimate e traj = .ok (v, p1)) (t : ℕ) (g : Vec6)
    (hg : p1.gradient t = .ok (g, p2)) : SameInput p p1 ∧ SameInput p p2 := by
  have hw : p.Wf := ⟨h1, h2.imp id fun h => by rw [h, List.length_map]; exact h1⟩
  have key : SameInput p p1 := by
    by_cases ht : p.timeLength ≤ traj.length
    · rw [Plane.estimate_ok hw ht] at he
      cases he
      exact ⟨⟨hw.pts, hw.S⟩, rfl, rfl, rfl, Or.inr ⟨h2, Or.inr (Plane.usedS_inSync h2)⟩⟩
    · rw [Plane.estimate_short hw (by omega)] at he
      cases he
  refine ⟨key, ?_⟩
  obtain ⟨Q, -, hg⟩ := Out.bind_eq_ok.mp hg
  cases hpl : p1.plane with
  | none => rw [hpl] at hg; cases hg
  | some pl =>
    rw [hpl] at hg
    cases hg
    exact ⟨key.wf, key.time, key.points, key.number, key.S⟩

/-- The hypotheses of `C119_solve`, `C119_planes`, `C119_error` and `C119_elsewhere`: the plane was estimated for a trajectory of
three poses elsewhere, and its gradient was taken, before it is added. -/
example (e : EigSolver) (svd : Mat3 → SVD3) (T : SE3) : ∃ (p p1 p2 : Plane) (v : ℝ) (g : Vec6) (s s' : OptDense PlaneReg)
    (r : ℕ × OptDense PlaneReg), p.points.length = p.timeLength ∧ p.S = [] ∧ p.estimate e [T, T, T] = .ok (v, p1) ∧
    p1.gradient 1 = .ok (g, p2) ∧ p2.plane ≠ p.plane ∧
    PlaneReg.run e svd [.setNumbers 1 2, .addPlane 0 p] (OptDense.new PlaneReg.new) = .ok s ∧
    PlaneReg.run e svd [.setNumbers 1 2, .addPlane 0 p2] (OptDense.new PlaneReg.new) = .ok s' ∧ OtherLeftovers s s' ∧
    PlaneReg.solve e svd .gradient false s = .ok r := by
  have key : ∀ p2, SameInput { Plane.new 2 with points := [[![1, 0, 0]], [![0, 1, 0]]], numberPoints := 2 } p2 → ∃ s s' r,
      PlaneReg.run e svd [.setNumbers 1 2, .addPlane 0 { Plane.new 2 with points := [[![1, 0, 0]], [![0, 1, 0]]], numberPoints := 2 }]
        (OptDense.new PlaneReg.new) = .ok s ∧
      PlaneReg.run e svd [.setNumbers 1 2, .addPlane 0 p2] (OptDense.new PlaneReg.new) = .ok s' ∧ OtherLeftovers s s' ∧
      PlaneReg.solve e svd .gradient false s = .ok r :=
    fun p2 h => ⟨_, _, _, rfl, rfl, ⟨[(0, p2)], .cons ⟨rfl, h⟩ .nil, rfl⟩, rfl⟩
  obtain ⟨p1, p2, v, g, h1, h2, h3⟩ : ∃ p1 p2 v g,
      Plane.estimate e [T, T, T] { Plane.new 2 with points := [[![1, 0, 0]], [![0, 1, 0]]], numberPoints := 2 } = .ok (v, p1) ∧
      p1.gradient 1 = .ok (g, p2) ∧ p2.plane ≠ none :=
    ⟨_, _, _, _, rfl, rfl, fun h => by cases h⟩
  obtain ⟨s, s', r, h4, h5, h6, h7⟩ := key p2 (C119_elsewhere e [T, T, T] _ _ _ rfl (Or.inl rfl) _ h1 1 _ h2).2
  exact ⟨_, p1, p2, v, g, s, s', r, rfl, rfl, h1, h2, h3, h4, h5, h6, h7⟩

end Mrob
