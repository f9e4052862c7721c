import Verif.Lemmas.PlaneOrder
import Verif.Lemmas.PlaneInit

/-! # Plane registrations which differ in the order of the points -/

open Matrix

namespace Mrob

namespace Spec

/-- The same plane; the points of each time are in another order. -/
def Resorted (p p' : Plane) : Prop := ∃ pts, List.Forall₂ List.Perm p.points pts ∧ p' = { p with points := pts }

/-- The same object; the points of each plane at each time are in another order. -/
def ResortedReg (s s' : PlaneReg) : Prop :=
  ∃ ps, List.Forall₂ (fun q q' : ℕ × Plane => q.1 = q'.1 ∧ Resorted q.2 q'.2) s.planes ps ∧ s' = { s with planes := ps }

/-- The same for objects with the members of `OptimizerDense`. -/
def ResortedOpt (s s' : OptDense PlaneReg) : Prop := ∃ o, ResortedReg s.obj o ∧ s' = { s with obj := o }

end Spec

open Spec

theorem forall₂_permRefl (l : List (List Vec3)) : List.Forall₂ List.Perm l l := List.forall₂_same.mpr fun _ _ => .refl _

theorem forall₂_permTrans : ∀ {l m n : List (List Vec3)}, List.Forall₂ List.Perm l m → List.Forall₂ List.Perm m n →
    List.Forall₂ List.Perm l n
  | _, _, _, .nil, .nil => .nil
  | _, _, _, .cons h1 h2, .cons h3 h4 => .cons (h1.trans h3) (forall₂_permTrans h2 h4)

theorem forall₂_getElem? {α β : Type} {R : α → β → Prop} : ∀ {l : List α} {m : List β}, List.Forall₂ R l m → ∀ t : ℕ,
    (l[t]? = none ∧ m[t]? = none) ∨ ∃ a b, l[t]? = some a ∧ m[t]? = some b ∧ R a b
  | _, _, .nil, t => Or.inl ⟨rfl, rfl⟩
  | _, _, .cons h1 h2, 0 => Or.inr ⟨_, _, rfl, rfl, h1⟩
  | _, _, .cons h1 h2, t + 1 => by simpa using forall₂_getElem? h2 t

theorem forall₂_set {α β : Type} {R : α → β → Prop} {a : α} {b : β} (hab : R a b) : ∀ {l : List α} {m : List β},
    List.Forall₂ R l m → ∀ t : ℕ, List.Forall₂ R (l.set t a) (m.set t b)
  | _, _, .nil, _ => .nil
  | _, _, .cons _ h2, 0 => .cons hab h2
  | _, _, .cons h1 h2, t + 1 => .cons h1 (forall₂_set hab h2 t)

theorem forall₂_flatten {α : Type} : ∀ {l m : List (List α)}, List.Forall₂ List.Perm l m → l.flatten.Perm m.flatten
  | _, _, .nil => .refl _
  | _, _, .cons h1 h2 => by
    rw [List.flatten_cons, List.flatten_cons]
    exact h1.append (forall₂_flatten h2)

theorem index_leads {α β : Type} {R : α → β → Prop} {l : List α} {m : List β} (h : List.Forall₂ R l m) (t : ℕ) :
    Leads R (Out.index l t) (Out.index m t) := by
  unfold Out.index
  rcases forall₂_getElem? h t with ⟨h1, h2⟩ | ⟨a, b, h1, h2, h3⟩
  · rw [h1, h2]; exact fun x hx => by cases hx
  · rw [h1, h2]; exact Leads.ok h3

theorem sumOuter_perm {l m : List Vec3} (h : l.Perm m) : sumOuter l = sumOuter m :=
  h.foldl_eq' (fun _ _ _ _ _ => by rw [add_assoc, add_assoc, add_comm (vecMulVec _ _)]) 0

theorem traverse_leads {α β γ δ : Type} {R : α → β → Prop} {S : γ → δ → Prop} {f : α → Out γ} {g : β → Out δ}
    (hfg : ∀ a b, R a b → Leads S (f a) (g b)) : ∀ {l : List α} {m : List β}, List.Forall₂ R l m →
    Leads (List.Forall₂ S) (Out.traverse f l) (Out.traverse g m)
  | _, _, .nil => Leads.ok .nil
  | _, _, .cons h1 h2 => Leads.bind (hfg _ _ h1) fun _ _ h => Leads.bind (traverse_leads hfg h2) fun _ _ h' =>
      Leads.ok (.cons h h')

theorem forall₂_eq {α : Type} {l m : List α} (h : List.Forall₂ (fun x y => x = y) l m) : l = m := List.forall₂_eq_eq_eq ▸ h

namespace Plane

theorem Resorted.refl (p : Plane) : Resorted p p := ⟨_, forall₂_permRefl _, rfl⟩

theorem Resorted.trans {p q r : Plane} (h : Resorted p q) (h' : Resorted q r) : Resorted p r := by
  obtain ⟨a, h1, rfl⟩ := h
  obtain ⟨b, h2, rfl⟩ := h'
  exact ⟨b, forall₂_permTrans h1 h2, rfl⟩

theorem calcS_leads (b : Bool) {p p' : Plane} (h : Resorted p p') : Leads Resorted (p.calcS b) (p'.calcS b) := by
  obtain ⟨pts, hp, rfl⟩ := h
  have key : ∀ S0 : List Mat4, Leads Resorted
      (if S0.isEmpty then Out.traverse (fun t => Out.index p.points t >>= fun l => .ok (sumOuter l)) (List.range p.timeLength) >>=
        fun S => .ok { p with S := S } else .ok { p with S := S0 })
      (if S0.isEmpty then Out.traverse (fun t => Out.index pts t >>= fun l => .ok (sumOuter l)) (List.range p.timeLength) >>=
        fun S => .ok { p with points := pts, S := S } else .ok { p with points := pts, S := S0 }) := by
    intro S0
    split_ifs
    · refine Leads.bind (traverse_leads (R := fun x y => x = y) (S := fun x y => x = y) (fun t t' h => ?_)
        (List.forall₂_same.mpr fun _ _ => rfl)) fun l m h => ?_
      · subst h
        exact Leads.bind (index_leads hp t) fun l m h => Leads.ok (sumOuter_perm h)
      · obtain rfl := forall₂_eq h
        exact Leads.ok ⟨pts, hp, rfl⟩
    · exact Leads.ok ⟨pts, hp, rfl⟩
  cases b
  · exact key p.S
  · exact key []

theorem calcQ_leads (traj : List SE3) {p p' : Plane} (h : Resorted p p') : Leads Resorted (p.calcQ traj) (p'.calcQ traj) := by
  obtain ⟨pts, hp, rfl⟩ := h
  exact Leads.bind (Leads.refl _) fun x y hxy => Leads.ok ⟨pts, hp, by rw [hxy]⟩

theorem estimate_leads (e : EigSolver) (traj : List SE3) {p p' : Plane} (h : Resorted p p') :
    Leads (OptDense.RelV Resorted) (p.estimate e traj) (p'.estimate e traj) :=
  Leads.bind (calcS_leads false h) fun _ _ h => Leads.bind (calcQ_leads traj h) fun x y h => by
    obtain ⟨pts, hp, rfl⟩ := h
    exact Leads.ok ⟨rfl, pts, hp, rfl⟩

theorem gradient_leads (t : ℕ) {p p' : Plane} (h : Resorted p p') :
    Leads (OptDense.RelV Resorted) (p.gradient t) (p'.gradient t) := by
  obtain ⟨pts, hp, rfl⟩ := h
  refine Leads.bind (Leads.refl _) fun Q Q' hQ => ?_
  subst hQ
  dsimp only
  cases p.plane with
  | none => exact fun x hx => by cases hx
  | some pl => exact Leads.ok ⟨rfl, pts, hp, rfl⟩

theorem number_leads (t : ℕ) {p p' : Plane} (h : Resorted p p') :
    Leads (fun x y => x = y) (p.getNumberPoints t) (p'.getNumberPoints t) := by
  obtain ⟨pts, hp, rfl⟩ := h
  exact Leads.bind (index_leads hp t) fun _ _ h => Leads.ok h.length_eq

theorem getPoints_leads (t : ℕ) {p p' : Plane} (h : Resorted p p') : Leads List.Perm (p.getPoints t) (p'.getPoints t) := by
  obtain ⟨pts, hp, rfl⟩ := h
  unfold getPoints
  dsimp only
  split_ifs
  · rw [List.getLast?_eq_getElem?, List.getLast?_eq_getElem?, ← hp.length_eq]
    rcases forall₂_getElem? hp (p.points.length - 1) with ⟨h1, h2⟩ | ⟨a, b, h1, h2, h3⟩
    · rw [h1, h2]; exact fun x hx => by cases hx
    · rw [h1, h2]; exact Leads.ok h3
  · exact index_leads hp t

theorem push_leads (x : Vec3) (t : ℕ) {p p' : Plane} (h : Resorted p p') : Leads Resorted (p.push x t) (p'.push x t) := by
  obtain ⟨pts, hp, rfl⟩ := h
  unfold push
  dsimp only
  split_ifs
  · exact Leads.bind (index_leads hp t) fun l m h => Leads.ok ⟨_, forall₂_set (h.append_right _) hp t, rfl⟩
  · exact Leads.ok ⟨pts, hp, rfl⟩

/-- Two points handed over in the other order. -/
theorem push_swap (x y : Vec3) (t u : ℕ) (p : Plane) :
    Leads Resorted (p.push x t >>= fun p => p.push y u) (p.push y u >>= fun p => p.push x t) := by
  intro r hr
  obtain ⟨p1, h1, h2⟩ := Out.bind_eq_ok.mp hr
  unfold push at h1 h2 ⊢
  by_cases ht : t < p.timeLength
  · rw [if_pos ht] at h1
    obtain ⟨l, hl, h1⟩ := Out.bind_eq_ok.mp h1
    cases h1
    dsimp only at h2
    by_cases hu : u < p.timeLength
    · rw [if_pos hu] at h2 ⊢
      obtain ⟨m, hm, h2⟩ := Out.bind_eq_ok.mp h2
      cases h2
      have hl' : p.points[t]? = some l := by
        rw [Out.index] at hl; split at hl <;> cases hl; assumption
      have hm' : (p.points.set t (l ++ [x]))[u]? = some m := by
        rw [Out.index] at hm; split at hm <;> cases hm; assumption
      have hlt : t < p.points.length := (List.getElem?_eq_some_iff.mp hl').1
      by_cases htu : t = u
      · subst htu
        rw [List.getElem?_set_self hlt] at hm'
        cases hm'
        refine ⟨{ p with points := (p.points.set t (l ++ [y])).set t (l ++ [y] ++ [x]), numberPoints := p.numberPoints + 1 + 1 },
          ?_, _, ?_, rfl⟩
        · rw [hl, Out.ok_bind, Out.ok_bind]
          dsimp only
          rw [if_pos ht, Out.index, List.getElem?_set_self hlt]
          rfl
        · dsimp only
          rw [List.set_set, List.set_set]
          refine forall₂_set ?_ (forall₂_permRefl _) t
          rw [List.append_assoc, List.append_assoc]
          exact (List.Perm.swap _ _ _).append_left l
      · rw [List.getElem?_set_ne htu] at hm'
        refine ⟨{ p with points := (p.points.set u (m ++ [y])).set t (l ++ [x]), numberPoints := p.numberPoints + 1 + 1 },
          ?_, _, ?_, rfl⟩
        · rw [show Out.index p.points u = .ok m by rw [Out.index, hm'], Out.ok_bind, Out.ok_bind]
          dsimp only
          rw [if_pos ht, Out.index, List.getElem?_set_ne (Ne.symm htu), hl']
          rfl
        · dsimp only
          rw [List.set_comm _ _ htu]
          exact forall₂_permRefl _
    · rw [if_neg hu] at h2 ⊢
      cases h2
      refine ⟨_, ?_, Resorted.refl _⟩
      rw [Out.ok_bind, if_pos ht, hl]
      rfl
  · rw [if_neg ht] at h1
    cases h1
    by_cases hu : u < p.timeLength
    · rw [if_pos hu] at h2 ⊢
      obtain ⟨m, hm, h2⟩ := Out.bind_eq_ok.mp h2
      cases h2
      refine ⟨_, ?_, Resorted.refl _⟩
      rw [hm, Out.ok_bind, Out.ok_bind]
      dsimp only
      rw [if_neg ht]
    · rw [if_neg hu] at h2 ⊢
      cases h2
      refine ⟨_, ?_, Resorted.refl _⟩
      rw [Out.ok_bind, if_neg ht]

end Plane

namespace PlaneReg

namespace Resort

theorem eachPlane_leads {β : Type} {f f' : Plane → Out (β × Plane)}
    (hf : ∀ p p', Resorted p p' → Leads (OptDense.RelV Resorted) (f p) (f' p')) {s s' : PlaneReg} (h : ResortedReg s s') :
    Leads (OptDense.RelV ResortedReg) (s.eachPlane f) (s'.eachPlane f') := by
  obtain ⟨ps, hp, rfl⟩ := h
  refine Leads.bind (traverse_leads (S := fun x y : β × ℕ × Plane => x.1 = y.1 ∧ x.2.1 = y.2.1 ∧ Resorted x.2.2 y.2.2)
    (fun q q' hq => Leads.bind (hf _ _ hq.2) fun a b hab => Leads.ok ⟨hab.1, hq.1, hab.2⟩) hp) fun l m h => ?_
  refine Leads.ok ⟨forall₂_eq ?_, _, ?_, rfl⟩
  · exact List.forall₂_map_left_iff.mpr (List.forall₂_map_right_iff.mpr (h.imp fun _ _ h => h.1))
  · exact List.forall₂_map_left_iff.mpr (List.forall₂_map_right_iff.mpr (h.imp fun _ _ h => h.2))

theorem error_leads (e : EigSolver) {s s' : PlaneReg} (h : ResortedReg s s') :
    Leads (OptDense.RelV ResortedReg) (s.error e) (s'.error e) := by
  have ht : s'.traj = s.traj := by obtain ⟨ps, hp, rfl⟩ := h; rfl
  unfold PlaneReg.error
  rw [ht]
  exact Leads.bind (eachPlane_leads (fun _ _ h => Plane.estimate_leads e s.traj h) h) fun ⟨l, t⟩ ⟨l', t'⟩ ⟨h1, h2⟩ => Leads.ok ⟨congrArg List.sum h1, h2⟩

theorem gradAt_leads (t : ℕ) {s s' : PlaneReg} (h : ResortedReg s s') :
    Leads (OptDense.RelV ResortedReg) (gradAt t s) (gradAt t s') :=
  Leads.bind (eachPlane_leads (fun p p' h => Leads.bind (Plane.gradient_leads t h) fun ⟨g, u⟩ ⟨g', u'⟩ ⟨h1, h2⟩ => by
    dsimp only at h1 h2 ⊢
    subst h1
    exact Leads.bind (Plane.number_leads t h2) fun k k' hk => Leads.ok ⟨by rw [hk], h2⟩) h)
    fun ⟨l, t⟩ ⟨l', t'⟩ ⟨h1, h2⟩ => by
      dsimp only at h1
      subst h1
      exact Leads.ok ⟨rfl, h2⟩

theorem gradHessAt_leads (t : ℕ) {s s' : PlaneReg} (h : ResortedReg s s') :
    Leads (OptDense.RelV ResortedReg) (gradHessAt t s) (gradHessAt t s') :=
  Leads.bind (eachPlane_leads (fun p p' h => Leads.bind (Plane.gradient_leads t h) fun ⟨g, u⟩ ⟨g', u'⟩ ⟨h1, h2⟩ => by
    dsimp only at h1 h2 ⊢
    subst h1
    obtain ⟨pts, hp, rfl⟩ := h2
    exact Leads.bind (Leads.refl (u.hessian t)) fun k k' hk => Leads.ok ⟨by rw [hk], pts, hp, rfl⟩) h)
    fun ⟨l, t⟩ ⟨l', t'⟩ ⟨h1, h2⟩ => by
      dsimp only at h1
      subst h1
      exact Leads.ok ⟨rfl, h2⟩

theorem gradHess6_leads (e : EigSolver) {s s' : PlaneReg} (h : ResortedReg s s') :
    Leads (OptDense.RelV ResortedReg) (s.gradHess6 e) (s'.gradHess6 e) := by
  refine Leads.bind (error_leads e h) fun ⟨_, s⟩ ⟨_, s'⟩ ⟨_, h⟩ => ?_
  have ht : s'.times = s.times := by obtain ⟨ps, hp, rfl⟩ := h; rfl
  dsimp only at h ⊢
  rw [ht]
  refine Leads.bind (mapAccum_leads (R := ResortedReg) (fun t s s' h => ?_) _ h) fun ⟨l, t⟩ ⟨l', t'⟩ ⟨h1, h2⟩ => ?_
  · refine Leads.bind (gradHessAt_leads t h) fun ⟨⟨g, H⟩, u⟩ ⟨⟨g', H'⟩, u'⟩ ⟨h1, h2⟩ => ?_
    dsimp only at h1 h2
    obtain ⟨rfl, rfl⟩ := Prod.mk.inj h1
    have htau : u'.tau = u.tau := by obtain ⟨ps, hp, rfl⟩ := h2; rfl
    dsimp only
    rw [htau]
    exact Leads.ok ⟨rfl, h2⟩
  · dsimp only at h1
    subst h1
    exact Leads.ok ⟨rfl, h2⟩

theorem placeLast_leads (T : SE3) {s s' : PlaneReg} (h : ResortedReg s s') : Leads ResortedReg (s.placeLast T) (s'.placeLast T) := by
  obtain ⟨ps, hp, rfl⟩ := h
  exact Leads.bind (Leads.refl _) fun x y hxy => Leads.ok ⟨ps, hp, by rw [hxy]⟩

theorem moveLast_leads (x : Vec6) {s s' : PlaneReg} (h : ResortedReg s s') : Leads ResortedReg (s.moveLast x) (s'.moveLast x) := by
  have hl : s'.lastPose = s.lastPose := by obtain ⟨ps, hp, rfl⟩ := h; rfl
  unfold moveLast
  rw [hl]
  exact Leads.bind (Leads.refl _) fun x y hxy => by rw [hxy]; exact placeLast_leads _ h

theorem respects (e : EigSolver) : OptDense.Respects (problem e) ResortedReg where
  error s s' h := error_leads e h
  gradHess s s' h := Leads.bind (gradHess6_leads e h) fun ⟨⟨g, H⟩, u⟩ ⟨⟨g', H'⟩, u'⟩ ⟨h1, h2⟩ => by
    dsimp only at h1
    obtain ⟨rfl, rfl⟩ := Prod.mk.inj h1
    exact Leads.ok ⟨rfl, h2⟩
  update N dx s s' h := by
    change Leads ResortedReg (if h : N = 6 then s.moveLast (stat6 fun k => dx (Fin.cast h.symm k)) else .ub)
      (if h : N = 6 then s'.moveLast (stat6 fun k => dx (Fin.cast h.symm k)) else .ub)
    split_ifs
    · exact moveLast_leads _ h
    · exact fun x hx => by cases hx
  bookkeep s s' h := by
    obtain ⟨ps, hp, rfl⟩ := h
    exact Leads.bind (Leads.refl s.lastPose) fun x y hxy => Leads.ok ⟨ps, hp, by rw [hxy]⟩
  restore s s' h := by
    have hl : s'.lastPose = s.lastPose := by obtain ⟨ps, hp, rfl⟩ := h; rfl
    have hb : s'.booked = s.booked := by obtain ⟨ps, hp, rfl⟩ := h; rfl
    change Leads ResortedReg (s.restore e) (s'.restore e)
    unfold restore
    rw [hl, hb]
    exact Leads.bind (Leads.refl _) fun _ _ _ => Leads.bind (placeLast_leads _ h) fun _ _ h =>
      Leads.bind (error_leads e h) fun _ _ h => Leads.ok h.2

theorem gradLoop_leads {step : PlaneReg → Out (ℝ × PlaneReg)}
    (hs : ∀ s s', ResortedReg s s' → Leads (OptDense.RelV ResortedReg) (step s) (step s')) (single : Bool) :
    ∀ (k i : ℕ), 10000 - i = k → ∀ (prev : ℝ) {s s' : PlaneReg}, ResortedReg s s' →
      Leads ResortedReg (gradLoop step single i prev s) (gradLoop step single i prev s') := by
  intro k
  induction k using Nat.strong_induction_on with
  | _ k ih =>
    intro i hk prev s s' h
    rw [gradLoop, gradLoop]
    refine Leads.bind (hs _ _ h) fun ⟨v, t⟩ ⟨v', t'⟩ ⟨h1, h2⟩ => ?_
    dsimp only at h1 h2
    subst h1
    have h3 : ResortedReg { t with solveIters := i + 1 } { t' with solveIters := i + 1 } := by
      obtain ⟨ps, hp, rfl⟩ := h2
      exact ⟨ps, hp, rfl⟩
    dsimp only
    split_ifs with hc
    · exact ih (10000 - (i + 1)) (by omega) (i + 1) rfl v h3
    · exact Leads.ok h3

theorem gradStep_leads (e : EigSolver) (s s' : PlaneReg) (h : ResortedReg s s') :
    Leads (OptDense.RelV ResortedReg) (s.gradStep e) (s'.gradStep e) := by
  refine Leads.bind (error_leads e h) fun ⟨v, s⟩ ⟨v', s'⟩ ⟨h0, h⟩ => ?_
  dsimp only at h0 h ⊢
  subst h0
  refine Leads.bind (R := OptDense.RelV ResortedReg) ?_ fun ⟨a, s⟩ ⟨a', s'⟩ ⟨h1, h⟩ => ?_
  · have ht : s'.times = s.times := by obtain ⟨ps, hp, rfl⟩ := h; rfl
    unfold accGradient
    rw [ht]
    refine Leads.bind (mapAccum_leads (R := ResortedReg) (fun t s s' h => ?_) _ h) fun ⟨l, t⟩ ⟨l', t'⟩ ⟨h1, h2⟩ => ?_
    · refine Leads.bind (gradAt_leads t h) fun ⟨⟨g, H⟩, u⟩ ⟨⟨g', H'⟩, u'⟩ ⟨h1, h2⟩ => ?_
      dsimp only at h1 h2
      obtain ⟨rfl, rfl⟩ := Prod.mk.inj h1
      obtain ⟨ps, hp, rfl⟩ := h2
      dsimp only
      split_ifs
      · exact fun x hx => by cases hx
      · exact Leads.ok ⟨rfl, ps, hp, rfl⟩
    · dsimp only at h1
      subst h1
      exact Leads.ok ⟨rfl, h2⟩
  · dsimp only at h1 h ⊢
    subst h1
    refine Leads.bind (R := OptDense.RelV ResortedReg) ?_ fun ⟨x, s⟩ ⟨x', s'⟩ ⟨h2, h⟩ => ?_
    · obtain ⟨ps, hp, rfl⟩ := h
      unfold increment
      dsimp only
      split
      · exact Leads.ok ⟨rfl, ps, hp, rfl⟩
      · split
        · exact fun x hx => by cases hx
        · exact Leads.ok ⟨rfl, ps, hp, rfl⟩
      · exact fun x hx => by cases hx
    · dsimp only at h2 h ⊢
      subst h2
      exact Leads.bind (moveLast_leads _ h) fun _ _ h => Leads.ok ⟨rfl, h⟩

theorem allPosesStep_leads (e : EigSolver) (s s' : PlaneReg) (h : ResortedReg s s') :
    Leads (OptDense.RelV ResortedReg) (s.allPosesStep e) (s'.allPosesStep e) := by
  refine Leads.bind (error_leads e h) fun ⟨v, s⟩ ⟨v', s'⟩ ⟨h0, h⟩ => ?_
  dsimp only at h0 h ⊢
  subst h0
  have ht : s'.times = s.times := by obtain ⟨ps, hp, rfl⟩ := h; rfl
  rw [ht]
  refine Leads.bind (mapAccum_leads (R := ResortedReg) (fun t s s' h => gradAt_leads t h) _ h) fun ⟨l, t⟩ ⟨l', t'⟩ ⟨h1, h2⟩ => ?_
  dsimp only at h1 h2 ⊢
  subst h1
  obtain ⟨ps, hp, rfl⟩ := h2
  cases l.getLast? with
  | none => exact Leads.ok ⟨rfl, ps, hp, rfl⟩
  | some x =>
    obtain ⟨g, k⟩ := x
    dsimp only
    split_ifs
    · exact fun x hx => by cases hx
    · exact Leads.bind (Leads.refl _) fun x y hxy => Leads.ok ⟨rfl, ps, hp, by rw [hxy]⟩

/-- The initialisation. -/
theorem initialize_leads (svd : Mat3 → SVD3) {s s' : PlaneReg} (h : ResortedReg s s') :
    Leads (OptDense.RelV ResortedReg) (s.solveInitialize svd) (s'.solveInitialize svd) := by
  refine Leads.bind (eachPlane_leads (fun p p' h => ?_) h) fun ⟨l, s⟩ ⟨l', s'⟩ ⟨h1, h⟩ => ?_
  · refine Leads.bind (Plane.calcS_leads false h) fun p p' h => Leads.bind (Plane.number_leads 0 h) fun k k' hk => ?_
    subst hk
    obtain ⟨pts, hp, rfl⟩ := h
    split_ifs
    · exact Leads.bind (Leads.refl (p.meanPoint 0)) fun m m' hm => Leads.ok ⟨by rw [hm], pts, hp, rfl⟩
    · exact Leads.ok ⟨rfl, pts, hp, rfl⟩
  · dsimp only at h1 h ⊢
    subst h1
    obtain ⟨ps, hp, rfl⟩ := h
    have rows : ∀ (y : List Vec3) (t : ℕ), Leads (fun a b => a = b) (rowsAt y t s) (rowsAt y t { s with planes := ps }) := by
      intro y t
      refine Leads.bind (traverse_leads (R := fun a b : (ℕ × Plane) × ℕ => a.2 = b.2 ∧ Resorted a.1.2 b.1.2)
        (S := fun a b => a = b) (fun ⟨q, k⟩ ⟨q', k'⟩ ⟨h1, h2⟩ => ?_) ?_) fun a b hab => ?_
      · dsimp only at h1 h2 ⊢
        subst h1
        refine Leads.bind (Plane.number_leads t h2) fun n n' hn => ?_
        subst hn
        obtain ⟨pts, hq, h2⟩ := h2
        rw [h2]
        exact Leads.refl _
      · have key : ∀ (l m : List (ℕ × Plane)) (k : ℕ), List.Forall₂ (fun q q' : ℕ × Plane => q.1 = q'.1 ∧ Resorted q.2 q'.2) l m →
            List.Forall₂ (fun a b : (ℕ × Plane) × ℕ => a.2 = b.2 ∧ Resorted a.1.2 b.1.2) (l.zipIdx k) (m.zipIdx k) := by
          intro l m k h
          induction h generalizing k with
          | nil => exact .nil
          | cons h1 _ ih =>
            rw [List.zipIdx_cons, List.zipIdx_cons]
            exact .cons ⟨rfl, h1.2⟩ (ih (k + 1))
        exact key _ _ 0 hp
      · obtain rfl := forall₂_eq hab
        exact Leads.ok rfl
    have loop : ∀ (y : List Vec3) (ts : List ℕ) (traj : List SE3),
        Leads (fun a b => a = b) (initLoop svd y s ts traj) (initLoop svd y { s with planes := ps } ts traj) := by
      intro y ts
      induction ts with
      | nil => exact fun traj => Leads.refl _
      | cons t ts ih =>
        intro traj
        refine Leads.bind (rows y t) fun a b hab => ?_
        subst hab
        refine Leads.bind (Leads.refl _) fun ⟨a, T⟩ ⟨a', T'⟩ hab => ?_
        cases hab
        dsimp only
        split_ifs
        · exact ih _
        · exact Leads.refl _
        · exact Leads.refl _
    refine Leads.bind (loop _ _ _) fun ⟨a, T⟩ ⟨a', T'⟩ hab => ?_
    cases hab
    exact Leads.ok ⟨rfl, ps, hp, rfl⟩

end Resort

end PlaneReg

end Mrob
