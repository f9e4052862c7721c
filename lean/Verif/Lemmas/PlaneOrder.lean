import Verif.Model.PlaneReg
import Verif.Lemmas.PlaneReg
import Mathlib.Algebra.BigOperators.Group.List.Basic

/-! # Plane registrations which differ in the order of their planes -/

open Matrix

namespace Mrob

namespace Spec

/-- The same object, with the planes in another order; no identifier is used twice. -/
def Shuffled (s s' : PlaneReg) : Prop :=
  ∃ ps, (s.planes.Perm ps ∧ (s.planes.map (·.1)).Nodup) ∧ s' = { s with planes := ps }

/-- The same for objects with the members of `OptimizerDense`. -/
def ShuffledOpt (s s' : OptDense PlaneReg) : Prop := ∃ o, Shuffled s.obj o ∧ s' = { s with obj := o }

end Spec

open Spec

/-- Whenever the first call returns, the second one returns too, with a related value. -/
def Leads {α β : Type} (R : α → β → Prop) (a : Out α) (b : Out β) : Prop := ∀ x, a = .ok x → ∃ y, b = .ok y ∧ R x y

theorem Leads.ok {α β : Type} {R : α → β → Prop} {x : α} {y : β} (h : R x y) : Leads R (.ok x) (.ok y) :=
  fun _ h' => ⟨y, rfl, by cases h'; exact h⟩

theorem Leads.bind {α β γ δ : Type} {R : α → β → Prop} {S : γ → δ → Prop} {a : Out α} {b : Out β} (h : Leads R a b)
    {f : α → Out γ} {g : β → Out δ} (hfg : ∀ x y, R x y → Leads S (f x) (g y)) : Leads S (a >>= f) (b >>= g) := by
  intro z hz
  obtain ⟨x, h1, h2⟩ := Out.bind_eq_ok.mp hz
  obtain ⟨y, h3, h4⟩ := h x h1
  obtain ⟨w, h5, h6⟩ := hfg x y h4 z h2
  exact ⟨w, by rw [h3, Out.ok_bind, h5], h6⟩

theorem Leads.refl {α : Type} (a : Out α) : Leads (fun x y => x = y) a a := fun x h => ⟨x, h, rfl⟩

theorem traverse_shuffled {α β : Type} (f : α → Out β) {l l' : List α} (hp : l.Perm l') :
    Leads List.Perm (Out.traverse f l) (Out.traverse f l') := by
  induction hp with
  | nil => exact Leads.ok .nil
  | cons a _ ih =>
    rw [Out.traverse, Out.traverse]
    refine Leads.bind (Leads.refl _) fun x y hxy => Leads.bind ih fun r r' hr => ?_
    subst hxy
    exact Leads.ok (hr.cons _)
  | swap a b l =>
    intro r hr
    rw [Out.traverse] at hr
    obtain ⟨x, h1, hr⟩ := Out.bind_eq_ok.mp hr
    obtain ⟨r1, h2, hr⟩ := Out.bind_eq_ok.mp hr
    rw [Out.traverse] at h2
    obtain ⟨y, h3, h2⟩ := Out.bind_eq_ok.mp h2
    obtain ⟨r2, h4, h2⟩ := Out.bind_eq_ok.mp h2
    cases h2
    cases hr
    refine ⟨y :: x :: r2, ?_, .swap ..⟩
    rw [Out.traverse, h3, Out.ok_bind, Out.traverse, h1, Out.ok_bind, h4]
    rfl
  | trans _ _ h1 h2 =>
    intro r hr
    obtain ⟨r1, h3, h4⟩ := h1 r hr
    obtain ⟨r2, h5, h6⟩ := h2 r1 h3
    exact ⟨r2, h5, h4.trans h6⟩

theorem mapAccum_leads {α β σ : Type} {R : σ → σ → Prop} {f : α → σ → Out (β × σ)}
    (hf : ∀ a s s', R s s' → Leads (fun x y => x.1 = y.1 ∧ R x.2 y.2) (f a s) (f a s')) (l : List α) {s s' : σ} (h : R s s') :
    Leads (fun x y => x.1 = y.1 ∧ R x.2 y.2) (Out.mapAccum f l s) (Out.mapAccum f l s') := by
  induction l generalizing s s' with
  | nil => exact Leads.ok ⟨rfl, h⟩
  | cons a l ih =>
    rw [Out.mapAccum, Out.mapAccum]
    refine Leads.bind (hf a s s' h) fun ⟨b, t⟩ ⟨b', t'⟩ ⟨h1, h2⟩ => ?_
    refine Leads.bind (ih h2) fun ⟨bs, u⟩ ⟨bs', u'⟩ ⟨h3, h4⟩ => ?_
    dsimp only at h1 h3
    subst h1 h3
    exact Leads.ok ⟨rfl, h4⟩

namespace OptDense

variable {σ : Type}

/-- The relation of the objects, the members of the optimizer being equal. -/
def Rel (R : σ → σ → Prop) (s s' : OptDense σ) : Prop := ∃ o, R s.obj o ∧ s' = { s with obj := o }

/-- Values are equal, objects are related. -/
def RelV {α : Type} (R : σ → σ → Prop) (x y : α × σ) : Prop := x.1 = y.1 ∧ R x.2 y.2

/-- The virtual functions respect a relation. -/
structure Respects (P : DenseProblem σ) (R : σ → σ → Prop) : Prop where
  error : ∀ s s', R s s' → Leads (RelV R) (P.error s) (P.error s')
  gradHess : ∀ s s', R s s' → Leads (RelV R) (P.gradHess s) (P.gradHess s')
  update : ∀ N dx s s', R s s' → Leads R (P.update N dx s) (P.update N dx s')
  bookkeep : ∀ s s', R s s' → Leads R (P.bookkeep s) (P.bookkeep s')
  restore : ∀ s s', R s s' → Leads R (P.restore s) (P.restore s')

variable {P : DenseProblem σ} {R : σ → σ → Prop}

theorem error_leads (hP : Respects P R) {s s' : OptDense σ} (h : Rel R s s') :
    Leads (fun x y => x.1 = y.1 ∧ Rel R x.2 y.2) (s.error P) (s'.error P) := by
  obtain ⟨o, ho, rfl⟩ := h
  unfold OptDense.error
  refine Leads.bind (hP.error _ _ ho) fun ⟨v, u⟩ ⟨v', u'⟩ ⟨h1, h2⟩ => ?_
  dsimp only at h1
  subst h1
  exact Leads.ok ⟨rfl, u', h2, rfl⟩

theorem oneIteration_leads (hP : Respects P R) (b : Bool) {s s' : OptDense σ} (h : Rel R s s') :
    Leads (Rel R) (s.oneIteration P b) (s'.oneIteration P b) := by
  obtain ⟨o, ho, rfl⟩ := h
  unfold OptDense.oneIteration
  refine Leads.bind (hP.gradHess _ _ ho) fun ⟨v, u⟩ ⟨v', u'⟩ ⟨h1, h2⟩ => ?_
  dsimp only at h1
  subst h1
  dsimp only
  generalize (if b = true then damp s.method s.lambda v.H else v.H) = H
  by_cases hu : IsUnit H.det
  · rw [if_pos hu, if_pos hu]
    exact Leads.bind (hP.update _ _ _ _ h2) fun x y hxy => Leads.ok ⟨y, hxy, rfl⟩
  · rw [if_neg hu, if_neg hu]
    exact fun x hx => by cases hx

theorem nrStep_leads (hP : Respects P R) {s s' : OptDense σ} (h : Rel R s s') :
    Leads (fun x y => x.1 = y.1 ∧ Rel R x.2 y.2) (s.nrStep P) (s'.nrStep P) :=
  Leads.bind (oneIteration_leads hP false h) fun _ _ hxy => error_leads hP hxy

theorem lmStep_leads (hP : Respects P R) {s s' : OptDense σ} (h : Rel R s s') :
    Leads (fun x y => x.1 = y.1 ∧ Rel R x.2 y.2) (s.lmStep P) (s'.lmStep P) := by
  obtain ⟨o, ho, rfl⟩ := h
  exact Leads.bind (hP.bookkeep _ _ ho) fun x y hxy =>
    Leads.bind (oneIteration_leads hP true ⟨y, hxy, rfl⟩) fun _ _ hxy => error_leads hP hxy

theorem nrLoop_leads (hP : Respects P R) (M : ℕ) : ∀ (k i : ℕ), M - i = k → ∀ (prev : ℝ) {s s' : OptDense σ}, Rel R s s' →
    Leads (fun x y => x.1 = y.1 ∧ Rel R x.2 y.2) (nrLoop P M i prev s) (nrLoop P M i prev s') := by
  intro k
  induction k using Nat.strong_induction_on with
  | _ k ih =>
    intro i hk prev s s' h
    rw [nrLoop, nrLoop]
    refine Leads.bind (nrStep_leads hP h) fun ⟨v, t⟩ ⟨v', t'⟩ ⟨h1, h2⟩ => ?_
    dsimp only at h1 h2
    subst h1
    have ht : t'.tol = t.tol := by obtain ⟨o, -, rfl⟩ := h2; rfl
    dsimp only
    rw [ht]
    split_ifs with hc
    · exact ih (M - (i + 1)) (by omega) (i + 1) rfl v h2
    · exact Leads.ok ⟨rfl, h2⟩

theorem finish_leads (hP : Respects P R) (b : Bool) (i : ℕ) {s s' : OptDense σ} (h : Rel R s s') :
    Leads (fun x y => x.1 = y.1 ∧ Rel R x.2 y.2) (s.finish P b i) (s'.finish P b i) := by
  obtain ⟨o, ho, rfl⟩ := h
  unfold finish
  have h1 : Leads R (if b then Out.ok s.obj else P.restore s.obj) (if b then Out.ok o else P.restore o) := by
    split_ifs
    · exact Leads.ok ho
    · exact hP.restore _ _ ho
  refine Leads.bind h1 fun x y hxy => ?_
  refine Leads.bind (error_leads hP (s := { s with obj := x }) (s' := { s with obj := y }) ⟨y, hxy, rfl⟩) fun ⟨v, t⟩ ⟨v', t'⟩ ⟨h1, h2⟩ => ?_
  exact Leads.ok ⟨rfl, h2⟩

theorem lmLoop_leads (hP : Respects P R) (M : ℕ) : ∀ (k i : ℕ), M - i = k → ∀ (prev : ℝ) {s s' : OptDense σ}, Rel R s s' →
    Leads (fun x y => x.1 = y.1 ∧ Rel R x.2 y.2) (lmLoop P M i prev s) (lmLoop P M i prev s') := by
  intro k
  induction k using Nat.strong_induction_on with
  | _ k ih =>
    intro i hk prev s s' h
    rw [lmLoop, lmLoop]
    refine Leads.bind (lmStep_leads hP h) fun ⟨v, t⟩ ⟨v', t'⟩ ⟨h1, h2⟩ => ?_
    dsimp only at h1 h2
    subst h1
    obtain ⟨o, ho, rfl⟩ := h2
    have ha : Rel R (t.adapt (prev - v)) (OptDense.adapt (prev - v) { t with obj := o }) := ⟨o, ho, rfl⟩
    have hr : ∀ (t : OptDense σ) (o : σ), R t.obj o → Leads (Rel R) (t.reject P) (OptDense.reject P { t with obj := o }) :=
      fun t o ho => Leads.bind (hP.restore _ _ ho) fun x y hxy =>
        Leads.ok (R := Rel R) (x := { t with lambda := t.lambda * 2, obj := x }) ⟨y, hxy, rfl⟩
    dsimp only
    split_ifs with h0 h1 h1 h2
    · refine Leads.bind (R := Rel R) (hr t o ho) fun x y hxy => ?_
      exact ih (M - (i + 1)) (by omega) (i + 1) rfl prev hxy
    · refine Leads.bind (R := Rel R) (hr t o ho) fun x y hxy => ?_
      exact finish_leads hP _ _ hxy
    · exact Leads.ok ⟨rfl, o, ho, rfl⟩
    · exact ih (M - (i + 1)) (by omega) (i + 1) rfl v ha
    · exact finish_leads hP _ _ ha

theorem solve_leads (hP : Respects P R) (m : OptMethod) (M : ℕ) (lam : ℝ) {s s' : OptDense σ} (h : Rel R s s') :
    Leads (fun x y => x.1 = y.1 ∧ Rel R x.2 y.2) (s.solve P m M lam) (s'.solve P m M lam) := by
  obtain ⟨o, ho, rfl⟩ := h
  have lm : ∀ {t t' : OptDense σ}, Rel R t t' → Leads (fun x y => x.1 = y.1 ∧ Rel R x.2 y.2) (t.levenbergMarquardt P)
      (t'.levenbergMarquardt P) := by
    intro t t' h
    refine Leads.bind (error_leads hP h) fun ⟨v, t⟩ ⟨v', t'⟩ ⟨h1, h2⟩ => ?_
    dsimp only at h1 h2
    subst h1
    have hm : t'.maxIters = t.maxIters := by obtain ⟨o, -, rfl⟩ := h2; rfl
    dsimp only
    rw [hm]
    exact lmLoop_leads hP _ _ 0 rfl v h2
  cases m
  · refine Leads.bind (error_leads hP (s := { s with method := .newtonRaphson, maxIters := M })
      (s' := { s with obj := o, method := .newtonRaphson, maxIters := M }) ⟨o, ho, rfl⟩)
      fun ⟨v, t⟩ ⟨v', t'⟩ ⟨h1, h2⟩ => ?_
    dsimp only at h1 h2
    subst h1
    have hm : t'.maxIters = t.maxIters := by obtain ⟨o, -, rfl⟩ := h2; rfl
    dsimp only
    rw [hm]
    exact nrLoop_leads hP _ _ 0 rfl v h2
  · exact lm ⟨o, ho, rfl⟩
  · exact lm ⟨o, ho, rfl⟩

end OptDense

namespace PlaneReg

theorem traverse_ids {β : Type} {f : Plane → Out (β × Plane)} : ∀ {l : List (ℕ × Plane)} {r : List (β × ℕ × Plane)},
    Out.traverse (fun p : ℕ × Plane => f p.2 >>= fun r => .ok (r.1, (p.1, r.2))) l = .ok r → r.map (fun x => x.2.1) = l.map (·.1)
  | [], r, h => by cases h; rfl
  | q :: l, r, h => by
    rw [Out.traverse] at h
    obtain ⟨x, h1, h⟩ := Out.bind_eq_ok.mp h
    obtain ⟨y, -, h1⟩ := Out.bind_eq_ok.mp h1
    obtain ⟨r1, h2, h⟩ := Out.bind_eq_ok.mp h
    cases h1
    cases h
    rw [List.map_cons, List.map_cons, traverse_ids h2]

theorem eachPlane_leads {β : Type} (f : Plane → Out (β × Plane)) {s s' : PlaneReg} (h : Shuffled s s') :
    Leads (fun x y => x.1.Perm y.1 ∧ Shuffled x.2 y.2) (s.eachPlane f) (s'.eachPlane f) := by
  obtain ⟨ps, hp, rfl⟩ := h
  intro x hx
  obtain ⟨l, h1, h2⟩ := Out.bind_eq_ok.mp hx
  obtain ⟨l', h3, hl⟩ := traverse_shuffled _ hp.1 l h1
  cases h2
  refine ⟨_, by rw [eachPlane, h3, Out.ok_bind], hl.map _, l'.map (·.2), ⟨hl.map _, ?_⟩, rfl⟩
  change ((l.map (·.2)).map (·.1)).Nodup
  rw [List.map_map]
  have := traverse_ids h1
  exact (show l.map ((fun q : ℕ × Plane => q.1) ∘ fun x => x.2) = _ from this) ▸ hp.2

theorem error_leads (e : EigSolver) {s s' : PlaneReg} (h : Shuffled s s') :
    Leads (OptDense.RelV Shuffled) (s.error e) (s'.error e) := by
  have ht : s'.traj = s.traj := by obtain ⟨ps, hp, rfl⟩ := h; rfl
  unfold PlaneReg.error
  rw [ht]
  exact Leads.bind (eachPlane_leads _ h) fun ⟨l, t⟩ ⟨l', t'⟩ ⟨h1, h2⟩ => Leads.ok ⟨h1.sum_eq, h2⟩

theorem gradAt_leads (t : ℕ) {s s' : PlaneReg} (h : Shuffled s s') :
    Leads (OptDense.RelV Shuffled) (gradAt t s) (gradAt t s') :=
  Leads.bind (eachPlane_leads _ h) fun ⟨l, t⟩ ⟨l', t'⟩ ⟨h1, h2⟩ =>
    Leads.ok ⟨Prod.ext (h1.map _).sum_eq (h1.map _).sum_eq, h2⟩

theorem gradHessAt_leads (t : ℕ) {s s' : PlaneReg} (h : Shuffled s s') :
    Leads (OptDense.RelV Shuffled) (gradHessAt t s) (gradHessAt t s') :=
  Leads.bind (eachPlane_leads _ h) fun ⟨l, t⟩ ⟨l', t'⟩ ⟨h1, h2⟩ =>
    Leads.ok ⟨Prod.ext (h1.map _).sum_eq (h1.map _).sum_eq, h2⟩

theorem gradHess6_leads (e : EigSolver) {s s' : PlaneReg} (h : Shuffled s s') :
    Leads (OptDense.RelV Shuffled) (s.gradHess6 e) (s'.gradHess6 e) := by
  refine Leads.bind (error_leads e h) fun ⟨_, s⟩ ⟨_, s'⟩ ⟨_, h⟩ => ?_
  have ht : s'.times = s.times := by obtain ⟨ps, hp, rfl⟩ := h; rfl
  dsimp only at h ⊢
  rw [ht]
  refine Leads.bind (mapAccum_leads (R := Shuffled) (fun t s s' h => ?_) _ h) fun ⟨l, t⟩ ⟨l', t'⟩ ⟨h1, h2⟩ => ?_
  · refine Leads.bind (gradHessAt_leads t h) fun ⟨⟨g, H⟩, u⟩ ⟨⟨g', H'⟩, u'⟩ ⟨h1, h2⟩ => ?_
    dsimp only at h1 h2
    obtain ⟨rfl, rfl⟩ := Prod.mk.inj h1
    have htau : u'.tau = u.tau := by obtain ⟨ps, hp, rfl⟩ := h2; rfl
    dsimp only
    rw [htau]
    exact Leads.ok ⟨rfl, h2⟩
  · dsimp only at h1
    subst h1
    exact Leads.ok ⟨rfl, h2⟩

theorem placeLast_leads (T : SE3) {s s' : PlaneReg} (h : Shuffled s s') : Leads Shuffled (s.placeLast T) (s'.placeLast T) := by
  obtain ⟨ps, hp, rfl⟩ := h
  exact Leads.bind (Leads.refl _) fun x y hxy => Leads.ok ⟨ps, hp, by rw [hxy]⟩

theorem moveLast_leads (x : Vec6) {s s' : PlaneReg} (h : Shuffled s s') : Leads Shuffled (s.moveLast x) (s'.moveLast x) := by
  have hl : s'.lastPose = s.lastPose := by obtain ⟨ps, hp, rfl⟩ := h; rfl
  unfold moveLast
  rw [hl]
  exact Leads.bind (Leads.refl _) fun x y hxy => by rw [hxy]; exact placeLast_leads _ h

theorem respects (e : EigSolver) : OptDense.Respects (problem e) Shuffled where
  error s s' h := error_leads e h
  gradHess s s' h := Leads.bind (gradHess6_leads e h) fun ⟨⟨g, H⟩, u⟩ ⟨⟨g', H'⟩, u'⟩ ⟨h1, h2⟩ => by
    dsimp only at h1
    obtain ⟨rfl, rfl⟩ := Prod.mk.inj h1
    exact Leads.ok ⟨rfl, h2⟩
  update N dx s s' h := by
    change Leads Shuffled (if h : N = 6 then s.moveLast (stat6 fun k => dx (Fin.cast h.symm k)) else .ub)
      (if h : N = 6 then s'.moveLast (stat6 fun k => dx (Fin.cast h.symm k)) else .ub)
    split_ifs
    · exact moveLast_leads _ h
    · exact fun x hx => by cases hx
  bookkeep s s' h := by
    obtain ⟨ps, hp, rfl⟩ := h
    exact Leads.bind (Leads.refl s.lastPose) fun x y hxy => Leads.ok ⟨ps, hp, by rw [hxy]⟩
  restore s s' h := by
    have hl : s'.lastPose = s.lastPose := by obtain ⟨ps, hp, rfl⟩ := h; rfl
    have hb : s'.booked = s.booked := by obtain ⟨ps, hp, rfl⟩ := h; rfl
    change Leads Shuffled (s.restore e) (s'.restore e)
    unfold restore
    rw [hl, hb]
    exact Leads.bind (Leads.refl _) fun _ _ _ => Leads.bind (placeLast_leads _ h) fun _ _ h =>
      Leads.bind (error_leads e h) fun _ _ h => Leads.ok h.2

theorem gradLoop_leads {step : PlaneReg → Out (ℝ × PlaneReg)}
    (hs : ∀ s s', Shuffled s s' → Leads (OptDense.RelV Shuffled) (step s) (step s')) (single : Bool) :
    ∀ (k i : ℕ), 10000 - i = k → ∀ (prev : ℝ) {s s' : PlaneReg}, Shuffled s s' →
      Leads Shuffled (gradLoop step single i prev s) (gradLoop step single i prev s') := by
  intro k
  induction k using Nat.strong_induction_on with
  | _ k ih =>
    intro i hk prev s s' h
    rw [gradLoop, gradLoop]
    refine Leads.bind (hs _ _ h) fun ⟨v, t⟩ ⟨v', t'⟩ ⟨h1, h2⟩ => ?_
    dsimp only at h1 h2
    subst h1
    have h3 : Shuffled { t with solveIters := i + 1 } { t' with solveIters := i + 1 } := by
      obtain ⟨ps, hp, rfl⟩ := h2
      exact ⟨ps, hp, rfl⟩
    dsimp only
    split_ifs with hc
    · exact ih (10000 - (i + 1)) (by omega) (i + 1) rfl v h3
    · exact Leads.ok h3

theorem gradStep_leads (e : EigSolver) (s s' : PlaneReg) (h : Shuffled s s') :
    Leads (OptDense.RelV Shuffled) (s.gradStep e) (s'.gradStep e) := by
  refine Leads.bind (error_leads e h) fun ⟨v, s⟩ ⟨v', s'⟩ ⟨h0, h⟩ => ?_
  dsimp only at h0 h ⊢
  subst h0
  refine Leads.bind (R := OptDense.RelV Shuffled) ?_ fun ⟨a, s⟩ ⟨a', s'⟩ ⟨h1, h⟩ => ?_
  · have ht : s'.times = s.times := by obtain ⟨ps, hp, rfl⟩ := h; rfl
    unfold accGradient
    rw [ht]
    refine Leads.bind (mapAccum_leads (R := Shuffled) (fun t s s' h => ?_) _ h) fun ⟨l, t⟩ ⟨l', t'⟩ ⟨h1, h2⟩ => ?_
    · refine Leads.bind (gradAt_leads t h) fun ⟨⟨g, H⟩, u⟩ ⟨⟨g', H'⟩, u'⟩ ⟨h1, h2⟩ => ?_
      dsimp only at h1 h2
      obtain ⟨rfl, rfl⟩ := Prod.mk.inj h1
      obtain ⟨ps, hp, rfl⟩ := h2
      dsimp only
      split_ifs
      · exact fun x hx => by cases hx
      · exact Leads.ok ⟨rfl, ps, hp, rfl⟩
    · dsimp only at h1
      subst h1
      exact Leads.ok ⟨rfl, h2⟩
  · dsimp only at h1 h ⊢
    subst h1
    refine Leads.bind (R := OptDense.RelV Shuffled) ?_ fun ⟨x, s⟩ ⟨x', s'⟩ ⟨h2, h⟩ => ?_
    · obtain ⟨ps, hp, rfl⟩ := h
      unfold increment
      dsimp only
      split
      · exact Leads.ok ⟨rfl, ps, hp, rfl⟩
      · split
        · exact fun x hx => by cases hx
        · exact Leads.ok ⟨rfl, ps, hp, rfl⟩
      · exact fun x hx => by cases hx
    · dsimp only at h2 h ⊢
      subst h2
      exact Leads.bind (moveLast_leads _ h) fun _ _ h => Leads.ok ⟨rfl, h⟩

theorem allPosesStep_leads (e : EigSolver) (s s' : PlaneReg) (h : Shuffled s s') :
    Leads (OptDense.RelV Shuffled) (s.allPosesStep e) (s'.allPosesStep e) := by
  refine Leads.bind (error_leads e h) fun ⟨v, s⟩ ⟨v', s'⟩ ⟨h0, h⟩ => ?_
  dsimp only at h0 h ⊢
  subst h0
  have ht : s'.times = s.times := by obtain ⟨ps, hp, rfl⟩ := h; rfl
  rw [ht]
  refine Leads.bind (mapAccum_leads (R := Shuffled) (fun t s s' h => gradAt_leads t h) _ h) fun ⟨l, t⟩ ⟨l', t'⟩ ⟨h1, h2⟩ => ?_
  dsimp only at h1 h2 ⊢
  subst h1
  obtain ⟨ps, hp, rfl⟩ := h2
  cases l.getLast? with
  | none => exact Leads.ok ⟨rfl, ps, hp, rfl⟩
  | some x =>
    obtain ⟨g, k⟩ := x
    dsimp only
    split_ifs
    · exact fun x hx => by cases hx
    · exact Leads.bind (Leads.refl _) fun x y hxy => Leads.ok ⟨rfl, ps, hp, by rw [hxy]⟩

end PlaneReg

end Mrob
