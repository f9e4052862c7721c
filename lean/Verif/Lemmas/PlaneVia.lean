import Verif.Lemmas.PlaneOrder

/-! # Plane registrations whose planes correspond to each other -/

open Matrix

namespace Mrob

open Spec

namespace PlaneReg

/-- The same object with a list of planes related to the original one. -/
def Via (K : List (ℕ × Plane) → List (ℕ × Plane) → Prop) (s s' : PlaneReg) : Prop :=
  ∃ ps, K s.planes ps ∧ s' = { s with planes := ps }

namespace Via

/-- The sums over the planes agree on related lists of planes, and the lists stay related. -/
structure Each (e : EigSolver) (K : List (ℕ × Plane) → List (ℕ × Plane) → Prop) : Prop where
  error : ∀ {s s' : PlaneReg}, Via K s s' → Leads (OptDense.RelV (Via K)) (s.error e) (s'.error e)
  grad : ∀ (t : ℕ) {s s' : PlaneReg}, Via K s s' → Leads (OptDense.RelV (Via K)) (gradAt t s) (gradAt t s')
  gradHess : ∀ (t : ℕ) {s s' : PlaneReg}, Via K s s' → Leads (OptDense.RelV (Via K)) (gradHessAt t s) (gradHessAt t s')

variable {e : EigSolver} {K : List (ℕ × Plane) → List (ℕ × Plane) → Prop}

theorem gradHess6_leads (hK : Each e K) {s s' : PlaneReg} (h : (Via K) s s') :
    Leads (OptDense.RelV (Via K)) (s.gradHess6 e) (s'.gradHess6 e) := by
  refine Leads.bind (hK.error h) fun ⟨_, s⟩ ⟨_, s'⟩ ⟨_, h⟩ => ?_
  have ht : s'.times = s.times := by obtain ⟨ps, hp, rfl⟩ := h; rfl
  dsimp only at h ⊢
  rw [ht]
  refine Leads.bind (mapAccum_leads (R := (Via K)) (fun t s s' h => ?_) _ h) fun ⟨l, t⟩ ⟨l', t'⟩ ⟨h1, h2⟩ => ?_
  · refine Leads.bind (hK.gradHess t h) fun ⟨⟨g, H⟩, u⟩ ⟨⟨g', H'⟩, u'⟩ ⟨h1, h2⟩ => ?_
    dsimp only at h1 h2
    obtain ⟨rfl, rfl⟩ := Prod.mk.inj h1
    have htau : u'.tau = u.tau := by obtain ⟨ps, hp, rfl⟩ := h2; rfl
    dsimp only
    rw [htau]
    exact Leads.ok ⟨rfl, h2⟩
  · dsimp only at h1
    subst h1
    exact Leads.ok ⟨rfl, h2⟩

theorem placeLast_leads (T : SE3) {s s' : PlaneReg} (h : (Via K) s s') : Leads (Via K) (s.placeLast T) (s'.placeLast T) := by
  obtain ⟨ps, hp, rfl⟩ := h
  exact Leads.bind (Leads.refl _) fun x y hxy => Leads.ok ⟨ps, hp, by rw [hxy]⟩

theorem moveLast_leads (x : Vec6) {s s' : PlaneReg} (h : (Via K) s s') : Leads (Via K) (s.moveLast x) (s'.moveLast x) := by
  have hl : s'.lastPose = s.lastPose := by obtain ⟨ps, hp, rfl⟩ := h; rfl
  unfold moveLast
  rw [hl]
  exact Leads.bind (Leads.refl _) fun x y hxy => by rw [hxy]; exact placeLast_leads _ h

theorem respects (hK : Each e K) : OptDense.Respects (problem e) (Via K) where
  error s s' h := hK.error h
  gradHess s s' h := Leads.bind (gradHess6_leads hK h) fun ⟨⟨g, H⟩, u⟩ ⟨⟨g', H'⟩, u'⟩ ⟨h1, h2⟩ => by
    dsimp only at h1
    obtain ⟨rfl, rfl⟩ := Prod.mk.inj h1
    exact Leads.ok ⟨rfl, h2⟩
  update N dx s s' h := by
    change Leads (Via K) (if h : N = 6 then s.moveLast (stat6 fun k => dx (Fin.cast h.symm k)) else .ub)
      (if h : N = 6 then s'.moveLast (stat6 fun k => dx (Fin.cast h.symm k)) else .ub)
    split_ifs
    · exact moveLast_leads _ h
    · exact fun x hx => by cases hx
  bookkeep s s' h := by
    obtain ⟨ps, hp, rfl⟩ := h
    exact Leads.bind (Leads.refl s.lastPose) fun x y hxy => Leads.ok ⟨ps, hp, by rw [hxy]⟩
  restore s s' h := by
    have hl : s'.lastPose = s.lastPose := by obtain ⟨ps, hp, rfl⟩ := h; rfl
    have hb : s'.booked = s.booked := by obtain ⟨ps, hp, rfl⟩ := h; rfl
    change Leads (Via K) (s.restore e) (s'.restore e)
    unfold restore
    rw [hl, hb]
    exact Leads.bind (Leads.refl _) fun _ _ _ => Leads.bind (placeLast_leads _ h) fun _ _ h =>
      Leads.bind (hK.error h) fun _ _ h => Leads.ok h.2

theorem gradLoop_leads {step : PlaneReg → Out (ℝ × PlaneReg)}
    (hs : ∀ s s', (Via K) s s' → Leads (OptDense.RelV (Via K)) (step s) (step s')) (single : Bool) :
    ∀ (k i : ℕ), 10000 - i = k → ∀ (prev : ℝ) {s s' : PlaneReg}, (Via K) s s' →
      Leads (Via K) (gradLoop step single i prev s) (gradLoop step single i prev s') := by
  intro k
  induction k using Nat.strong_induction_on with
  | _ k ih =>
    intro i hk prev s s' h
    rw [gradLoop, gradLoop]
    refine Leads.bind (hs _ _ h) fun ⟨v, t⟩ ⟨v', t'⟩ ⟨h1, h2⟩ => ?_
    dsimp only at h1 h2
    subst h1
    have h3 : (Via K) { t with solveIters := i + 1 } { t' with solveIters := i + 1 } := by
      obtain ⟨ps, hp, rfl⟩ := h2
      exact ⟨ps, hp, rfl⟩
    dsimp only
    split_ifs with hc
    · exact ih (10000 - (i + 1)) (by omega) (i + 1) rfl v h3
    · exact Leads.ok h3

theorem gradStep_leads {K0 : List (ℕ × Plane) → List (ℕ × Plane) → Prop} (hK : Each e K)
    (h0 : ∀ {s s' : PlaneReg}, Via K0 s s' → Leads (OptDense.RelV (Via K)) (s.error e) (s'.error e))
    (s s' : PlaneReg) (h : (Via K0) s s') :
    Leads (OptDense.RelV (Via K)) (s.gradStep e) (s'.gradStep e) := by
  refine Leads.bind (h0 h) fun ⟨v, s⟩ ⟨v', s'⟩ ⟨h0, h⟩ => ?_
  dsimp only at h0 h ⊢
  subst h0
  refine Leads.bind (R := OptDense.RelV (Via K)) ?_ fun ⟨a, s⟩ ⟨a', s'⟩ ⟨h1, h⟩ => ?_
  · have ht : s'.times = s.times := by obtain ⟨ps, hp, rfl⟩ := h; rfl
    unfold accGradient
    rw [ht]
    refine Leads.bind (mapAccum_leads (R := (Via K)) (fun t s s' h => ?_) _ h) fun ⟨l, t⟩ ⟨l', t'⟩ ⟨h1, h2⟩ => ?_
    · refine Leads.bind (hK.grad t h) fun ⟨⟨g, H⟩, u⟩ ⟨⟨g', H'⟩, u'⟩ ⟨h1, h2⟩ => ?_
      dsimp only at h1 h2
      obtain ⟨rfl, rfl⟩ := Prod.mk.inj h1
      obtain ⟨ps, hp, rfl⟩ := h2
      dsimp only
      split_ifs
      · exact fun x hx => by cases hx
      · exact Leads.ok ⟨rfl, ps, hp, rfl⟩
    · dsimp only at h1
      subst h1
      exact Leads.ok ⟨rfl, h2⟩
  · dsimp only at h1 h ⊢
    subst h1
    refine Leads.bind (R := OptDense.RelV (Via K)) ?_ fun ⟨x, s⟩ ⟨x', s'⟩ ⟨h2, h⟩ => ?_
    · obtain ⟨ps, hp, rfl⟩ := h
      unfold increment
      dsimp only
      split
      · exact Leads.ok ⟨rfl, ps, hp, rfl⟩
      · split
        · exact fun x hx => by cases hx
        · exact Leads.ok ⟨rfl, ps, hp, rfl⟩
      · exact fun x hx => by cases hx
    · dsimp only at h2 h ⊢
      subst h2
      exact Leads.bind (moveLast_leads _ h) fun _ _ h => Leads.ok ⟨rfl, h⟩

theorem allPosesStep_leads {K0 : List (ℕ × Plane) → List (ℕ × Plane) → Prop} (hK : Each e K)
    (h0 : ∀ {s s' : PlaneReg}, Via K0 s s' → Leads (OptDense.RelV (Via K)) (s.error e) (s'.error e))
    (s s' : PlaneReg) (h : (Via K0) s s') :
    Leads (OptDense.RelV (Via K)) (s.allPosesStep e) (s'.allPosesStep e) := by
  refine Leads.bind (h0 h) fun ⟨v, s⟩ ⟨v', s'⟩ ⟨h0, h⟩ => ?_
  dsimp only at h0 h ⊢
  subst h0
  have ht : s'.times = s.times := by obtain ⟨ps, hp, rfl⟩ := h; rfl
  rw [ht]
  refine Leads.bind (mapAccum_leads (R := (Via K)) (fun t s s' h => hK.grad t h) _ h) fun ⟨l, t⟩ ⟨l', t'⟩ ⟨h1, h2⟩ => ?_
  dsimp only at h1 h2 ⊢
  subst h1
  obtain ⟨ps, hp, rfl⟩ := h2
  cases l.getLast? with
  | none => exact Leads.ok ⟨rfl, ps, hp, rfl⟩
  | some x =>
    obtain ⟨g, k⟩ := x
    dsimp only
    split_ifs
    · exact fun x hx => by cases hx
    · exact Leads.bind (Leads.refl _) fun x y hxy => Leads.ok ⟨rfl, ps, hp, by rw [hxy]⟩

theorem lift_leads {f f' : PlaneReg → Out PlaneReg} (hf : ∀ s s', (Via K) s s' → Leads (Via K) (f s) (f' s'))
    {s s' : OptDense PlaneReg} (h : (OptDense.Rel (Via K)) s s') : Leads (OptDense.Rel (Via K)) (lift f s) (lift f' s') := by
  obtain ⟨o, ho, rfl⟩ := h
  exact Leads.bind (hf _ _ ho) fun x y hxy => Leads.ok ⟨y, hxy, rfl⟩

theorem storeIters_leads {a b : Out (ℕ × OptDense PlaneReg)} (h : Leads (fun x y => x.1 = y.1 ∧ OptDense.Rel (Via K) x.2 y.2) a b) :
    Leads (fun x y => x.1 = y.1 ∧ (OptDense.Rel (Via K)) x.2 y.2) (a >>= fun r => .ok (0, storeIters r)) (b >>= fun r => .ok (0, storeIters r)) :=
  Leads.bind h fun ⟨i, t⟩ ⟨i', t'⟩ ⟨h1, h2⟩ => by
    dsimp only at h1 h2
    subst h1
    obtain ⟨o, ⟨ps, hp, rfl⟩, rfl⟩ := h2
    exact Leads.ok ⟨rfl, _, ⟨ps, hp, rfl⟩, rfl⟩

theorem solve_leads {K0 : List (ℕ × Plane) → List (ℕ × Plane) → Prop} (hK : Each e K)
    (h0 : ∀ {s s' : PlaneReg}, Via K0 s s' → Leads (OptDense.RelV (Via K)) (s.error e) (s'.error e)) (svd : Mat3 → SVD3)
    (mode : SolveMode) (hI : mode = .initialize → ∀ s s', Via K s s' →
      Leads (OptDense.RelV (Via K)) (solveInitialize svd s) (solveInitialize svd s')) (single : Bool)
    (s s' : OptDense PlaneReg) (h : (OptDense.Rel (Via K0)) s s') (v : ℕ) (s1 : OptDense PlaneReg)
    (hs : PlaneReg.solve e svd mode single s = .ok (v, s1)) :
    ∃ s1', PlaneReg.solve e svd mode single s' = .ok (v, s1') ∧ (OptDense.Rel (Via K)) s1 s1' := by
  have key : Leads (fun x y => x.1 = y.1 ∧ (OptDense.Rel (Via K)) x.2 y.2) (PlaneReg.solve e svd mode single s)
      (PlaneReg.solve e svd mode single s') := by
    obtain ⟨o, ho, rfl⟩ := h
    have ho' : (Via K0) { s.obj with mode := mode } { o with mode := mode } := by
      obtain ⟨ps, hp, rfl⟩ := ho
      exact ⟨ps, hp, rfl⟩
    unfold PlaneReg.solve
    refine Leads.bind (h0 ho') fun ⟨err, t⟩ ⟨err', t'⟩ ⟨h1, h2⟩ => ?_
    dsimp only at h1 h2
    subst h1
    have h3 : (OptDense.Rel (Via K)) { s with obj := { t with initialError := err } } { s with obj := { t' with initialError := err } } := by
      obtain ⟨ps, hp, rfl⟩ := h2
      exact ⟨_, ⟨ps, hp, rfl⟩, rfl⟩
    have h4 : ∀ i, (Via K) t t' → (Via K) { t with solveIters := i } { t' with solveIters := i } := by
      rintro i ⟨ps, hp, rfl⟩
      exact ⟨ps, hp, rfl⟩
    have h5 : ∀ t t' : PlaneReg, (Via K) t t' → (Via K) { t with solveIters := 0 } { t' with solveIters := 0 } := by
      rintro t t' ⟨ps, hp, rfl⟩
      exact ⟨ps, hp, rfl⟩
    dsimp only
    cases mode with
    | «initialize» => exact Leads.bind (hI rfl { t with initialError := err } { t' with initialError := err }
        (by obtain ⟨ps, hp, rfl⟩ := h2; exact ⟨ps, hp, rfl⟩)) fun ⟨b, o⟩ ⟨b', o'⟩ ⟨h1, h2⟩ => Leads.ok ⟨h1, o', h2, rfl⟩
    | gradient => exact Leads.ok ⟨rfl, h3⟩
    | gnClampedHessian => exact Leads.ok ⟨rfl, h3⟩
    | gradientAllPoses =>
      exact Leads.bind (lift_leads (fun t t' h => gradLoop_leads (allPosesStep_leads hK hK.error) _ _ 0 rfl _ (h5 t t' h)) h3)
        fun _ _ h => Leads.ok ⟨rfl, h⟩
    | gradientBengiosNag =>
      exact Leads.bind (lift_leads (fun t t' h => gradLoop_leads (gradStep_leads hK hK.error) _ _ 0 rfl _ (h5 t t' h)) h3)
        fun _ _ h => Leads.ok ⟨rfl, h⟩
    | gnHessian => exact storeIters_leads (OptDense.solve_leads (respects hK) _ _ _ h3)
    | lmSpher => exact storeIters_leads (OptDense.solve_leads (respects hK) _ _ _ h3)
    | lmEllip => exact storeIters_leads (OptDense.solve_leads (respects hK) _ _ _ h3)
  obtain ⟨⟨v', s1'⟩, h1, h2, h3⟩ := key _ hs
  dsimp only at h2
  subst h2
  exact ⟨s1', h1, h3⟩

end Via

end PlaneReg

end Mrob
