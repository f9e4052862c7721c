import Verif.Lemmas.PlaneHeap

/-!
# Solving in the heap and by value
-/

open Matrix

namespace Mrob

namespace PlaneHeap

/-! ### The optimizer for related problems -/

/-- The virtual functions of two derived classes agree on related objects. -/
structure Sim {σ τ : Type} (R : σ → τ → Prop) (P : DenseProblem σ) (Q : DenseProblem τ) : Prop where
  /-- `calculate_error` -/
  error : ∀ {x y}, R x y → Agree (fun a b => a.1 = b.1 ∧ R a.2 b.2) (P.error x) (Q.error y)
  /-- `calculate_gradient_hessian` -/
  gradHess : ∀ {x y}, R x y → Agree (fun a b => a.1 = b.1 ∧ R a.2 b.2) (P.gradHess x) (Q.gradHess y)
  /-- `update_state` -/
  update : ∀ {x y} N dx, R x y → Agree R (P.update N dx x) (Q.update N dx y)
  /-- `bookkeep_state` -/
  bookkeep : ∀ {x y}, R x y → Agree R (P.bookkeep x) (Q.bookkeep y)
  /-- `update_state_from_bookkeep` -/
  restore : ∀ {x y}, R x y → Agree R (P.restore x) (Q.restore y)

/-- Objects with related data members of the derived class and the same members of `OptimizerDense`. -/
def Rel {σ τ : Type} (R : σ → τ → Prop) (s : OptDense σ) (t : OptDense τ) : Prop := ∃ y, R s.obj y ∧ t = s.withObj y

section

variable {σ τ : Type} {R : σ → τ → Prop} {P : DenseProblem σ} {Q : DenseProblem τ}

theorem Sim.err (hs : Sim R P Q) {s : OptDense σ} {t : OptDense τ} (h : Rel R s t) :
    Agree (fun a b => a.1 = b.1 ∧ Rel R a.2 b.2) (s.error P) (t.error Q) := by
  obtain ⟨y, h1, rfl⟩ := h
  refine Agree.bind (hs.error h1) ?_
  rintro a b - - ⟨h2, h3⟩
  exact ⟨h2, b.2, h3, rfl⟩

theorem Sim.one (hs : Sim R P Q) (u : Bool) {s : OptDense σ} {t : OptDense τ} (h : Rel R s t) :
    Agree (Rel R) (s.oneIteration P u) (t.oneIteration Q u) := by
  obtain ⟨y, h1, rfl⟩ := h
  refine Agree.bind (hs.gradHess h1) ?_
  rintro ⟨ne, x'⟩ ⟨ne', y'⟩ - - ⟨h2, h3⟩
  obtain rfl : ne = ne' := h2
  dsimp only [OptDense.withObj]
  generalize (if u = true then OptDense.damp s.method s.lambda ne.H else ne.H) = H
  by_cases hu : IsUnit H.det
  · rw [if_pos hu, if_pos hu]
    refine Agree.bind (hs.update _ _ h3) ?_
    rintro a b - - h4
    exact ⟨b, h4, rfl⟩
  · rw [if_neg hu, if_neg hu]
    trivial

theorem Sim.nrLoop (hs : Sim R P Q) (m i : ℕ) (prev : ℝ) {s : OptDense σ} {t : OptDense τ} (h : Rel R s t) :
    Agree (fun a b => a.1 = b.1 ∧ Rel R a.2 b.2) (s.nrLoop P m i prev) (t.nrLoop Q m i prev) := by
  induction hk : m - i using Nat.strong_induction_on generalizing i prev s t with
  | _ k ih =>
    rw [OptDense.nrLoop, OptDense.nrLoop]
    refine Agree.bind (R := fun a b => a.1 = b.1 ∧ Rel R a.2 b.2) (Agree.bind (hs.one false h) fun x y _ _ hxy => hs.err hxy) ?_
    rintro ⟨c, x⟩ ⟨c', y⟩ - - ⟨h2, h3⟩
    obtain rfl : c = c' := h2
    have ht : y.tol = x.tol := by obtain ⟨z, -, hz⟩ := h3; rw [show y = x.withObj z from hz]; rfl
    dsimp only
    rw [ht]
    split_ifs with hc
    · exact ih _ (by omega) _ _ h3 rfl
    · exact ⟨rfl, h3⟩

theorem Sim.reject (hs : Sim R P Q) {s : OptDense σ} {t : OptDense τ} (h : Rel R s t) :
    Agree (Rel R) (s.reject P) (t.reject Q) := by
  obtain ⟨y, h1, rfl⟩ := h
  refine Agree.bind (hs.restore h1) ?_
  rintro a b - - h2
  exact ⟨b, h2, rfl⟩

theorem Sim.finish (hs : Sim R P Q) (imp : Bool) (i : ℕ) {s : OptDense σ} {t : OptDense τ} (h : Rel R s t) :
    Agree (fun a b => a.1 = b.1 ∧ Rel R a.2 b.2) (s.finish P imp i) (t.finish Q imp i) := by
  obtain ⟨y, h1, rfl⟩ := h
  have h2 : Agree R (if imp then .ok s.obj else P.restore s.obj) (if imp then .ok y else Q.restore y) := by
    cases imp
    · exact hs.restore h1
    · exact h1
  refine Agree.bind h2 ?_
  rintro a b - - h3
  refine Agree.bind (hs.err (s := { s with obj := a }) (t := { s.withObj y with obj := b }) ⟨b, h3, rfl⟩) ?_
  rintro c d - - ⟨-, h4⟩
  exact ⟨rfl, h4⟩

theorem Sim.lmStep (hs : Sim R P Q) {s : OptDense σ} {t : OptDense τ} (h : Rel R s t) :
    Agree (fun a b => a.1 = b.1 ∧ Rel R a.2 b.2) (s.lmStep P) (t.lmStep Q) := by
  obtain ⟨y, h1, rfl⟩ := h
  refine Agree.bind (hs.bookkeep h1) ?_
  rintro a b - - h2
  exact Agree.bind (hs.one true (s := { s with obj := a }) (t := { s.withObj y with obj := b }) ⟨b, h2, rfl⟩)
    fun x y _ _ hxy => hs.err hxy

theorem Rel.adapt {s : OptDense σ} {t : OptDense τ} (h : Rel R s t) (d : ℝ) : Rel R (s.adapt d) (t.adapt d) := by
  obtain ⟨y, h1, rfl⟩ := h
  exact ⟨y, h1, rfl⟩

theorem Sim.lmLoop (hs : Sim R P Q) (m i : ℕ) (prev : ℝ) {s : OptDense σ} {t : OptDense τ} (h : Rel R s t) :
    Agree (fun a b => a.1 = b.1 ∧ Rel R a.2 b.2) (s.lmLoop P m i prev) (t.lmLoop Q m i prev) := by
  induction hk : m - i using Nat.strong_induction_on generalizing i prev s t with
  | _ k ih =>
    rw [OptDense.lmLoop, OptDense.lmLoop]
    refine Agree.bind (hs.lmStep h) ?_
    rintro ⟨c, x⟩ ⟨c', y⟩ - - ⟨h2, h3⟩
    obtain rfl : c = c' := h2
    have ht : y.tol = x.tol := by obtain ⟨z, -, hz⟩ := h3; rw [show y = x.withObj z from hz]; rfl
    dsimp only
    rw [ht]
    split_ifs with c1 c2 c3 c4
    · refine Agree.bind (hs.reject h3) ?_
      rintro x' y' - - h4
      exact ih _ (by omega) _ _ h4 rfl
    · refine Agree.bind (hs.reject h3) ?_
      rintro x' y' - - h4
      exact hs.finish _ _ h4
    · exact ⟨rfl, h3⟩
    · exact ih _ (by omega) _ _ (h3.adapt _) rfl
    · exact hs.finish _ _ (h3.adapt _)

theorem Sim.solve (hs : Sim R P Q) (method : OptMethod) (m : ℕ) (lambda : ℝ) {s : OptDense σ} {t : OptDense τ} (h : Rel R s t) :
    Agree (fun a b => a.1 = b.1 ∧ Rel R a.2 b.2) (s.solve P method m lambda) (t.solve Q method m lambda) := by
  obtain ⟨y, h1, rfl⟩ := h
  have maxEq : ∀ {x : OptDense σ} {z : OptDense τ}, Rel R x z → z.maxIters = x.maxIters := by
    rintro x z ⟨w, -, rfl⟩; rfl
  have lm : ∀ {x : OptDense σ} {z : OptDense τ}, Rel R x z →
      Agree (fun a b => a.1 = b.1 ∧ Rel R a.2 b.2) (x.levenbergMarquardt P) (z.levenbergMarquardt Q) := fun hx => by
    refine Agree.bind (hs.err hx) ?_
    rintro ⟨c, x⟩ ⟨c', y⟩ - - ⟨h2, h3⟩
    obtain rfl : c = c' := h2
    dsimp only
    rw [maxEq h3]
    exact hs.lmLoop _ _ _ h3
  cases method with
  | newtonRaphson =>
    refine Agree.bind (hs.err (s := { s with method := .newtonRaphson, maxIters := m })
      (t := { s.withObj y with method := .newtonRaphson, maxIters := m }) ⟨y, h1, rfl⟩) ?_
    rintro ⟨c, x⟩ ⟨c', y⟩ - - ⟨h2, h3⟩
    obtain rfl : c = c' := h2
    dsimp only
    rw [maxEq h3]
    exact hs.nrLoop _ _ _ h3
  | lmSpher => exact lm ⟨y, h1, rfl⟩
  | lmEllip => exact lm ⟨y, h1, rfl⟩

end

/-! ### The functions of `PlaneRegistration` -/

theorem members_agree {β : Type} {h : PlaneHeap} (ho : h.Owned) (r : RRef) {f : PlaneReg → Out (β × PlaneReg)}
    (hf : ∀ s x s', f s = .ok (x, s') → s'.planes = s.planes) :
    Agree (fun (x : β × PlaneHeap) (y : β × PlaneReg) => x.1 = y.1 ∧ Step h x.2 r y.2) (h.members r f) (f (h.view r)) := by
  rw [members]
  cases hv : f (h.view r) with
  | ok x =>
    refine ⟨rfl, ?_⟩
    have := setBase_step ho r x.2
    rw [← hf _ x.1 x.2 hv] at this
    exact this
  | nan => trivial
  | ub => trivial
  | throw => trivial

/-- Assigning a data member. -/
theorem setBase_member {h : PlaneHeap} (ho : h.Owned) (r : RRef) (f : PlaneReg → PlaneReg)
    (hf : ∀ s l, { f s with planes := l } = f { s with planes := l }) :
    Step h (h.setBase r (f (h.reg r).base)) r (f (h.view r)) := by
  have := setBase_step ho r (f (h.reg r).base)
  rw [hf] at this
  exact this

theorem interpolate_planes {dxi : Vec6} {s s' : PlaneReg} (h : s.moveLast dxi = .ok s') : s'.planes = s.planes := by
  obtain ⟨T, -, h1⟩ := Out.bind_eq_ok.mp h
  obtain ⟨l, -, h2⟩ := Out.bind_eq_ok.mp h1
  cases h2
  rfl

theorem gradAt_agree {h : PlaneHeap} (ho : h.Owned) (r : RRef) (t : ℕ) :
    Agree (fun (x : (Vec6 × ℕ) × PlaneHeap) (y : (Vec6 × ℕ) × PlaneReg) => x.1 = y.1 ∧ Step h x.2 r y.2)
      (h.gradAt r t) (PlaneReg.gradAt t (h.view r)) := by
  refine Agree.bind (each_step ho r fun q _ h' _ _ => rfl) ?_
  rintro ⟨l, h'⟩ ⟨l', s⟩ - - ⟨h1, h2⟩
  obtain rfl : l = l' := h1
  exact ⟨rfl, h2⟩

theorem gradHessAt_agree {h : PlaneHeap} (ho : h.Owned) (r : RRef) (t : ℕ) :
    Agree (fun (x : (Vec6 × Mat6) × PlaneHeap) (y : (Vec6 × Mat6) × PlaneReg) => x.1 = y.1 ∧ Step h x.2 r y.2)
      (h.gradHessAt r t) (PlaneReg.gradHessAt t (h.view r)) := by
  refine Agree.bind (each_step ho r fun q _ h' _ _ => rfl) ?_
  rintro ⟨l, h'⟩ ⟨l', s⟩ - - ⟨h1, h2⟩
  obtain rfl : l = l' := h1
  exact ⟨rfl, h2⟩

theorem mapAccum_agree {β : Type} (r : RRef) {f : ℕ → PlaneHeap → Out (β × PlaneHeap)} {g : ℕ → PlaneReg → Out (β × PlaneReg)}
    (hfg : ∀ t (h : PlaneHeap), h.Owned → Agree (fun (x : β × PlaneHeap) (y : β × PlaneReg) => x.1 = y.1 ∧ Step h x.2 r y.2)
      (f t h) (g t (h.view r))) (l : List ℕ) {h : PlaneHeap} (ho : h.Owned) :
    Agree (fun (x : List β × PlaneHeap) (y : List β × PlaneReg) => x.1 = y.1 ∧ Step h x.2 r y.2)
      (Out.mapAccum f l h) (Out.mapAccum g l (h.view r)) := by
  induction l generalizing h with
  | nil => exact ⟨rfl, ho, rfl, fun _ _ => rfl, fun _ => rfl⟩
  | cons t ts ih =>
    refine Agree.bind (hfg t h ho) ?_
    rintro ⟨b, h1⟩ ⟨b', s1⟩ - - ⟨e1, s1'⟩
    obtain rfl : b = b' := e1
    obtain rfl : h1.view r = s1 := s1'.self
    refine Agree.bind (ih s1'.owned) ?_
    rintro ⟨l, h2⟩ ⟨l', s2⟩ - - ⟨e2, s2'⟩
    obtain rfl : l = l' := e2
    exact ⟨rfl, s1'.trans s2'⟩

theorem accGradient_agree {h : PlaneHeap} (ho : h.Owned) (r : RRef) :
    Agree (fun (x : Vec6 × PlaneHeap) (y : Vec6 × PlaneReg) => x.1 = y.1 ∧ Step h x.2 r y.2)
      (h.accGradient r) (h.view r).accGradient := by
  refine Agree.bind (mapAccum_agree r (fun t h ho => ?_) _ ho) ?_
  · refine Agree.bind (gradAt_agree ho r t) ?_
    rintro ⟨⟨g, k⟩, h'⟩ ⟨y, s'⟩ - - ⟨e1, st⟩
    obtain rfl : (g, k) = y := e1
    obtain rfl : h'.view r = s' := st.self
    dsimp only
    split_ifs
    · trivial
    · exact ⟨rfl, st⟩
  · rintro ⟨l, h'⟩ ⟨l', s⟩ - - ⟨h1, h2⟩
    obtain rfl : l = l' := h1
    exact ⟨rfl, h2⟩

theorem moveLast_agree {h : PlaneHeap} (ho : h.Owned) (r : RRef) (dxi : Vec6) :
    Agree (fun h' s => Step h h' r s) (h.moveLast r dxi) ((h.view r).moveLast dxi) := by
  have key := members_agree ho r (f := fun s : PlaneReg => s.moveLast dxi >>= fun s => .ok ((), s)) fun s x s' hs => by
    obtain ⟨s1, h1, h2⟩ := Out.bind_eq_ok.mp hs
    cases h2
    exact interpolate_planes h1
  rw [moveLast]
  have : (h.view r).moveLast dxi = ((h.view r).moveLast dxi >>= fun s => .ok ((), s)) >>= fun x : Unit × PlaneReg => .ok x.2 := by
    cases (h.view r).moveLast dxi <;> rfl
  rw [this]
  refine Agree.bind key ?_
  rintro x y - - ⟨-, hst⟩
  exact hst

theorem gradStep_agree (e : EigSolver) {h : PlaneHeap} (ho : h.Owned) (r : RRef) :
    Agree (fun (x : ℝ × PlaneHeap) (y : ℝ × PlaneReg) => x.1 = y.1 ∧ Step h x.2 r y.2)
      (h.gradStep e r) ((h.view r).gradStep e) := by
  refine Agree.bind (error_agree e ho r) ?_
  rintro ⟨err, h1⟩ ⟨err', s1⟩ - - ⟨e1, st1⟩
  obtain rfl : err = err' := e1
  obtain rfl : h1.view r = s1 := st1.self
  refine Agree.bind (accGradient_agree st1.owned r) ?_
  rintro ⟨acc, h2⟩ ⟨acc', s2⟩ - - ⟨e2, st2⟩
  obtain rfl : acc = acc' := e2
  obtain rfl : h2.view r = s2 := st2.self
  refine Agree.bind (members_agree st2.owned r fun s x s' hs => ?_) ?_
  · unfold PlaneReg.increment at hs
    split at hs
    · cases hs; rfl
    · split at hs
      · cases hs
      · cases hs; rfl
    · cases hs
  · rintro ⟨d, h3⟩ ⟨d', s3⟩ - - ⟨e3, st3⟩
    obtain rfl : d = d' := e3
    obtain rfl : h3.view r = s3 := st3.self
    refine Agree.bind (moveLast_agree st3.owned r d) ?_
    rintro h4 s4 - - st4
    exact ⟨rfl, ((st1.trans st2).trans st3).trans st4⟩

theorem allPosesStep_agree (e : EigSolver) {h : PlaneHeap} (ho : h.Owned) (r : RRef) :
    Agree (fun (x : ℝ × PlaneHeap) (y : ℝ × PlaneReg) => x.1 = y.1 ∧ Step h x.2 r y.2)
      (h.allPosesStep e r) ((h.view r).allPosesStep e) := by
  refine Agree.bind (error_agree e ho r) ?_
  rintro ⟨err, h1⟩ ⟨err', s1⟩ - - ⟨e1, st1⟩
  obtain rfl : err = err' := e1
  obtain rfl : h1.view r = s1 := st1.self
  refine Agree.bind (mapAccum_agree r (fun t h ho => gradAt_agree ho r t) _ st1.owned) ?_
  rintro ⟨l, h2⟩ ⟨l', s2⟩ - - ⟨e2, st2⟩
  obtain rfl : l = l' := e2
  obtain rfl : h2.view r = s2 := st2.self
  dsimp only
  cases l.getLast? with
  | none => exact ⟨rfl, st1.trans st2⟩
  | some x =>
    dsimp only
    split_ifs
    · trivial
    · refine (members_agree st2.owned r (f := fun s => PlaneReg.updatePoses (s.alpha / x.2 / s.numberPoses)
        (s.times.zip (l.map (·.1))) s.traj >>= fun traj => .ok (err, { s with traj := traj })) fun s y s' hs => ?_).mono ?_
      · obtain ⟨tr, -, h3⟩ := Out.bind_eq_ok.mp hs
        cases h3
        rfl
      · rintro y z ⟨e3, st3⟩
        exact ⟨e3, (st1.trans st2).trans st3⟩

theorem gradLoop_agree (r : RRef) {step : PlaneHeap → Out (ℝ × PlaneHeap)} {step' : PlaneReg → Out (ℝ × PlaneReg)}
    (hst : ∀ h : PlaneHeap, h.Owned → Agree (fun (x : ℝ × PlaneHeap) (y : ℝ × PlaneReg) => x.1 = y.1 ∧ Step h x.2 r y.2)
      (step h) (step' (h.view r))) (single : Bool) (i : ℕ) (prev : ℝ) {h : PlaneHeap} (ho : h.Owned) :
    Agree (fun h' s => Step h h' r s) (gradLoop r step single i prev h) (PlaneReg.gradLoop step' single i prev (h.view r)) := by
  induction hk : 10000 - i using Nat.strong_induction_on generalizing i prev h with
  | _ k ih =>
    rw [gradLoop, PlaneReg.gradLoop]
    refine Agree.bind (hst h ho) ?_
    rintro ⟨err, h1⟩ ⟨err', s1⟩ - - ⟨e1, st1⟩
    obtain rfl : err = err' := e1
    obtain rfl : h1.view r = s1 := st1.self
    have st2 := setBase_member st1.owned r (fun s => { s with solveIters := i + 1 }) fun _ _ => rfl
    dsimp only
    split_ifs with hc
    · have := ih _ (by omega) (i + 1) err st2.owned rfl
      rw [st2.self] at this
      exact this.mono fun h' s h3 => (st1.trans st2).trans h3
    · exact st1.trans st2

theorem solveInitialize_agree (svd : Mat3 → SVD3) {h : PlaneHeap} (ho : h.Owned) (r : RRef) :
    Agree (fun (x : ℕ × PlaneHeap) (y : ℕ × PlaneReg) => x.1 = y.1 ∧ Step h x.2 r y.2)
      (h.solveInitialize svd r) ((h.view r).solveInitialize svd) := by
  refine Agree.bind (each_step ho r fun q _ h' _ _ => rfl) ?_
  rintro ⟨l, h1⟩ ⟨l', s1⟩ - - ⟨e1, st1⟩
  obtain rfl : l = l' := e1
  obtain rfl : h1.view r = s1 := st1.self
  refine (members_agree st1.owned r fun s y s' hs => ?_).mono ?_
  · obtain ⟨tr, -, h3⟩ := Out.bind_eq_ok.mp hs
    cases h3
    rfl
  · rintro y z ⟨e3, st3⟩
    exact ⟨e3, st1.trans st3⟩

theorem interpolateGradient_agree (e : EigSolver) {h : PlaneHeap} (ho : h.Owned) (r : RRef) (single : Bool) :
    Agree (fun h' s => Step h h' r s) (h.interpolateGradient e r single) ((h.view r).interpolateGradient e single) := by
  have st := setBase_member ho r (fun s => { s with solveIters := 0 }) fun _ _ => rfl
  have := gradLoop_agree r (fun h ho => gradStep_agree e ho r) single 0 1e20 st.owned
  rw [st.self] at this
  exact this.mono fun h' s h3 => st.trans h3

theorem gradientAllPoses_agree (e : EigSolver) {h : PlaneHeap} (ho : h.Owned) (r : RRef) (single : Bool) :
    Agree (fun h' s => Step h h' r s) (h.gradientAllPoses e r single) ((h.view r).gradientAllPoses e single) := by
  have st := setBase_member ho r (fun s => { s with solveIters := 0 }) fun _ _ => rfl
  have := gradLoop_agree r (fun h ho => allPosesStep_agree e ho r) single 0 1e20 st.owned
  rw [st.self] at this
  exact this.mono fun h' s h3 => st.trans h3

/-- The virtual functions in the heap and by value. -/
theorem problem_sim (e : EigSolver) (h₀ : PlaneHeap) (r : RRef) :
    Sim (fun h s => Step h₀ h r s) (problem e r) (PlaneReg.problem e) where
  error {h s} st := by
    obtain rfl : h.view r = s := st.self
    exact (error_agree e st.owned r).mono fun x y h2 => ⟨h2.1, st.trans h2.2⟩
  gradHess {h s} st := by
    obtain rfl : h.view r = s := st.self
    refine Agree.bind (R := fun (x : (Vec6 × Mat6) × PlaneHeap) (y : (Vec6 × Mat6) × PlaneReg) => x.1 = y.1 ∧ Step h x.2 r y.2)
      (Agree.bind (error_agree e st.owned r) ?_) ?_
    · rintro ⟨err, h1⟩ ⟨err', s1⟩ - - ⟨-, st1⟩
      obtain rfl : h1.view r = s1 := st1.self
      refine Agree.bind (mapAccum_agree r (fun t h ho => ?_) _ st1.owned) ?_
      · refine Agree.bind (gradHessAt_agree ho r t) ?_
        rintro ⟨⟨g, H⟩, h'⟩ ⟨y, s'⟩ - - ⟨e1, st⟩
        obtain rfl : (g, H) = y := e1
        obtain rfl : h'.view r = s' := st.self
        exact ⟨rfl, st⟩
      · rintro ⟨l, h'⟩ ⟨l', s⟩ - - ⟨h1, h2⟩
        obtain rfl : l = l' := h1
        exact ⟨rfl, st1.trans h2⟩
    · rintro ⟨⟨g, H⟩, h'⟩ ⟨y, s'⟩ - - ⟨e1, st1⟩
      obtain rfl : (g, H) = y := e1
      exact ⟨rfl, st.trans st1⟩
  update {h s} N dx st := by
    obtain rfl : h.view r = s := st.self
    change Agree _ (dite _ _ _) (dite _ _ _)
    split_ifs
    · exact (moveLast_agree st.owned r _).mono fun x y h2 => st.trans h2
    · trivial
  bookkeep {h s} st := by
    obtain rfl : h.view r = s := st.self
    have key := members_agree st.owned r (f := fun s : PlaneReg => s.bookkeep >>= fun s => .ok ((), s)) fun s x s' hs => by
      obtain ⟨s1, h1, h2⟩ := Out.bind_eq_ok.mp hs
      obtain ⟨T, -, h3⟩ := Out.bind_eq_ok.mp h1
      cases h2
      cases h3
      rfl
    change Agree _ (h.members r _ >>= _) (h.view r).bookkeep
    rw [show (h.view r).bookkeep = ((h.view r).bookkeep >>= fun s => .ok ((), s)) >>= fun x : Unit × PlaneReg => .ok x.2 by
      cases (h.view r).bookkeep <;> rfl]
    refine Agree.bind key ?_
    rintro x y - - ⟨-, h2⟩
    exact st.trans h2
  restore {h s} st := by
    obtain rfl : h.view r = s := st.self
    have key := members_agree st.owned r
      (f := fun s : PlaneReg => s.lastPose >>= fun _ => s.placeLast s.booked >>= fun s => .ok ((), s)) fun s x s' hs => by
        obtain ⟨T, -, h1⟩ := Out.bind_eq_ok.mp hs
        obtain ⟨s1, h1, h2⟩ := Out.bind_eq_ok.mp h1
        obtain ⟨l, -, h3⟩ := Out.bind_eq_ok.mp h1
        cases h2
        cases h3
        rfl
    change Agree _ (h.restore e r) ((h.view r).restore e)
    rw [restore, show (h.view r).restore e = ((h.view r).lastPose >>= fun _ => (h.view r).placeLast (h.view r).booked >>=
        fun s => .ok ((), s)) >>= fun x : Unit × PlaneReg => x.2.error e >>= fun y => .ok y.2 by
      rw [PlaneReg.restore]
      cases (h.view r).lastPose with
      | ok T => cases (h.view r).placeLast (h.view r).booked <;> rfl
      | nan => rfl
      | ub => rfl
      | throw => rfl]
    refine Agree.bind key ?_
    rintro ⟨u, h1⟩ ⟨v, s1⟩ - - ⟨-, st1⟩
    obtain rfl : h1.view r = s1 := st1.self
    refine Agree.bind (error_agree e st1.owned r) ?_
    rintro ⟨x, h2⟩ ⟨y, s2⟩ - - ⟨-, st2⟩
    exact (st.trans st1).trans st2

/-- What a call must do, with the members of `OptimizerDense`. -/
structure Call (h h' : PlaneHeap) (r : RRef) (s : OptDense PlaneReg) : Prop where
  /-- planes still belong to one registration -/
  owned : h'.Owned
  /-- the registration concerned -/
  self : h'.obj r = s
  /-- the others -/
  other : ∀ r', r' ≠ r → h'.obj r' = h.obj r'

theorem Step.call {h h' : PlaneHeap} {r : RRef} {s : PlaneReg} (st : Step h h' r s) : Call h h' r { h.obj r with obj := s } :=
  ⟨st.owned, by rw [obj, st.self, st.opt]; rfl, fun r' hr => obj_congr (st.other r' hr) (st.opt r')⟩

theorem optimize_agree (e : EigSolver) {h₀ h : PlaneHeap} (r : RRef) (st : Step h₀ h r (h.view r)) (method : OptMethod) (m : ℕ)
    (lambda : ℝ) :
    Agree (fun h' s => Call h₀ h' r s) (h.optimize e r method m lambda)
      ((h.obj r).solve (PlaneReg.problem e) method m lambda >>= fun x => .ok (PlaneReg.storeIters x)) := by
  refine Agree.bind ((problem_sim e h₀ r).solve method m lambda (s := (h.reg r).opt.withObj h) ⟨h.view r, st, rfl⟩) ?_
  rintro ⟨k, s⟩ ⟨k', t⟩ - - ⟨e1, y, st1, ht⟩
  obtain rfl : k = k' := e1
  obtain rfl : t = s.withObj y := ht
  obtain rfl : s.obj.view r = y := st1.self
  dsimp only
  set h1 := s.obj.setOpt r (s.withObj ()) with hh1
  have hrefs : ∀ r', (h1.reg r').refs = (s.obj.reg r').refs := fun r' => by
    by_cases hr : r' = r
    · subst hr; rw [hh1, setOpt, setReg_self]
    · rw [hh1, setOpt, setReg_of_ne _ _ hr]
  have hbase : ∀ r', (h1.reg r').base = (s.obj.reg r').base := fun r' => by
    by_cases hr : r' = r
    · subst hr; rw [hh1, setOpt, setReg_self]
    · rw [hh1, setOpt, setReg_of_ne _ _ hr]
  have hview : ∀ r', h1.view r' = s.obj.view r' := fun r' => by unfold view; rw [hrefs, hbase]; rfl
  have ho : h1.Owned := ⟨fun r' => by rw [hrefs]; exact st1.owned.own r', fun r' => by rw [hrefs]; exact st1.owned.nodup r',
    fun r' => by rw [hrefs]; exact st1.owned.ids r'⟩
  have st2 := setBase_member ho r (fun s => { s with solveIters := k }) fun _ _ => rfl
  refine ⟨st2.owned, ?_, fun r' hr => ?_⟩
  · rw [obj, st2.self, st2.opt, hview, hh1, setOpt, setReg_self]
    rfl
  · refine obj_congr ((st2.other r' hr).trans ((hview r').trans (st1.other r' hr))) ((st2.opt r').trans ?_)
    rw [hh1, setOpt, setReg_of_ne _ _ hr]
    exact st1.opt r'

theorem solve_agree (e : EigSolver) (svd : Mat3 → SVD3) {h : PlaneHeap} (ho : h.Owned) (r : RRef) (mode : SolveMode)
    (single : Bool) :
    Agree (fun (x : ℕ × PlaneHeap) (y : ℕ × OptDense PlaneReg) => x.1 = y.1 ∧ Call h x.2 r y.2)
      (h.solve e svd r mode single) (PlaneReg.solve e svd mode single (h.obj r)) := by
  have st0 := setBase_member ho r (fun s => { s with mode := mode }) fun _ _ => rfl
  rw [solve, PlaneReg.solve]
  dsimp only
  have h1 := error_agree e st0.owned r
  rw [st0.self] at h1
  refine Agree.bind h1 ?_
  rintro ⟨err, h1⟩ ⟨err', s1⟩ - - ⟨e1, st1⟩
  obtain rfl : err = err' := e1
  obtain rfl : h1.view r = s1 := st1.self
  dsimp only
  have st2 := setBase_member st1.owned r (fun s => { s with initialError := err }) fun _ _ => rfl
  have st := (st0.trans st1).trans st2
  set h2 := h1.setBase r { (h1.reg r).base with initialError := err } with hh2
  have hobj : h2.obj r = { h.obj r with obj := { h1.view r with initialError := err } } := st.call.self
  rw [show ({ h1.view r with initialError := err } : PlaneReg) = h2.view r from st2.self.symm] at hobj ⊢
  have st' : Step h h2 r (h2.view r) := ⟨st.owned, rfl, st.other, st.opt⟩
  have fin : ∀ {a : Out PlaneHeap} {b : Out PlaneReg}, Agree (fun h' s => Step h2 h' r s) a b →
      Agree (fun (x : ℕ × PlaneHeap) (y : ℕ × OptDense PlaneReg) => x.1 = y.1 ∧ Call h x.2 r y.2)
        (a >>= fun h => .ok (0, h)) ((b >>= fun o => Out.ok { h.obj r with obj := o }) >>= fun s => .ok (0, s)) := by
    intro a b hab
    cases a <;> cases b <;> first | exact hab.elim | trivial | exact ⟨rfl, (st'.trans hab).call⟩
  have opt : ∀ (me : OptMethod) (m : ℕ) (la : ℝ),
      Agree (fun (x : ℕ × PlaneHeap) (y : ℕ × OptDense PlaneReg) => x.1 = y.1 ∧ Call h x.2 r y.2)
        (h2.optimize e r me m la >>= fun h => .ok (0, h))
        (OptDense.solve (PlaneReg.problem e) me m la { h.obj r with obj := h2.view r } >>= fun r =>
          .ok (0, PlaneReg.storeIters r)) := fun me m la => by
    have := optimize_agree e r st' me m la
    rw [hobj] at this
    revert this
    cases h2.optimize e r me m la <;>
      cases OptDense.solve (PlaneReg.problem e) me m la { h.obj r with obj := h2.view r } <;> intro hh <;>
      first | exact hh.elim | trivial | exact ⟨rfl, hh⟩
  cases mode with
  | «initialize» =>
    dsimp only
    have key := solveInitialize_agree svd st.owned r
    revert key
    cases h2.solveInitialize svd r <;> cases (h2.view r).solveInitialize svd <;> intro hh <;>
      first | exact hh.elim | trivial | exact ⟨hh.1, (st'.trans hh.2).call⟩
  | gradientAllPoses => exact fin (gradientAllPoses_agree e st.owned r false)
  | gradientBengiosNag => exact fin (interpolateGradient_agree e st.owned r single)
  | gnHessian => exact opt _ _ _
  | gnClampedHessian => exact ⟨rfl, st'.call⟩
  | lmSpher => exact opt _ _ _
  | lmEllip => exact opt _ _ _
  | gradient => exact ⟨rfl, st'.call⟩

/-! ### The calls -/

/-- The registration a call is made for. -/
def Op.target : Op → RRef
  | .setNumbers r _ _ | .resetSolution r | .setLastPose r _ | .setAlpha r _ | .setBeta r _ | .addPlane r _ _
  | .addNewPlane r _ _ | .fromScene r _ _ _ | .pushPoint r _ _ _ | .error r | .solve r _ _ | .solveInitialize r
  | .interpolateGradient r _ | .gradientAllPoses r _ | .evaluate r => r

/-- The planes handed over by a call are not in use: not by the same registration for a single plane, not by another one for
a scene. -/
def Op.Exclusive (h : PlaneHeap) : Op → Prop
  | .addPlane _ _ p | .addNewPlane _ _ p => ∀ r, ∀ q ∈ (h.reg r).refs, q.2 ≠ p
  | .fromScene r _ _ l => (l.map (·.1)).Nodup ∧ (l.map (·.2)).Nodup ∧ ∀ r' ≠ r, ∀ q ∈ (h.reg r').refs, ∀ q' ∈ l, q.2 ≠ q'.2
  | _ => True

/-- The call as calls on an object with planes of its own; planes handed over are copied. -/
def Op.alone (h : PlaneHeap) : Op → List PlaneReg.Op
  | .setNumbers _ a b => [.setNumbers a b]
  | .resetSolution _ => [.resetSolution]
  | .setLastPose _ T => [.setLastPose T]
  | .setAlpha _ a => [.setAlpha a]
  | .setBeta _ b => [.setBeta b]
  | .addPlane _ id p => [.addPlane id (h.plane p)]
  | .addNewPlane _ id _ => [.addNewPlane id]
  | .fromScene _ a b l => .setNumbers a b :: l.map fun q => .addPlane q.1 (h.plane q.2).reset
  | .pushPoint _ id t x => [.pushPoint id t x]
  | .error _ => [.currentError]
  | .solve _ mode single => [.solve mode single]
  | .solveInitialize _ => [.solveInitialize]
  | .interpolateGradient _ single => [.interpolateGradient single]
  | .gradientAllPoses _ single => [.gradientAllPoses single]
  | .evaluate _ => [.evaluate]

theorem run_one (e : EigSolver) (svd : Mat3 → SVD3) (op : PlaneReg.Op) (s : OptDense PlaneReg) :
    PlaneReg.run e svd [op] s = op.run e svd s := by
  change op.run e svd s >>= Out.ok = _
  cases op.run e svd s <;> rfl

theorem run_scene (e : EigSolver) (svd : Mat3 → SVD3) (l : List (ℕ × Plane)) (s : OptDense PlaneReg) :
    PlaneReg.run e svd (l.map fun q => .addPlane q.1 q.2) s = .ok { s with obj := l.foldl (fun r q => r.addPlane q.1 q.2) s.obj } := by
  induction l generalizing s with
  | nil => rfl
  | cons q l ih => exact ih _

theorem lift_agree {h : PlaneHeap} {r : RRef} {a : Out PlaneHeap} {b : Out PlaneReg} (hab : Agree (fun h' s => Step h h' r s) a b) :
    Agree (fun h' s => Call h h' r s) a (b >>= fun o => .ok { h.obj r with obj := o }) := by
  cases a <;> cases b <;> first | exact hab.elim | trivial | exact Step.call hab

/-- A call that hands over planes not in use elsewhere acts on its registration alone, and as on an object with planes of its
own. -/
theorem op_agree (e : EigSolver) (svd : Mat3 → SVD3) {h : PlaneHeap} (ho : h.Owned) (op : Op) (hx : op.Exclusive h) :
    Agree (fun h' s => Call h h' op.target s) (op.run e svd h) (PlaneReg.run e svd (op.alone h) (h.obj op.target)) := by
  cases op with
  | setNumbers r a b => exact (setNumbers_step ho r a b).call
  | resetSolution r => exact (setBase_step ho r _).call
  | setAlpha r a => exact (setBase_step ho r _).call
  | setBeta r a => exact (setBase_step ho r _).call
  | setLastPose r T =>
    rw [Op.alone, run_one]
    refine lift_agree (?_ : Agree _ ((h.reg r).base.setLastPose T >>= fun b => .ok (h.setBase r b)) ((h.view r).setLastPose T))
    unfold PlaneReg.setLastPose
    rw [show ∀ {α β γ : Type} (x : Out α) (f : α → Out β) (g : β → Out γ), x >>= f >>= g = x >>= fun a => f a >>= g from
      fun x f g => by cases x <;> rfl]
    refine Agree.bind (Agree.refl _) ?_
    rintro y z - - rfl
    exact setBase_step ho r _
  | addPlane r id p => exact (addPlane_step ho r id p hx).call
  | addNewPlane r id p =>
    obtain ⟨h1, h2⟩ := setPlane_step ho p (Plane.new (h.reg r).base.numberPoses) hx
    have h3 := addPlane_step h1 r id p hx
    rw [h2, setPlane_self] at h3
    exact Step.call ⟨h3.owned, h3.self, fun r' hr => by rw [← h2 r']; exact h3.other r' hr, h3.opt⟩
  | fromScene r a b l =>
    have h1 := setNumbers_step ho r a b
    have h2 := scene_step l hx.2.1 h1.owned r fun r' q hq q' hq' => by
      by_cases hr : r' = r
      · subst hr
        rw [setNumbers, setReg_self] at hq
        exact absurd hq (by simp)
      · rw [setNumbers, setReg_of_ne _ _ hr] at hq
        exact hx.2.2 r' hr q hq q' hq'
    rw [h1.self] at h2
    have h3 := run_scene e svd (l.map fun q => (q.1, (h.plane q.2).reset)) { h.obj r with obj := (h.view r).setNumbers a b }
    rw [List.map_map, List.foldl_map] at h3
    change Agree _ (Out.ok _) (PlaneReg.run e svd (l.map _) { h.obj r with obj := (h.view r).setNumbers a b })
    rw [show (l.map fun q => PlaneReg.Op.addPlane q.1 (h.plane q.2).reset) = l.map ((fun q : ℕ × Plane => .addPlane q.1 q.2) ∘
      fun q : ℕ × PRef => (q.1, (h.plane q.2).reset)) from rfl, h3]
    exact (h1.trans h2).call
  | pushPoint r id t x =>
    rw [Op.alone, run_one]
    exact lift_agree (pushPoint_agree ho r id t x)
  | error r =>
    rw [Op.alone, run_one]
    refine lift_agree (Agree.bind (error_agree e ho r) ?_)
    rintro x y - - ⟨-, h2⟩
    exact h2
  | solve r mode single =>
    rw [Op.alone, run_one]
    refine Agree.bind (solve_agree e svd ho r mode single) ?_
    rintro x y - - ⟨-, h2⟩
    exact h2
  | solveInitialize r =>
    rw [Op.alone, run_one]
    refine lift_agree (Agree.bind (solveInitialize_agree svd ho r) ?_)
    rintro x y - - ⟨-, h2⟩
    exact h2
  | interpolateGradient r single =>
    rw [Op.alone, run_one]
    exact lift_agree (interpolateGradient_agree e ho r single)
  | gradientAllPoses r single =>
    rw [Op.alone, run_one]
    exact lift_agree (gradientAllPoses_agree e ho r single)
  | evaluate r =>
    rw [Op.alone, run_one]
    have key := error_agree e ho r
    refine lift_agree (b := (h.view r).evaluate e >>= fun y => .ok y.2) ?_
    change Agree _ (h.error e r >>= _) (((h.view r).error e >>= _) >>= _)
    revert key
    cases h.error e r with
    | ok x =>
      cases (h.view r).error e with
      | ok y =>
        rintro ⟨-, h2⟩
        obtain ⟨lam, s⟩ := y
        obtain rfl : x.2.view r = s := h2.self
        have hl : (x.2.view r).planes.length = (x.2.reg r).refs.length := List.length_map ..
        simp only [Out.ok_bind]
        rw [hl, show (x.2.view r).numberPlanes = (x.2.reg r).base.numberPlanes from rfl]
        split_ifs
        · trivial
        · exact h2
      | nan => exact fun hh => hh.elim
      | ub => exact fun hh => hh.elim
      | throw => exact fun hh => hh.elim
    | nan => cases (h.view r).error e <;> first | exact fun hh => hh.elim | exact fun _ => trivial
    | ub => cases (h.view r).error e <;> first | exact fun hh => hh.elim | exact fun _ => trivial
    | throw => cases (h.view r).error e <;> first | exact fun hh => hh.elim | exact fun _ => trivial

end PlaneHeap

end Mrob
