import Verif.Lemmas.PlaneHeapSolve
import Verif.Lemmas.PlaneInit
import Verif.Props.SE3Ln
import Verif.Props.Plane
import Verif.Props.PlaneReg

/-!
# C82: registrations do not influence each other
-/

open Matrix Spec

namespace Mrob

open PlaneHeap

/-- No call of a history hands over a plane that is in use. -/
def PlaneHeap.ExclusiveRun (e : EigSolver) (svd : Mat3 → SVD3) : List Op → PlaneHeap → Prop
  | [], _ => True
  | op :: ops, h => op.Exclusive h ∧ ∀ h', op.run e svd h = .ok h' → ExclusiveRun e svd ops h'

/-- C82, one call: a call that hands over no plane in use elsewhere leaves all other registrations, with their planes, as they
are; on its own registration it acts as on an object that has its planes to itself, and it fails exactly if that fails. -/
theorem C82_step_partial (e : EigSolver) (svd : Mat3 → SVD3) (h : PlaneHeap) (ho : h.Owned) (op : Op) (hx : op.Exclusive h) :
    (∀ h', op.run e svd h = .ok h' → h'.Owned ∧ (∀ r, r ≠ op.target → h'.obj r = h.obj r) ∧
      PlaneReg.run e svd (op.alone h) (h.obj op.target) = .ok (h'.obj op.target)) ∧
    (op.run e svd h = .ub ↔ PlaneReg.run e svd (op.alone h) (h.obj op.target) = .ub) ∧
    (op.run e svd h = .nan ↔ PlaneReg.run e svd (op.alone h) (h.obj op.target) = .nan) ∧
    (op.run e svd h = .throw ↔ PlaneReg.run e svd (op.alone h) (h.obj op.target) = .throw) := by
  have h1 := op_agree e svd ho op hx
  cases ha : op.run e svd h <;> cases hb : PlaneReg.run e svd (op.alone h) (h.obj op.target) <;> rw [ha, hb] at h1 <;>
    first | exact h1.elim | simp
  obtain ⟨h2, h3, h4⟩ := h1
  exact ⟨h2, h4, h3.symm⟩

theorem PlaneHeap.run_owned {e : EigSolver} {svd : Mat3 → SVD3} (ops : List Op) {h h' : PlaneHeap} (ho : h.Owned)
    (hx : ExclusiveRun e svd ops h) (hr : PlaneHeap.run e svd ops h = .ok h') : h'.Owned := by
  induction ops generalizing h with
  | nil => cases hr; exact ho
  | cons op ops ih =>
    obtain ⟨h1, h2, h3⟩ := Out.bind_eq_ok.mp hr
    exact ih ((C82_step_partial e svd h ho op hx.1).1 h1 h2).1 (hx.2 h1 h2) h3

open Classical in
/-- The calls of a history that concern a registration, as calls on an object with planes of its own. -/
noncomputable def PlaneHeap.callsOf (e : EigSolver) (svd : Mat3 → SVD3) (r : RRef) : List Op → PlaneHeap → List PlaneReg.Op
  | [], _ => []
  | op :: ops, h => (if op.target = r then op.alone h else []) ++
      match op.run e svd h with
      | .ok h' => callsOf e svd r ops h'
      | _ => []

theorem PlaneHeap.run_append (e : EigSolver) (svd : Mat3 → SVD3) (l l' : List PlaneReg.Op) (s : OptDense PlaneReg) :
    PlaneReg.run e svd (l ++ l') s = PlaneReg.run e svd l s >>= fun s => PlaneReg.run e svd l' s := by
  induction l generalizing s with
  | nil => rfl
  | cons op l ih =>
    change op.run e svd s >>= (fun s => PlaneReg.run e svd (l ++ l') s) = (op.run e svd s >>= _) >>= _
    cases op.run e svd s with
    | ok x => exact ih x
    | nan => rfl
    | ub => rfl
    | throw => rfl

/-- C82, histories: after every history of calls on any number of registrations, with whatever solver, that hands over no plane
in use, each registration is what the calls made for it alone would have made of it. -/
theorem C82_history_partial (e : EigSolver) (svd : Mat3 → SVD3) (h₀ h : PlaneHeap) (ho : h₀.Owned) (ops : List Op)
    (hx : ExclusiveRun e svd ops h₀) (hr : PlaneHeap.run e svd ops h₀ = .ok h) (r : RRef) :
    PlaneReg.run e svd (callsOf e svd r ops h₀) (h₀.obj r) = .ok (h.obj r) := by
  induction ops generalizing h₀ with
  | nil => cases hr; rfl
  | cons op ops ih =>
    obtain ⟨h1, h2, h3⟩ := Out.bind_eq_ok.mp hr
    obtain ⟨k1, k2, k3⟩ := (C82_step_partial e svd h₀ ho op hx.1).1 h1 h2
    have k4 := ih h1 k1 (hx.2 h1 h2) h3
    rw [callsOf, h2, PlaneHeap.run_append]
    by_cases hop : op.target = r
    · subst hop
      rw [if_pos rfl, k3]
      exact k4
    · rw [if_neg hop, ← k2 r (Ne.symm hop)]
      exact k4

/-- C82, error: after every history without shared planes, `get_current_error` of each registration is the error of its planes
at its own trajectory, and evaluating it leaves the other registrations alone. -/
theorem C82_error_partial (e : EigSolver) (svd : Mat3 → SVD3) (h₀ h : PlaneHeap) (h0 : ∀ r, (h₀.reg r).refs = [])
    (ops : List Op) (hx : ExclusiveRun e svd ops h₀) (hr : PlaneHeap.run e svd ops h₀ = .ok h) (r : RRef) :
    (∀ lam h', h.error e r = .ok (lam, h') → (h.view r).error e = .ok (lam, h'.view r) ∧ ∀ r', r' ≠ r → h'.obj r' = h.obj r') ∧
    ∀ lam s, (h.view r).error e = .ok (lam, s) → ∃ h', h.error e r = .ok (lam, h') ∧ h'.view r = s := by
  have ho : h.Owned := run_owned ops ⟨fun r q hq => (by rw [h0 r] at hq; cases hq), fun r => (by rw [h0 r]; exact List.nodup_nil),
    fun r => by rw [h0 r]; exact List.nodup_nil⟩ hx hr
  have key := error_agree e ho r
  constructor
  · intro lam h' he
    rw [he] at key
    cases hb : (h.view r).error e with
    | ok y =>
      rw [hb] at key
      obtain ⟨k1, k2⟩ := key
      exact ⟨congrArg Out.ok (Prod.ext k1.symm k2.self.symm), k2.call.other⟩
    | nan => rw [hb] at key; exact key.elim
    | ub => rw [hb] at key; exact key.elim
    | throw => rw [hb] at key; exact key.elim
  · intro lam s hs
    rw [hs] at key
    cases ha : h.error e r with
    | ok y =>
      rw [ha] at key
      obtain ⟨k1, k2⟩ := key
      exact ⟨y.2, congrArg Out.ok (Prod.ext k1 rfl), k2.self⟩
    | nan => rw [ha] at key; exact key.elim
    | ub => rw [ha] at key; exact key.elim
    | throw => rw [ha] at key; exact key.elim

/-! ### Shared planes -/

theorem scene_fold (r : RRef) (l : List (ℕ × PRef)) (h : PlaneHeap) :
    let g := l.foldl (fun h q => (h.setPlane q.2 (h.plane q.2).reset).addPlane r q.1 q.2) h
    (∀ r', r' ≠ r → g.reg r' = h.reg r') ∧ (g.reg r).base = (h.reg r).base ∧
    (∀ q ∈ l, g.traj q.2 = some r) ∧ (∀ p, (∀ q ∈ l, q.2 ≠ p) → g.traj p = h.traj p) ∧
    ∀ q ∈ (g.reg r).refs, q ∈ (h.reg r).refs ∨ q ∈ l := by
  induction l generalizing h with
  | nil => exact ⟨fun _ _ => rfl, rfl, by simp, fun _ _ => rfl, fun q hq => .inl hq⟩
  | cons q qs ih =>
    obtain ⟨h1, h2, h3, h4, h5⟩ := ih ((h.setPlane q.2 (h.plane q.2).reset).addPlane r q.1 q.2)
    have a1 : ∀ (h : PlaneHeap) (r' : RRef), r' ≠ r → (h.addPlane r q.1 q.2).reg r' = h.reg r' := fun h r' hr => by
      unfold addPlane; dsimp only; split
      · rfl
      · exact setReg_of_ne _ _ hr
    have a2 : ∀ h : PlaneHeap, ((h.addPlane r q.1 q.2).reg r).base = (h.reg r).base := fun h => by
      unfold addPlane; dsimp only; split
      · rfl
      · rw [setReg_self]
    have a3 : ∀ h : PlaneHeap, (h.addPlane r q.1 q.2).traj = Function.update h.traj q.2 (some r) := fun h => by
      unfold addPlane; dsimp only; split <;> rfl
    have a4 : ∀ (h : PlaneHeap), ∀ q' ∈ ((h.addPlane r q.1 q.2).reg r).refs, q' ∈ (h.reg r).refs ∨ q' = q := fun h q' hq => by
      unfold addPlane at hq; dsimp only at hq; split at hq
      · exact .inl hq
      · rw [setReg_self] at hq
        rcases List.mem_append.mp hq with hq | hq
        · exact .inl hq
        · exact .inr (by simpa using hq)
    refine ⟨fun r' hr => (h1 r' hr).trans (a1 _ r' hr), h2.trans (a2 _), fun q' hq' => ?_, fun p hp => ?_, fun q' hq' => ?_⟩
    · by_cases hm : ∃ q'' ∈ qs, q''.2 = q'.2
      · obtain ⟨q'', hq'', he⟩ := hm
        rw [← he]; exact h3 q'' hq''
      · push Not at hm
        rw [List.foldl_cons, h4 q'.2 hm, a3]
        rcases List.mem_cons.mp hq' with rfl | hq'
        · exact Function.update_self ..
        · exact absurd rfl (hm q' hq')
    · rw [List.foldl_cons, h4 p fun q' hq' => hp q' (by simp [hq']), a3, Function.update_of_ne fun he => hp q (by simp) he.symm]
      rfl
    · rcases h5 q' hq' with h' | h'
      · rcases a4 _ q' h' with h'' | h''
        · exact .inl h''
        · exact .inr (by simp [h''])
      · exact .inr (by simp [h'])

/-- Two registrations made from one scene: whatever pose is then set in the first one, its `get_current_error` is evaluated at
the trajectory of the second one, all of whose poses are the identity. -/
theorem C82_shared_trajectory (e : EigSolver) (svd : Mat3 → SVD3) (h : PlaneHeap) (ho : h.Owned) (r r' : RRef) (hne : r ≠ r') (a n : ℕ)
    (l : List (ℕ × PRef)) (hx : (Op.fromScene r a n l).Exclusive h) (T : SE3) (h' : PlaneHeap)
    (hr : PlaneHeap.run e svd [.fromScene r a n l, .fromScene r' a n l, .setLastPose r T] h = .ok h') :
    Agree (fun x y => x.1 = y.1) (h'.error e r)
      ({ h'.view r with traj := List.replicate (n % 2 ^ 32) SE3.default }.error e) := by
  simp only [PlaneHeap.run, Op.run, Out.ok_bind] at hr
  set h1 := h.fromScene r a n l with hh1
  set h2 := h1.fromScene r' a n l with hh2
  obtain ⟨h3, e1, e2⟩ := Out.bind_eq_ok.mp hr
  obtain ⟨b, e3, e4⟩ := Out.bind_eq_ok.mp e1
  cases e2
  cases e4
  have o1 : h1.Owned := ((C82_step_partial e svd h ho (.fromScene r a n l) hx).1 h1 rfl).1
  obtain ⟨-, -, f3, -, f5⟩ := scene_fold r l (h.setNumbers r a n)
  obtain ⟨g1, g2, g3, -, -⟩ := scene_fold r' l (h1.setNumbers r' a n)
  have hrefs : (h2.reg r).refs = (h1.reg r).refs := by
    rw [hh2, PlaneHeap.fromScene, g1 r hne, PlaneHeap.setNumbers, setReg_of_ne _ _ hne]
  have hrefs' : ((h2.setBase r b).reg r).refs = (h1.reg r).refs := by rw [setBase, setReg_self, ← hrefs]
  have hsub : ∀ q ∈ (h1.reg r).refs, q ∈ l := fun q hq => by
    rcases f5 q hq with h' | h'
    · rw [PlaneHeap.setNumbers, setReg_self] at h'; cases h'
    · exact h'
  have htraj : ((h2.setBase r b).reg r').base.traj = List.replicate (n % 2 ^ 32) SE3.default := by
    rw [setBase, setReg_of_ne _ _ hne.symm, hh2, PlaneHeap.fromScene, g2, PlaneHeap.setNumbers, setReg_self]
    rfl
  have key := each_agree (estimate e) (fun p => p.estimate e (List.replicate (n % 2 ^ 32) SE3.default))
    ((h2.setBase r b).reg r).refs (by rw [hrefs']; exact o1.nodup r) (h2.setBase r b) fun q hq h' k1 k2 => by
      rw [hrefs'] at hq
      rw [estimate, k1, show (h2.setBase r b).traj q.2 = some r' from g3 q (hsub q hq)]
      dsimp only
      rw [k2, htraj]
  unfold PlaneHeap.error PlaneReg.error PlaneReg.eachPlane
  rw [show ∀ {α β γ : Type} (x : Out α) (f : α → Out β) (g : β → Out γ), x >>= f >>= g = x >>= fun a => f a >>= g from
    fun x f g => by cases x <;> rfl]
  refine Agree.bind key ?_
  rintro x y - - ⟨k1, -⟩
  exact congrArg List.sum k1

namespace Demo

/-- Three points of the plane `z = 0` seen from each of two poses. -/
noncomputable def floorPlane : Plane :=
  ⟨2, [[corner0, corner1, corner2], [corner0, corner1, corner2]], 6, none, 0, [], [], none, none⟩

/-- A heap of such planes and of new registrations. -/
noncomputable def floorHeap : PlaneHeap := ⟨fun _ => floorPlane, fun _ => none, fun _ => ⟨[], PlaneReg.new, .new ()⟩⟩

theorem floor_pushed (e : EigSolver) : Plane.run e [.push corner0 0, .push corner1 0, .push corner2 0, .push corner0 1,
    .push corner1 1, .push corner2 1] (Plane.new 2) = .ok floorPlane := rfl

/-- The registrations of `floorHeap` after the history of `C82_shared_fails`. -/
noncomputable def floorReg (traj : List SE3) : PlaneReg :=
  { PlaneReg.new with
    numberPlanes := 1, numberPoses := 2, planes := [(0, floorPlane.reset.reset)], traj := traj, prev := [0, 0] }

theorem floor_error (e : EigSolver) (traj : List SE3) (ht : traj.length = 2) : ∃ s',
    (floorReg traj).error e = .ok ((e.eig4 (Plane.qList traj (floorPlane.points.map sumOuter)).sum).val 0, s') := by
  have w : floorPlane.reset.reset.Wf := ⟨rfl, Or.inl rfl⟩
  have h := Plane.estimate_ok (e := e) (traj := traj) w (by rw [ht]; exact le_refl 2)
  have hu : floorPlane.reset.reset.usedS = floorPlane.points.map sumOuter := rfl
  rw [hu] at h
  have h2 := PlaneReg.eachPlane_ok (s := floorReg traj) (f := fun p => p.estimate e traj)
    (g := fun _ => (e.eig4 (Plane.qList traj (floorPlane.points.map sumOuter)).sum).val 0)
    (k := fun _ => floorPlane.reset.reset.estimated e traj (floorPlane.points.map sumOuter)) (fun q hq => by
      have : q = (0, floorPlane.reset.reset) := by simpa [floorReg] using hq
      rw [this, h])
  rw [PlaneReg.error]
  change ∃ s', ((floorReg traj).eachPlane fun p => p.estimate e traj) >>= _ = _
  rw [h2, Out.ok_bind]
  exact ⟨_, congrArg Out.ok (Prod.ext (by simp [floorReg]) rfl)⟩

theorem shiftZ_exp : SE3.ofVec shiftZ.lnVee = shiftZ := by
  have hR : shiftZ.R = 1 := tl3_homog _ _ _
  have ha : angle shiftZ.R = 0 := by
    rw [hR, angle, Matrix.trace_one, Fintype.card_fin]
    norm_num
  exact C13_exp_ln_partial (rigid_ofRt_one _) (.inl ha) (.inl (by rw [ha]; linarith [Real.pi_gt_three]))
    (.inl (by rw [ha]; linarith [Real.pi_gt_three]))

theorem floor_setLast : (PlaneReg.new.setNumbers 1 2).setLastPose shiftZ =
    .ok { PlaneReg.new.setNumbers 1 2 with traj := [SE3.default, shiftZ] } := by
  have ht : (PlaneReg.new.setNumbers 1 2).tau = 1 := by
    change 1 / (((2 + (2 ^ 32 - 1)) % 2 ^ 32 : ℕ) : ℝ) = 1
    norm_num
  have h1 : SE3.ofVec ((1 * ((1 : ℕ) : ℝ)) • shiftZ.lnVee) = shiftZ := by
    rw [Nat.cast_one, one_mul, one_smul, shiftZ_exp]
  rw [PlaneReg.setLastPose, ht, show (PlaneReg.new.setNumbers 1 2).times = [1] from rfl,
    show (PlaneReg.new.setNumbers 1 2).traj = [SE3.default, SE3.default] from rfl, PlaneReg.interpolate,
    if_pos (by simp), h1]
  rfl

theorem floor_run (e : EigSolver) (svd : Mat3 → SVD3) : ∃ h', PlaneHeap.run e svd [.fromScene 0 1 2 [(0, 0)], .fromScene 1 1 2 [(0, 0)],
    .setLastPose 0 shiftZ] floorHeap = .ok h' ∧ h'.view 0 = floorReg [SE3.default, shiftZ] := by
  simp only [PlaneHeap.run, Op.run, Out.ok_bind]
  rw [show (((floorHeap.fromScene 0 1 2 [(0, 0)]).fromScene 1 1 2 [(0, 0)]).reg 0).base = PlaneReg.new.setNumbers 1 2 from rfl,
    floor_setLast, Out.ok_bind, Out.ok_bind]
  exact ⟨_, rfl, rfl⟩

/-- The plane fits before the second pose moves. -/
theorem floor_zero (e : EigSolver) (he : e.Sound) :
    (e.eig4 (Plane.qList [SE3.default, SE3.default] (floorPlane.points.map sumOuter)).sum).val 0 = 0 := by
  have w : floorPlane.reset.reset.Wf := ⟨rfl, Or.inl rfl⟩
  have hest := Plane.estimate_ok (e := e) (traj := [SE3.default, SE3.default]) w (le_refl 2)
  have hu : floorPlane.reset.reset.usedS = floorPlane.points.map sumOuter := rfl
  rw [hu] at hest
  obtain ⟨pl0, -, -, h6⟩ := estimate_optimal he (fun T hT => by
    rw [show T = SE3.default by simpa using hT]; exact rigid_default.lastRow) w hu hest
  refine le_antisymm ?_ ?_
  · have := h6.2.2 (Sum.elim ![0, 0, 1] fun _ => 0) (by simp [Unit4, dotProduct, Fintype.sum_sum_type, Fin.sum_univ_three])
    simpa [planeCost, floorPlane, cloudCost, movePoint_default, planeEval, corner0, corner1, corner2,
      Fin.sum_univ_three] using this
  · rw [← h6.2.1]
    exact planeCost_nonneg _ _ _

/-- It does not fit afterwards. -/
theorem floor_pos (e : EigSolver) (he : e.Sound) :
    0 < (e.eig4 (Plane.qList [SE3.default, shiftZ] (floorPlane.points.map sumOuter)).sum).val 0 := by
  have w : floorPlane.reset.reset.Wf := ⟨rfl, Or.inl rfl⟩
  have hest := Plane.estimate_ok (e := e) (traj := [SE3.default, shiftZ]) w (le_refl 2)
  have hu : floorPlane.reset.reset.usedS = floorPlane.points.map sumOuter := rfl
  rw [hu] at hest
  obtain ⟨pl, -, -, h7⟩ := estimate_optimal he (fun T hT => by
    rcases List.mem_pair.mp hT with rfl | rfl
    · exact rigid_default.lastRow
    · exact (rigid_ofRt_one _).lastRow) w hu hest
  rw [← h7.2.1]
  have hx' : pl (.inl 0) ^ 2 + pl (.inl 1) ^ 2 + pl (.inl 2) ^ 2 + pl (.inr ()) ^ 2 = 1 := by
    rw [← show pl ⬝ᵥ pl = 1 from h7.1]
    simp [dotProduct, Fintype.sum_sum_type, Fin.sum_univ_three, pow_two]
  have e1 : planeCost pl ([SE3.default, shiftZ].map SE3.T) floorPlane.points =
      pl (.inr ()) ^ 2 + (pl (.inl 0) + pl (.inr ())) ^ 2 + (pl (.inl 1) + pl (.inr ())) ^ 2 +
        ((pl (.inl 2) + pl (.inr ())) ^ 2 + (pl (.inl 0) + pl (.inl 2) + pl (.inr ())) ^ 2 +
          (pl (.inl 1) + pl (.inl 2) + pl (.inr ())) ^ 2) := by
    simp [planeCost, floorPlane, cloudCost, movePoint_default, movePoint_ofRt_one, shiftZ, planeEval, corner0, corner1,
      corner2, Fin.sum_univ_three]
    ring
  rw [e1]
  generalize pl (.inl 0) = a at *
  generalize pl (.inl 1) = b at *
  generalize pl (.inl 2) = c at *
  generalize pl (.inr ()) = d at *
  by_contra hneg
  have z : d = 0 := by
    apply pow_eq_zero_iff (n := 2) (by norm_num) |>.mp
    nlinarith [sq_nonneg d, sq_nonneg (a + d), sq_nonneg (b + d), sq_nonneg (c + d), sq_nonneg (a + c + d),
      sq_nonneg (b + c + d)]
  subst z
  simp only [add_zero] at hneg
  nlinarith [sq_nonneg a, sq_nonneg b, sq_nonneg c, sq_nonneg (a + c), sq_nonneg (b + c)]

end Demo

/-- C82 is false for two registrations made from one scene: three points of a plane seen from two poses; in the first
registration the second pose is moved off the plane, `get_current_error` still reports zero, although the error of its planes
at its trajectory is positive. -/
theorem C82_shared_fails (e : EigSolver) (svd : Mat3 → SVD3) (he : e.Sound) : ∃ (h h' : PlaneHeap) (T : SE3),
    (∀ r, (h.reg r).refs = []) ∧ IsRigid T.T ∧
    PlaneHeap.run e svd [.fromScene 0 1 2 [(0, 0)], .fromScene 1 1 2 [(0, 0)], .setLastPose 0 T] h = .ok h' ∧
    (∃ h'', h'.error e 0 = .ok (0, h'')) ∧ ∃ lam s, (h'.view 0).error e = .ok (lam, s) ∧ 0 < lam := by
  obtain ⟨h', h1, h2⟩ := Demo.floor_run e svd
  refine ⟨Demo.floorHeap, h', shiftZ, fun _ => rfl, rigid_ofRt_one _, h1, ?_, ?_⟩
  · have key := C82_shared_trajectory e svd Demo.floorHeap ⟨fun _ _ h => (by cases h), fun _ => List.nodup_nil,
      fun _ => List.nodup_nil⟩ 0 1 (by norm_num) 1 2 [(0, 0)] ⟨by simp, by simp, fun _ _ _ h => (by cases h)⟩ shiftZ h' h1
    rw [h2] at key
    obtain ⟨s', hs'⟩ := Demo.floor_error e [SE3.default, SE3.default] rfl
    change Agree _ _ ((Demo.floorReg [SE3.default, SE3.default]).error e) at key
    rw [hs', Demo.floor_zero e he] at key
    cases ha : h'.error e 0 with
    | ok y =>
      rw [ha] at key
      exact ⟨y.2, congrArg Out.ok (Prod.ext key rfl)⟩
    | nan => rw [ha] at key; exact key.elim
    | ub => rw [ha] at key; exact key.elim
    | throw => rw [ha] at key; exact key.elim
  · obtain ⟨s', hs'⟩ := Demo.floor_error e [SE3.default, shiftZ] rfl
    rw [h2]
    exact ⟨_, s', hs', Demo.floor_pos e he⟩

/-- Two registrations with planes of their own: a scene for the first, a plane built point by point for the second. -/
example (e : EigSolver) (svd : Mat3 → SVD3) : ∃ h, ExclusiveRun e svd [.fromScene 0 1 2 [(0, 0)], .setNumbers 1 1 2, .addNewPlane 1 0 1,
      .pushPoint 1 0 1 corner1, .setLastPose 0 shiftZ] Demo.floorHeap ∧
    PlaneHeap.run e svd [.fromScene 0 1 2 [(0, 0)], .setNumbers 1 1 2, .addNewPlane 1 0 1,
      .pushPoint 1 0 1 corner1, .setLastPose 0 shiftZ] Demo.floorHeap = .ok h ∧
    (h.reg 0).refs = [(0, 0)] ∧ (h.reg 1).refs = [(0, 1)] ∧ ∃ lam s, (h.view 0).error e = .ok (lam, s) := by
  have hx : ExclusiveRun e svd [.fromScene 0 1 2 [(0, 0)], .setNumbers 1 1 2, .addNewPlane 1 0 1,
      .pushPoint 1 0 1 corner1, .setLastPose 0 shiftZ] Demo.floorHeap := by
    refine ⟨⟨by simp, by simp, fun _ _ _ h => (by cases h)⟩, fun _ h => ?_⟩
    cases h
    refine ⟨trivial, fun _ h => ?_⟩
    cases h
    refine ⟨fun r q hq => ?_, fun _ h => ?_⟩
    · have h0 : ∀ r, r ≠ 0 → r ≠ 1 → (((Demo.floorHeap.fromScene 0 1 2 [(0, 0)]).setNumbers 1 1 2).reg r).refs = [] :=
        fun r h0 h1 => by
          rw [PlaneHeap.setNumbers, setReg_of_ne _ _ h1, PlaneHeap.fromScene,
            (scene_fold 0 [(0, 0)] (Demo.floorHeap.setNumbers 0 1 2)).1 r h0, PlaneHeap.setNumbers, setReg_of_ne _ _ h0]
          rfl
      rcases eq_or_ne r 0 with rfl | r0
      · rw [List.mem_singleton.mp (show q ∈ [(0, 0)] from hq)]; norm_num
      · rcases eq_or_ne r 1 with rfl | r1
        · exact absurd (show q ∈ [] from hq) (by simp)
        · rw [h0 r r0 r1] at hq; cases hq
    cases h
    refine ⟨trivial, fun _ h => ?_⟩
    exact ⟨trivial, fun _ _ => trivial⟩
  obtain ⟨h1, hh1⟩ : ∃ h1, h1 = (((Demo.floorHeap.fromScene 0 1 2 [(0, 0)]).setNumbers 1 1 2).addNewPlane 1 0 1).setPlane 1
        ⟨2, [[], [corner1]], 1, none, 0, [], [], none, none⟩ := ⟨_, rfl⟩
  have r1 : PlaneHeap.run e svd [.fromScene 0 1 2 [(0, 0)], .setNumbers 1 1 2, .addNewPlane 1 0 1, .pushPoint 1 0 1 corner1,
      .setLastPose 0 shiftZ] Demo.floorHeap =
      .ok (h1.setBase 0 { PlaneReg.new.setNumbers 1 2 with traj := [SE3.default, shiftZ] }) := by
    simp only [PlaneHeap.run, Op.run, Out.ok_bind]
    rw [show (((Demo.floorHeap.fromScene 0 1 2 [(0, 0)]).setNumbers 1 1 2).addNewPlane 1 0 1).pushPoint 1 0 1 corner1 =
      .ok h1 from by rw [hh1]; rfl, Out.ok_bind, show (h1.reg 0).base = PlaneReg.new.setNumbers 1 2 by rw [hh1]; rfl,
      Demo.floor_setLast, Out.ok_bind, Out.ok_bind]
  refine ⟨_, hx, r1, by rw [hh1]; rfl, by rw [hh1]; rfl, ?_⟩
  obtain ⟨s, hs⟩ := Demo.floor_error e [SE3.default, shiftZ] rfl
  exact ⟨_, s, by rw [← hs, hh1]; rfl⟩

/-- Two scenes, the first registration is moved, the second one is solved: no plane is shared and the calls return. -/
example (e : EigSolver) (svd : Mat3 → SVD3) : ∃ h, ExclusiveRun e svd [.fromScene 0 1 2 [(0, 0)], .fromScene 1 1 2 [(0, 1)],
      .setLastPose 0 shiftZ, .solve 1 .gradientBengiosNag false] Demo.floorHeap ∧
    PlaneHeap.run e svd [.fromScene 0 1 2 [(0, 0)], .fromScene 1 1 2 [(0, 1)], .setLastPose 0 shiftZ,
      .solve 1 .gradientBengiosNag false] Demo.floorHeap = .ok h := by
  have hx : ExclusiveRun e svd [.fromScene 0 1 2 [(0, 0)], .fromScene 1 1 2 [(0, 1)], .setLastPose 0 shiftZ] Demo.floorHeap := by
    refine ⟨⟨by simp, by simp, fun _ _ _ h => (by cases h)⟩, fun _ h => ?_⟩
    cases h
    refine ⟨⟨by simp, by simp, fun r hr q hq q' hq' => ?_⟩, fun _ _ => ⟨trivial, fun _ _ => trivial⟩⟩
    rw [List.mem_singleton.mp hq']
    rcases eq_or_ne r 0 with rfl | r0
    · rw [List.mem_singleton.mp (show q ∈ [(0, 0)] from hq)]; norm_num
    · rw [PlaneHeap.fromScene, (scene_fold 0 [(0, 0)] (Demo.floorHeap.setNumbers 0 1 2)).1 r r0, PlaneHeap.setNumbers,
        setReg_of_ne _ _ r0] at hq
      cases hq
  obtain ⟨h1, hh1⟩ : ∃ h1, h1 = (Demo.floorHeap.fromScene 0 1 2 [(0, 0)]).fromScene 1 1 2 [(0, 1)] := ⟨_, rfl⟩
  obtain ⟨h2, hh2⟩ : ∃ h2, h2 = h1.setBase 0 { PlaneReg.new.setNumbers 1 2 with traj := [SE3.default, shiftZ] } := ⟨_, rfl⟩
  have hr : PlaneHeap.run e svd [.fromScene 0 1 2 [(0, 0)], .fromScene 1 1 2 [(0, 1)], .setLastPose 0 shiftZ] Demo.floorHeap =
      .ok h2 := by
    simp only [PlaneHeap.run, Op.run, Out.ok_bind]
    rw [← hh1, show (h1.reg 0).base = PlaneReg.new.setNumbers 1 2 by rw [hh1]; rfl, Demo.floor_setLast, Out.ok_bind,
      Out.ok_bind, ← hh2]
  have ho : h2.Owned := run_owned (h := Demo.floorHeap) _ ⟨fun _ _ h => (by cases h), fun _ => List.nodup_nil,
    fun _ => List.nodup_nil⟩ hx hr
  have hobj : PlaneReg.run e svd [.setNumbers 1 2, .addPlane 0 Demo.floorPlane.reset] (OptDense.new PlaneReg.new) =
      .ok (h2.obj 1) := by
    rw [hh2, hh1]; rfl
  have hpl : (h2.obj 1).obj.planes = [(0, Demo.floorPlane.reset)] := by rw [hh2, hh1]; rfl
  have hn : (h2.obj 1).obj.numberPoses = 2 := by rw [hh2, hh1]; rfl
  obtain ⟨x, hsol⟩ := (C69_iff_partial e svd false (h2.obj 1) (PlaneReg.run_inv PlaneReg.new_inv hobj) (by rw [hn]; norm_num)
    (fun q hq => by rw [hpl] at hq; rw [List.mem_singleton.mp hq]; exact ⟨rfl, Or.inl rfl⟩)
    (fun q hq => by rw [hpl] at hq; rw [List.mem_singleton.mp hq, hn]; rfl) (by rw [hh2, hh1]; exact List.cons_ne_nil _ _)).mpr
    fun t h0 ht => ⟨(0, Demo.floorPlane.reset), by rw [hpl]; simp, by
      rw [hn] at ht
      obtain rfl : t = 1 := by omega
      exact List.cons_ne_nil _ _⟩
  have key := op_agree e svd ho (.solve 1 .gradientBengiosNag false) trivial
  rw [Op.alone, run_one, show (Op.solve 1 .gradientBengiosNag false).target = 1 from rfl, show PlaneReg.Op.run e svd (.solve .gradientBengiosNag false) (h2.obj 1) = .ok x.2 from by
    change PlaneReg.solve e svd .gradientBengiosNag false (h2.obj 1) >>= _ = _
    rw [hsol]; rfl] at key
  obtain ⟨h3, hh3⟩ : ∃ h3, Op.run e svd (.solve 1 .gradientBengiosNag false) h2 = .ok h3 := by
    cases hc : Op.run e svd (.solve 1 .gradientBengiosNag false) h2 with
    | ok h3 => exact ⟨h3, rfl⟩
    | nan => rw [hc] at key; exact key.elim
    | ub => rw [hc] at key; exact key.elim
    | throw => rw [hc] at key; exact key.elim
  refine ⟨h3, ⟨hx.1, fun h' hh' => ⟨(hx.2 h' hh').1, fun h'' hh'' => ⟨trivial, fun _ _ => ⟨trivial, fun _ _ => trivial⟩⟩⟩⟩, ?_⟩
  obtain ⟨a1, b1, c1⟩ := Out.bind_eq_ok.mp hr
  obtain ⟨a2, b2, c2⟩ := Out.bind_eq_ok.mp c1
  obtain ⟨a3, b3, c3⟩ := Out.bind_eq_ok.mp c2
  cases c3
  simp only [PlaneHeap.run]
  rw [b1, Out.ok_bind, b2, Out.ok_bind, b3, Out.ok_bind, hh3]
  rfl

end Mrob
