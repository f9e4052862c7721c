import Verif.Lemmas.PlaneRegCost

/-! # Histories of `PlaneRegistration` which keep the trajectory interpolated -/

open Matrix

namespace Mrob

namespace PlaneReg

/-- The calls which set poses one by one (or last pose and intermediate poses independently) are left out; planes given to
the object have consistent sizes. -/
def Op.Smooth : Op → Prop
  | setLastPose _ | solveInitialize | gradientAllPoses _ => False
  | solve mode _ => mode ≠ .initialize ∧ mode ≠ .gradientAllPoses
  | addPlane _ p | external _ p => p.Wf
  | _ => True

/-- What smooth histories preserve. -/
structure Form (s : PlaneReg) : Prop where
  pose : s.PoseInv
  wf : s.PlanesWf
  interp : s.numberPoses ≠ 0 → s.Interpolated

theorem Form.frame {s s' : PlaneReg} (h : s.Form) (h1 : s'.numberPoses = s.numberPoses) (h2 : s'.traj = s.traj)
    (h3 : s'.prev = s.prev) (h4 : s'.planes = s.planes) : s'.Form := by
  refine ⟨h.pose.frame h1 h2 h3, by rw [PlanesWf, h4]; exact h.wf, fun hn => ?_⟩
  have := h.interp (by rw [← h1]; exact hn)
  rw [Interpolated, h1, h2]
  exact this

theorem Form.planes {s s' : PlaneReg} (h : s.Form) (h1 : PlanesOnly s s') (h2 : SamePlanes s s') : s'.Form := by
  refine ⟨h.pose.planesOnly h1, h2.wf, ?_⟩
  obtain ⟨ps, rfl⟩ := h1
  exact h.interp

theorem interpolated_replicate {s : PlaneReg} (h : s.traj = List.replicate s.numberPoses SE3.default) : s.Interpolated := by
  intro T hT t h0 h1
  have : T = SE3.default := by
    rw [h] at hT
    exact (List.mem_replicate.mp (List.mem_of_getLast? hT)).2
  rw [this, lnVee_default, smul_zero, h, List.getElem?_replicate, if_pos (by omega)]
  congr 1
  ext1
  rw [se3_ofVec_zero]
  rfl

theorem gradStep_form {e : EigSolver} {s : PlaneReg} {r : ℝ × PlaneReg} (hi : s.Form) (h : s.gradStep e = .ok r) :
    r.2.Form := by
  have hp := gradStep_inv hi.pose h
  rw [gradStep] at h
  obtain ⟨⟨c, s1⟩, h1, h⟩ := Out.bind_eq_ok.mp h
  obtain ⟨⟨acc, s2⟩, h2, h⟩ := Out.bind_eq_ok.mp h
  obtain ⟨⟨dxi, s3⟩, h3, h⟩ := Out.bind_eq_ok.mp h
  obtain ⟨s4, h4, h⟩ := Out.bind_eq_ok.mp h
  cases h
  have f1 := hi.planes (error_frame h1) (error_ok hi.wf h1).2.1
  obtain ⟨fr2, z2⟩ := accGradient_frame h2
  have f2 : s2.Form := f1.planes fr2 (accGradient_same f1.wf h2)
  have e2 : s2.numberPoses = 1 → acc = 0 := by
    intro hn
    obtain ⟨ps, hps⟩ := fr2
    have hps : s2 = _ := hps
    exact z2 (PoseInv.times_single (by rw [hps] at hn; exact hn))
  obtain ⟨i3, -, n3, t3⟩ := increment_inv f2.pose e2 h3
  have p3 : s3.planes = s2.planes := by
    rw [increment] at h3
    split at h3
    · cases h3; rfl
    · split at h3
      · cases h3
      · cases h3; rfl
    · cases h3
  rw [moveLast] at h4
  obtain ⟨T, -, h4⟩ := Out.bind_eq_ok.mp h4
  refine ⟨hp, ?_, fun hn => ?_⟩
  · rw [placeLast] at h4
    obtain ⟨traj, -, h4⟩ := Out.bind_eq_ok.mp h4
    cases h4
    intro q hq
    have hq : q ∈ s3.planes := hq
    rw [p3] at hq
    exact f2.wf q hq
  · have e4 : s4.numberPoses = s3.numberPoses := by
      rw [placeLast] at h4
      obtain ⟨traj, -, h4⟩ := Out.bind_eq_ok.mp h4
      cases h4
      rfl
    have hn : s4.numberPoses ≠ 0 := hn
    rw [e4] at hn
    exact placeLast_interpolated h4 hn i3.bound (i3.len hn)

theorem interpolateGradient_form {e : EigSolver} {single : Bool} {s s' : PlaneReg} (hi : s.Form)
    (h : s.interpolateGradient e single = .ok s') : s'.Form :=
  gradLoop_inv (step := gradStep e) (s := { s with solveIters := 0 }) (fun _ _ h => h.frame rfl rfl rfl rfl)
    (fun _ _ => gradStep_form) (hi.frame rfl rfl rfl rfl) h

theorem optimizer_wf {e : EigSolver} {m : OptMethod} {maxIters : ℕ} {lambda : ℝ} {s : OptDense PlaneReg}
    {r : ℕ × OptDense PlaneReg} (hi : s.obj.PlanesWf) (h : s.solve (problem e) m maxIters lambda = .ok r) :
    r.2.obj.PlanesWf := by
  have hplace : ∀ {T : SE3} {s s' : PlaneReg}, s.PlanesWf → s.placeLast T = .ok s' → s'.PlanesWf := by
    intro T s s' hs h
    rw [placeLast] at h
    obtain ⟨traj, -, h⟩ := Out.bind_eq_ok.mp h
    cases h
    exact hs
  have hstep : ∀ (s s' : OptDense PlaneReg) (b : Bool), s.obj.PlanesWf → s.oneIteration (problem e) b = .ok s' →
      s'.obj.PlanesWf := by
    intro s s' b hi h
    obtain ⟨en, o, o', sys, h1, h2, -, rfl⟩ := OptDense.oneIteration_ok h
    change (gradHess6 e s.obj >>= _) = _ at h1
    obtain ⟨⟨⟨g6, H6⟩, s1⟩, h3, h1⟩ := Out.bind_eq_ok.mp h1
    dsimp only at h1
    rw [Out.ok.injEq, Prod.mk.injEq] at h1
    obtain ⟨rfl, rfl⟩ := h1
    dsimp only at h2
    rw [problem_update, moveLast] at h2
    obtain ⟨T, -, h2⟩ := Out.bind_eq_ok.mp h2
    exact hplace (gradHess6_same hi h3).wf h2
  refine (OptDense.solve_inv (I := PlanesWf) (J := PlanesWf) (K := fun _ => True) (fun o h => h) ?_ ?_ ?_ hstep hstep ?_ ?_ ?_ ?_
    hi h).1
  · intro o o' hi h
    obtain ⟨T, hT, rfl⟩ := bookkeep_ok h
    exact hi
  · intro o r hi h; exact (error_ok hi h).2.1.wf
  · intro o r hi h; exact (error_ok hi h).2.1.wf
  · intro o o' hi h
    obtain ⟨s1, h1, -, c, h2⟩ := restore_ok h
    exact (error_ok (hplace hi h1) h2).2.1.wf
  · intros; trivial
  · intros; trivial
  · intros; trivial

theorem solve_form {e : EigSolver} {svd : Mat3 → SVD3} {mode : SolveMode} {single : Bool} {s : OptDense PlaneReg}
    {r : ℕ × OptDense PlaneReg} (hi : s.obj.Form) (hm : mode ≠ .initialize ∧ mode ≠ .gradientAllPoses)
    (h : solve e svd mode single s = .ok r) : r.2.obj.Form := by
  rw [solve] at h
  obtain ⟨⟨c, o⟩, h1, h⟩ := Out.bind_eq_ok.mp h
  have i0 : Form { s.obj with mode := mode } := hi.frame rfl rfl rfl rfl
  have i1 : Form { o with initialError := c } :=
    (i0.planes (error_frame h1) (error_ok i0.wf h1).2.1).frame rfl rfl rfl rfl
  have opt : ∀ {m : OptMethod} {k : ℕ} {l : ℝ} {x : OptDense PlaneReg} {r : ℕ × OptDense PlaneReg}, x.obj.Form →
      x.solve (problem e) m k l = .ok r → (storeIters r).obj.Form := by
    intro m k l x r hx hr
    obtain ⟨a, b⟩ := optimizer_inv hx.pose hr
    exact Form.frame (s := r.2.obj) ⟨a, optimizer_wf hx.wf hr, b⟩ rfl rfl rfl rfl
  dsimp only at h
  split at h
  · exact absurd rfl hm.1
  · exact absurd rfl hm.2
  · obtain ⟨s2, h2, h⟩ := Out.bind_eq_ok.mp h
    cases h
    exact lift_inv (I := Form) (fun _ _ => interpolateGradient_form) i1 h2
  · obtain ⟨s2, h2, h⟩ := Out.bind_eq_ok.mp h
    cases h
    exact opt i1 h2
  · cases h; exact i1
  · obtain ⟨s2, h2, h⟩ := Out.bind_eq_ok.mp h
    cases h
    exact opt i1 h2
  · obtain ⟨s2, h2, h⟩ := Out.bind_eq_ok.mp h
    cases h
    exact opt i1 h2
  · cases h; exact i1

theorem emplace_form {s : PlaneReg} (hi : s.Form) (id : ℕ) {p : Plane} (hp : p.Wf) : (s.emplace id p).Form := by
  rw [emplace]
  split
  · exact hi
  · refine ⟨hi.pose.frame rfl rfl rfl, fun q hq => ?_, hi.interp⟩
    rcases List.mem_append.mp hq with hq | hq
    · exact hi.wf q hq
    · rw [List.mem_singleton.mp hq]; exact hp

theorem replacePlane_form {s : PlaneReg} (hi : s.Form) (id : ℕ) {p : Plane} (hp : p.Wf) : (s.replacePlane id p).Form := by
  refine ⟨hi.pose.frame rfl rfl rfl, fun q hq => ?_, hi.interp⟩
  obtain ⟨x, hx, rfl⟩ := List.mem_map.mp hq
  split
  · exact hp
  · exact hi.wf x hx

theorem op_form {e : EigSolver} {svd : Mat3 → SVD3} {op : Op} {s s' : OptDense PlaneReg} (hi : s.obj.Form)
    (hop : op.Smooth) (h : op.run e svd s = .ok s') : s'.obj.Form := by
  cases op with
  | setNumbers a b =>
    cases h
    exact ⟨setNumbers_inv _ _ _, fun q hq => by simp [setNumbers] at hq, fun _ => interpolated_replicate rfl⟩
  | resetSolution =>
    cases h
    exact ⟨resetSolution_inv hi.pose, hi.wf, fun _ => interpolated_replicate rfl⟩
  | addPlane id p => cases h; exact emplace_form hi _ hop
  | addNewPlane id => cases h; exact emplace_form hi _ (Plane.new_wf _)
  | pushPoint id t x =>
    refine lift_inv (I := Form) (fun o o' hi h => ?_) hi h
    rw [pushPoint] at h
    split at h
    · cases h
    · rename_i q hq
      obtain ⟨p, h1, h⟩ := Out.bind_eq_ok.mp h
      cases h
      exact replacePlane_form hi _ (Plane.push_wf (hi.wf q (List.mem_of_find?_eq_some hq)) h1)
  | setLastPose T => exact absurd hop id
  | setAlpha a => cases h; exact hi.frame rfl rfl rfl rfl
  | setBeta b => cases h; exact hi.frame rfl rfl rfl rfl
  | solve mode single =>
    obtain ⟨r, h1, h⟩ := Out.bind_eq_ok.mp h
    cases h
    exact solve_form hi hop h1
  | solveInitialize => exact absurd hop id
  | interpolateGradient single => exact lift_inv (I := Form) (fun _ _ => interpolateGradient_form) hi h
  | gradientAllPoses single => exact absurd hop id
  | currentError =>
    refine lift_inv (f := fun o => o.error e >>= fun r => .ok r.2) (I := Form) (fun o o' hi h => ?_) hi h
    obtain ⟨r, h1, h⟩ := Out.bind_eq_ok.mp h
    cases h
    exact hi.planes (error_frame h1) (error_ok hi.wf h1).2.1
  | evaluate =>
    refine lift_inv (f := fun o => o.evaluate e >>= fun r => .ok r.2) (I := Form) (fun o o' hi h => ?_) hi h
    obtain ⟨r, h1, h⟩ := Out.bind_eq_ok.mp h
    cases h
    rw [evaluate] at h1
    obtain ⟨⟨c, s1⟩, h2, h1⟩ := Out.bind_eq_ok.mp h1
    dsimp only at h1
    split at h1
    · cases h1
    · cases h1
      exact hi.planes (error_frame h2) (error_ok hi.wf h2).2.1
  | external id p => cases h; exact replacePlane_form hi _ hop

theorem new_form : new.Form := ⟨new_inv, fun q hq => by simp [new] at hq, fun h => absurd rfl h⟩

theorem run_form {e : EigSolver} {svd : Mat3 → SVD3} {ops : List Op} {s s' : OptDense PlaneReg} (hi : s.obj.Form)
    (hops : ∀ op ∈ ops, op.Smooth) (h : run e svd ops s = .ok s') : s'.obj.Form := by
  induction ops generalizing s with
  | nil => cases h; exact hi
  | cons op ops ih =>
    obtain ⟨s1, h1, h⟩ := Out.bind_eq_ok.mp h
    exact ih (op_form hi (hops op List.mem_cons_self) h1) (fun o ho => hops o (List.mem_cons_of_mem _ ho)) h

end PlaneReg

end Mrob
