import Verif.Lemmas.PlaneRegTotal

/-! # Levenberg-Marquardt when the later poses see no points: the trajectory stays -/

open Matrix

namespace Mrob

namespace PlaneReg

/-- Estimated planes without points after the first pose. -/
def ZeroQ (s : PlaneReg) : Prop :=
  ∀ q ∈ s.planes, (∃ pl, q.2.plane = some pl) ∧ ∀ t, 0 < t → t < s.numberPoses → q.2.Q[t]? = some 0

theorem gradRows_zero (i : I6) : gradRows 0 i = 0 := by
  rcases i with i | i <;> fin_cases i <;>
    (ext a b; rcases a with a | a; fin_cases a <;> simp [gradRows, rows4]; simp [gradRows, rows4])

theorem gradOf_zero : gradOf 0 = 0 := by
  funext i
  rw [gradOf, gradRows_zero]
  simp

theorem ddQ_zero (i j : I6) : ddQ 0 0 i j = 0 := by simp [ddQ]

theorem gradHessAt_zero {s : PlaneReg} (h : s.ZeroQ) {t : ℕ} (h0 : 0 < t) (h1 : t < s.numberPoses) :
    ∃ s', s.gradHessAt t = .ok ((0, 0), s') ∧ s'.ZeroQ := by
  have key : ∀ q ∈ s.planes, (q.2.gradient t >>= fun (g, p) => p.hessian t >>= fun H => Out.ok ((g, H), p)) =
      .ok ((0, 0), { q.2 with gradQ := some (gradOf 0) }) := by
    intro q hq
    obtain ⟨⟨pl, hpl⟩, hQ⟩ := h q hq
    have hg : q.2.gradient t = .ok (0, { q.2 with gradQ := some (gradOf 0) }) := by
      rw [Plane.gradient, Out.index_eq_ok.mpr (hQ t h0 h1), Out.ok_bind]
      simp only [hpl]
      rw [gradOf_zero]
      congr 2
      ext i
      simp
    rw [hg, Out.ok_bind]
    dsimp only
    rw [Plane.hessian]
    dsimp only
    rw [Out.index_eq_ok.mpr (hQ t h0 h1), Out.ok_bind]
    simp only [hpl]
    rw [Out.ok_bind]
    congr 3
    ext i j
    rw [gradOf_zero]
    simp [ddQ_zero]
  refine ⟨{ s with planes := s.planes.map fun q => (q.1, { q.2 with gradQ := some (gradOf 0) }) }, ?_, ?_⟩
  · rw [gradHessAt, eachPlane_ok (g := fun _ => ((0 : Vec6), (0 : Mat6))) (k := fun p => { p with gradQ := some (gradOf 0) }) key,
      Out.ok_bind]
    simp
  · intro q' hq'
    obtain ⟨q, hq, rfl⟩ := List.mem_map.mp hq'
    exact h q hq

theorem symUpper_zero : symUpper 0 = 0 := by
  ext i j
  simp [symUpper]

theorem gradHessLoop_zero {n : ℕ} : ∀ (l : List ℕ) (s : PlaneReg), s.numberPoses = n → s.ZeroQ → (∀ t ∈ l, 0 < t ∧ t < n) →
    ∃ r s', Out.mapAccum (fun t s => gradHessAt t s >>= fun ((g, H), s) =>
      .ok (((s.tau * t) • g, (s.tau * t) • symUpper H), s)) l s = .ok (r, s') ∧ ∀ x ∈ r, x = (0, 0) := by
  intro l
  induction l with
  | nil => intro s _ _ _; exact ⟨[], s, rfl, by simp⟩
  | cons a l ih =>
    intro s hn h hb
    obtain ⟨s1, h1, z1⟩ := gradHessAt_zero h (hb a List.mem_cons_self).1 (by rw [hn]; exact (hb a List.mem_cons_self).2)
    have n1 : s1.numberPoses = n := by
      obtain ⟨ps, hps⟩ := gradHessAt_frame h1
      have hps : s1 = _ := hps
      rw [hps]
      exact hn
    obtain ⟨r, s', h2, h3⟩ := ih s1 n1 z1 fun t ht => hb t (List.mem_cons_of_mem _ ht)
    refine ⟨(0, 0) :: r, s', ?_, fun x hx => ?_⟩
    · rw [Out.mapAccum, h1, Out.ok_bind]
      dsimp only
      rw [symUpper_zero, smul_zero, smul_zero, Out.ok_bind]
      dsimp only
      rw [h2, Out.ok_bind]
    · rcases List.mem_cons.mp hx with rfl | hx
      · rfl
      · exact h3 x hx

/-- Planes with points in the first pose only. -/
structure Still (s : PlaneReg) : Prop where
  exact : s.Exact
  time : ∀ q ∈ s.planes, q.2.timeLength = s.numberPoses
  sync : ∀ q ∈ s.planes, q.2.InSync
  empty : ∀ q ∈ s.planes, ∀ t, 0 < t → q.2.cloudAt t = []

theorem gradHess6_still {e : EigSolver} {s : PlaneReg} (h : s.Still) : ∃ s', s.gradHess6 e = .ok ((0, 0), s') := by
  have hn0 : s.numberPoses ≠ 0 := by have := h.exact.two; omega
  have hl := h.exact.pose.len hn0
  have hes : ∀ q ∈ s.planes, q.2.estimate e s.traj = .ok ((e.eig4 (Plane.qList s.traj q.2.usedS).sum).val 0,
      q.2.estimated e s.traj q.2.usedS) := fun q hq =>
    Plane.estimate_ok (h.exact.wf q hq) (by rw [h.time q hq, hl])
  set s1 : PlaneReg := { s with planes := s.planes.map fun q => (q.1, q.2.estimated e s.traj q.2.usedS) } with hs1
  have herr : ∃ c, s.error e = .ok (c, s1) := ⟨_, by
    rw [error, eachPlane_ok (g := fun p => (e.eig4 (Plane.qList s.traj p.usedS).sum).val 0)
      (k := fun p => p.estimated e s.traj p.usedS) hes, Out.ok_bind]⟩
  obtain ⟨c, herr⟩ := herr
  have hz : s1.ZeroQ := by
    intro q' hq'
    obtain ⟨q, hq, rfl⟩ := List.mem_map.mp hq'
    refine ⟨⟨_, rfl⟩, fun t h0 h1 => ?_⟩
    have h1 : t < s.numberPoses := h1
    have hu : q.2.usedS.length = s.numberPoses := by rw [Plane.usedS_length (h.exact.wf q hq), h.time q hq]
    change (Plane.qList s.traj q.2.usedS)[t]? = _
    have hS : q.2.usedS[t]'(by omega) = 0 := by
      have hp : q.2.points.length = s.numberPoses := by rw [(h.exact.wf q hq).pts, h.time q hq]
      have : q.2.usedS[t]? = some 0 := by
        rw [Plane.usedS_inSync (h.sync q hq), List.getElem?_map, Plane.cloudAt_of_lt (by omega), h.empty q hq t h0]
        rfl
      exact Option.some.inj ((List.getElem?_eq_getElem (by omega)).symm.trans this)
    have h2 : t < (Plane.qList s.traj q.2.usedS).length := by rw [Plane.qList_length (by omega)]; omega
    rw [List.getElem?_eq_getElem h2, Plane.qList_getElem (by omega) (by omega) h2, hS]
    simp
  obtain ⟨r, s', h2, h3⟩ := gradHessLoop_zero s1.times s1 rfl hz fun t ht => by
    rw [times, List.mem_range'_1] at ht
    exact ⟨by omega, by omega⟩
  refine ⟨s', ?_⟩
  rw [gradHess6, herr, Out.ok_bind]
  dsimp only
  rw [h2, Out.ok_bind]
  dsimp only
  rw [List.sum_eq_zero fun x hx => by obtain ⟨y, hy, rfl⟩ := List.mem_map.mp hx; rw [h3 y hy],
    List.sum_eq_zero fun x hx => by obtain ⟨y, hy, rfl⟩ := List.mem_map.mp hx; rw [h3 y hy]]

theorem bookkeep_total {s : PlaneReg} (h : s.Exact) : ∃ T, s.traj.getLast? = some T ∧ s.bookkeep = .ok { s with booked := T } := by
  have hn0 : s.numberPoses ≠ 0 := by have := h.two; omega
  have hl := h.pose.len hn0
  have hne : s.traj ≠ [] := by
    intro hh
    rw [hh] at hl
    exact hn0 hl.symm
  refine ⟨_, List.getLast?_eq_getLast_of_ne_nil hne, ?_⟩
  rw [bookkeep, lastPose_eq hne, Out.ok_bind]

theorem Still.error {e : EigSolver} {s o1 : PlaneReg} {c : ℝ} (h : s.Still) (h1 : s.error e = .ok (c, o1)) : o1.Still := by
  have hn0 : s.numberPoses ≠ 0 := by have := h.exact.two; omega
  have sp1 : SamePlanes s o1 := (error_ok h.exact.wf h1).2.1
  have e1 : Exact o1 := h.exact.planes (error_frame h1) sp1
  have n1 : o1.numberPoses = s.numberPoses := by
    obtain ⟨ps, hps⟩ := error_frame h1
    have hps : o1 = _ := hps
    rw [hps]
  refine ⟨e1, by rw [n1]; exact sp1.timeLength h.time, ?_, ?_⟩
  · intro q hq
    have he := h1
    rw [PlaneReg.error, eachPlane_ok (g := fun p => (e.eig4 (Plane.qList s.traj p.usedS).sum).val 0)
      (k := fun p => p.estimated e s.traj p.usedS) (fun q hq => Plane.estimate_ok (h.exact.wf q hq)
        (by rw [h.time q hq, h.exact.pose.len hn0])), Out.ok_bind] at he
    have he := (Prod.mk.inj (Out.ok.inj he)).2
    rw [← he] at hq
    obtain ⟨q', hq', rfl⟩ := List.mem_map.mp hq
    right
    change q'.2.usedS = q'.2.points.map sumOuter
    exact Plane.usedS_inSync (h.sync q' hq')
  · intro q hq t ht
    have sp := sp1
    rw [SamePlanes, List.forall₂_iff_get] at sp
    obtain ⟨i, hi, rfl⟩ := List.getElem_of_mem hq
    have := sp.2 i (by rw [sp.1]; exact hi) hi
    have hp : o1.planes[i].2.points = _ := this.2.2.2.1
    have := h.empty _ (List.getElem_mem (by rw [sp.1]; exact hi : i < s.planes.length)) t ht
    rw [Plane.cloudAt] at this ⊢
    rw [hp]
    exact this

/-- Levenberg-Marquardt stops after one iteration. -/
theorem lm_still {e : EigSolver} {s : OptDense PlaneReg} (h : s.obj.Still) (ht : 0 < s.tol) {n : ℕ} {l : ℝ} (hl : 0 < l) :
    ∃ r, s.solve (problem e) .lmSpher n l = .ok r := by
  change ∃ r, OptDense.levenbergMarquardt (problem e) { s with method := .lmSpher, maxIters := n, lambda := l } = .ok r
  have hn0 : s.obj.numberPoses ≠ 0 := by have := h.exact.two; omega
  obtain ⟨⟨c, o1⟩, h1, -⟩ := error_est (e := e) h.exact.wf (h.exact.pose.len hn0).ge h.time
  have c1 : c = errOf e s.obj.planes s.obj.traj := (error_ok h.exact.wf h1).1
  have sp1 : SamePlanes s.obj o1 := (error_ok h.exact.wf h1).2.1
  have e1 : Exact o1 := h.exact.planes (error_frame h1) sp1
  have n1 : o1.numberPoses = s.obj.numberPoses := by
    obtain ⟨ps, hps⟩ := error_frame h1
    have hps : o1 = _ := hps
    rw [hps]
  have t1 : o1.traj = s.obj.traj := by
    obtain ⟨ps, hps⟩ := error_frame h1
    have hps : o1 = _ := hps
    rw [hps]
  have st1 : Still o1 := h.error h1
  obtain ⟨T, hT, h2⟩ := bookkeep_total e1
  have st2 : Still { o1 with booked := T } :=
    ⟨⟨e1.pose.frame rfl rfl rfl, e1.two, e1.interp, e1.wf⟩, st1.time, st1.sync, st1.empty⟩
  obtain ⟨o3, h3⟩ := gradHess6_still (e := e) st2
  have sp3 : SamePlanes o1 o3 := gradHess6_same st2.exact.wf h3
  have fr3 := (gradHess6_frame h3).1
  have e3 : Exact o3 := st2.exact.planes fr3 sp3
  have n3 : o3.numberPoses = o1.numberPoses := by
    obtain ⟨ps, hps⟩ := fr3
    have hps : o3 = _ := hps
    rw [hps]
  have t3 : o3.traj = o1.traj := by
    obtain ⟨ps, hps⟩ := fr3
    have hps : o3 = _ := hps
    rw [hps]
  have h4 : o3.moveLast 0 = .ok o3 := by
    obtain ⟨o4, h4, -⟩ := moveLast_total e3.pose (by rw [n3, n1]; exact hn0) 0
    rw [h4]
    rw [moveLast] at h4
    obtain ⟨T', h5, h4⟩ := Out.bind_eq_ok.mp h4
    rw [updateLhs_zero'] at h4
    have := placeLast_trajTo e3.pose e3.two h4
    rw [this, ← interpolated_traj e3.pose e3.two e3.interp (lastPose_ok h5)]
  have hdet : IsUnit (OptDense.damp .lmSpher l (Matrix.of fun i j => (0 : Mat6) (finSumFinEquiv.symm i) (finSumFinEquiv.symm j) :
      Matrix (Fin 6) (Fin 6) ℝ)).det := by
    have : OptDense.damp .lmSpher l (Matrix.of fun i j => (0 : Mat6) (finSumFinEquiv.symm i) (finSumFinEquiv.symm j) :
        Matrix (Fin 6) (Fin 6) ℝ) = diagonal fun _ => l := by
      ext i j
      simp [OptDense.damp, diagonal_apply]
    rw [this, det_diagonal]
    simpa using hl.ne'
  obtain ⟨⟨c', o5⟩, h5, -⟩ := error_est (e := e) e3.wf (e3.pose.len (by rw [n3, n1]; exact hn0)).ge (by
    rw [n3]; exact sp3.timeLength st1.time)
  have c5 : c' = c := by
    have : c' = errOf e o3.planes o3.traj := (error_ok e3.wf h5).1
    rw [this, c1, sp3.errOf, sp1.errOf, t3, t1]
  have hstep : ∃ sys, OptDense.oneIteration (problem e) true { s with
      obj := { o1 with booked := T }, method := .lmSpher, maxIters := n, lambda := l } = .ok { s with
      obj := o3, method := .lmSpher, maxIters := n, lambda := l, sys := sys } := by
    classical
    rw [OptDense.oneIteration]
    change ∃ sys, ((gradHess6 e { o1 with booked := T } >>= fun ((g, H), s) =>
      Out.ok ((⟨6, Matrix.of fun i j => H (finSumFinEquiv.symm i) (finSumFinEquiv.symm j), dyn6 g⟩ : NormalEq), s)) >>= _) = _
    rw [h3, Out.ok_bind, Out.ok_bind]
    dsimp only
    rw [if_pos rfl]
    rw [if_pos (by convert hdet)]
    have hz : (-((OptDense.damp .lmSpher l (Matrix.of fun i j => (0 : Mat6) (finSumFinEquiv.symm i) (finSumFinEquiv.symm j) :
      Matrix (Fin 6) (Fin 6) ℝ))⁻¹ *ᵥ dyn6 0)) = 0 := by
      have : dyn6 0 = 0 := rfl
      rw [this, mulVec_zero, neg_zero]
    rw [hz, problem_update]
    have : stat6 0 = 0 := rfl
    rw [this, h4, Out.ok_bind]
    exact ⟨_, rfl⟩
  obtain ⟨sys, hstep⟩ := hstep
  rw [OptDense.levenbergMarquardt, OptDense.error]
  change ∃ r, ((PlaneReg.error e s.obj >>= _) >>= _) = _
  rw [h1, Out.ok_bind]
  change ∃ r, OptDense.lmLoop (problem e) n 0 c { s with obj := o1, method := .lmSpher, maxIters := n, lambda := l } = _
  have hlm : OptDense.lmStep (problem e) { s with obj := o1, method := .lmSpher, maxIters := n, lambda := l } =
      .ok (c', { s with obj := o5, method := .lmSpher, maxIters := n, lambda := l, sys := sys }) := by
    rw [OptDense.lmStep]
    change (PlaneReg.bookkeep o1 >>= _) = _
    rw [h2, Out.ok_bind, hstep, Out.ok_bind, OptDense.error]
    change (PlaneReg.error e o3 >>= _) = _
    rw [h5]
    rfl
  rw [OptDense.lmLoop, hlm, Out.ok_bind]
  dsimp only
  rw [c5, sub_self, if_neg (lt_irrefl 0), if_pos ht]
  exact ⟨_, rfl⟩

end PlaneReg

end Mrob
