import Verif.Lemmas.PlaneInit

/-! # When the gradient modes of `PlaneRegistration` finish -/

open Matrix

namespace Mrob

theorem Out.mapAccum_total {α β σ : Type} {f : α → σ → Out (β × σ)} {J : σ → Prop} :
    ∀ (l : List α) (s : σ), (∀ a ∈ l, ∀ s, J s → ∃ r, f a s = .ok r ∧ J r.2) → J s →
      ∃ r, Out.mapAccum f l s = .ok r ∧ J r.2 := by
  intro l
  induction l with
  | nil => intro s _ hs; exact ⟨([], s), rfl, hs⟩
  | cons a l ih =>
    intro s hf hs
    obtain ⟨⟨b, s1⟩, h1, j1⟩ := hf a List.mem_cons_self s hs
    obtain ⟨⟨bs, s2⟩, h2, j2⟩ := ih s1 (fun x hx => hf x (List.mem_cons_of_mem _ hx)) j1
    exact ⟨(b :: bs, s2), by rw [Out.mapAccum, h1, Out.ok_bind]; dsimp only; rw [h2, Out.ok_bind], j2⟩

namespace PlaneReg

/-- The number of points seen from pose `t`. -/
def seen (t : ℕ) (s : PlaneReg) : ℕ := (s.planes.map fun q => (q.2.cloudAt t).length).sum

theorem SamePlanes.seen {s s' : PlaneReg} (h : SamePlanes s s') (t : ℕ) : s'.seen t = s.seen t := by
  rw [PlaneReg.seen, PlaneReg.seen]
  congr 1
  rw [SamePlanes] at h
  generalize s.planes = a at h
  generalize s'.planes = b at h
  induction h with
  | nil => rfl
  | cons h _ ih => rw [List.map_cons, List.map_cons, ih, Plane.cloudAt, Plane.cloudAt, h.2.2.2.1]

theorem SamePlanes.timeLength {s s' : PlaneReg} (h : SamePlanes s s') {n : ℕ} (hn : ∀ q ∈ s.planes, q.2.timeLength = n) :
    ∀ q ∈ s'.planes, q.2.timeLength = n := by
  intro q hq
  rw [SamePlanes, List.forall₂_iff_get] at h
  obtain ⟨i, hi, rfl⟩ := List.getElem_of_mem hq
  have := h.2 i (by rw [h.1]; exact hi) hi
  exact this.2.2.2.2.trans (hn _ (List.getElem_mem (by rw [h.1]; exact hi)))

/-- All planes have been estimated for `n` poses. -/
def Est (n : ℕ) (s : PlaneReg) : Prop :=
  ∀ q ∈ s.planes, (∃ pl, q.2.plane = some pl) ∧ q.2.Q.length = n ∧ q.2.points.length = n

theorem error_est {e : EigSolver} {s : PlaneReg} (hw : s.PlanesWf) {n : ℕ} (hl : n ≤ s.traj.length)
    (hn : ∀ q ∈ s.planes, q.2.timeLength = n) : ∃ r, s.error e = .ok r ∧ r.2.Est n := by
  refine ⟨_, by rw [error, eachPlane_ok (g := fun p => (e.eig4 (Plane.qList s.traj p.usedS).sum).val 0)
    (k := fun p => p.estimated e s.traj p.usedS) fun q hq => Plane.estimate_ok (hw q hq) ((hn q hq).trans_le hl), Out.ok_bind], ?_⟩
  intro q' hq'
  obtain ⟨q, hq, rfl⟩ := List.mem_map.mp hq'
  refine ⟨⟨_, rfl⟩, ?_, (hw q hq).pts.trans (hn q hq)⟩
  change (Plane.qList s.traj q.2.usedS).length = n
  rw [Plane.qList_length (by rw [Plane.usedS_length (hw q hq), hn q hq]; exact hl), Plane.usedS_length (hw q hq), hn q hq]

theorem gradAt_est {n t : ℕ} {s : PlaneReg} (he : s.Est n) (ht : t < n) :
    ∃ r, s.gradAt t = .ok r ∧ r.1.2 = s.seen t ∧ r.2.Est n := by
  have key : ∀ q ∈ s.planes, (q.2.gradient t >>= fun (g, p) => p.getNumberPoints t >>= fun k =>
      Out.ok ((g, k), p)) = .ok ((fun i => (q.2.plane.getD 0) ⬝ᵥ (gradOf ((q.2.Q[t]?).getD 0) i *ᵥ (q.2.plane.getD 0)),
        (q.2.cloudAt t).length), { q.2 with gradQ := some (gradOf ((q.2.Q[t]?).getD 0)) }) := by
    intro q hq
    obtain ⟨⟨pl, h1⟩, h2, h3⟩ := he q hq
    have hQ : t < q.2.Q.length := by omega
    have hg : q.2.gradient t = .ok (fun i => (q.2.plane.getD 0) ⬝ᵥ (gradOf ((q.2.Q[t]?).getD 0) i *ᵥ (q.2.plane.getD 0)),
        { q.2 with gradQ := some (gradOf ((q.2.Q[t]?).getD 0)) }) := by
      rw [Plane.gradient, Out.index_ok hQ, Out.ok_bind, List.getElem?_eq_getElem hQ]
      simp only [h1, Option.getD_some]
    rw [hg, Out.ok_bind]
    dsimp only
    rw [Plane.getNumberPoints, Out.index_eq_ok.mpr (Plane.cloudAt_of_lt (ht.trans_eq h3.symm)), Out.ok_bind, Out.ok_bind]
  refine ⟨_, by rw [gradAt, eachPlane_ok (g := fun p => (fun i => (p.plane.getD 0) ⬝ᵥ (gradOf ((p.Q[t]?).getD 0) i *ᵥ
    (p.plane.getD 0)), (p.cloudAt t).length)) (k := fun p => { p with gradQ := some (gradOf ((p.Q[t]?).getD 0)) }) key,
    Out.ok_bind], ?_, ?_⟩
  · change (List.map Prod.snd (List.map _ s.planes)).sum = _
    rw [List.map_map]
    rfl
  · intro q hq
    obtain ⟨q', hq', rfl⟩ := List.mem_map.mp hq
    exact he q' hq'

/-- The conditions under which a step of the gradient modes finishes. -/
structure Solvable (s : PlaneReg) : Prop where
  pose : s.PoseInv
  wf : s.PlanesWf
  ne : s.numberPoses ≠ 0
  time : ∀ q ∈ s.planes, q.2.timeLength = s.numberPoses
  seen : ∀ t, 0 < t → t < s.numberPoses → s.seen t ≠ 0
  prev : s.prev ≠ []
  mode : s.mode = .gradient ∨ s.mode = .gradientBengiosNag

theorem Solvable.frame {s s' : PlaneReg} (h : s.Solvable) (h1 : s'.numberPoses = s.numberPoses) (h2 : s'.traj = s.traj)
    (h3 : s'.prev = s.prev) (h4 : s'.planes = s.planes) (h5 : s'.mode = s.mode) : s'.Solvable :=
  ⟨h.pose.frame h1 h2 h3, by rw [PlanesWf, h4]; exact h.wf, by rw [h1]; exact h.ne, by rw [h4, h1]; exact h.time,
    by rw [h1]; intro t a b; rw [PlaneReg.seen, h4]; exact h.seen t a b, by rw [h3]; exact h.prev, by rw [h5]; exact h.mode⟩

theorem Solvable.planes {s s' : PlaneReg} (h : s.Solvable) (h1 : PlanesOnly s s') (h2 : SamePlanes s s') : s'.Solvable := by
  have hs := h2.seen
  have ht := h2.timeLength h.time
  have hw := h2.wf
  have hp := h.pose.planesOnly h1
  obtain ⟨ps, rfl⟩ := h1
  exact ⟨hp, hw, h.ne, ht, fun t a b => by rw [hs]; exact h.seen t a b, h.prev, h.mode⟩

theorem placeLast_total {s : PlaneReg} (hi : s.PoseInv) (hn : s.numberPoses ≠ 0) (T : SE3) : ∃ s', s.placeLast T = .ok s' := by
  have hl := hi.len hn
  obtain ⟨traj', h⟩ := interpolate_total (tau := s.tau) (xi := T.lnVee) (ts := s.innerTimes)
    (traj := s.traj.set (s.traj.length - 1) T) (fun t ht => by
      rw [innerTimes, List.mem_range'_1, lastIdx_eq hn hi.bound] at ht
      rw [List.length_set, hl]
      omega)
  exact ⟨_, by rw [placeLast, h, Out.ok_bind]⟩

theorem moveLast_total {s : PlaneReg} (hi : s.PoseInv) (hn : s.numberPoses ≠ 0) (dxi : Vec6) :
    ∃ s', s.moveLast dxi = .ok s' ∧ s'.planes = s.planes ∧ s'.numberPoses = s.numberPoses ∧ s'.prev = s.prev ∧
      s'.mode = s.mode := by
  have hne : s.traj ≠ [] := by
    intro h
    have := hi.len hn
    rw [h] at this
    exact hn this.symm
  obtain ⟨s', h⟩ := placeLast_total hi hn ((s.traj.getLast hne).updateLhs dxi)
  refine ⟨s', by rw [moveLast, lastPose_eq hne, Out.ok_bind, h], ?_⟩
  rw [placeLast] at h
  obtain ⟨traj, -, h⟩ := Out.bind_eq_ok.mp h
  cases h
  exact ⟨rfl, rfl, rfl, rfl⟩

theorem accGradient_total {s : PlaneReg} (h : s.Solvable) (he : s.Est s.numberPoses) : ∃ r, s.accGradient = .ok r := by
  have hd : ∀ t ∈ s.times, 0 < t ∧ t < s.numberPoses := by
    intro t ht
    rw [times, List.mem_range'_1] at ht
    omega
  obtain ⟨r, hr, -⟩ := Out.mapAccum_total (J := fun x => x.Est s.numberPoses ∧ PlanesOnly s x ∧ SamePlanes s x)
    (f := fun t s => gradAt t s >>= fun ((g, k), s) =>
      if k = 0 then .nan else .ok ((s.tau * t / k / s.numberPoses) • g, s)) s.times s (fun t ht x hx => by
    obtain ⟨⟨⟨g, k⟩, x'⟩, h1, h2, h3⟩ := gradAt_est hx.1 (hd t ht).2
    have h2 : k = x.seen t := h2
    rw [h1, Out.ok_bind]
    dsimp only
    rw [if_neg (by rw [h2, hx.2.2.seen]; exact h.seen t (hd t ht).1 (hd t ht).2)]
    exact ⟨_, rfl, h3, hx.2.1.trans (gradAt_frame (r := ((g, k), x')) h1),
      hx.2.2.trans (gradAt_same hx.2.2.wf (r := ((g, k), x')) h1)⟩) ⟨he, PlanesOnly.refl s, SamePlanes.refl h.wf⟩
  exact ⟨_, by rw [accGradient, hr, Out.ok_bind]⟩

theorem gradStep_total {e : EigSolver} {s : PlaneReg} (h : s.Solvable) : ∃ r, s.gradStep e = .ok r ∧ r.2.Solvable := by
  obtain ⟨⟨c, s1⟩, h1, e1⟩ := error_est (e := e) h.wf (h.pose.len h.ne).ge h.time
  have i1 : s1.Solvable := h.planes (error_frame h1) (error_ok h.wf h1).2.1
  have n1 : s1.numberPoses = s.numberPoses := by
    obtain ⟨ps, hps⟩ := error_frame h1
    have hps : s1 = _ := hps
    rw [hps]
  obtain ⟨⟨acc, s2⟩, h2⟩ := accGradient_total i1 (by rw [n1]; exact e1)
  have i2 : s2.Solvable := i1.planes (accGradient_frame h2).1 (accGradient_same i1.wf h2)
  have h3 : ∃ dxi s3, s2.increment acc = .ok (dxi, s3) ∧ s3.planes = s2.planes ∧ s3.numberPoses = s2.numberPoses ∧
      s3.traj = s2.traj ∧ s3.prev.length = s2.prev.length ∧ s3.mode = s2.mode := by
    rw [increment]
    rcases i2.mode with hm | hm <;> rw [hm]
    · exact ⟨_, _, rfl, rfl, rfl, rfl, rfl, hm⟩
    · dsimp only
      rw [List.getLast?_eq_getLast_of_ne_nil i2.prev]
      exact ⟨_, _, rfl, rfl, rfl, rfl, List.length_set, rfl⟩
  obtain ⟨dxi, s3, h3, a1, a2, a3, a4, a5⟩ := h3
  have p3 : s3.PoseInv := (increment_inv i2.pose (fun hn => (accGradient_frame h2).2 (PoseInv.times_single (by
    obtain ⟨ps, hps⟩ := (accGradient_frame h2).1
    have hps : s2 = _ := hps
    rw [hps] at hn
    exact hn))) h3).1
  obtain ⟨s4, h4, b1, b2, b3, b4⟩ := moveLast_total p3 (by rw [a2]; exact i2.ne) dxi
  have hstep : s.gradStep e = .ok (c, s4) := by
    rw [gradStep, h1, Out.ok_bind]
    dsimp only
    rw [h2, Out.ok_bind]
    dsimp only
    rw [h3, Out.ok_bind]
    dsimp only
    rw [h4, Out.ok_bind]
  refine ⟨(c, s4), hstep, gradStep_inv h.pose hstep, ?_, ?_, ?_, ?_, ?_, ?_⟩
  · change PlanesWf s4
    rw [PlanesWf, b1, a1]
    exact i2.wf
  · change s4.numberPoses ≠ 0
    rw [b2, a2]
    exact i2.ne
  · change ∀ q ∈ s4.planes, q.2.timeLength = s4.numberPoses
    rw [b1, b2, a1, a2]
    exact i2.time
  · change ∀ t, 0 < t → t < s4.numberPoses → s4.seen t ≠ 0
    rw [b2, a2]
    intro t u v
    rw [seen, b1, a1]
    exact i2.seen t u v
  · change s4.prev ≠ []
    rw [b3]
    intro hnil
    rw [hnil] at a4
    exact i2.prev (List.length_eq_zero_iff.mp a4.symm)
  · change s4.mode = _ ∨ s4.mode = _
    rw [b4, a5]
    exact i2.mode

theorem gradLoop_total {step : PlaneReg → Out (ℝ × PlaneReg)} {single : Bool} {I : PlaneReg → Prop}
    (hI : ∀ s k, I s → I { s with solveIters := k }) (hs : ∀ s, I s → ∃ r, step s = .ok r ∧ I r.2) :
    ∀ (k iters : ℕ) (prevErr : ℝ) (s : PlaneReg), 10000 - iters = k → I s →
      ∃ s', gradLoop step single iters prevErr s = .ok s' := by
  intro k
  induction k using Nat.strong_induction_on with
  | _ k ih =>
    intro iters prevErr s hk hi
    obtain ⟨⟨c, s1⟩, h1, i1⟩ := hs s hi
    rw [gradLoop, h1, Out.ok_bind]
    dsimp only
    split_ifs with hc
    · exact ih (10000 - (iters + 1)) (by omega) (iters + 1) c _ rfl (hI _ _ i1)
    · exact ⟨_, rfl⟩

theorem interpolateGradient_total {e : EigSolver} {single : Bool} {s : PlaneReg} (h : s.Solvable) :
    ∃ s', s.interpolateGradient e single = .ok s' :=
  gradLoop_total (I := Solvable) (fun _ _ h => h.frame rfl rfl rfl rfl rfl) (fun _ h => gradStep_total h) _ 0 1e20
    { s with solveIters := 0 } rfl (h.frame rfl rfl rfl rfl rfl)

/-- A pose without points makes the step divide by zero. -/
theorem gradStep_nan {e : EigSolver} {s : PlaneReg} (hi : s.PoseInv) (hw : s.PlanesWf)
    (ht : ∀ q ∈ s.planes, q.2.timeLength = s.numberPoses) {t : ℕ} (h0 : 0 < t) (h1 : t < s.numberPoses)
    (hs : s.seen t = 0) : s.gradStep e = .nan := by
  have hne : s.numberPoses ≠ 0 := by omega
  obtain ⟨⟨c, s1⟩, x1, e1⟩ := error_est (e := e) hw (hi.len hne).ge ht
  have sp := (error_ok hw x1).2.1
  obtain ⟨ps, hps⟩ := error_frame x1
  have hps : s1 = _ := hps
  have key : ∀ (l : List ℕ) (x : PlaneReg), (∀ u ∈ l, u < s.numberPoses) → t ∈ l →
      (x.Est s.numberPoses ∧ SamePlanes s1 x) → Out.mapAccum (fun t s => gradAt t s >>= fun ((g, k), s) =>
      if k = 0 then .nan else .ok ((s.tau * t / k / s.numberPoses) • g, s)) l x = .nan := by
    intro l
    induction l with
    | nil => intro x _ h; cases h
    | cons a l ih =>
      intro x hb hm hx
      obtain ⟨⟨⟨g, k⟩, x'⟩, y1, y2, y3⟩ := gradAt_est hx.1 (hb a List.mem_cons_self)
      rw [Out.mapAccum, y1, Out.ok_bind]
      dsimp only
      split_ifs with hk
      · rfl
      · have hat : t ≠ a := by
          rintro rfl
          have y2 : k = x.seen t := y2
          rw [hx.2.seen, sp.seen, hs] at y2
          exact hk y2
        rw [Out.ok_bind]
        dsimp only
        rw [ih x' (fun u hu => hb u (List.mem_cons_of_mem _ hu)) ((List.mem_cons.mp hm).resolve_left hat)
          ⟨y3, hx.2.trans (gradAt_same hx.2.wf (r := ((g, k), x')) y1)⟩]
        rfl
  have ht1 : s1.times = s.times := by rw [hps]; rfl
  rw [gradStep, x1, Out.ok_bind]
  dsimp only
  rw [accGradient, key s1.times s1 (by
    intro u hu
    rw [ht1, times, List.mem_range'_1] at hu
    omega) (by rw [ht1, times, List.mem_range'_1]; omega) ⟨e1, SamePlanes.refl sp.wf⟩]
  rfl

end PlaneReg

end Mrob
