import Verif.Lemmas.Plane

/-! # Behaviour of `Plane` objects -/

open Matrix

namespace Mrob

open Spec

namespace Plane

/-- Sizes of the data members of a `Plane`; broken only by `clear_points`. -/
structure Wf (s : Plane) : Prop where
  pts : s.points.length = s.timeLength
  S : s.S = [] ∨ s.S.length = s.timeLength

/-- The cached matrices are those of the points held now. -/
def InSync (s : Plane) : Prop := s.S = [] ∨ s.S = s.points.map sumOuter

theorem new_wf (n : ℕ) : (new n).Wf := ⟨by simp [new], Or.inl rfl⟩

theorem reset_wf {s : Plane} (h : s.Wf) : s.reset.Wf := ⟨h.pts, Or.inl rfl⟩

theorem push_ok {s : Plane} (h : s.Wf) (p : Vec3) (t : ℕ) :
    s.push p t = .ok { s with
      points := s.points.modify t (· ++ [p])
      numberPoints := s.numberPoints + if t < s.timeLength then 1 else 0 } := by
  rw [push]
  by_cases ht : t < s.timeLength
  · have ht' : t < s.points.length := by rw [h.pts]; exact ht
    rw [if_pos ht, Out.index_ok ht', Out.ok_bind, if_pos ht]
    congr 2
    refine List.ext_getElem (by simp) fun k h1 h2 => ?_
    rw [List.getElem_set, List.getElem_modify]
    split_ifs with hk
    · subst hk; rfl
    · rfl
  · rw [if_neg ht, if_neg ht, List.modify_eq_self (by rw [h.pts]; omega)]
    rfl

theorem push_wf {s s' : Plane} (h : s.Wf) {p : Vec3} {t : ℕ} (hs : s.push p t = .ok s') : s'.Wf := by
  rw [push_ok h] at hs
  cases hs
  exact ⟨by simpa using h.pts, h.S⟩

theorem calcS_fresh {s : Plane} (h : s.Wf) (hS : s.S = []) :
    s.calcS false = .ok { s with S := s.points.map sumOuter } := by
  have e : Out.traverse (fun t => Out.index s.points t >>= fun l => .ok (sumOuter l)) (List.range s.timeLength) =
      .ok ((List.range s.timeLength).map fun t => sumOuter ((s.points[t]?).getD [])) := by
    refine Out.traverse_ok fun t ht => ?_
    have ht' : t < s.points.length := by rw [h.pts]; exact List.mem_range.mp ht
    rw [Out.index_ok ht', Out.ok_bind, List.getElem?_eq_getElem ht']
    rfl
  rw [calcS]
  simp only [Bool.false_eq_true, if_false, hS, List.isEmpty_nil, if_true, e, Out.ok_bind]
  congr 2
  refine List.ext_getElem (by simp [h.pts]) fun k h1 h2 => ?_
  simp only [List.length_map] at h2
  simp [List.getElem?_eq_getElem h2]

theorem calcS_cached {s : Plane} (hS : s.S ≠ []) : s.calcS false = .ok s := by
  rw [calcS]
  simp [hS]

theorem calcS_inSync {s : Plane} (h : s.Wf) (hS : s.InSync) :
    s.calcS false = .ok { s with S := s.points.map sumOuter } := by
  by_cases h0 : s.S = []
  · exact calcS_fresh h h0
  · rw [calcS_cached h0]
    rcases hS with hS | hS
    · exact absurd hS h0
    · rw [← hS]

/-- The matrices `Q` for a trajectory and cached matrices. -/
def qList (traj : List SE3) (S : List Mat4) : List Mat4 := List.zipWith (fun T S => T.T * S * T.Tᵀ) traj S

theorem qList_length {traj : List SE3} {S : List Mat4} (h : S.length ≤ traj.length) : (qList traj S).length = S.length := by
  simp [qList, h]

theorem qList_getElem {traj : List SE3} {S : List Mat4} {t : ℕ} (h1 : t < traj.length) (h2 : t < S.length)
    (h : t < (qList traj S).length) : (qList traj S)[t] = traj[t].T * S[t] * traj[t].Tᵀ := by
  simp [qList]

theorem rotS_ok {traj : List SE3} {s : Plane} {t : ℕ} (h1 : t < traj.length) (h2 : t < s.S.length) :
    s.rotS traj t = .ok (traj[t].T * s.S[t] * traj[t].Tᵀ) := by
  rw [rotS, Out.atT_ok h1, Out.ok_bind, Out.index_ok h2, Out.ok_bind]

theorem calcQ_ok {traj : List SE3} {s : Plane} (h1 : s.S.length = s.timeLength) (h2 : s.timeLength ≤ traj.length) :
    s.calcQ traj = .ok { s with Q := qList traj s.S } := by
  have e : Out.traverse (s.rotS traj) (List.range s.timeLength) =
      .ok ((List.range s.timeLength).map fun t => ((qList traj s.S)[t]?).getD 0) := by
    refine Out.traverse_ok fun t ht => ?_
    have ht := List.mem_range.mp ht
    have hl : t < (qList traj s.S).length := by rw [qList_length (by omega)]; omega
    rw [rotS_ok (by omega) (by omega), List.getElem?_eq_getElem hl, Option.getD_some,
      qList_getElem (by omega) (by omega)]
  rw [calcQ, e, Out.ok_bind]
  congr 2
  refine List.ext_getElem (by rw [qList_length (by omega)]; simp [h1]) fun k h3 h4 => ?_
  simp [List.getElem?_eq_getElem h4]

/-- The object left by an estimation from the matrices `S`. -/
noncomputable def estimated (e : EigSolver) (traj : List SE3) (S : List Mat4) (s : Plane) : Plane :=
  { s with
    S := S
    Q := qList traj S
    accQ := some (qList traj S).sum
    plane := some (firstVec (e.eig4 (qList traj S).sum))
    lambda := (e.eig4 (qList traj S).sum).val 0 }

/-- The matrices an estimation works with: the cached ones when there are any. -/
noncomputable def usedS (s : Plane) : List Mat4 := if s.S = [] then s.points.map sumOuter else s.S

theorem usedS_length {s : Plane} (h : s.Wf) : s.usedS.length = s.timeLength := by
  rw [usedS]
  split_ifs with h0
  · simp [h.pts]
  · exact h.S.resolve_left h0

theorem calcS_used {s : Plane} (h : s.Wf) : s.calcS false = .ok { s with S := s.usedS } := by
  rw [usedS]
  split_ifs with h0
  · exact calcS_fresh h h0
  · exact calcS_cached h0

theorem usedS_inSync {s : Plane} (h : s.InSync) : s.usedS = s.points.map sumOuter := by
  rw [usedS]
  split_ifs with h0
  · rfl
  · exact h.resolve_left h0

theorem estimate_ok {e : EigSolver} {traj : List SE3} {s : Plane} (h : s.Wf) (ht : s.timeLength ≤ traj.length) :
    s.estimate e traj = .ok ((e.eig4 (qList traj s.usedS).sum).val 0, s.estimated e traj s.usedS) := by
  rw [estimate, calcS_used h, Out.ok_bind, calcQ_ok (s := { s with S := s.usedS }) (usedS_length h) ht, Out.ok_bind]
  change Out.ok _ = Out.ok _
  rw [foldl_add_eq_sum, zero_add]
  rfl

/-- The trajectory is shorter than the observed times: `at` throws. -/
theorem estimate_short {e : EigSolver} {traj : List SE3} {s : Plane} (h : s.Wf) (ht : traj.length < s.timeLength) :
    s.estimate e traj = .throw := by
  rw [estimate, calcS_used h, Out.ok_bind]
  have key : ∀ (l : List ℕ) (S : Plane), traj.length ∈ l → (∀ t ∈ l, t < S.S.length) →
      Out.traverse (S.rotS traj) l = .throw := by
    intro l S
    induction l with
    | nil => simp
    | cons a l ih =>
      intro hm hl
      rw [Out.traverse]
      rcases lt_or_ge a traj.length with ha | ha
      · rw [rotS_ok ha (hl a (by simp)), Out.ok_bind,
          ih ((List.mem_cons.mp hm).resolve_left (by omega)) fun t ht => hl t (by simp [ht]), Out.throw_bind]
      · rw [rotS, Out.atT, List.getElem?_eq_none ha]
        rfl
  rw [calcQ, key _ _ (by simpa using ht)]
  · rfl
  · intro t h'
    have := usedS_length h
    have h' : t < s.timeLength := by simpa using h'
    change t < s.usedS.length
    omega

theorem estimated_wf {e : EigSolver} {traj : List SE3} {s : Plane} (h : s.Wf) :
    (s.estimated e traj s.usedS).Wf := ⟨h.pts, Or.inr (usedS_length h)⟩

theorem qList_sum_transpose {traj : List SE3} {S : List Mat4} (h : ∀ A ∈ S, Aᵀ = A) :
    (qList traj S).sumᵀ = (qList traj S).sum := by
  rw [qList]
  induction traj generalizing S with
  | nil => simp
  | cons T traj ih =>
    cases S with
    | nil => simp
    | cons A S =>
      rw [List.zipWith_cons_cons, List.sum_cons, transpose_add, conj_transpose (h A (by simp)),
        ih fun B hB => h B (by simp [hB])]

/-- The quadratic form of the accumulated matrix is the cost of the plane. -/
theorem quad_qList {traj : List SE3} (ht : ∀ T ∈ traj, LastRow T.T) (clouds : List (List Vec3)) (pl : Vec4) :
    pl ⬝ᵥ ((qList traj (clouds.map sumOuter)).sum *ᵥ pl) = planeCost pl (traj.map SE3.T) clouds := by
  rw [qList, planeCost]
  induction traj generalizing clouds with
  | nil => simp
  | cons T traj ih =>
    cases clouds with
    | nil => simp
    | cons c clouds =>
      rw [List.map_cons, List.zipWith_cons_cons, List.sum_cons, add_mulVec, dotProduct_add,
        ih (fun T hT => ht T (by simp [hT])), quad_cloud (ht T (by simp)), List.map_cons, List.zipWith_cons_cons,
        List.sum_cons]

theorem sym_map (clouds : List (List Vec3)) : ∀ A ∈ clouds.map sumOuter, Aᵀ = A := by
  intro A hA
  obtain ⟨l, -, rfl⟩ := List.mem_map.mp hA
  exact sumOuter_transpose l

/-! ## Histories -/

/-- The call is a push. -/
def Op.isPush : Op → Bool
  | push _ _ => true
  | _ => false

/-- The points pushed at time `t` by a sequence of calls. -/
def pushedAt (ops : List Op) (t : ℕ) : List Vec3 :=
  ops.filterMap fun op => match op with
    | .push p t' => if t' = t then some p else none
    | _ => none

/-- The number of effective pushes in a sequence of calls. -/
def pushCount (n : ℕ) (ops : List Op) : ℕ :=
  (ops.filter fun op => match op with
    | .push _ t' => t' < n
    | _ => false).length

theorem incQ_ok {traj : List SE3} {t : ℕ} {s : Plane} {A : Mat4} (h : s.incQ traj t = .ok A) :
    ∃ acc Qt Qn, s.accQ = some acc ∧ Out.index s.Q t = .ok Qt ∧ s.rotS traj t = .ok Qn ∧ A = acc - Qt + Qn := by
  rw [incQ] at h
  split at h
  · cases h
  · rename_i acc hacc
    obtain ⟨Qt, h1, h⟩ := Out.bind_eq_ok.mp h
    obtain ⟨Qn, h2, h⟩ := Out.bind_eq_ok.mp h
    cases h
    exact ⟨acc, Qt, Qn, hacc, h1, h2, rfl⟩

theorem traverse_length {α β : Type} {f : α → Out β} {l : List α} {r : List β} (h : Out.traverse f l = .ok r) :
    r.length = l.length := by
  induction l generalizing r with
  | nil => cases h; rfl
  | cons a l ih =>
    rw [Out.traverse] at h
    obtain ⟨b, -, h⟩ := Out.bind_eq_ok.mp h
    obtain ⟨bs, h2, h⟩ := Out.bind_eq_ok.mp h
    cases h
    simp [ih h2]

theorem calcS_shape {b : Bool} {s s' : Plane} (h : s.Wf) (hr : s.calcS b = .ok s') :
    ∃ S, s' = { s with S := S } ∧ (S = [] ∨ S.length = s.timeLength) ∧ (s.InSync ∨ b = true → S = s.points.map sumOuter) ∧
      (b = false → s.S ≠ [] → S = s.S) := by
  cases b with
  | false =>
    rw [calcS_used h] at hr
    cases hr
    exact ⟨s.usedS, rfl, Or.inr (usedS_length h), fun hs => usedS_inSync (hs.resolve_right (by simp)),
      fun _ h0 => by rw [usedS, if_neg h0]⟩
  | true =>
    have e : s.calcS true = calcS false { s with S := [] } := by simp [calcS]
    rw [e, calcS_fresh (s := { s with S := [] }) ⟨h.pts, Or.inl rfl⟩ rfl] at hr
    cases hr
    exact ⟨_, rfl, Or.inr (by simp [h.pts]), fun _ => rfl, by simp⟩

theorem estimate_inv {e : EigSolver} {traj : List SE3} {s : Plane} (h : s.Wf) {r : ℝ × Plane}
    (hr : s.estimate e traj = .ok r) :
    s.timeLength ≤ traj.length ∧ r = ((e.eig4 (qList traj s.usedS).sum).val 0, s.estimated e traj s.usedS) := by
  rcases le_or_gt s.timeLength traj.length with ht | ht
  · rw [estimate_ok h ht] at hr
    exact ⟨ht, by cases hr; rfl⟩
  · rw [estimate_short h ht] at hr
    cases hr

theorem gradient_inv {t : ℕ} {s : Plane} {r : Vec6 × Plane} (hr : s.gradient t = .ok r) :
    ∃ Q pl, s.Q[t]? = some Q ∧ s.plane = some pl ∧
      r = (fun i => pl ⬝ᵥ (gradOf Q i *ᵥ pl), { s with gradQ := some (gradOf Q) }) := by
  rw [gradient] at hr
  obtain ⟨Q, h1, hr⟩ := Out.bind_eq_ok.mp hr
  split at hr
  · cases hr
  · rename_i pl hpl
    cases hr
    exact ⟨Q, pl, Out.index_eq_ok.mp h1, hpl, rfl⟩

/-- Shape of the result of one call. -/
theorem op_shape {e : EigSolver} {op : Op} {s s' : Plane} (h : s.Wf) (hr : op.run e s = .ok s') :
    s'.Wf ∧ s'.timeLength = s.timeLength ∧ (op.isPush = false → s'.points = s.points) ∧
      (op.isPush = false → s.InSync → s'.InSync) := by
  cases op with
  | push p t =>
    rw [Op.run, push_ok h] at hr
    cases hr
    exact ⟨⟨by simpa using h.pts, h.S⟩, rfl, by simp [Op.isPush], by simp [Op.isPush]⟩
  | estimate traj =>
    obtain ⟨r, h1, h2⟩ := Out.bind_eq_ok.mp hr
    obtain ⟨-, rfl⟩ := estimate_inv h h1
    cases h2
    exact ⟨estimated_wf h, rfl, fun _ => rfl, fun _ hs => Or.inr (usedS_inSync hs)⟩
  | estimateInc traj t =>
    obtain ⟨r, h1, h2⟩ := Out.bind_eq_ok.mp hr
    obtain ⟨acc, -, h3⟩ := Out.bind_eq_ok.mp h1
    cases h3
    cases h2
    exact ⟨⟨h.pts, h.S⟩, rfl, fun _ => rfl, fun _ hs => hs⟩
  | gradient t =>
    obtain ⟨r, h1, h2⟩ := Out.bind_eq_ok.mp hr
    obtain ⟨Q, pl, -, -, rfl⟩ := gradient_inv h1
    cases h2
    exact ⟨⟨h.pts, h.S⟩, rfl, fun _ => rfl, fun _ hs => hs⟩
  | calcS b =>
    obtain ⟨S, rfl, hS, h1, -⟩ := calcS_shape h hr
    exact ⟨⟨h.pts, hS⟩, rfl, fun _ => rfl, fun _ hs => Or.inr (h1 (Or.inl hs))⟩
  | reset =>
    cases hr
    exact ⟨reset_wf h, rfl, fun _ => rfl, fun _ _ => Or.inl rfl⟩

theorem run_append {e : EigSolver} {ops ops' : List Op} {s : Plane} :
    run e (ops ++ ops') s = run e ops s >>= fun s => run e ops' s := by
  induction ops generalizing s with
  | nil => rfl
  | cons op ops ih =>
    rw [List.cons_append, run, run]
    cases op.run e s with
    | ok a => exact ih
    | nan => rfl
    | ub => rfl
    | throw => rfl

theorem run_wf {e : EigSolver} {ops : List Op} {s s' : Plane} (h : s.Wf) (hr : run e ops s = .ok s') :
    s'.Wf ∧ s'.timeLength = s.timeLength := by
  induction ops generalizing s with
  | nil => cases hr; exact ⟨h, rfl⟩
  | cons op ops ih =>
    obtain ⟨s1, h1, h2⟩ := Out.bind_eq_ok.mp hr
    obtain ⟨w, t, -⟩ := op_shape h h1
    obtain ⟨w', t'⟩ := ih w h2
    exact ⟨w', t'.trans t⟩

theorem run_noPush {e : EigSolver} {ops : List Op} {s s' : Plane} (h : s.Wf) (hn : ∀ op ∈ ops, op.isPush = false)
    (hr : run e ops s = .ok s') : s'.points = s.points ∧ (s.InSync → s'.InSync) := by
  induction ops generalizing s with
  | nil => cases hr; exact ⟨rfl, id⟩
  | cons op ops ih =>
    obtain ⟨s1, h1, h2⟩ := Out.bind_eq_ok.mp hr
    obtain ⟨w, -, p, i⟩ := op_shape h h1
    obtain ⟨p', i'⟩ := ih w (fun o ho => hn o (by simp [ho])) h2
    have := hn op (by simp)
    exact ⟨p'.trans (p this), fun hs => i' (i this hs)⟩

/-- The points held are the points pushed, in order. -/
theorem run_points {e : EigSolver} {ops : List Op} {s s' : Plane} (h : s.Wf) (hr : run e ops s = .ok s') (t : ℕ)
    (ht : t < s.timeLength) : ∃ l, s.points[t]? = some l ∧ s'.points[t]? = some (l ++ pushedAt ops t) := by
  induction ops generalizing s with
  | nil =>
    cases hr
    exact ⟨_, List.getElem?_eq_getElem (by rw [h.pts]; exact ht), by
      rw [List.getElem?_eq_getElem (by rw [h.pts]; exact ht)]; simp [pushedAt]⟩
  | cons op ops ih =>
    obtain ⟨s1, h1, h2⟩ := Out.bind_eq_ok.mp hr
    obtain ⟨w, tl, p, -⟩ := op_shape h h1
    obtain ⟨l, hl, hl'⟩ := ih w h2 (by rw [tl]; exact ht)
    by_cases hp : op.isPush = false
    · refine ⟨l, by rw [← p hp, hl], ?_⟩
      rw [hl']
      congr 2
      cases op <;> first | (simp [Op.isPush] at hp; done) | simp [pushedAt]
    · cases op with
      | push q t' =>
        rw [Op.run, push_ok h] at h1
        cases h1
        have hl : (s.points.modify t' (· ++ [q]))[t]? = some l := hl
        have ht' : t < s.points.length := by rw [h.pts]; exact ht
        rw [List.getElem?_eq_getElem (by simpa using ht'), List.getElem_modify] at hl
        refine ⟨s.points[t], List.getElem?_eq_getElem ht', ?_⟩
        rw [hl']
        by_cases e : t' = t
        · subst e
          simp only [if_true, Option.some.injEq] at hl
          simp [← hl, pushedAt]
        · simp only [if_neg e, Option.some.injEq] at hl
          simp [hl, pushedAt, e]
      | _ => simp [Op.isPush] at hp

/-- Pushes leave the cached matrices alone. -/
theorem run_pushes_S {e : EigSolver} {l : List Op} {a b : Plane} (wa : a.Wf) (hl : ∀ op ∈ l, op.isPush = true)
    (hr : run e l a = .ok b) : b.S = a.S := by
  induction l generalizing a with
  | nil => cases hr; rfl
  | cons op l ih =>
    obtain ⟨c, hc, hr⟩ := Out.bind_eq_ok.mp hr
    obtain ⟨wc, -⟩ := op_shape wa hc
    rw [ih wc (fun o ho => hl o (by simp [ho])) hr]
    cases op with
    | push p t =>
      rw [Op.run, push_ok wa] at hc
      cases hc
      rfl
    | _ => exact absurd (hl _ List.mem_cons_self) (by simp [Op.isPush])

theorem run_count {e : EigSolver} {ops : List Op} {s s' : Plane} (h : s.Wf) (hr : run e ops s = .ok s') :
    s'.numberPoints = s.numberPoints + pushCount s.timeLength ops := by
  induction ops generalizing s with
  | nil => cases hr; rfl
  | cons op ops ih =>
    obtain ⟨s1, h1, h2⟩ := Out.bind_eq_ok.mp hr
    obtain ⟨w, tl, -, -⟩ := op_shape h h1
    rw [ih w h2, tl]
    cases op with
    | push p t =>
      rw [Op.run, push_ok h] at h1
      cases h1
      by_cases ht : t < s.timeLength <;> simp [pushCount, ht] <;> omega
    | estimate traj =>
      obtain ⟨r, h1, h3⟩ := Out.bind_eq_ok.mp h1
      obtain ⟨-, rfl⟩ := estimate_inv h h1
      cases h3
      simp [pushCount, estimated]
    | estimateInc traj t =>
      obtain ⟨r, h1, h3⟩ := Out.bind_eq_ok.mp h1
      obtain ⟨acc, -, h4⟩ := Out.bind_eq_ok.mp h1
      cases h4
      cases h3
      simp [pushCount]
    | gradient t =>
      obtain ⟨r, h1, h3⟩ := Out.bind_eq_ok.mp h1
      obtain ⟨Q, pl, -, -, rfl⟩ := gradient_inv h1
      cases h3
      simp [pushCount]
    | calcS b =>
      obtain ⟨S, rfl, -⟩ := calcS_shape h h1
      simp [pushCount]
    | reset =>
      cases h1
      simp [pushCount, reset]

end Plane

end Mrob
