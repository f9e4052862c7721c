import Verif.Lemmas.PlaneRegHist
import Verif.Lemmas.Arun
import Verif.Spec.Registration

/-! # `solve_initialize` on planes seen from the first pose -/

open Matrix

namespace Mrob

open Spec

namespace Plane

/-- The points of a plane at time `t`. -/
def cloudAt (t : ℕ) (p : Plane) : List Vec3 := (p.points[t]?).getD []

/-- The mean of the points of a plane at time `t`. -/
noncomputable def meanAt (t : ℕ) (p : Plane) : Vec3 := Spec.meanPoint (p.cloudAt t)

/-- The plane with the matrices of its points. -/
noncomputable def synced (p : Plane) : Plane := { p with S := p.points.map sumOuter }

theorem cloudAt_of_lt {t : ℕ} {p : Plane} (h : t < p.points.length) : p.points[t]? = some (p.cloudAt t) := by
  rw [cloudAt, List.getElem?_eq_getElem h, Option.getD_some]

theorem getNumberPoints_ok {t : ℕ} {p : Plane} (h : t < p.points.length) :
    p.getNumberPoints t = .ok (p.cloudAt t).length := by
  rw [getNumberPoints, Out.index_eq_ok.mpr (cloudAt_of_lt h), Out.ok_bind]

theorem sumOuter_mean (l : List Vec3) (i : Fin 3) : sumOuter l (.inl i) (.inr ()) = l.sum i := by
  induction l with
  | nil => rfl
  | cons p l ih => rw [sumOuter_cons, Matrix.add_apply, ih, List.sum_cons]; simp [vecMulVec_apply, homPt]

theorem sumOuter_count (l : List Vec3) : sumOuter l (.inr ()) (.inr ()) = l.length := by
  induction l with
  | nil => simp [sumOuter_nil]
  | cons p l ih => rw [sumOuter_cons, Matrix.add_apply, ih]; simp [vecMulVec_apply, homPt, add_comm]

theorem meanPoint_ok {t : ℕ} {p : Plane} (h : t < p.points.length) (hS : p.S = p.points.map sumOuter)
    (hne : p.cloudAt t ≠ []) : p.meanPoint t = .ok (p.meanAt t) := by
  have h1 : p.S[t]? = some (sumOuter (p.cloudAt t)) := by rw [hS, List.getElem?_map, cloudAt_of_lt h]; rfl
  rw [meanPoint, Out.index_eq_ok.mpr h1, Out.ok_bind, sumOuter_count, if_neg (by simpa using hne)]
  congr 1
  ext i
  rw [sumOuter_mean, meanAt, Spec.meanPoint, Pi.smul_apply, smul_eq_mul, div_eq_inv_mul]

end Plane

namespace PlaneReg

theorem eachPlane_ok {β : Type} {f : Plane → Out (β × Plane)} {s : PlaneReg} {g : Plane → β} {k : Plane → Plane}
    (h : ∀ q ∈ s.planes, f q.2 = .ok (g q.2, k q.2)) :
    s.eachPlane f = .ok (s.planes.map (fun q => g q.2), { s with planes := s.planes.map fun q => (q.1, k q.2) }) := by
  rw [eachPlane, Out.traverse_ok (g := fun q => (g q.2, (q.1, k q.2)))
    (fun q hq => by rw [h q hq, Out.ok_bind]), Out.ok_bind, List.map_map, List.map_map]
  rfl

/-- All planes have room for all poses, and no points were added since their matrices were computed. -/
def Prepared (s : PlaneReg) : Prop := ∀ q ∈ s.planes, q.2.Wf ∧ q.2.InSync ∧ q.2.timeLength = s.numberPoses

/-- The correspondences of time `t`: the means of the planes seen at time `t`, with their means at time 0. -/
noncomputable def pairsAt (t : ℕ) (s : PlaneReg) : List (Vec3 × Vec3) :=
  s.planes.filterMap fun q => if q.2.cloudAt t = [] then none else some (q.2.meanAt t, q.2.meanAt 0)

theorem firstMean_ok {p : Plane} (h : p.Wf) (hs : p.InSync) (hl : 0 < p.timeLength) :
    firstMean p = .ok (if p.cloudAt 0 = [] then none else some (p.meanAt 0), p.synced) := by
  have h0 : 0 < p.points.length := by rw [h.pts]; exact hl
  rw [firstMean, Plane.calcS_inSync h hs, Out.ok_bind]
  rw [Plane.getNumberPoints_ok (p := { p with S := p.points.map sumOuter }) h0, Out.ok_bind]
  change (if (p.cloudAt 0).length > 0 then _ else _) = _
  split_ifs with h1 h2 h2
  · rw [h2] at h1; exact absurd h1 (by simp)
  · rw [Plane.meanPoint_ok (p := { p with S := p.points.map sumOuter }) h0 rfl h2, Out.ok_bind]
    rfl
  · rfl
  · exact absurd (List.length_pos_iff.mpr h2) h1

theorem zipIdx_fst {α : Type} (l : List α) : l.zipIdx.map Prod.fst = l := by simp

/-- The first loop. -/
theorem firstMeans_ok {s : PlaneReg} (hp : s.Prepared) (hn : s.numberPoses ≠ 0) :
    s.eachPlane firstMean = .ok (s.planes.map (fun q => if q.2.cloudAt 0 = [] then none else some (q.2.meanAt 0)),
      { s with planes := s.planes.map fun q => (q.1, q.2.synced) }) :=
  eachPlane_ok (g := fun p => if p.cloudAt 0 = [] then none else some (p.meanAt 0)) (k := Plane.synced) fun q hq => by
    obtain ⟨h1, h2, h3⟩ := hp q hq
    exact firstMean_ok h1 h2 (by omega)

/-- The rows read for a plane at time `t`. -/
theorem row_ok {s : PlaneReg} (hp : s.Prepared) {t : ℕ} (ht : t < s.numberPoses) {q : ℕ × Plane} (hq : q ∈ s.planes)
    (yAll : List Vec3) (cont : ℕ) :
    (Plane.getNumberPoints t q.2.synced >>= fun k =>
      if k > 0 then Plane.meanPoint t q.2.synced >>= fun x => Out.index yAll cont >>= fun y => .ok (some (x, y))
      else .ok none) =
    if q.2.cloudAt t = [] then .ok none else Out.index yAll cont >>= fun y => .ok (some (q.2.meanAt t, y)) := by
  obtain ⟨h1, h2, h3⟩ := hp q hq
  have ht' : t < q.2.points.length := by rw [h1.pts, h3]; exact ht
  rw [Plane.getNumberPoints_ok (p := q.2.synced) ht', Out.ok_bind]
  change (if (q.2.cloudAt t).length > 0 then _ else _) = _
  split_ifs with h4 h5 h5
  · rw [h5] at h4; exact absurd h4 (by simp)
  · rw [Plane.meanPoint_ok (p := q.2.synced) ht' rfl h5, Out.ok_bind]
    rfl
  · rfl
  · exact absurd (List.length_pos_iff.mpr h5) h4

theorem rowsAt_ok {s : PlaneReg} (hp : s.Prepared) {t : ℕ} (ht : t < s.numberPoses) :
    rowsAt (s.planes.map fun q => q.2.meanAt 0) t { s with planes := s.planes.map fun q => (q.1, q.2.synced) } =
      .ok (s.pairsAt t) := by
  rw [rowsAt, Out.traverse_ok (g := fun x => if x.1.2.cloudAt t = [] then none else some (x.1.2.meanAt t, x.1.2.meanAt 0))]
  · rw [Out.ok_bind, pairsAt]
    congr 1
    rw [List.filterMap_map]
    change List.filterMap ((fun q : ℕ × Plane => if q.2.cloudAt t = [] then none else some (q.2.meanAt t, q.2.meanAt 0)) ∘
      Prod.fst) _ = _
    rw [← List.filterMap_map]
    change List.filterMap _ ((s.planes.map fun q => (q.1, q.2.synced)).zipIdx.map Prod.fst) = _
    rw [zipIdx_fst, List.filterMap_map]
    rfl
  · rintro ⟨q', cont⟩ hq
    obtain ⟨h1, h2, h3⟩ := List.mem_zipIdx hq
    simp only [Nat.zero_add, Nat.sub_zero, List.length_map] at h2 h3
    have e : q' = ((s.planes[cont]'h2).1, (s.planes[cont]'h2).2.synced) := by rw [h3]; simp
    have hy : Out.index (s.planes.map fun q => q.2.meanAt 0) cont = .ok ((s.planes[cont]'h2).2.meanAt 0) := by
      rw [Out.index_ok (by simpa using h2)]; simp
    rw [e]
    dsimp only
    rw [row_ok hp ht (List.getElem_mem h2) (s.planes.map fun q => q.2.meanAt 0) cont, hy, Out.ok_bind]
    change _ = Out.ok (if (s.planes[cont]'h2).2.cloudAt t = [] then none else
      some ((s.planes[cont]'h2).2.meanAt t, (s.planes[cont]'h2).2.meanAt 0))
    split_ifs <;> rfl

/-- Reading beyond the list of the first means. -/
theorem rowsAt_ub {s : PlaneReg} (hp : s.Prepared) {t : ℕ} (ht : t < s.numberPoses) (yAll : List Vec3)
    (hlen : yAll.length < s.planes.length) {q : ℕ × Plane} (hq : s.planes.getLast? = some q) (hc : q.2.cloudAt t ≠ []) :
    rowsAt yAll t { s with planes := s.planes.map fun q => (q.1, q.2.synced) } = .ub := by
  have key : ∀ (l : List (ℕ × Plane)) (k : ℕ), (∀ q ∈ l, q ∈ s.planes) → l.getLast? = some q → yAll.length < k + l.length →
      Out.traverse (fun (p, cont) => Plane.getNumberPoints t p.2 >>= fun k =>
        if k > 0 then Plane.meanPoint t p.2 >>= fun x => Out.index yAll cont >>= fun y => .ok (some (x, y))
        else .ok none) ((l.map fun q => (q.1, q.2.synced)).zipIdx k) = .ub := by
    intro l
    induction l with
    | nil => intro k _ h; cases h
    | cons a l ih =>
      intro k hm hl hlen
      rw [List.map_cons, List.zipIdx_cons, Out.traverse]
      dsimp only
      rw [row_ok hp ht (hm a List.mem_cons_self)]
      by_cases hla : l = []
      · subst hla
        have hl : a = q := by simpa using hl
        rw [hl, if_neg hc, Out.index, List.getElem?_eq_none (by simp at hlen; omega)]
        rfl
      · have ih' := ih (k + 1) (fun x hx => hm x (List.mem_cons_of_mem _ hx))
          (by rw [List.getLast?_cons_of_ne_nil hla] at hl; exact hl) (by simp at hlen; omega)
        split_ifs with h1
        · rw [Out.ok_bind, ih']; rfl
        · cases hy : Out.index yAll k with
          | ok y => rw [Out.ok_bind, Out.ok_bind, ih']; rfl
          | ub => rfl
          | nan => rw [Out.index] at hy; split at hy <;> cases hy
          | throw => rw [Out.index] at hy; split at hy <;> cases hy
  rw [rowsAt]
  have := key s.planes 0 (fun _ h => h) hq (by omega)
  rw [this]
  rfl

/-- The loop over the times when every call of `arun` succeeds. -/
theorem initLoop_one {svd : Mat3 → SVD3} {yAll : List Vec3} {s : PlaneReg} {M : ℕ → SE3} : ∀ {ts : List ℕ} {traj : List SE3},
    ts.Nodup → (∀ t ∈ ts, t < traj.length ∧ ∃ rows, s.rowsAt yAll t = .ok rows ∧
      arun svd (rows.map (·.1)) (rows.map (·.2)) SE3.default = .ok (true, M t)) →
    ∃ traj', initLoop svd yAll s ts traj = .ok (1, traj') ∧ traj'.length = traj.length ∧
      (∀ t ∈ ts, traj'[t]? = some (M t)) ∧ ∀ t ∉ ts, traj'[t]? = traj[t]? := by
  intro ts
  induction ts with
  | nil => intro traj _ _; exact ⟨traj, rfl, rfl, by simp, fun _ _ => rfl⟩
  | cons a ts ih =>
    intro traj hd h
    obtain ⟨h1, rows, h2, h3⟩ := h a List.mem_cons_self
    obtain ⟨traj', e1, e2, e3, e4⟩ := ih (traj := traj.set a (M a)) hd.of_cons fun t ht => by
      rw [List.length_set]; exact h t (List.mem_cons_of_mem _ ht)
    rw [List.nodup_cons] at hd
    refine ⟨traj', ?_, by rw [e2, List.length_set], ?_, ?_⟩
    · rw [initLoop, h2, Out.ok_bind, h3, Out.ok_bind]
      dsimp only
      rw [if_pos rfl, if_pos h1, e1]
    · intro t ht
      rcases List.mem_cons.mp ht with rfl | ht
      · rw [e4 t hd.1, List.getElem?_set_self h1]
      · exact e3 t ht
    · intro t ht
      rw [List.mem_cons, not_or] at ht
      rw [e4 t ht.2, List.getElem?_set_ne (Ne.symm ht.1)]

/-- The loop over the times in general. -/
theorem initLoop_total {svd : Mat3 → SVD3} {yAll : List Vec3} {s : PlaneReg} : ∀ {ts : List ℕ} {traj : List SE3},
    ts.Nodup → (∀ t ∈ ts, t < traj.length ∧ ∃ rows, s.rowsAt yAll t = .ok rows) →
    ∃ b traj', initLoop svd yAll s ts traj = .ok (b, traj') ∧ traj'.length = traj.length ∧ (∀ t ∉ ts, traj'[t]? = traj[t]?) ∧
      (b = 1 ∧ (∀ t ∈ ts, ∃ rows T, s.rowsAt yAll t = .ok rows ∧
          arun svd (rows.map (·.1)) (rows.map (·.2)) SE3.default = .ok (true, T) ∧ traj'[t]? = some T) ∨
        b = 0 ∧ ∃ t ∈ ts, ∃ rows, s.rowsAt yAll t = .ok rows ∧
          arun svd (rows.map (·.1)) (rows.map (·.2)) SE3.default = .ok (false, SE3.default) ∧ traj'[t]? = traj[t]?) := by
  intro ts
  induction ts with
  | nil => intro traj _ _; exact ⟨1, traj, rfl, rfl, fun _ _ => rfl, Or.inl ⟨rfl, by simp⟩⟩
  | cons a ts ih =>
    intro traj hd h
    obtain ⟨h1, rows, h2⟩ := h a List.mem_cons_self
    obtain ⟨b, T, h3, h4⟩ : ∃ b T', arun svd (rows.map (·.1)) (rows.map (·.2)) SE3.default = .ok (b, T') ∧
        (b = false → T' = SE3.default) := by
      rw [arun, if_neg (not_not.mpr (by simp))]
      dsimp only
      split_ifs
      · exact ⟨false, _, rfl, fun _ => rfl⟩
      · exact ⟨false, _, rfl, fun _ => rfl⟩
      · exact ⟨false, _, rfl, fun _ => rfl⟩
      · exact ⟨true, _, rfl, fun h => by simp at h⟩
    cases b with
    | false =>
      refine ⟨0, traj, ?_, rfl, fun _ _ => rfl, Or.inr ⟨rfl, a, List.mem_cons_self, rows, h2, by rw [h3, h4 rfl], rfl⟩⟩
      rw [initLoop, h2, Out.ok_bind, h3, Out.ok_bind]
      rfl
    | true =>
      obtain ⟨b, traj', e1, e2, e3, e4⟩ := ih (traj := traj.set a T) hd.of_cons fun t ht => by
        rw [List.length_set]; exact h t (List.mem_cons_of_mem _ ht)
      rw [List.nodup_cons] at hd
      refine ⟨b, traj', ?_, by rw [e2, List.length_set], ?_, ?_⟩
      · rw [initLoop, h2, Out.ok_bind, h3, Out.ok_bind]
        dsimp only
        rw [if_pos rfl, if_pos h1, e1]
      · intro t ht
        rw [List.mem_cons, not_or] at ht
        rw [e3 t ht.2, List.getElem?_set_ne (Ne.symm ht.1)]
      · rcases e4 with ⟨rfl, e4⟩ | ⟨rfl, t, ht, rows', x1, x2, x3⟩
        · refine Or.inl ⟨rfl, fun t ht => ?_⟩
          rcases List.mem_cons.mp ht with rfl | ht
          · exact ⟨rows, T, h2, h3, by rw [e3 t hd.1, List.getElem?_set_self h1]⟩
          · exact e4 t ht
        · refine Or.inr ⟨rfl, t, List.mem_cons_of_mem _ ht, rows', x1, x2, ?_⟩
          rw [x3, List.getElem?_set_ne (by rintro rfl; exact hd.1 ht)]

end PlaneReg

end Mrob
