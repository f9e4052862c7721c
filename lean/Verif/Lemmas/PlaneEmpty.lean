import Verif.Lemmas.PlaneVia
import Verif.Lemmas.Plane
import Verif.Lemmas.PlaneRegStill

/-! # A plane registration with a further plane that has no points -/

open Matrix

namespace Mrob

namespace Spec

/-- The second list is the first one with one element inserted somewhere. -/
inductive Inserted {α : Type} (x : α) : List α → List α → Prop
  | here (l : List α) : Inserted x l (x :: l)
  | cons (a : α) {l m : List α} (h : Inserted x l m) : Inserted x (a :: l) (a :: m)

end Spec

open Spec

theorem Spec.Inserted.map {α β : Type} (f : α → β) {x : α} {l m : List α} (h : Inserted x l m) :
    Inserted (f x) (l.map f) (m.map f) := by
  induction h with
  | here l => exact .here _
  | cons a _ ih => exact .cons _ ih

theorem Spec.Inserted.sum_eq {α : Type} [AddCommMonoid α] {l m : List α} (h : Inserted 0 l m) : l.sum = m.sum := by
  induction h with
  | here l => rw [List.sum_cons, zero_add]
  | cons a _ ih => rw [List.sum_cons, List.sum_cons, ih]

theorem traverse_inserted {α β : Type} {f : α → Out β} {x : α} {y : β} (hx : f x = .ok y) {l m : List α} (h : Inserted x l m) :
    Leads (Inserted y) (Out.traverse f l) (Out.traverse f m) := by
  induction h with
  | here l =>
    intro r hr
    exact ⟨y :: r, by rw [Out.traverse, hx, hr]; rfl, .here r⟩
  | cons a _ ih =>
    exact Leads.bind (Leads.refl _) fun u v huv => Leads.bind ih fun r r' hr => by rw [huv]; exact Leads.ok (.cons v hr)

theorem traverse_member {α β : Type} {f : α → Out β} {a : α} : ∀ {l : List α} {r : List β}, Out.traverse f l = .ok r → a ∈ l →
    ∃ b ∈ r, f a = .ok b
  | b :: l, r, h, ha => by
    rw [Out.traverse] at h
    obtain ⟨y, h1, h⟩ := Out.bind_eq_ok.mp h
    obtain ⟨ys, h2, h⟩ := Out.bind_eq_ok.mp h
    cases h
    rcases List.mem_cons.mp ha with rfl | ha
    · exact ⟨y, by simp, h1⟩
    · obtain ⟨b, hb, h3⟩ := traverse_member h2 ha
      exact ⟨b, by simp [hb], h3⟩

theorem traverse_len {α β : Type} {f : α → Out β} : ∀ {l : List α} {r : List β}, Out.traverse f l = .ok r → r.length = l.length
  | [], r, h => by cases h; rfl
  | b :: l, r, h => by
    rw [Out.traverse] at h
    obtain ⟨y, h1, h⟩ := Out.bind_eq_ok.mp h
    obtain ⟨ys, h2, h⟩ := Out.bind_eq_ok.mp h
    cases h
    rw [List.length_cons, List.length_cons, traverse_len h2]

theorem index_some {α : Type} {l : List α} {t : ℕ} {a : α} (h : Out.index l t = .ok a) : t < l.length := by
  rw [Out.index] at h
  split at h
  · rename_i b hb
    exact (List.getElem?_eq_some_iff.mp hb).1
  · cases h

theorem index_replicate {α : Type} {n t : ℕ} (a : α) (h : t < n) : Out.index (List.replicate n a) t = .ok a := by
  rw [Out.index, List.getElem?_replicate_of_lt h]

theorem eig_zero {e : EigSolver} (he : e.Sound) : (e.eig4 0).val 0 = 0 := by
  obtain ⟨-, h1, h2⟩ := he.1 0 (by simp)
  rw [Matrix.zero_mul] at h2
  have h3 : ((e.eig4 0).vecᵀ * (e.eig4 0).vec) * Matrix.diagonal (e.eig4 0).val = 0 := by
    rw [Matrix.mul_assoc, ← h2, Matrix.mul_zero]
  rw [h1, Matrix.one_mul] at h3
  simpa using congrFun (congrFun h3 0) 0

namespace Plane

/-- A plane without points, for at least as many poses as the plane `p` has. -/
structure Fits (p z : Plane) : Prop where
  time : z.timeLength = p.timeLength
  len : p.points.length ≤ z.timeLength
  pts : z.points = List.replicate z.timeLength []
  S : z.S = [] ∨ z.S = List.replicate z.timeLength 0

/-- A plane without points, estimated whenever the plane `p` is. -/
structure Tracks (p z : Plane) : Prop extends Fits p z where
  Q : ∃ k, z.Q = List.replicate k 0 ∧ p.Q.length ≤ k
  plane : p.plane ≠ none → z.plane ≠ none

theorem calcS_points {p p' : Plane} (h : p.calcS false = .ok p') :
    p'.points = p.points ∧ p'.timeLength = p.timeLength ∧ p'.gradQ = p.gradQ := by
  unfold calcS at h
  dsimp only at h
  simp only [Bool.false_eq_true, if_false] at h
  split at h
  · obtain ⟨S, -, h⟩ := Out.bind_eq_ok.mp h
    cases h
    exact ⟨rfl, rfl, rfl⟩
  · cases h
    exact ⟨rfl, rfl, rfl⟩

theorem Fits.calcS {p z : Plane} (h : Fits p z) : z.calcS false = .ok { z with S := List.replicate z.timeLength 0 } := by
  have htr : Out.traverse (fun t => Out.index z.points t >>= fun l => .ok (sumOuter l)) (List.range z.timeLength) =
      .ok (List.replicate z.timeLength 0) := by
    rw [Out.traverse_ok (g := fun _ => 0)]
    · rw [List.map_const', List.length_range]
    · intro t ht
      rw [h.pts, index_replicate _ (by simpa using ht)]
      rfl
  have hS : z.S = [] → z.calcS false = .ok { z with S := List.replicate z.timeLength 0 } := by
    intro h0
    unfold Plane.calcS
    simp only [Bool.false_eq_true, if_false]
    rw [if_pos (show z.S.isEmpty = true by rw [h0]; rfl), htr]
    rfl
  rcases h.S with h0 | h0
  · exact hS h0
  · by_cases hn : z.timeLength = 0
    · exact hS (by rw [h0, hn]; rfl)
    · unfold Plane.calcS
      simp only [Bool.false_eq_true, if_false]
      have hne : ¬ z.S.isEmpty = true := by
        rw [h0, List.isEmpty_iff, List.replicate_eq_nil_iff]
        exact hn
      rw [if_neg hne, ← h0]

theorem Fits.estimate {e : EigSolver} (he : e.Sound) (traj : List SE3) {p z : Plane} (h : Fits p z) {v : ℝ} {p' : Plane}
    (hp : p.estimate e traj = .ok (v, p')) : ∃ z', z.estimate e traj = .ok (0, z') ∧ Tracks p' z' := by
  obtain ⟨p1, h1, hp⟩ := Out.bind_eq_ok.mp hp
  obtain ⟨e1, e2, e3⟩ := calcS_points h1
  obtain ⟨p2, h2, hp⟩ := Out.bind_eq_ok.mp hp
  obtain ⟨Q, h3, h2⟩ := Out.bind_eq_ok.mp h2
  cases h2
  cases hp
  have hz1 := h.calcS
  have hz2 : calcQ traj { z with S := List.replicate z.timeLength 0 } =
      .ok { z with S := List.replicate z.timeLength 0, Q := List.replicate z.timeLength 0 } := by
    unfold calcQ
    dsimp only
    rw [Out.traverse_ok (g := fun _ => 0)]
    · rw [List.map_const', List.length_range]; rfl
    · intro t ht
      obtain ⟨b, -, hb⟩ := traverse_member h3 (a := t) (by rw [e2, ← h.time]; exact ht)
      obtain ⟨T, hT, -⟩ := Out.bind_eq_ok.mp hb
      rw [rotS, hT, Out.ok_bind, index_replicate _ (by simpa using ht)]
      simp
  have hacc : (List.replicate z.timeLength (0 : Mat4)).foldl (· + ·) 0 = 0 := by
    induction z.timeLength with
    | zero => rfl
    | succ n ih => rw [List.replicate_succ, List.foldl_cons, add_zero, ih]
  refine ⟨{ z with
    S := List.replicate z.timeLength 0
    Q := List.replicate z.timeLength 0
    accQ := some 0
    plane := some (firstVec (e.eig4 0))
    lambda := 0 }, ?_, ?_⟩
  · unfold Plane.estimate
    rw [hz1, Out.ok_bind, hz2, Out.ok_bind]
    dsimp only
    rw [hacc, eig_zero he]
  · exact
    { time := by change z.timeLength = p1.timeLength; rw [e2]; exact h.time
      len := by change p1.points.length ≤ z.timeLength; rw [e1]; exact h.len
      pts := h.pts
      S := Or.inr rfl
      Q := ⟨z.timeLength, rfl, by
        change Q.length ≤ _
        rw [traverse_len h3, List.length_range, e2, h.time]⟩
      plane := fun _ => by simp }

theorem Tracks.gradient (t : ℕ) {p z : Plane} (h : Tracks p z) {v : Vec6} {p' : Plane} (hp : p.gradient t = .ok (v, p')) :
    ∃ z', z.gradient t = .ok (0, z') ∧ Tracks p' z' ∧ z'.gradQ = some 0 := by
  obtain ⟨Q, h1, hp⟩ := Out.bind_eq_ok.mp hp
  obtain ⟨k, hk, hle⟩ := h.Q
  have ht := index_some h1
  cases hpl : p.plane with
  | none => rw [hpl] at hp; cases hp
  | some pl =>
    rw [hpl] at hp
    cases hp
    cases hzl : z.plane with
    | none => exact absurd hzl (h.plane (by rw [hpl]; simp))
    | some zl =>
      refine ⟨{ z with gradQ := some 0 }, ?_, ?_⟩
      · rw [Plane.gradient, hk, index_replicate _ (by omega), Out.ok_bind, hzl, PlaneReg.gradOf_zero]
        dsimp only
        congr 2
        funext i
        simp
      · exact ⟨⟨⟨h.time, h.len, h.pts, h.S⟩, h.Q, fun _ => by dsimp only; rw [hzl]; simp⟩, rfl⟩

theorem Fits.number (t : ℕ) {p z : Plane} (h : Fits p z) {k : ℕ} (hp : p.getNumberPoints t = .ok k) :
    z.getNumberPoints t = .ok 0 := by
  obtain ⟨l, h1, -⟩ := Out.bind_eq_ok.mp hp
  have ht := index_some h1
  rw [getNumberPoints, h.pts, index_replicate _ (by have := h.len; omega)]
  rfl

theorem Tracks.hessian (t : ℕ) {p z : Plane} (h : Tracks p z) (hg : z.gradQ = some 0) {H : Mat6} (hp : p.hessian t = .ok H) :
    z.hessian t = .ok 0 := by
  obtain ⟨Q, h1, hp⟩ := Out.bind_eq_ok.mp hp
  obtain ⟨k, hk, hle⟩ := h.Q
  have ht := index_some h1
  have hpl : p.plane ≠ none := fun h0 => by
    cases hq : p.gradQ with
    | none => rw [hq] at hp; cases hp
    | some g => rw [hq, h0] at hp; cases hp
  cases hzl : z.plane with
  | none => exact absurd hzl (h.plane hpl)
  | some zl =>
    rw [Plane.hessian, hk, index_replicate _ (by omega), Out.ok_bind, hg, hzl]
    dsimp only
    congr 1
    ext i j
    simp [PlaneReg.ddQ_zero]

end Plane

namespace PlaneReg

namespace Empty

/-- A plane without points is inserted. -/
def K0 (id : ℕ) (l m : List (ℕ × Plane)) : Prop := ∃ z, Inserted (id, z) l m ∧ ∃ q ∈ l, Plane.Fits q.2 z

/-- A plane without points is inserted, which is estimated whenever one of the others is. -/
def K (id : ℕ) (l m : List (ℕ × Plane)) : Prop := ∃ z, Inserted (id, z) l m ∧ ∃ q ∈ l, Plane.Tracks q.2 z

theorem K.weaken {id : ℕ} {s s' : PlaneReg} (h : Via (K id) s s') : Via (K0 id) s s' := by
  obtain ⟨ps, ⟨z, hi, q, hq, hz⟩, rfl⟩ := h
  exact ⟨ps, ⟨z, hi, q, hq, hz.toFits⟩, rfl⟩

theorem eachPlane_leads {id : ℕ} {β : Type} {f : Plane → Out (β × Plane)} (v0 : β) (P : Plane → Plane → Prop)
    (hf : ∀ p z, P p z → ∀ v p', f p = .ok (v, p') → ∃ z', f z = .ok (v0, z') ∧ Plane.Tracks p' z')
    {s s' : PlaneReg} (h : Via (fun l m => ∃ z, Inserted (id, z) l m ∧ ∃ q ∈ l, P q.2 z) s s') :
    Leads (fun x y => Inserted v0 x.1 y.1 ∧ Via (K id) x.2 y.2) (s.eachPlane f) (s'.eachPlane f) := by
  obtain ⟨ps, ⟨z, hi, q, hq, hz⟩, rfl⟩ := h
  intro r hr
  obtain ⟨l, h1, h2⟩ := Out.bind_eq_ok.mp hr
  obtain ⟨y, hy, h3⟩ := traverse_member h1 hq
  obtain ⟨⟨v, p'⟩, h4, h5⟩ := Out.bind_eq_ok.mp h3
  obtain ⟨z', h6, h7⟩ := hf _ _ hz v p' h4
  obtain ⟨l', h8, h9⟩ := traverse_inserted (f := fun p : ℕ × Plane => f p.2 >>= fun r => .ok (r.1, (p.1, r.2)))
    (x := (id, z)) (y := (v0, (id, z'))) (by dsimp only; rw [h6]; rfl) hi l h1
  cases h2
  cases h5
  refine ⟨(l'.map (·.1), { s with planes := l'.map (·.2) }), ?_, h9.map (·.1), l'.map (·.2), ⟨z', h9.map (·.2), (q.1, p'), ?_, h7⟩, rfl⟩
  · unfold eachPlane
    dsimp only
    rw [h8]
    rfl
  · exact List.mem_map.mpr ⟨_, hy, rfl⟩

theorem error_leads {e : EigSolver} (he : e.Sound) {id : ℕ} {s s' : PlaneReg} (h : Via (K0 id) s s') :
    Leads (OptDense.RelV (Via (K id))) (s.error e) (s'.error e) := by
  have ht : s'.traj = s.traj := by obtain ⟨ps, hp, rfl⟩ := h; rfl
  unfold PlaneReg.error
  rw [ht]
  exact Leads.bind (eachPlane_leads 0 Plane.Fits (fun p z hz v p' hp => hz.estimate he s.traj hp) h)
    fun ⟨l, t⟩ ⟨l', t'⟩ ⟨h1, h2⟩ => Leads.ok ⟨h1.sum_eq, h2⟩

theorem each {e : EigSolver} (he : e.Sound) (id : ℕ) : Via.Each e (K id) where
  error h := error_leads he (K.weaken h)
  grad t s s' h := Leads.bind (eachPlane_leads ((0 : Vec6), 0) Plane.Tracks (fun p z hz v p' hp => by
      obtain ⟨⟨g, p1⟩, h1, hp⟩ := Out.bind_eq_ok.mp hp
      obtain ⟨k, h2, hp⟩ := Out.bind_eq_ok.mp hp
      cases hp
      obtain ⟨z', h3, h4, -⟩ := hz.gradient t h1
      exact ⟨z', by rw [h3, Out.ok_bind]; dsimp only; rw [h4.number t h2]; rfl, h4⟩) h)
    fun ⟨l, t⟩ ⟨l', t'⟩ ⟨h1, h2⟩ => Leads.ok ⟨Prod.ext (h1.map Prod.fst).sum_eq (h1.map Prod.snd).sum_eq, h2⟩
  gradHess t s s' h := Leads.bind (eachPlane_leads ((0 : Vec6), (0 : Mat6)) Plane.Tracks (fun p z hz v p' hp => by
      obtain ⟨⟨g, p1⟩, h1, hp⟩ := Out.bind_eq_ok.mp hp
      obtain ⟨k, h2, hp⟩ := Out.bind_eq_ok.mp hp
      cases hp
      obtain ⟨z', h3, h4, h5⟩ := hz.gradient t h1
      exact ⟨z', by rw [h3, Out.ok_bind]; dsimp only; rw [h4.hessian t h5 h2]; rfl, h4⟩) h)
    fun ⟨l, t⟩ ⟨l', t'⟩ ⟨h1, h2⟩ => Leads.ok ⟨Prod.ext (h1.map Prod.fst).sum_eq (h1.map Prod.snd).sum_eq, h2⟩

end Empty

end PlaneReg

end Mrob
