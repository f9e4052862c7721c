import Verif.Lemmas.PlaneEmpty

/-! # Calls on a plane registration with one more plane that has no points -/

open Matrix

namespace Mrob

open Spec

theorem traverse_source {α β : Type} {f : α → Out β} {l : List α} {r : List β} (h : Out.traverse f l = .ok r) {b : β} (hb : b ∈ r) :
    ∃ a ∈ l, f a = .ok b := by
  induction l generalizing r with
  | nil => cases h; cases hb
  | cons x l ih =>
    obtain ⟨y, h1, h⟩ := Out.bind_eq_ok.mp h
    obtain ⟨m, h2, h⟩ := Out.bind_eq_ok.mp h
    cases h
    rcases List.mem_cons.mp hb with rfl | hb
    · exact ⟨x, List.mem_cons_self, h1⟩
    · obtain ⟨a, ha, h3⟩ := ih h2 hb
      exact ⟨a, List.mem_cons_of_mem _ ha, h3⟩

theorem Spec.Inserted.append {α : Type} {x : α} {l m : List α} (h : Inserted x l m) (r : List α) : Inserted x (l ++ r) (m ++ r) := by
  induction h with
  | here l => exact .here _
  | cons a _ ih => exact .cons a ih

theorem Spec.Inserted.mem_iff {α : Type} {x y : α} {l m : List α} (h : Inserted x l m) (hy : y ≠ x) : y ∈ m ↔ y ∈ l := by
  induction h with
  | here l => simp [hy]
  | cons a _ ih => rw [List.mem_cons, List.mem_cons, ih]

theorem Spec.Inserted.find {α : Type} {x : α} {l m : List α} (h : Inserted x l m) (f : α → Bool) (hx : f x = false) :
    m.find? f = l.find? f := by
  induction h with
  | here l => rw [List.find?_cons_of_neg (by rw [hx]; simp)]
  | cons a _ ih => rw [List.find?_cons, List.find?_cons, ih]

namespace PlaneReg

namespace Empty

/-- A plane without points and with `n` poses is inserted; all other planes are related to it. -/
def KA (P : Plane → Plane → Prop) (n id : ℕ) (l m : List (ℕ × Plane)) : Prop :=
  ∃ z, Inserted (id, z) l m ∧ z.timeLength = n ∧ l ≠ [] ∧ ∀ q ∈ l, P q.2 z

theorem eachPlane_all {n id : ℕ} {β : Type} {f : Plane → Out (β × Plane)} (v0 : β) (P : Plane → Plane → Prop)
    (hP : ∀ p z, P p z → z.timeLength = p.timeLength)
    (hf : ∀ p z, P p z → ∀ v p', f p = .ok (v, p') → p'.timeLength = p.timeLength ∧ ∃ z', f z = .ok (v0, z') ∧ Plane.Tracks p' z')
    {s s' : PlaneReg} (h : Via (KA P n id) s s') :
    Leads (fun x y => Inserted v0 x.1 y.1 ∧ Via (KA Plane.Tracks n id) x.2 y.2) (s.eachPlane f) (s'.eachPlane f) := by
  obtain ⟨ps, ⟨z, hi, hn, hne, hz⟩, rfl⟩ := h
  intro r hr
  obtain ⟨l, h1, h2⟩ := Out.bind_eq_ok.mp hr
  obtain ⟨q, hq⟩ := List.exists_mem_of_ne_nil _ hne
  obtain ⟨y, hy, h3⟩ := traverse_member h1 hq
  obtain ⟨⟨v, p'⟩, h4, h5⟩ := Out.bind_eq_ok.mp h3
  obtain ⟨ht, z', h6, h7⟩ := hf _ _ (hz q hq) v p' h4
  obtain ⟨l', h8, h9⟩ := traverse_inserted (f := fun p : ℕ × Plane => f p.2 >>= fun r => .ok (r.1, (p.1, r.2)))
    (x := (id, z)) (y := (v0, (id, z'))) (by dsimp only; rw [h6]; rfl) hi l h1
  cases h2
  refine ⟨(l'.map (·.1), { s with planes := l'.map (·.2) }), ?_, h9.map (·.1), l'.map (·.2),
    ⟨z', h9.map (·.2), ?_, ?_, ?_⟩, rfl⟩
  · unfold eachPlane
    dsimp only
    rw [h8]
    rfl
  · rw [h7.time, ht, ← hP _ _ (hz q hq), hn]
  · exact List.ne_nil_of_mem (List.mem_map.mpr ⟨_, hy, rfl⟩)
  · intro x hx
    obtain ⟨b, hb, rfl⟩ := List.mem_map.mp hx
    obtain ⟨a, ha, h10⟩ := traverse_source h1 hb
    obtain ⟨⟨w, a'⟩, h11, h12⟩ := Out.bind_eq_ok.mp h10
    cases h12
    obtain ⟨-, z'', h13, h14⟩ := hf _ _ (hz a ha) w a' h11
    rw [h6] at h13
    cases h13
    exact h14

theorem KA.weaken {n id : ℕ} {s s' : PlaneReg} (h : Via (KA Plane.Tracks n id) s s') : Via (KA Plane.Fits n id) s s' := by
  obtain ⟨ps, ⟨z, hi, hn, hne, hz⟩, rfl⟩ := h
  exact ⟨ps, ⟨z, hi, hn, hne, fun q hq => (hz q hq).toFits⟩, rfl⟩

theorem gradient_time {t : ℕ} {p p' : Plane} {v : Vec6} (h : p.gradient t = .ok (v, p')) : p'.timeLength = p.timeLength := by
  obtain ⟨Q, -, h⟩ := Out.bind_eq_ok.mp h
  cases hpl : p.plane with
  | none => rw [hpl] at h; cases h
  | some pl => rw [hpl] at h; cases h; rfl

theorem estimate_time {e : EigSolver} {traj : List SE3} {p p' : Plane} {v : ℝ} (h : p.estimate e traj = .ok (v, p')) :
    p'.timeLength = p.timeLength := by
  obtain ⟨p1, h1, h⟩ := Out.bind_eq_ok.mp h
  obtain ⟨p2, h2, h⟩ := Out.bind_eq_ok.mp h
  obtain ⟨Q, -, h2⟩ := Out.bind_eq_ok.mp h2
  cases h2
  cases h
  exact (Plane.calcS_points h1).2.1

theorem error_all {e : EigSolver} (he : e.Sound) {n id : ℕ} {s s' : PlaneReg} (h : Via (KA Plane.Fits n id) s s') :
    Leads (OptDense.RelV (Via (KA Plane.Tracks n id))) (s.error e) (s'.error e) := by
  have ht : s'.traj = s.traj := by obtain ⟨ps, hp, rfl⟩ := h; rfl
  unfold PlaneReg.error
  rw [ht]
  exact Leads.bind (eachPlane_all 0 Plane.Fits (fun p z h => h.time)
    (fun p z hz v p' hp => ⟨estimate_time hp, hz.estimate he s.traj hp⟩) h)
    fun ⟨l, t⟩ ⟨l', t'⟩ ⟨h1, h2⟩ => Leads.ok ⟨h1.sum_eq, h2⟩

theorem each_all {e : EigSolver} (he : e.Sound) (n id : ℕ) : Via.Each e (KA Plane.Tracks n id) where
  error h := error_all he (KA.weaken h)
  grad t s s' h := Leads.bind (eachPlane_all ((0 : Vec6), 0) Plane.Tracks (fun p z h => h.time) (fun p z hz v p' hp => by
      obtain ⟨⟨g, p1⟩, h1, hp⟩ := Out.bind_eq_ok.mp hp
      obtain ⟨k, h2, hp⟩ := Out.bind_eq_ok.mp hp
      cases hp
      obtain ⟨z', h3, h4, -⟩ := hz.gradient t h1
      exact ⟨gradient_time h1, z', by rw [h3, Out.ok_bind]; dsimp only; rw [h4.number t h2]; rfl, h4⟩) h)
    fun ⟨l, t⟩ ⟨l', t'⟩ ⟨h1, h2⟩ => Leads.ok ⟨Prod.ext (h1.map Prod.fst).sum_eq (h1.map Prod.snd).sum_eq, h2⟩
  gradHess t s s' h := Leads.bind (eachPlane_all ((0 : Vec6), (0 : Mat6)) Plane.Tracks (fun p z h => h.time) (fun p z hz v p' hp => by
      obtain ⟨⟨g, p1⟩, h1, hp⟩ := Out.bind_eq_ok.mp hp
      obtain ⟨k, h2, hp⟩ := Out.bind_eq_ok.mp hp
      cases hp
      obtain ⟨z', h3, h4, h5⟩ := hz.gradient t h1
      exact ⟨gradient_time h1, z', by rw [h3, Out.ok_bind]; dsimp only; rw [h4.hessian t h5 h2]; rfl, h4⟩) h)
    fun ⟨l, t⟩ ⟨l', t'⟩ ⟨h1, h2⟩ => Leads.ok ⟨Prod.ext (h1.map Prod.fst).sum_eq (h1.map Prod.snd).sum_eq, h2⟩

theorem push_fits {p p' z : Plane} {x : Vec3} {t : ℕ} (h : Plane.Fits p z) (hp : p.push x t = .ok p') : Plane.Fits p' z := by
  rw [Plane.push] at hp
  split at hp
  · obtain ⟨l, -, hp⟩ := Out.bind_eq_ok.mp hp
    cases hp
    exact ⟨h.time, by dsimp only; rw [List.length_set]; exact h.len, h.pts, h.S⟩
  · cases hp
    exact h

theorem emplace_all {n id id' : ℕ} (hid : id' ≠ id) {p : Plane} (h1 : p.timeLength = n) (h2 : p.points.length ≤ n) {s s' : PlaneReg}
    (h : Via (KA Plane.Fits n id) s s') : Via (KA Plane.Fits n id) (s.emplace id' p) (s'.emplace id' p) := by
  obtain ⟨ps, hk, rfl⟩ := h
  have hk' := hk
  obtain ⟨z, hi, hn, hne, hz⟩ := hk'
  have hm : id' ∈ ps.map (·.1) ↔ id' ∈ s.planes.map (·.1) := (hi.map (·.1)).mem_iff hid
  unfold emplace
  by_cases hc : id' ∈ s.planes.map (·.1)
  · rw [if_pos (List.contains_iff_mem.mpr hc), if_pos (List.contains_iff_mem.mpr (hm.mpr hc))]
    exact ⟨ps, hk, rfl⟩
  · rw [if_neg fun h => hc (List.contains_iff_mem.mp h), if_neg fun h => hc (hm.mp (List.contains_iff_mem.mp h))]
    refine ⟨ps ++ [(id', p)], ⟨z, hi.append _, hn, by simp, fun q hq => ?_⟩, rfl⟩
    rcases List.mem_append.mp hq with hq | hq
    · exact hz q hq
    · rw [List.mem_singleton.mp hq]
      obtain ⟨q0, hq0⟩ := List.exists_mem_of_ne_nil _ hne
      exact ⟨by rw [hn, h1], by rw [hn]; exact h2, (hz q0 hq0).pts, (hz q0 hq0).S⟩

theorem pushPoint_all {n id id' : ℕ} (hid : id' ≠ id) (t : ℕ) (x : Vec3) {s s' : PlaneReg} (h : Via (KA Plane.Fits n id) s s') :
    Leads (Via (KA Plane.Fits n id)) (s.pushPoint id' t x) (s'.pushPoint id' t x) := by
  obtain ⟨ps, ⟨z, hi, hn, hne, hz⟩, rfl⟩ := h
  have hf := hi.find (fun q : ℕ × Plane => decide (q.1 = id')) (by simpa using fun h => hid h.symm)
  unfold pushPoint
  dsimp only
  rw [hf]
  cases hq : s.planes.find? (fun q => decide (q.1 = id')) with
  | none => exact fun x hx => by cases hx
  | some q =>
    intro o ho
    obtain ⟨p, h1, h2⟩ := Out.bind_eq_ok.mp ho
    cases h2
    refine ⟨replacePlane id' p { s with planes := ps }, by dsimp only; rw [h1]; rfl,
      ps.map fun q => if q.1 = id' then (id', p) else q, ⟨z, ?_, hn, ?_, ?_⟩, rfl⟩
    · have := hi.map fun q : ℕ × Plane => if q.1 = id' then (id', p) else q
      rw [if_neg fun h => hid h.symm] at this
      exact this
    · intro h0
      exact hne (List.map_eq_nil_iff.mp h0)
    · intro y hy
      obtain ⟨w, hw, rfl⟩ := List.mem_map.mp hy
      split
      · exact push_fits (hz q (List.mem_of_find?_eq_some hq)) h1
      · exact hz w hw

theorem replace_all {n id id' : ℕ} (hid : id' ≠ id) {p : Plane} (h1 : p.timeLength = n) (h2 : p.points.length ≤ n) {s s' : PlaneReg}
    (h : Via (KA Plane.Fits n id) s s') : Via (KA Plane.Fits n id) (s.replacePlane id' p) (s'.replacePlane id' p) := by
  obtain ⟨ps, ⟨z, hi, hn, hne, hz⟩, rfl⟩ := h
  refine ⟨ps.map fun q => if q.1 = id' then (id', p) else q, ⟨z, ?_, hn, ?_, ?_⟩, rfl⟩
  · have := hi.map fun q : ℕ × Plane => if q.1 = id' then (id', p) else q
    rw [if_neg fun h => hid h.symm] at this
    exact this
  · intro h0
    exact hne (List.map_eq_nil_iff.mp h0)
  · intro y hy
    obtain ⟨w, hw, rfl⟩ := List.mem_map.mp hy
    split
    · exact ⟨by rw [hn, h1], by rw [hn]; exact h2, (hz w hw).pts, (hz w hw).S⟩
    · exact hz w hw

theorem weaken_leads {n id : ℕ} {β : Type} {a b : Out (β × PlaneReg)} (h : Leads (OptDense.RelV (Via (KA Plane.Tracks n id))) a b) :
    Leads (OptDense.RelV (Via (KA Plane.Fits n id))) a b := by
  intro x hx
  obtain ⟨y, hy, h1, h2⟩ := h x hx
  exact ⟨y, hy, h1, KA.weaken h2⟩

end Empty

end PlaneReg

end Mrob
