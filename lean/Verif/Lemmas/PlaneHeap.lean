import Verif.Model.PlaneHeap
import Verif.Lemmas.PlaneReg

/-!
# Facts about registrations in a heap
-/

namespace Mrob

namespace PlaneHeap

/-- The whole object, with copies of the planes it refers to. -/
def obj (h : PlaneHeap) (r : RRef) : OptDense PlaneReg := (h.reg r).opt.withObj (h.view r)

theorem obj_congr {h h' : PlaneHeap} {r : RRef} (hv : h'.view r = h.view r) (ho : (h'.reg r).opt = (h.reg r).opt) :
    h'.obj r = h.obj r := by
  rw [obj, obj, hv, ho]

/-- Every plane of a registration points to the trajectory of this registration; identifiers and planes are distinct. -/
structure Owned (h : PlaneHeap) : Prop where
  /-- the pointers -/
  own : ∀ r, ∀ q ∈ (h.reg r).refs, h.traj q.2 = some r
  /-- no plane twice -/
  nodup : ∀ r, ((h.reg r).refs.map (·.2)).Nodup
  /-- no identifier twice -/
  ids : ∀ r, ((h.reg r).refs.map (·.1)).Nodup

theorem Owned.apart {h : PlaneHeap} (ho : h.Owned) {r r' : RRef} {q q' : ℕ × PRef} (hq : q ∈ (h.reg r).refs)
    (hq' : q' ∈ (h.reg r').refs) (he : q.2 = q'.2) : r = r' := by
  have h1 := ho.own r q hq
  have h2 := ho.own r' q' hq'
  rw [he, h2] at h1
  exact (Option.some.inj h1).symm

theorem setPlane_self (h : PlaneHeap) (p : PRef) (x : Plane) : (h.setPlane p x).plane p = x := Function.update_self ..

theorem setPlane_of_ne (h : PlaneHeap) {p p' : PRef} (x : Plane) (hne : p' ≠ p) : (h.setPlane p x).plane p' = h.plane p' :=
  Function.update_of_ne hne ..

/-- The view only depends on the registration and on its planes. -/
theorem view_congr {h h' : PlaneHeap} {r : RRef} (hr : h'.reg r = h.reg r)
    (hp : ∀ q ∈ (h.reg r).refs, h'.plane q.2 = h.plane q.2) : h'.view r = h.view r := by
  have : (h.reg r).refs.map (fun q => (q.1, h'.plane q.2)) = (h.reg r).refs.map fun q => (q.1, h.plane q.2) :=
    List.map_congr_left fun q hq => by rw [hp q hq]
  unfold view
  rw [hr, this]

theorem Owned.setPlane {h : PlaneHeap} (ho : h.Owned) (p : PRef) (x : Plane) : (h.setPlane p x).Owned :=
  ⟨ho.own, ho.nodup, ho.ids⟩

/-- Two outcomes agree: both fail in the same way, or both return with related values. -/
def Agree {α β : Type} (R : α → β → Prop) : Out α → Out β → Prop
  | .ok a, .ok b => R a b
  | .nan, .nan => True
  | .ub, .ub => True
  | .throw, .throw => True
  | _, _ => False

theorem Agree.bind {α β γ δ : Type} {R : α → β → Prop} {S : γ → δ → Prop} {a : Out α} {b : Out β} (h : Agree R a b)
    {f : α → Out γ} {g : β → Out δ} (hfg : ∀ x y, a = .ok x → b = .ok y → R x y → Agree S (f x) (g y)) :
    Agree S (a >>= f) (b >>= g) := by
  cases a <;> cases b <;> first | exact h.elim | exact hfg _ _ rfl rfl h | trivial

theorem Agree.refl {α : Type} (a : Out α) : Agree (fun x y => x = y) a a := by cases a <;> trivial

theorem Agree.mono {α β : Type} {R S : α → β → Prop} {a : Out α} {b : Out β} (h : Agree R a b) (hRS : ∀ x y, R x y → S x y) :
    Agree S a b := by
  cases a <;> cases b <;> first | exact h.elim | exact hRS _ _ h | trivial

/-- A function called on the planes in turn, in the heap and by value. -/
theorem each_agree {β : Type} (f : PRef → PlaneHeap → Out (β × Plane)) (g : Plane → Out (β × Plane)) (l : List (ℕ × PRef))
    (hnd : (l.map (·.2)).Nodup) (h : PlaneHeap)
    (hfg : ∀ q ∈ l, ∀ h', h'.traj = h.traj → h'.reg = h.reg → f q.2 h' = g (h'.plane q.2)) :
    Agree (fun (x : List β × PlaneHeap) (y : List (β × ℕ × Plane)) => x.1 = y.map (·.1) ∧ x.2.traj = h.traj ∧ x.2.reg = h.reg ∧
        (∀ p, (∀ q ∈ l, q.2 ≠ p) → x.2.plane p = h.plane p) ∧ y.map (·.2) = l.map fun q => (q.1, x.2.plane q.2))
      (each f l h)
      (Out.traverse (fun p : ℕ × Plane => g p.2 >>= fun r => .ok (r.1, (p.1, r.2))) (l.map fun q => (q.1, h.plane q.2))) := by
  induction l generalizing h with
  | nil => exact ⟨rfl, rfl, rfl, fun _ _ => rfl, rfl⟩
  | cons q qs ih =>
    rw [List.map_cons, List.nodup_cons] at hnd
    have hq : ∀ q' ∈ qs, q'.2 ≠ q.2 := fun q' hq' he => hnd.1 (he ▸ List.mem_map_of_mem hq')
    rw [each, hfg q (by simp) h rfl rfl]
    simp only [List.map_cons, Out.traverse]
    refine Agree.bind (R := fun (x : β × Plane) (y : β × ℕ × Plane) => y = (x.1, q.1, x.2)) ?_ ?_
    · cases g (h.plane q.2) <;> trivial
    · rintro x y - - rfl
      have hsame : (qs.map fun q' => (q'.1, h.plane q'.2)) = qs.map fun q' => (q'.1, (h.setPlane q.2 x.2).plane q'.2) := by
        refine List.map_congr_left fun q' hq' => ?_
        rw [setPlane_of_ne _ _ (hq q' hq')]
      rw [hsame]
      refine Agree.bind (ih hnd.2 (h.setPlane q.2 x.2) fun q' hq' => hfg q' (by simp [hq'])) ?_
      rintro z y - - ⟨h1, h2, h3, h4, h5⟩
      refine ⟨?_, h2, h3, fun p hp => ?_, ?_⟩
      · simp [h1]
      · rw [h4 p fun q' hq' => hp q' (by simp [hq']), setPlane_of_ne _ _ (fun he => hp q (by simp) he.symm)]
      · simp only [List.map_cons, h5]
        rw [h4 q.2 hq, setPlane_self]

/-- What a call must do, when it leaves the members of `OptimizerDense` alone. -/
structure Step (h h' : PlaneHeap) (r : RRef) (s : PlaneReg) : Prop where
  /-- planes still belong to one registration -/
  owned : h'.Owned
  /-- the registration concerned -/
  self : h'.view r = s
  /-- the others -/
  other : ∀ r', r' ≠ r → h'.view r' = h.view r'
  /-- the members of `OptimizerDense` -/
  opt : ∀ r', (h'.reg r').opt = (h.reg r').opt

theorem Step.trans {h h' h'' : PlaneHeap} {r : RRef} {s s' : PlaneReg} (a : Step h h' r s) (b : Step h' h'' r s') :
    Step h h'' r s' :=
  ⟨b.owned, b.self, fun r' hr => (b.other r' hr).trans (a.other r' hr), fun r' => (b.opt r').trans (a.opt r')⟩

theorem each_step {β : Type} {f : PRef → PlaneHeap → Out (β × Plane)} {g : Plane → Out (β × Plane)} {h : PlaneHeap}
    (ho : h.Owned) (r : RRef)
    (hfg : ∀ q ∈ (h.reg r).refs, ∀ h', h'.traj = h.traj → h'.reg = h.reg → f q.2 h' = g (h'.plane q.2)) :
    Agree (fun (x : List β × PlaneHeap) (y : List β × PlaneReg) => x.1 = y.1 ∧ Step h x.2 r y.2)
      (each f (h.reg r).refs h) ((h.view r).eachPlane g) := by
  have key := each_agree f g (h.reg r).refs (ho.nodup r) h hfg
  unfold PlaneReg.eachPlane
  have : each f (h.reg r).refs h = each f (h.reg r).refs h >>= Out.ok := by
    cases each f (h.reg r).refs h <;> rfl
  rw [this]
  refine Agree.bind key ?_
  rintro x y - - ⟨h1, h2, h3, h4, h5⟩
  refine ⟨h1, ⟨?_, ?_, ?_⟩, ?_, ?_, fun r' => by rw [h3]⟩
  · rw [h2, h3]; exact ho.own
  · rw [h3]; exact ho.nodup
  · rw [h3]; exact ho.ids
  · unfold view
    rw [h3, ← h5]
  · intro r' hr'
    exact view_congr (by rw [h3]) fun q hq => h4 q.2 fun q' hq' he => hr' (ho.apart hq hq' he.symm)

/-- The error of a registration whose planes are its own is the error at its own trajectory. -/
theorem error_agree (e : EigSolver) {h : PlaneHeap} (ho : h.Owned) (r : RRef) :
    Agree (fun (x : ℝ × PlaneHeap) (y : ℝ × PlaneReg) => x.1 = y.1 ∧ Step h x.2 r y.2) (h.error e r) ((h.view r).error e) := by
  unfold PlaneHeap.error PlaneReg.error
  refine Agree.bind (each_step ho r fun q hq h' ht hr => ?_) ?_
  · rw [estimate, ht, ho.own r q hq]
    dsimp only
    rw [hr]
    rfl
  · rintro ⟨l, h'⟩ ⟨l', s⟩ - - ⟨h1, h2⟩
    exact ⟨congrArg List.sum h1, h2⟩

/-! ### The calls that do not go through the planes -/

theorem setReg_self (h : PlaneHeap) (r : RRef) (c : RegCell) : (h.setReg r c).reg r = c := Function.update_self ..

theorem setReg_of_ne (h : PlaneHeap) {r r' : RRef} (c : RegCell) (hne : r' ≠ r) : (h.setReg r c).reg r' = h.reg r' :=
  Function.update_of_ne hne ..

theorem setBase_step {h : PlaneHeap} (ho : h.Owned) (r : RRef) (b : PlaneReg) :
    Step h (h.setBase r b) r { b with planes := (h.view r).planes } := by
  have hrefs : ∀ r', ((h.setBase r b).reg r').refs = (h.reg r').refs := fun r' => by
    by_cases hr : r' = r
    · subst hr; rw [setBase, setReg_self]
    · rw [setBase, setReg_of_ne _ _ hr]
  refine ⟨⟨fun r' => ?_, fun r' => ?_, fun r' => ?_⟩, ?_, fun r' hr => view_congr ?_ fun q _ => rfl, fun r' => ?_⟩
  · rw [hrefs]; exact ho.own r'
  · rw [hrefs]; exact ho.nodup r'
  · rw [hrefs]; exact ho.ids r'
  · unfold view
    rw [hrefs, setBase, setReg_self]
    rfl
  · rw [setBase, setReg_of_ne _ _ hr]
  · by_cases hr : r' = r
    · subst hr; rw [setBase, setReg_self]
    · rw [setBase, setReg_of_ne _ _ hr]

theorem setNumbers_step {h : PlaneHeap} (ho : h.Owned) (r : RRef) (a b : ℕ) :
    Step h (h.setNumbers r a b) r ((h.view r).setNumbers a b) := by
  refine ⟨⟨fun r' => ?_, fun r' => ?_, fun r' => ?_⟩, ?_, fun r' hr => view_congr ?_ fun q _ => rfl, fun r' => ?_⟩
  · by_cases hr : r' = r
    · subst hr; rw [setNumbers, setReg_self]; simp
    · rw [setNumbers, setReg_of_ne _ _ hr]; exact ho.own r'
  · by_cases hr : r' = r
    · subst hr; rw [setNumbers, setReg_self]; simp
    · rw [setNumbers, setReg_of_ne _ _ hr]; exact ho.nodup r'
  · by_cases hr : r' = r
    · subst hr; rw [setNumbers, setReg_self]; simp
    · rw [setNumbers, setReg_of_ne _ _ hr]; exact ho.ids r'
  · unfold view
    rw [setNumbers, setReg_self]
    rfl
  · rw [setNumbers, setReg_of_ne _ _ hr]
  · by_cases hr : r' = r
    · subst hr; rw [setNumbers, setReg_self]
    · rw [setNumbers, setReg_of_ne _ _ hr]

theorem addPlane_plane (h : PlaneHeap) (r : RRef) (id : ℕ) (p : PRef) : (h.addPlane r id p).plane = h.plane := by
  unfold addPlane
  dsimp only
  split <;> rfl

theorem addPlane_step {h : PlaneHeap} (ho : h.Owned) (r : RRef) (id : ℕ) (p : PRef)
    (hp : ∀ r, ∀ q ∈ (h.reg r).refs, q.2 ≠ p) : Step h (h.addPlane r id p) r ((h.view r).addPlane id (h.plane p)) := by
  have hids : (h.view r).planes.map (·.1) = (h.reg r).refs.map (·.1) := by
    change ((h.reg r).refs.map fun q => (q.1, h.plane q.2)).map (·.1) = _
    rw [List.map_map]; rfl
  rw [PlaneReg.addPlane, PlaneReg.emplace, hids]
  unfold addPlane
  dsimp only
  split
  · exact ⟨⟨fun r' q hq => (Function.update_of_ne (hp r' q hq) ..).trans (ho.own r' q hq), ho.nodup, ho.ids⟩, rfl,
      fun _ _ => rfl, fun _ => rfl⟩
  · rename_i hc
    have hc' : id ∉ (h.reg r).refs.map (·.1) := by simpa [List.contains_iff_mem] using hc
    set h1 : PlaneHeap := { h with traj := Function.update h.traj p (some r) } with hh1
    refine ⟨⟨fun r' q hq => ?_, fun r' => ?_, fun r' => ?_⟩, ?_, fun r' hr => view_congr (setReg_of_ne _ _ hr) fun q _ => rfl,
      fun r' => ?_⟩
    · change Function.update h.traj p (some r) q.2 = some r'
      by_cases hr : r' = r
      · subst hr
        rw [setReg_self] at hq
        rcases List.mem_append.mp hq with hq | hq
        · rw [Function.update_of_ne (hp r' q hq)]; exact ho.own r' q hq
        · rw [List.mem_singleton] at hq
          subst hq
          rw [Function.update_self]
      · rw [setReg_of_ne _ _ hr] at hq
        rw [Function.update_of_ne (hp r' q hq)]; exact ho.own r' q hq
    · by_cases hr : r' = r
      · subst hr
        rw [setReg_self]
        rw [List.map_append, List.nodup_append]
        refine ⟨ho.nodup r', by simp, ?_⟩
        intro x hx y hy
        obtain ⟨q, hq, rfl⟩ := List.mem_map.mp hx
        simp only [List.map_cons, List.map_nil, List.mem_singleton] at hy
        rw [hy]
        exact hp r' q hq
      · rw [setReg_of_ne _ _ hr]; exact ho.nodup r'
    · by_cases hr : r' = r
      · subst hr
        rw [setReg_self]
        rw [List.map_append, List.nodup_append]
        refine ⟨ho.ids r', by simp, ?_⟩
        intro x hx y hy
        simp only [List.map_cons, List.map_nil, List.mem_singleton] at hy
        rw [hy]
        rintro rfl
        exact hc' hx
      · rw [setReg_of_ne _ _ hr]; exact ho.ids r'
    · unfold view
      rw [setReg_self]
      change { (h.reg r).base with
        planes := ((h.reg r).refs ++ [(id, p)]).map fun q : ℕ × PRef => (q.1, h.plane q.2) } = _
      rw [List.map_append]
      rfl
    · by_cases hr : r' = r
      · subst hr; rw [setReg_self]
      · rw [setReg_of_ne _ _ hr]

theorem setPlane_step {h : PlaneHeap} (ho : h.Owned) (p : PRef) (x : Plane)
    (hp : ∀ r, ∀ q ∈ (h.reg r).refs, q.2 ≠ p) : (h.setPlane p x).Owned ∧ ∀ r, (h.setPlane p x).view r = h.view r :=
  ⟨ho.setPlane p x, fun r => view_congr rfl fun q hq => setPlane_of_ne _ _ (hp r q hq)⟩

theorem pushPoint_agree {h : PlaneHeap} (ho : h.Owned) (r : RRef) (id t : ℕ) (x : Vec3) :
    Agree (fun h' s => Step h h' r s) (h.pushPoint r id t x) ((h.view r).pushPoint id t x) := by
  have hf : (h.view r).planes.find? (fun q => q.1 = id) =
      ((h.reg r).refs.find? fun q => q.1 = id).map fun q => (q.1, h.plane q.2) := by
    change ((h.reg r).refs.map fun q => (q.1, h.plane q.2)).find? _ = _
    rw [List.find?_map]
    rfl
  rw [pushPoint, PlaneReg.pushPoint, hf]
  cases hq : (h.reg r).refs.find? fun q => q.1 = id with
  | none => trivial
  | some q =>
    have hm := List.mem_of_find?_eq_some hq
    have hid : q.1 = id := by simpa using List.find?_some hq
    dsimp only [Option.map]
    refine Agree.bind (Agree.refl _) ?_
    rintro y z - - rfl
    refine ⟨ho.setPlane _ _, ?_, fun r' hr => view_congr rfl fun q' hq' => setPlane_of_ne _ _ fun he => hr
      (ho.apart hq' hm he), fun _ => rfl⟩
    unfold view PlaneReg.replacePlane
    change { (h.reg r).base with planes := (h.reg r).refs.map fun q' : ℕ × PRef => (q'.1, (h.setPlane q.2 y).plane q'.2) } =
      { (h.reg r).base with planes := ((h.reg r).refs.map fun q' : ℕ × PRef => (q'.1, h.plane q'.2)).map fun q' : ℕ × Plane =>
        if q'.1 = id then (id, y) else q' }
    rw [List.map_map]
    have : ((h.reg r).refs.map fun q' => (q'.1, (h.setPlane q.2 y).plane q'.2)) = (h.reg r).refs.map
        ((fun q' : ℕ × Plane => if q'.1 = id then (id, y) else q') ∘ fun q' => (q'.1, h.plane q'.2)) := by
      refine List.map_congr_left fun q' hq' => ?_
      simp only [Function.comp]
      by_cases hi : q'.1 = id
      · have : q' = q := List.inj_on_of_nodup_map (ho.ids r) hq' hm (hi.trans hid.symm)
        rw [if_pos hi, this, setPlane_self, hid]
      · have : q'.2 ≠ q.2 := fun he => hi (by rw [List.inj_on_of_nodup_map (ho.nodup r) hq' hm he, hid])
        rw [if_neg hi, setPlane_of_ne _ _ this]
    rw [this]

theorem addPlane_refs {h : PlaneHeap} {r r' : RRef} {id : ℕ} {p : PRef} {q : ℕ × PRef}
    (hq : q ∈ ((h.addPlane r id p).reg r').refs) : q ∈ (h.reg r').refs ∨ q.2 = p := by
  unfold addPlane at hq
  dsimp only at hq
  split at hq
  · exact .inl hq
  · by_cases hr : r' = r
    · subst hr
      rw [setReg_self] at hq
      rcases List.mem_append.mp hq with hq | hq
      · exact .inl hq
      · rw [List.mem_singleton] at hq
        exact .inr (by rw [hq])
    · rw [setReg_of_ne _ _ hr] at hq
      exact .inl hq

theorem scene_step (l : List (ℕ × PRef)) (hnd : (l.map (·.2)).Nodup) {h : PlaneHeap} (ho : h.Owned) (r : RRef)
    (hl : ∀ r', ∀ q ∈ (h.reg r').refs, ∀ q' ∈ l, q.2 ≠ q'.2) :
    Step h (l.foldl (fun h q => (h.setPlane q.2 (h.plane q.2).reset).addPlane r q.1 q.2) h) r
      (l.foldl (fun s q => s.addPlane q.1 (h.plane q.2).reset) (h.view r)) := by
  induction l generalizing h with
  | nil => exact ⟨ho, rfl, fun _ _ => rfl, fun _ => rfl⟩
  | cons q qs ih =>
    rw [List.map_cons, List.nodup_cons] at hnd
    have hq : ∀ r', ∀ q' ∈ (h.reg r').refs, q'.2 ≠ q.2 := fun r' q' hq' => hl r' q' hq' q (by simp)
    obtain ⟨h1, h2⟩ := setPlane_step ho q.2 (h.plane q.2).reset hq
    have h3 := addPlane_step h1 r q.1 q.2 hq
    rw [List.foldl_cons, List.foldl_cons]
    set g := (h.setPlane q.2 (h.plane q.2).reset).addPlane r q.1 q.2 with hg
    have h4 := ih hnd.2 h3.owned fun r' q' hq' q'' hq'' => by
      rcases addPlane_refs hq' with h' | h'
      · exact hl r' q' h' q'' (by simp [hq''])
      · rw [h']
        exact fun he => hnd.1 (he ▸ List.mem_map_of_mem hq'')
    have hpl : ∀ q' ∈ qs, g.plane q'.2 = h.plane q'.2 := fun q' hq' => by
      rw [hg, addPlane_plane, setPlane_of_ne]
      intro he
      exact hnd.1 (he ▸ List.mem_map_of_mem (f := (·.2)) hq')
    have hfold : ∀ s : PlaneReg, qs.foldl (fun s q => s.addPlane q.1 (g.plane q.2).reset) s =
        qs.foldl (fun s q => s.addPlane q.1 (h.plane q.2).reset) s := fun s =>
      List.foldl_ext _ _ _ fun s q' hq' => by rw [hpl q' hq']
    refine ⟨h4.owned, ?_, fun r' hr => ?_, fun r' => (h4.opt r').trans (h3.opt r')⟩
    · rw [h4.self, hfold, h3.self, h2, setPlane_self]
    · rw [h4.other r' hr, h3.other r' hr, h2]

end PlaneHeap

end Mrob
