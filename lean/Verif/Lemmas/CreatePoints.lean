import Verif.Lemmas.Float32
import Verif.Lemmas.PlaneObj
import Verif.Lemmas.PlaneRegCost

/-! # The scene after the loops of the constructor of `CreatePoints` -/

open Matrix

namespace Mrob

theorem Out.loop_append {α σ : Type} {f : α → σ → Out σ} : ∀ (l l' : List α) (s : σ),
    Out.loop f (l ++ l') s = Out.loop f l s >>= fun s => Out.loop f l' s
  | [], l', s => by rw [List.nil_append, Out.loop, Out.ok_bind]
  | a :: l, l', s => by
    rw [List.cons_append, Out.loop, Out.loop]
    cases f a s with
    | ok s' => rw [Out.ok_bind, Out.ok_bind, Out.loop_append l l' s']
    | _ => rfl

theorem Out.loop_map {α β σ : Type} {f : β → σ → Out σ} (g : α → β) : ∀ (l : List α) (s : σ),
    Out.loop f (l.map g) s = Out.loop (fun a s => f (g a) s) l s
  | [], _ => rfl
  | a :: l, s => by
    rw [List.map_cons, Out.loop, Out.loop]
    congr 1
    funext s'
    exact Out.loop_map g l s'

/-- Nested loops as one loop over pairs. -/
theorem Out.loop_nested {α β σ : Type} {f : α → β → σ → Out σ} (lb : List β) : ∀ (la : List α) (s : σ),
    Out.loop (fun a s => Out.loop (fun b s => f a b s) lb s) la s =
      Out.loop (fun p s => f p.1 p.2 s) (la.flatMap fun a => lb.map fun b => (a, b)) s
  | [], _ => rfl
  | a :: la, s => by
    rw [Out.loop, List.flatMap_cons, Out.loop_append, Out.loop_map]
    congr 1
    funext s'
    exact Out.loop_nested lb la s'

theorem set_map_range {α : Type} (f : ℕ → α) (n t : ℕ) (x : α) :
    ((List.range n).map f).set t x = (List.range n).map fun s => if s = t then x else f s := by
  refine List.ext_getElem? fun s => ?_
  rw [List.getElem?_set, List.getElem?_map, List.getElem?_map, List.length_map, List.length_range]
  by_cases hs : s < n
  · rw [List.getElem?_range hs, Option.map_some, Option.map_some]
    by_cases h : t = s
    · subst h; rw [if_pos rfl, if_pos hs, if_pos rfl]
    · rw [if_neg h, if_neg (Ne.symm h)]
  · rw [List.getElem?_eq_none (by rw [List.length_range]; omega)]
    split_ifs with h1 h2
    · omega
    · rfl
    · rfl

namespace Scene

/-- The point generated for `(t, i)`. -/
noncomputable def pointAt (d : Draws) (N P n : ℕ) (p : ℕ × ℕ) : Vec3 :=
  (truePose d n p.1).inv.transform ((SE3.ofVec (d.planeXi (planeId N P p.2))).transform (d.sample p.1 p.2))

/-- The points of plane `k` at time `t` after the pairs `l`. -/
noncomputable def cloud (d : Draws) (N P n : ℕ) (l : List (ℕ × ℕ)) (k t : ℕ) : List Vec3 :=
  (l.filter fun p => p.1 = t ∧ planeId N P p.2 = k).map (pointAt d N P n)

/-- The plane `k` after the pairs `l`. -/
noncomputable def planeAfter (d : Draws) (N P n : ℕ) (l : List (ℕ × ℕ)) (k : ℕ) : Plane :=
  { Plane.new n with
    points := (List.range n).map (cloud d N P n l k)
    numberPoints := (l.filter fun p => planeId N P p.2 = k).length }

/-- The scene after the pairs `l`. -/
noncomputable def after (d : Draws) (N P n : ℕ) (l : List (ℕ × ℕ)) : Scene :=
  { start d N P n with
    X := (List.range n).map fun t => (l.filter fun p => p.1 = t).map (pointAt d N P n)
    pointId := (List.range n).map fun t => (l.filter fun p => p.1 = t).map fun p => planeId N P p.2
    planes := (List.range P).map fun k => (k, planeAfter d N P n l k) }

theorem after_nil (d : Draws) (N P n : ℕ) : after d N P n [] = start d N P n := by
  have h : ∀ (α : Type), (List.range n).map (fun _ => ([] : List α)) = List.replicate n [] := by
    intro α
    rw [List.map_const', List.length_range]
  have hp : ∀ k, planeAfter d N P n [] k = Plane.new n := by
    intro k
    have : cloud d N P n [] k = fun _ => [] := rfl
    rw [planeAfter, this, h]
    rfl
  simp only [after, hp, List.filter_nil, List.map_nil, h]
  rfl

theorem planeAfter_wf (d : Draws) (N P n : ℕ) (l : List (ℕ × ℕ)) (k : ℕ) : (planeAfter d N P n l k).Wf :=
  ⟨by
    change ((List.range n).map _).length = n
    rw [List.length_map, List.length_range], Or.inl rfl⟩

theorem push_after (d : Draws) (N P n : ℕ) (l : List (ℕ × ℕ)) {t : ℕ} (i : ℕ) (ht : t < n) :
    (planeAfter d N P n l (planeId N P i)).push (pointAt d N P n (t, i)) t =
      .ok (planeAfter d N P n (l ++ [(t, i)]) (planeId N P i)) := by
  have h1 : Out.index (planeAfter d N P n l (planeId N P i)).points t = .ok (cloud d N P n l (planeId N P i) t) := by
    rw [Out.index_eq_ok]
    change ((List.range n).map _)[t]? = _
    rw [List.getElem?_map, List.getElem?_range ht]
    rfl
  rw [Plane.push, if_pos (by exact ht), h1, Out.ok_bind]
  have h2 : (planeAfter d N P n l (planeId N P i)).points.set t (cloud d N P n l (planeId N P i) t ++
      [pointAt d N P n (t, i)]) = (List.range n).map (cloud d N P n (l ++ [(t, i)]) (planeId N P i)) := by
    change ((List.range n).map _).set t _ = _
    rw [set_map_range]
    refine List.map_congr_left fun s _ => ?_
    rw [cloud, cloud, cloud, List.filter_append, List.map_append]
    by_cases hs : s = t
    · subst hs
      simp
    · rw [if_neg hs]
      simp [Ne.symm hs]
  have h3 : (l.filter fun p => planeId N P p.2 = planeId N P i).length + 1 =
      ((l ++ [(t, i)]).filter fun p => planeId N P p.2 = planeId N P i).length := by
    rw [List.filter_append, List.length_append]
    simp
  refine congrArg Out.ok ?_
  rw [h2]
  change Plane.mk _ _ ((l.filter fun p => planeId N P p.2 = planeId N P i).length + 1) _ _ _ _ _ _ = _
  rw [h3]
  rfl

theorem addPoint_after (d : Draws) (N P n : ℕ) (l : List (ℕ × ℕ)) {t i : ℕ} (ht : t < n) (hi : planeId N P i < P) :
    addPoint d t i (after d N P n l) = .ok (after d N P n (l ++ [(t, i)])) := by
  have g1 : Out.index (after d N P n l).gt t = .ok (truePose d n t) := by
    rw [Out.index_eq_ok]
    change ((List.range n).map _)[t]? = _
    rw [List.getElem?_map, List.getElem?_range ht]; rfl
  have g2 : Out.index (after d N P n l).planePoses (planeId N P i) = .ok (SE3.ofVec (d.planeXi (planeId N P i))) := by
    rw [Out.index_eq_ok]
    change ((List.range P).map _)[planeId N P i]? = _
    rw [List.getElem?_map, List.getElem?_range hi]; rfl
  have g3 : Out.index (after d N P n l).X t = .ok ((l.filter fun p => p.1 = t).map (pointAt d N P n)) := by
    rw [Out.index_eq_ok]
    change ((List.range n).map _)[t]? = _
    rw [List.getElem?_map, List.getElem?_range ht]; rfl
  have g4 : Out.index (after d N P n l).pointId t = .ok ((l.filter fun p => p.1 = t).map fun p => planeId N P p.2) := by
    rw [Out.index_eq_ok]
    change ((List.range n).map _)[t]? = _
    rw [List.getElem?_map, List.getElem?_range ht]; rfl
  have g5 : Out.index (after d N P n l).planes (planeId N P i) = .ok (planeId N P i, planeAfter d N P n l (planeId N P i)) := by
    rw [Out.index_eq_ok]
    change ((List.range P).map _)[planeId N P i]? = _
    rw [List.getElem?_map, List.getElem?_range hi]; rfl
  rw [addPoint]
  change (Out.index (after d N P n l).gt t >>= fun T => Out.index (after d N P n l).planePoses (planeId N P i) >>= fun Q => _) = _
  rw [g1, Out.ok_bind, g2, Out.ok_bind, g3, Out.ok_bind, g4, Out.ok_bind]
  change (Out.index (after d N P n l).planes (planeId N P i) >>= fun q => q.2.push (pointAt d N P n (t, i)) t >>= fun p => _) = _
  rw [g5, Out.ok_bind, push_after d N P n l i ht, Out.ok_bind]
  refine congrArg Out.ok ?_
  have e1 : (after d N P n l).X.set t ((l.filter fun p => p.1 = t).map (pointAt d N P n) ++ [pointAt d N P n (t, i)]) =
      (after d N P n (l ++ [(t, i)])).X := by
    change ((List.range n).map _).set t _ = (List.range n).map _
    rw [set_map_range]
    refine List.map_congr_left fun s _ => ?_
    rw [List.filter_append, List.map_append]
    by_cases hs : s = t
    · subst hs; simp
    · rw [if_neg hs]; simp [Ne.symm hs]
  have e2 : (after d N P n l).pointId.set t ((l.filter fun p => p.1 = t).map (fun p => planeId N P p.2) ++ [planeId N P i]) =
      (after d N P n (l ++ [(t, i)])).pointId := by
    change ((List.range n).map _).set t _ = (List.range n).map _
    rw [set_map_range]
    refine List.map_congr_left fun s _ => ?_
    rw [List.filter_append, List.map_append]
    by_cases hs : s = t
    · subst hs; simp
    · rw [if_neg hs]; simp [Ne.symm hs]
  have e3 : (after d N P n l).planes.set (planeId N P i) (planeId N P i, planeAfter d N P n (l ++ [(t, i)]) (planeId N P i)) =
      (after d N P n (l ++ [(t, i)])).planes := by
    change ((List.range P).map _).set _ _ = (List.range P).map _
    rw [set_map_range]
    refine List.map_congr_left fun k _ => ?_
    by_cases hk : k = planeId N P i
    · subst hk; rw [if_pos rfl]
    · rw [if_neg hk]
      refine congrArg (Prod.mk k) ?_
      have h1 : cloud d N P n (l ++ [(t, i)]) k = cloud d N P n l k := by
        funext s
        rw [cloud, cloud, List.filter_append, List.map_append]
        simp [Ne.symm hk]
      have h2 : (l ++ [(t, i)]).filter (fun p => planeId N P p.2 = k) = l.filter fun p => planeId N P p.2 = k := by
        rw [List.filter_append]
        simp [Ne.symm hk]
      rw [planeAfter, planeAfter, h1, h2]
  have key : ∀ {X X' : List (List Vec3)} {I I' : List (List ℕ)} {Q Q' : List (ℕ × Plane)}, X = X' → I = I' → Q = Q' →
      Scene.mk N P n X I (start d N P n).gt (start d N P n).planePoses Q =
        Scene.mk N P n X' I' (start d N P n).gt (start d N P n).planePoses Q' := by
    rintro _ _ _ _ _ _ rfl rfl rfl; rfl
  exact key e1 e2 e3

theorem addPoint_bad (d : Draws) {N P n : ℕ} (l : List (ℕ × ℕ)) {t i : ℕ} (ht : t < n) (hi : ¬ planeId N P i < P) :
    addPoint d t i (after d N P n l) = .ub := by
  have g1 : Out.index (after d N P n l).gt t = .ok (truePose d n t) := by
    rw [Out.index_eq_ok]
    change ((List.range n).map _)[t]? = _
    rw [List.getElem?_map, List.getElem?_range ht]; rfl
  have g2 : Out.index (after d N P n l).planePoses (planeId N P i) = .ub := by
    have : (after d N P n l).planePoses[planeId N P i]? = none := by
      refine List.getElem?_eq_none ?_
      change ((List.range P).map _).length ≤ _
      rw [List.length_map, List.length_range]
      omega
    rw [Out.index, this]
  rw [addPoint]
  change (Out.index (after d N P n l).gt t >>= fun T => Out.index (after d N P n l).planePoses (planeId N P i) >>= fun Q => _) = _
  rw [g1, Out.ok_bind, g2]
  rfl

theorem loop_after (d : Draws) (N P n : ℕ) : ∀ (l' l : List (ℕ × ℕ)), (∀ p ∈ l', p.1 < n ∧ planeId N P p.2 < P) →
    Out.loop (fun p s => addPoint d p.1 p.2 s) l' (after d N P n l) = .ok (after d N P n (l ++ l'))
  | [], l, _ => by rw [List.append_nil]; rfl
  | p :: l', l, h => by
    obtain ⟨h1, h2⟩ := h p List.mem_cons_self
    rw [Out.loop, addPoint_after d N P n l h1 h2, Out.ok_bind,
      loop_after d N P n l' _ fun q hq => h q (List.mem_cons_of_mem _ hq)]
    simp

/-- The pairs visited by the constructor. -/
def allPairs (N n : ℕ) : List (ℕ × ℕ) := (List.range n).flatMap fun t => (List.range N).map fun i => (t, i)

/-- The constructor finishes when all plane indices are valid. -/
theorem create_ok (d : Draws) {N P n : ℕ} (h : ∀ i < N, planeId N P i < P) :
    create d N P n = .ok (after d N P n (allPairs N n)) := by
  rw [create, Out.loop_nested, ← after_nil, loop_after, List.nil_append, allPairs]
  intro p hp
  rw [List.mem_flatMap] at hp
  obtain ⟨t, ht, hp⟩ := hp
  obtain ⟨i, hi, rfl⟩ := List.mem_map.mp hp
  exact ⟨List.mem_range.mp ht, h i (List.mem_range.mp hi)⟩

theorem loop_cases (d : Draws) (N P n : ℕ) : ∀ (l' l : List (ℕ × ℕ)), (∀ p ∈ l', p.1 < n) →
    Out.loop (fun p s => addPoint d p.1 p.2 s) l' (after d N P n l) = .ok (after d N P n (l ++ l')) ∨
      Out.loop (fun p s => addPoint d p.1 p.2 s) l' (after d N P n l) = .ub
  | [], l, _ => by rw [List.append_nil]; exact Or.inl rfl
  | p :: l', l, h => by
    have h1 := h p List.mem_cons_self
    rw [Out.loop]
    by_cases h2 : planeId N P p.2 < P
    · rw [addPoint_after d N P n l h1 h2, Out.ok_bind]
      have := loop_cases d N P n l' (l ++ [(p.1, p.2)]) fun q hq => h q (List.mem_cons_of_mem _ hq)
      simpa using this
    · right
      rw [addPoint_bad d l h1 h2]
      rfl

theorem create_inv {d : Draws} {N P n : ℕ} {s : Scene} (h : create d N P n = .ok s) : s = after d N P n (allPairs N n) := by
  rw [create, Out.loop_nested, ← after_nil] at h
  rcases loop_cases d N P n ((List.range n).flatMap fun t => (List.range N).map fun i => (t, i)) [] (by
    intro p hp
    rw [List.mem_flatMap] at hp
    obtain ⟨t, ht, hp⟩ := hp
    obtain ⟨i, hi, rfl⟩ := List.mem_map.mp hp
    exact List.mem_range.mp ht) with h' | h'
  · rw [h] at h'
    exact Out.ok.inj h'
  · rw [h] at h'
    cases h'

theorem loop_valid (d : Draws) (N P n : ℕ) {s : Scene} : ∀ (l' l : List (ℕ × ℕ)), (∀ p ∈ l', p.1 < n) →
    Out.loop (fun p s => addPoint d p.1 p.2 s) l' (after d N P n l) = .ok s → ∀ p ∈ l', planeId N P p.2 < P
  | [], l, _, _ => fun p hp => by cases hp
  | p :: l', l, h, hs => by
    have h1 := h p List.mem_cons_self
    rw [Out.loop] at hs
    by_cases h2 : planeId N P p.2 < P
    · rw [addPoint_after d N P n l h1 h2, Out.ok_bind] at hs
      intro q hq
      rcases List.mem_cons.mp hq with rfl | hq
      · exact h2
      · exact loop_valid d N P n l' _ (fun q hq => h q (List.mem_cons_of_mem _ hq)) hs q hq
    · rw [addPoint_bad d l h1 h2] at hs
      cases hs

theorem create_valid {d : Draws} {N P n : ℕ} {s : Scene} (h : create d N P n = .ok s) (hn : 0 < n) {i : ℕ} (hi : i < N) :
    planeId N P i < P := by
  rw [create, Out.loop_nested, ← after_nil] at h
  refine loop_valid d N P n _ _ ?_ h (0, i) ?_
  · intro p hp
    rw [List.mem_flatMap] at hp
    obtain ⟨t, ht, hp⟩ := hp
    obtain ⟨i, hi, rfl⟩ := List.mem_map.mp hp
    exact List.mem_range.mp ht
  · rw [List.mem_flatMap]
    exact ⟨0, List.mem_range.mpr hn, List.mem_map.mpr ⟨i, List.mem_range.mpr hi, rfl⟩⟩

theorem filter_allPairs (N n t : ℕ) (ht : t < n) (q : ℕ → Bool) :
    ((allPairs N n).filter fun p => p.1 = t ∧ q p.2) = ((List.range N).filter q).map fun i => (t, i) := by
  rw [allPairs, List.filter_flatMap]
  have h : ∀ s, ((List.range N).map fun i => (s, i)).filter (fun p : ℕ × ℕ => p.1 = t ∧ q p.2) =
      if s = t then ((List.range N).filter q).map fun i => (t, i) else [] := by
    intro s
    rw [List.filter_map]
    by_cases hs : s = t
    · subst hs
      rw [if_pos rfl]
      congr 1
      refine List.filter_congr fun i _ => ?_
      simp
    · rw [if_neg hs]
      rw [List.filter_eq_nil_iff.mpr]
      · rfl
      · intro i _
        simp [hs]
  simp only [h]
  clear h
  generalize ((List.range N).filter q).map (fun i => (t, i)) = r
  induction n with
  | zero => omega
  | succ n ih =>
    rw [List.range_succ, List.flatMap_append]
    by_cases hn : t = n
    · subst hn
      have : (List.range t).flatMap (fun s => if s = t then r else []) = [] := by
        rw [List.flatMap_eq_nil_iff]
        intro s hs
        rw [if_neg (by have := List.mem_range.mp hs; omega)]
      rw [this]
      simp
    · rw [ih (by omega)]
      simp [Ne.symm hn]

end Scene

end Mrob
