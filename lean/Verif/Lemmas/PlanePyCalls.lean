import Verif.Lemmas.PlanePy

/-! # Histories of calls on the Python class `PlaneRegistration` -/

open Matrix

namespace Mrob

open PlaneReg

namespace PlaneReg

/-- The error of planes with room for no more poses than there are. -/
theorem error_all {e : EigSolver} {s : PlaneReg} (h : ∀ q ∈ s.planes, q.2.Wf ∧ q.2.timeLength ≤ s.traj.length) :
    s.error e = .ok ((s.planes.map fun q => (e.eig4 (Plane.qList s.traj q.2.usedS).sum).val 0).sum,
      { s with planes := s.planes.map fun q => (q.1, q.2.estimated e s.traj q.2.usedS) }) := by
  rw [error, eachPlane_ok (g := fun p => (e.eig4 (Plane.qList s.traj p.usedS).sum).val 0)
    (k := fun p => p.estimated e s.traj p.usedS) fun q hq => Plane.estimate_ok (h q hq).1 (h q hq).2, Out.ok_bind]

end PlaneReg

namespace PlanePy

theorem run_append {e : EigSolver} {eig6 : Mat6 → EigDec I6 6} {svd : Mat3 → SVD3} (l l' : List Call) (a : PlanePy) :
    run e eig6 svd (l ++ l') a = run e eig6 svd l a >>= run e eig6 svd l' := by
  induction l generalizing a with
  | nil => rfl
  | cons c l ih =>
    rw [List.cons_append, run, run]
    cases c.run e eig6 svd a with
    | ok b => exact ih b
    | _ => rfl

/-- The object agrees with the notes. -/
structure Inv (d : Sheet) (s : PlanePy) : Prop where
  fits : 0 < d.poses → s.opt.obj.Fits Holds d
  ids : d.ids.Nodup
  mode : s.opt.obj.mode = d.mode.getD .gradient
  sys : SolveMode.second s.opt.obj.mode → s.opt.sys.N = 6

theorem new_inv : Inv Sheet.blank new :=
  ⟨fun h => absurd h (lt_irrefl 0), List.nodup_nil, rfl, fun h => absurd h id⟩

theorem planes_ids {d : Sheet} {l : List (ℕ × Plane)} {n : ℕ} (h : List.Forall₂ (Holds n) d.clouds l) : l.map (·.1) = d.ids := by
  rw [Sheet.ids]
  generalize d.clouds = cs at h
  induction h with
  | nil => rfl
  | cons h _ ih => rw [List.map_cons, List.map_cons, ih, h.id]

theorem push_holds {n id t : ℕ} {x : Vec3} {c : ℕ × (ℕ → List Vec3)} {q : ℕ × Plane} (hq : Holds n c q) (hid : c.1 = id) :
    ∃ p, q.2.push x t = .ok p ∧ Holds n (c.1, fun u => if u = t ∧ t < n then c.2 u ++ [x] else c.2 u) (id, p) := by
  refine ⟨_, Plane.push_ok hq.wf x t, hid.symm, ⟨?_, hq.wf.S⟩, hq.time, ?_, ?_⟩
  · simpa using hq.wf.pts
  · change q.2.points.modify t (· ++ [x]) = _
    rw [hq.pts]
    refine List.ext_getElem (by simp) fun k h1 h2 => ?_
    have hk : k < n := by simpa using h2
    rw [List.getElem_modify]
    simp only [List.getElem_map, List.getElem_range]
    by_cases hkt : t = k
    · subst hkt
      rw [if_pos rfl, if_pos ⟨rfl, hk⟩]
    · rw [if_neg hkt, if_neg fun h => hkt h.1.symm]
  · change q.2.numberPoints + (if t < q.2.timeLength then 1 else 0) = _
    rw [hq.num, hq.time]
    dsimp only
    by_cases ht : t < n
    · rw [if_pos ht]
      have e : ∀ u, (if u = t ∧ t < n then c.2 u ++ [x] else c.2 u).length = (c.2 u).length + if u = t then 1 else 0 := by
        intro u
        by_cases hu : u = t
        · rw [if_pos ⟨hu, ht⟩, if_pos hu, List.length_append, List.length_singleton]
        · rw [if_neg fun h => hu h.1, if_neg hu, add_zero]
      simp only [e, List.sum_map_add]
      congr 1
      have hc : ((List.range n).map fun u => if u = t then 1 else 0).sum = (List.range n).count t := by
        induction List.range n with
        | nil => rfl
        | cons a l ih =>
          rw [List.map_cons, List.sum_cons, ih, List.count_cons, add_comm]
          simp only [beq_iff_eq]
      rw [hc, List.count_eq_one_of_mem List.nodup_range (List.mem_range.mpr ht)]
    · simp only [ht, if_false, and_false, add_zero]

theorem pushPoint_safe {d : Sheet} {s : PlaneReg} {N : Prop} (h : s.Fits Holds d) (hn : d.ids.Nodup) {id t : ℕ} (x : Vec3) (hid : id ∈ d.ids) :
    (s.pushPoint id t x).Safe N fun s' => s'.Fits Holds (d.after (.pushPoint id t x)) ∧ s'.mode = s.mode := by
  have hids := planes_ids h.data
  obtain ⟨q, hq⟩ : ∃ q, s.planes.find? (·.1 = id) = some q := by
    rw [← Option.isSome_iff_exists, List.find?_isSome]
    rw [← hids] at hid
    obtain ⟨q, hq, hqi⟩ := List.mem_map.mp hid
    exact ⟨q, hq, by simpa using hqi⟩
  have hqm := List.mem_of_find?_eq_some hq
  have hqi : q.1 = id := by simpa using List.find?_some hq
  obtain ⟨i, hi, he⟩ := List.getElem_of_mem hqm
  have hd := List.forall₂_iff_get.mp h.data
  have hqc := hd.2 i (by rw [hd.1]; exact hi) hi
  rw [List.get_eq_getElem, List.get_eq_getElem, he] at hqc
  obtain ⟨p, hp, -⟩ := push_holds (id := id) (t := t) (x := x) hqc (hqc.id.symm.trans hqi)
  rw [pushPoint, hq]
  dsimp only
  rw [hp, Out.ok_bind]
  refine ⟨⟨h.pos, h.bound, h.nplanes, h.nposes, h.traj, h.prev, ?_⟩, rfl⟩
  change List.Forall₂ (Holds d.poses) (d.clouds.map _) (s.planes.map _)
  rw [List.forall₂_map_left_iff, List.forall₂_map_right_iff, List.forall₂_iff_get]
  refine ⟨hd.1, fun j h1 h2 => ?_⟩
  have hj := hd.2 j h1 h2
  simp only [List.get_eq_getElem] at hj ⊢
  by_cases hji : s.planes[j].1 = id
  · have hij : j = i := by
      have hnd : (s.planes.map (·.1)).Nodup := by rw [hids]; exact hn
      have := (List.nodup_iff_injective_get.mp hnd) (a₁ := ⟨j, by simpa using h2⟩) (a₂ := ⟨i, by simpa using hi⟩)
        (by simp [hji, he, hqi])
      simpa using this
    subst hij
    rw [if_pos hji, if_pos (hj.id.symm.trans hji)]
    obtain ⟨p', hp', hh⟩ := push_holds (id := id) (t := t) (x := x) hj (hj.id.symm.trans hji)
    rw [he, hp] at hp'
    cases hp'
    exact hh
  · rw [if_neg hji, if_neg fun hc => hji (hj.id.trans hc)]
    exact hj

theorem after_ids_nodup {d : Sheet} (h : d.ids.Nodup) (c : Call) : (d.after c).ids.Nodup := by
  cases c with
  | setNumbers a b => exact List.nodup_nil
  | addPlane id =>
    rw [Sheet.after]
    split_ifs with hi
    · exact h
    · rw [Sheet.ids, List.map_append, List.map_singleton]
      exact h.append (List.nodup_singleton _) (by simpa [Sheet.ids] using hi)
  | pushPoint id t x =>
    have : (d.after (.pushPoint id t x)).ids = d.ids := by
      change (List.map _ (List.map _ _)) = _
      rw [List.map_map, Sheet.ids]
      refine List.map_congr_left fun c _ => ?_
      simp only [Function.comp]
      split_ifs <;> rfl
    rw [this]
    exact h
  | _ => exact h

theorem pointCloud_ok {d : Sheet} {s : PlaneReg} (h : s.Fits Holds d) {t : ℕ} (ht : t < d.poses) :
    s.pointCloud t = .ok (d.cloud t) := by
  have key : Out.traverse (fun q : ℕ × Plane => Plane.getPoints t q.2) s.planes = .ok (d.clouds.map fun c => c.2 t) := by
    have hd := h.data
    generalize d.clouds = cs at hd
    generalize s.planes = l at hd
    induction hd with
    | nil => rfl
    | @cons c q cs l hq _ ih =>
      have h1 : t < q.2.points.length := by rw [hq.wf.pts, hq.time]; exact ht
      rw [Out.traverse, Plane.getPoints, if_neg (by rw [hq.time]; omega), Out.index_ok h1, Out.ok_bind, ih, Out.ok_bind]
      simp [hq.pts]
  rw [pointCloud, key, Out.ok_bind, Sheet.cloud]

theorem getPoints_safe {n : ℕ} (hn : 0 < n) {c : ℕ × (ℕ → List Vec3)} {q : ℕ × Plane} (hq : Holds n c q) (t : ℕ) :
    q.2.getPoints t = .ok (c.2 (min t (n - 1))) := by
  have hl : q.2.points.length = n := hq.wf.pts.trans hq.time
  rw [Plane.getPoints]
  split_ifs with ht
  · rw [hq.time] at ht
    rw [hq.pts, List.getLast?_map, List.getLast?_range, if_neg hn.ne']
    simp only [Option.map_some]
    rw [min_eq_right (by omega)]
  · rw [hq.time] at ht
    rw [Out.index_ok (by omega), min_eq_left (by omega)]
    simp [hq.pts]

/-- What `get_point_cloud` returns for any time: a time out of range is replaced by the last one. -/
theorem pointCloud_any {d : Sheet} {s : PlaneReg} (h : s.Fits Holds d) (t : ℕ) :
    s.pointCloud t = .ok (d.cloud (min t (d.poses - 1))) := by
  have key : Out.traverse (fun q : ℕ × Plane => Plane.getPoints t q.2) s.planes =
      .ok (d.clouds.map fun c => c.2 (min t (d.poses - 1))) := by
    have hd := h.data
    generalize d.clouds = cs at hd
    generalize s.planes = l at hd
    induction hd with
    | nil => rfl
    | @cons c q cs l hq _ ih =>
      rw [Out.traverse, getPoints_safe h.pos hq, Out.ok_bind, ih, Out.ok_bind]
      rfl
  rw [pointCloud, key, Out.ok_bind, Sheet.cloud]

theorem totalPoints_eq {d : Sheet} {s : PlaneReg} (h : s.Fits Holds d) : s.totalPoints = d.size := by
  have hd := h.data
  rw [totalPoints, Sheet.size]
  simp only [Sheet.cloud]
  generalize d.clouds = cs at hd
  generalize s.planes = l at hd
  induction hd with
  | nil => simp
  | @cons c q cs l hq _ ih =>
    rw [List.map_cons, List.sum_cons, ih, hq.num]
    simp only [List.map_cons, List.flatten_cons, List.length_append, List.sum_map_add]

theorem lift_safe {f : OptDense PlaneReg → Out (OptDense PlaneReg)} {s : PlanePy} {N : Prop} {Q : PlanePy → Prop}
    (h : (f s.opt).Safe N fun o => Q ⟨o, s.hess⟩) : (lift f s).Safe N Q := h.bind fun _ ho => ⟨ho⟩

theorem call_safe {e : EigSolver} {eig6 : Mat6 → EigDec I6 6} {svd : Mat3 → SVD3} {d : Sheet} {s : PlanePy} (hi : Inv d s) (c : Call)
    (ha : d.Allows c) : (c.run e eig6 svd s).Safe (d.Doubtful c) (Inv (d.after c)) := by
  have hn := after_ids_nodup hi.ids c
  cases c with
  | setNumbers a b =>
    obtain ⟨h1, h2, h3⟩ := ha
    refine lift_safe (Out.Safe.of ⟨fun _ => ⟨h2, h3, ?_, ?_, ?_, ?_, .nil⟩, hn, hi.mode, hi.sys⟩)
    · exact Nat.mod_eq_of_lt h1
    · exact Nat.mod_eq_of_lt h3
    · exact (List.length_replicate ..).trans (Nat.mod_eq_of_lt h3)
    · exact (List.length_replicate ..).trans (Nat.mod_eq_of_lt h3)
  | resetSolution =>
    have h := hi.fits ha
    refine lift_safe (Out.Safe.of ⟨fun _ => ⟨h.pos, h.bound, h.nplanes, h.nposes, ?_, ?_, h.data⟩, hn, hi.mode, hi.sys⟩)
    · exact (List.length_replicate ..).trans h.nposes
    · exact (List.length_replicate ..).trans h.nposes
  | solve mode single =>
    obtain ⟨h1, -, h3⟩ := ha
    refine lift_safe ((PlaneReg.solve_safe e svd mode single (hi.fits h1) h3).bind fun r hr => ?_)
    refine Out.Safe.of ⟨fun _ => ⟨hr.1.1.pos, hr.1.1.bound, hr.1.1.nplanes, hr.1.1.nposes, hr.1.1.traj, hr.1.1.prev, hr.1.1.data⟩,
      hn, hr.1.2, fun h => hr.2 (hr.1.2 ▸ h)⟩
  | evaluate =>
    obtain ⟨h1, h2⟩ := ha
    have h := hi.fits h1
    have hev : (s.opt.obj.evaluate e).Safe (d.Doubtful .evaluate) fun r => r.2.Fits Holds d ∧ r.2.mode = s.opt.obj.mode := by
      rw [PlaneReg.evaluate]
      refine (error_safe e h).bind fun r hr => ?_
      dsimp only
      rw [if_neg (by rw [hr.1.nplanes, ← hr.1.data.length_eq]; omega)]
      exact Out.Safe.of ⟨hr.1.imp fun n c q hq => hq.holds, planesOnly_mode hr.2⟩
    change Out.Safe _ (s.evaluate e eig6 >>= _) _
    rw [PlanePy.evaluate]
    refine Out.Safe.bind (Q := fun r : List ℝ × PlanePy => Inv d r.2) ?_ fun r hr => ⟨hr⟩
    refine hev.bind fun r hr => ?_
    have hm := hi.mode
    have hs := hi.sys
    have fin : ∀ H : Option Mat6, Inv d ⟨{ s.opt with obj := r.2 }, H⟩ := fun H =>
      ⟨fun _ => hr.1, hi.ids, hr.2.trans hm, fun h => hs (hr.2 ▸ h)⟩
    dsimp only
    rw [lastHessian]
    cases hmode : s.opt.obj.mode <;> rw [hmode] at hm hs <;> dsimp only
    · rw [Out.ok_bind]
      cases s.hess with
      | none =>
        refine Out.Safe.of_nan (Or.inl ?_)
        cases hd : d.mode with
        | none => rw [hd] at hm; cases hm
        | some m => rw [hd] at hm; exact congrArg some hm.symm
      | some H => exact Out.Safe.of (fin _)
    · exact Out.Safe.of (fin _)
    · exact Out.Safe.of (fin _)
    · exact Out.Safe.of (fin _)
    · rw [dif_pos (hs trivial).symm]
      exact Out.Safe.of (fin _)
    · rw [Out.ok_bind]
      cases s.hess with
      | none =>
        refine Out.Safe.of_nan (Or.inr ?_)
        cases hd : d.mode with
        | none => rw [hd] at hm; cases hm
        | some m => rw [hd] at hm; exact congrArg some hm.symm
      | some H => exact Out.Safe.of (fin _)
    · rw [dif_pos (hs trivial).symm]
      exact Out.Safe.of (fin _)
    · rw [dif_pos (hs trivial).symm]
      exact Out.Safe.of (fin _)
  | pointCloud t =>
    change Out.Safe _ (s.opt.obj.pointCloud t >>= _) _
    rw [pointCloud_any (hi.fits ha) t, Out.ok_bind]
    exact Out.Safe.of hi
  | trajectory t =>
    change Out.Safe _ (s.opt.obj.getTrajectory t >>= _) _
    rw [getTrajectory]
    have h := hi.fits ha
    split_ifs with ht
    · rw [Out.atT, List.getElem?_eq_getElem (by rw [h.traj, ← h.nposes]; exact ht)]
      exact Out.Safe.of hi
    · exact Out.Safe.of hi
  | lastPose => exact (lastPose_safe (hi.fits ha)).bind fun _ _ => Out.Safe.of hi
  | addPlane id =>
    have h := hi.fits ha
    refine lift_safe (Out.Safe.of ?_)
    have hc : (s.opt.obj.planes.map (·.1)).contains id = decide (id ∈ d.ids) := by
      rw [planes_ids h.data]
      simp
    change Inv _ ⟨{ s.opt with obj := s.opt.obj.emplace id (Plane.new s.opt.obj.numberPoses) }, s.hess⟩
    rw [emplace, hc]
    rw [Sheet.after] at hn ⊢
    by_cases hid : id ∈ d.ids
    · rw [if_pos hid, if_pos (by simpa using hid)]
      exact hi
    · rw [if_neg hid] at hn ⊢
      rw [if_neg (by simpa using hid)]
      refine ⟨fun _ => ⟨h.pos, h.bound, h.nplanes, h.nposes, h.traj, h.prev, ?_⟩, hn, hi.mode, hi.sys⟩
      refine List.rel_append h.data (.cons ?_ .nil)
      refine ⟨rfl, Plane.new_wf _, h.nposes, ?_, ?_⟩
      · change List.replicate s.opt.obj.numberPoses [] = _
        rw [h.nposes]
        simp
      · change 0 = _
        simp
  | pushPoint id t x =>
    have h := hi.fits ha.1
    refine lift_safe (Out.Safe.bind (Q := fun s' => s'.Fits Holds (d.after (.pushPoint id t x)) ∧ s'.mode = s.opt.obj.mode)
      (pushPoint_safe h hi.ids x ha.2) fun o ho => Out.Safe.of ⟨fun _ => ho.1, hn, ho.2.trans hi.mode, fun hs => hi.sys (ho.2 ▸ hs)⟩)
  | error =>
    refine lift_safe (Out.Safe.bind (Q := fun o => o.Fits Holds d ∧ o.mode = s.opt.obj.mode) ?_ fun o ho =>
      Out.Safe.of ⟨fun _ => ho.1, hn, ho.2.trans hi.mode, fun hs => hi.sys (ho.2 ▸ hs)⟩)
    exact (error_safe e (hi.fits ha)).bind fun r hr => Out.Safe.of ⟨hr.1.imp fun n c q hq => hq.holds, planesOnly_mode hr.2⟩
  | setLastPose T =>
    refine lift_safe (Out.Safe.bind (Q := fun o => o.Fits Holds d ∧ o.mode = s.opt.obj.mode) (setLastPose_safe (hi.fits ha) T)
      fun o ho => Out.Safe.of ⟨fun _ => ho.1, hn, ho.2.trans hi.mode, fun hs => hi.sys (ho.2 ▸ hs)⟩)

/-- Some call of the history is doubtful. -/
def SomeDoubt : Sheet → List Call → Prop
  | _, [] => False
  | d, c :: cs => d.Doubtful c ∨ SomeDoubt (d.after c) cs

theorem run_safe {e : EigSolver} {eig6 : Mat6 → EigDec I6 6} {svd : Mat3 → SVD3} : ∀ {cs : List Call} {d : Sheet} {s : PlanePy}, Inv d s →
    d.Legal cs → (run e eig6 svd cs s).Safe (SomeDoubt d cs) (Inv (d.afterAll cs)) := by
  intro cs
  induction cs with
  | nil => intro d s hi _; exact ⟨hi⟩
  | cons c cs ih =>
    intro d s hi hl
    rw [run]
    exact ((call_safe hi c hl.1).weaken Or.inl).bind fun s' hs' => (ih hs' hl.2).weaken Or.inr

end PlanePy

end Mrob
