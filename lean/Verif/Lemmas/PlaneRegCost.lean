import Verif.Lemmas.PlaneReg

/-! # The error of `PlaneRegistration` as a function of planes and trajectory -/

open Matrix

namespace Mrob

theorem Out.traverse_rel {α β : Type} {f : α → Out β} {R : α → β → Prop} :
    ∀ {l : List α} {r : List β}, Out.traverse f l = .ok r → (∀ a ∈ l, ∀ b, f a = .ok b → R a b) → List.Forall₂ R l r := by
  intro l
  induction l with
  | nil => intro r h _; cases h; exact .nil
  | cons a l ih =>
    intro r h hf
    rw [Out.traverse] at h
    obtain ⟨b, h1, h⟩ := Out.bind_eq_ok.mp h
    obtain ⟨bs, h2, h⟩ := Out.bind_eq_ok.mp h
    cases h
    exact .cons (hf a List.mem_cons_self b h1) (ih h2 fun x hx => hf x (List.mem_cons_of_mem _ hx))

namespace PlaneReg

/-- Every plane has consistent sizes. -/
def PlanesWf (s : PlaneReg) : Prop := ∀ q ∈ s.planes, q.2.Wf

/-- The smallest eigenvalue for a plane and a trajectory. -/
noncomputable def planeErr (e : EigSolver) (traj : List SE3) (p : Plane) : ℝ := (e.eig4 (Plane.qList traj p.usedS).sum).val 0

/-- The sum over the planes. -/
noncomputable def errOf (e : EigSolver) (planes : List (ℕ × Plane)) (traj : List SE3) : ℝ :=
  (planes.map fun q => planeErr e traj q.2).sum

/-- Two planes with the same data. -/
def SameData (p p' : Plane) : Prop := p'.Wf ∧ p'.usedS = p.usedS ∧ p'.points = p.points ∧ p'.timeLength = p.timeLength

theorem SameData.trans {p q r : Plane} (h : SameData p q) (h' : SameData q r) : SameData p r :=
  ⟨h'.1, h'.2.1.trans h.2.1, h'.2.2.1.trans h.2.2.1, h'.2.2.2.trans h.2.2.2⟩

theorem usedS_estimated {e : EigSolver} {traj : List SE3} {p : Plane} (h : p.Wf) :
    (p.estimated e traj p.usedS).usedS = p.usedS := by
  change (if p.usedS = [] then p.points.map sumOuter else p.usedS) = p.usedS
  split_ifs with h0
  · have h1 := Plane.usedS_length h
    rw [h0] at h1 ⊢
    have : p.points = [] := List.length_eq_zero_iff.mp (by rw [h.pts, ← h1]; rfl)
    rw [this]
    rfl
  · rfl

theorem estimate_same {e : EigSolver} {traj : List SE3} {p : Plane} (h : p.Wf) {r : ℝ × Plane}
    (hr : p.estimate e traj = .ok r) : r.1 = planeErr e traj p ∧ SameData p r.2 ∧ p.timeLength ≤ traj.length := by
  obtain ⟨h1, rfl⟩ := Plane.estimate_inv h hr
  exact ⟨rfl, ⟨Plane.estimated_wf h, usedS_estimated h, rfl, rfl⟩, h1⟩

theorem gradient_same {t : ℕ} {p : Plane} (h : p.Wf) {r : Vec6 × Plane} (hr : p.gradient t = .ok r) : SameData p r.2 := by
  obtain ⟨Q, pl, -, -, rfl⟩ := Plane.gradient_inv hr
  exact ⟨⟨h.pts, h.S⟩, rfl, rfl, rfl⟩

/-- The object has the same planes up to estimates. -/
def SamePlanes (s s' : PlaneReg) : Prop :=
  List.Forall₂ (fun q q' : ℕ × Plane => q'.1 = q.1 ∧ SameData q.2 q'.2) s.planes s'.planes

theorem SamePlanes.refl {s : PlaneReg} (h : s.PlanesWf) : SamePlanes s s := by
  rw [SamePlanes, List.forall₂_same]
  exact fun q hq => ⟨rfl, h q hq, rfl, rfl, rfl⟩

theorem SamePlanes.wf {s s' : PlaneReg} (h : SamePlanes s s') : s'.PlanesWf := by
  intro q hq
  rw [SamePlanes, List.forall₂_iff_get] at h
  obtain ⟨i, hi, rfl⟩ := List.getElem_of_mem hq
  exact (h.2 i (by rw [h.1]; exact hi) hi).2.1

theorem SamePlanes.trans {a b c : PlaneReg} (h : SamePlanes a b) (h' : SamePlanes b c) : SamePlanes a c := by
  rw [SamePlanes, List.forall₂_iff_get] at *
  refine ⟨h.1.trans h'.1, fun i h1 h2 => ?_⟩
  have x := h.2 i h1 (by rw [← h.1]; exact h1)
  have y := h'.2 i (by rw [← h.1]; exact h1) h2
  exact ⟨y.1.trans x.1, x.2.trans y.2⟩

theorem SamePlanes.errOf {e : EigSolver} {s s' : PlaneReg} (h : SamePlanes s s') (traj : List SE3) :
    errOf e s'.planes traj = errOf e s.planes traj := by
  rw [PlaneReg.errOf, PlaneReg.errOf]
  congr 1
  rw [SamePlanes] at h
  generalize s.planes = a at h
  generalize s'.planes = b at h
  induction h with
  | nil => rfl
  | cons h _ ih => rw [List.map_cons, List.map_cons, ih, planeErr, planeErr, h.2.2.1]

theorem eachPlane_rel {β : Type} {f : Plane → Out (β × Plane)} {s : PlaneReg} {r : List β × PlaneReg}
    (h : s.eachPlane f = .ok r) {R : Plane → β → Plane → Prop} (hR : ∀ q ∈ s.planes, ∀ x, f q.2 = .ok x → R q.2 x.1 x.2) :
    ∃ l : List (β × ℕ × Plane), r = (l.map (·.1), { s with planes := l.map (·.2) }) ∧
      List.Forall₂ (fun (q : ℕ × Plane) x => x.2.1 = q.1 ∧ R q.2 x.1 x.2.2) s.planes l := by
  rw [eachPlane] at h
  obtain ⟨l, h1, h⟩ := Out.bind_eq_ok.mp h
  cases h
  refine ⟨l, rfl, Out.traverse_rel h1 fun q hq b hb => ?_⟩
  obtain ⟨x, h2, h3⟩ := Out.bind_eq_ok.mp hb
  cases h3
  exact ⟨rfl, hR q hq x h2⟩

theorem samePlanes_of_forall₂ {β : Type} {s s' : PlaneReg} {l : List (β × ℕ × Plane)} {R : Plane → β → Plane → Prop}
    (h : List.Forall₂ (fun (q : ℕ × Plane) x => x.2.1 = q.1 ∧ R q.2 x.1 x.2.2) s.planes l) (hs : s'.planes = l.map (·.2))
    (hR : ∀ p b p', R p b p' → SameData p p') : SamePlanes s s' := by
  rw [SamePlanes, hs, List.forall₂_map_right_iff]
  exact h.imp fun q x hx => ⟨hx.1, hR _ _ _ hx.2⟩

theorem error_ok {e : EigSolver} {s : PlaneReg} (hw : s.PlanesWf) {r : ℝ × PlaneReg} (h : s.error e = .ok r) :
    r.1 = errOf e s.planes s.traj ∧ SamePlanes s r.2 ∧ ∀ q ∈ s.planes, q.2.timeLength ≤ s.traj.length := by
  rw [error] at h
  obtain ⟨⟨l, s1⟩, h1, h⟩ := Out.bind_eq_ok.mp h
  cases h
  obtain ⟨l', h2, h3⟩ := eachPlane_rel h1
    (R := fun p b p' => b = planeErr e s.traj p ∧ SameData p p' ∧ p.timeLength ≤ s.traj.length)
    fun q hq x hx => estimate_same (hw q hq) hx
  obtain ⟨rfl, rfl⟩ := Prod.mk.inj h2
  refine ⟨?_, samePlanes_of_forall₂
    (R := fun p b p' => b = planeErr e s.traj p ∧ SameData p p' ∧ p.timeLength ≤ s.traj.length) h3 rfl fun _ _ _ h => h.2.1, ?_⟩
  · change (l'.map (·.1)).sum = _
    rw [errOf]
    congr 1
    clear h h1 h2
    generalize s.planes = a at h3
    induction h3 with
    | nil => rfl
    | cons hx _ ih => rw [List.map_cons, List.map_cons, hx.2.1, ih]
  · intro q hq
    rw [List.forall₂_iff_get] at h3
    obtain ⟨i, hi, rfl⟩ := List.getElem_of_mem hq
    exact (h3.2 i hi (by rw [← h3.1]; exact hi)).2.2.2

theorem mapAccum_same {β : Type} {f : ℕ → PlaneReg → Out (β × PlaneReg)}
    (hf : ∀ t s r, s.PlanesWf → f t s = .ok r → SamePlanes s r.2) (l : List ℕ) (s : PlaneReg) (r : List β × PlaneReg)
    (hw : s.PlanesWf) (h : Out.mapAccum f l s = .ok r) : SamePlanes s r.2 := by
  have := Out.mapAccum_rel (R := fun a b => a.PlanesWf → SamePlanes a b) (fun s hs => SamePlanes.refl hs)
    (fun a b c h1 h2 ha => (h1 ha).trans (h2 (h1 ha).wf)) (fun t s r hr hs => hf t s r hs hr) l s r h
  exact this hw

theorem gradHess6_same {e : EigSolver} {s : PlaneReg} (hw : s.PlanesWf) {r : (Vec6 × Mat6) × PlaneReg}
    (h : s.gradHess6 e = .ok r) : SamePlanes s r.2 := by
  rw [gradHess6] at h
  obtain ⟨⟨c, s0⟩, h0, h⟩ := Out.bind_eq_ok.mp h
  obtain ⟨⟨l, s1⟩, h1, h⟩ := Out.bind_eq_ok.mp h
  cases h
  have p0 := (error_ok hw h0).2.1
  refine p0.trans (mapAccum_same ?_ _ _ _ p0.wf h1)
  intro t s r hs hr
  obtain ⟨⟨⟨g, H⟩, s2⟩, h2, hr⟩ := Out.bind_eq_ok.mp hr
  cases hr
  rw [gradHessAt] at h2
  obtain ⟨⟨l2, s3⟩, h3, h2⟩ := Out.bind_eq_ok.mp h2
  cases h2
  obtain ⟨l', h4, h5⟩ := eachPlane_rel h3 (R := fun p _ p' => SameData p p') fun q hq x hx => by
    obtain ⟨⟨g, p⟩, h6, hx⟩ := Out.bind_eq_ok.mp hx
    obtain ⟨H, h7, hx⟩ := Out.bind_eq_ok.mp hx
    cases hx
    exact gradient_same (hs q hq) h6
  obtain ⟨-, rfl⟩ := Prod.mk.inj h4
  exact samePlanes_of_forall₂ h5 rfl fun _ _ _ h => h

theorem gradAt_same {t : ℕ} {s : PlaneReg} (hw : s.PlanesWf) {r : (Vec6 × ℕ) × PlaneReg} (h : s.gradAt t = .ok r) :
    SamePlanes s r.2 := by
  rw [gradAt] at h
  obtain ⟨⟨l2, s3⟩, h3, h2⟩ := Out.bind_eq_ok.mp h
  cases h2
  obtain ⟨l', h4, h5⟩ := eachPlane_rel h3 (R := fun p _ p' => SameData p p') fun q hq x hx => by
    obtain ⟨⟨g, p⟩, h6, hx⟩ := Out.bind_eq_ok.mp hx
    obtain ⟨k, h7, hx⟩ := Out.bind_eq_ok.mp hx
    cases hx
    exact gradient_same (hw q hq) h6
  obtain ⟨-, rfl⟩ := Prod.mk.inj h4
  exact samePlanes_of_forall₂ h5 rfl fun _ _ _ h => h

theorem accGradient_same {s : PlaneReg} (hw : s.PlanesWf) {r : Vec6 × PlaneReg} (h : s.accGradient = .ok r) :
    SamePlanes s r.2 := by
  rw [accGradient] at h
  obtain ⟨⟨l, s1⟩, h1, h⟩ := Out.bind_eq_ok.mp h
  cases h
  refine mapAccum_same ?_ _ _ _ hw h1
  intro t s r hs hr
  obtain ⟨⟨⟨g, k⟩, s2⟩, h2, hr⟩ := Out.bind_eq_ok.mp hr
  dsimp only at hr
  split at hr
  · cases hr
  · cases hr
    exact gradAt_same hs (r := ((g, k), s2)) h2

/-! ## Whole trajectories -/

/-- The trajectory with the given last pose, interpolated from the identity. -/
noncomputable def trajTo (n : ℕ) (T : SE3) : List SE3 :=
  (List.range n).map fun t => if t = 0 then SE3.default else if t + 1 = n then T
    else SE3.ofVec (((t : ℝ) / ((n : ℝ) - 1)) • T.lnVee)

theorem traj_eq_trajTo {s : PlaneReg} {T : SE3} {traj : List SE3} (hn : 2 ≤ s.numberPoses) (hl : traj.length = s.numberPoses)
    (h0 : traj[0]? = some SE3.default) (hT : traj[s.numberPoses - 1]? = some T)
    (hi : ∀ t, 0 < t → t + 1 < s.numberPoses →
      traj[t]? = some (SE3.ofVec (((t : ℝ) / ((s.numberPoses : ℝ) - 1)) • T.lnVee))) :
    traj = trajTo s.numberPoses T := by
  refine List.ext_getElem? fun t => ?_
  rcases lt_or_ge t s.numberPoses with h1 | h1
  · rw [trajTo, List.getElem?_map, List.getElem?_range h1, Option.map_some]
    by_cases ht0 : t = 0
    · subst ht0; rw [h0, if_pos rfl]
    · by_cases ht : t + 1 = s.numberPoses
      · rw [if_neg ht0, if_pos ht, show t = s.numberPoses - 1 by omega, hT]
      · rw [if_neg ht0, if_neg ht, hi t (by omega) (by omega)]
  · rw [List.getElem?_eq_none (by omega), List.getElem?_eq_none (by simpa [trajTo] using h1)]

theorem placeLast_trajTo {T : SE3} {s s' : PlaneReg} (hi : s.PoseInv) (hn : 2 ≤ s.numberPoses)
    (h : s.placeLast T = .ok s') : s' = { s with traj := trajTo s.numberPoses T } := by
  obtain ⟨traj, rfl, h1, h2, h3, h4⟩ := placeLast_ok h (by omega) hi.bound (hi.len (by omega))
  rw [traj_eq_trajTo hn h1 ((h3 hn).trans (hi.first (by omega))) h2 fun t ht0 ht => by
    rw [h4 t ht0 (by omega), tau_eq (by omega) hi.bound]]

theorem interpolated_traj {s : PlaneReg} (hi : s.PoseInv) (hn : 2 ≤ s.numberPoses) (hp : s.Interpolated) {T : SE3}
    (hT : s.traj.getLast? = some T) : s.traj = trajTo s.numberPoses T :=
  traj_eq_trajTo hn (hi.len (by omega)) (hi.first (by omega))
    (by rw [← getLast?_of_length (hi.len (by omega)), hT]) fun t h0 h1 => hp T hT t h0 h1

/-- The conditions under which restoring is exact. -/
structure Exact (s : PlaneReg) : Prop where
  pose : s.PoseInv
  two : 2 ≤ s.numberPoses
  interp : s.Interpolated
  wf : s.PlanesWf

theorem Exact.planes {s s' : PlaneReg} (h : s.Exact) (h1 : PlanesOnly s s') (h2 : SamePlanes s s') : s'.Exact := by
  refine ⟨h.pose.planesOnly h1, ?_, ?_, h2.wf⟩
  · obtain ⟨ps, rfl⟩ := h1
    exact h.two
  · obtain ⟨ps, rfl⟩ := h1
    exact h.interp

/-- `PlaneRegistration` keeps the contract of `Optimizer` on interpolated trajectories. -/
theorem contract (e : EigSolver) : (problem e).Contract Exact (fun s => errOf e s.planes s.traj)
    (fun s => errOf e s.planes (trajTo s.numberPoses s.booked)) := by
  refine ⟨?_, ?_, ?_, ?_, ?_⟩
  · intro o c o' hi h
    obtain ⟨h1, h2, -⟩ := error_ok hi.wf h
    have hf := error_frame h
    refine ⟨h1, ?_, ?_, hi.planes hf h2⟩
    · rw [h2.errOf]
      obtain ⟨ps, hf⟩ := hf
      have hf : o' = _ := hf
      rw [hf]
    · rw [h2.errOf]
      obtain ⟨ps, hf⟩ := hf
      have hf : o' = _ := hf
      rw [hf]
  · intro o o' hi h
    obtain ⟨T, hT, rfl⟩ := bookkeep_ok h
    exact ⟨by rw [interpolated_traj hi.pose hi.two hi.interp hT], ⟨hi.pose.frame rfl rfl rfl, hi.two, hi.interp, hi.wf⟩⟩
  · intro o en o' hi h
    change (gradHess6 e o >>= _) = _ at h
    obtain ⟨⟨⟨g6, H6⟩, s1⟩, h3, h1⟩ := Out.bind_eq_ok.mp h
    dsimp only at h1
    rw [Out.ok.injEq, Prod.mk.injEq] at h1
    obtain ⟨rfl, rfl⟩ := h1
    have p := gradHess6_same hi.wf h3
    have hf := (gradHess6_frame h3).1
    refine ⟨?_, hi.planes hf p⟩
    rw [p.errOf]
    obtain ⟨ps, hf⟩ := hf
    have hf : s1 = _ := hf
    rw [hf]
  · intro N dx o o' hi h
    change (if h : N = 6 then moveLast _ o else .ub) = _ at h
    by_cases hN : N = 6
    · rw [dif_pos hN, moveLast] at h
      obtain ⟨T, -, h⟩ := Out.bind_eq_ok.mp h
      have hp := placeLast_inv hi.pose (fun h1 => by have := hi.two; omega) h
      have hint := placeLast_interpolated h (by have := hi.two; omega) hi.pose.bound (hi.pose.len (by have := hi.two; omega))
      rw [placeLast] at h
      obtain ⟨traj, -, h⟩ := Out.bind_eq_ok.mp h
      cases h
      exact ⟨rfl, hp, hi.two, hint, hi.wf⟩
    · rw [dif_neg hN] at h
      cases h
  · intro o o' hi h
    obtain ⟨s1, h1, hf, c, h2⟩ := restore_ok h
    obtain rfl := placeLast_trajTo hi.pose hi.two h1
    have hp := placeLast_inv hi.pose (fun h1 => by have := hi.two; omega) h1
    have hint := placeLast_interpolated h1 (by have := hi.two; omega) hi.pose.bound (hi.pose.len (by have := hi.two; omega))
    have ex : Exact { o with traj := trajTo o.numberPoses o.booked } := ⟨hp, hi.two, hint, hi.wf⟩
    obtain ⟨-, p, -⟩ := error_ok ex.wf h2
    refine ⟨?_, ?_, ex.planes hf p⟩
    · rw [p.errOf]
      obtain ⟨ps, rfl⟩ := hf
      rfl
    · rw [p.errOf]
      obtain ⟨ps, rfl⟩ := hf
      rfl

end PlaneReg

end Mrob
