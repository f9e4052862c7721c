import Verif.Lemmas.Solve

/-!
# Executions of the Levenberg-Marquardt loop
-/

open Matrix

namespace Mrob

open World

/-! ### Classes of the library -/

/-- The factor classes of the library. -/
inductive FactorVirt.Library : FactorVirt → Prop
  | prior2d (obs W ty) : Library (.prior2d obs W ty)
  | rel2d (obs W ty) : Library (.rel2d obs W ty)
  | odom (obs W ty) : Library (.odom obs W ty)
  | prior3d (Tobs W ty) : Library (.prior3d Tobs W ty)
  | rel3d (Tobs W ty) : Library (.rel3d Tobs W ty)
  | land2d (obs W rev ty) : Library (.land2d obs W rev ty)
  | land3d (obs W rev ty) : Library (.land3d obs W rev ty)
  | plane4d (obs W rev ty) : Library (.plane4d obs W rev ty)
  | p2plane (px py ny W ty) : Library (.p2plane px py ny W ty)

/-- The residual does not change when the headings of planar poses are reduced. -/
def FactorVirt.HeadingInvariant (f : FactorVirt) : Prop := ∀ vs : List NodeVal, vs.map (·.1) = f.kinds →
  ∀ vs' : List NodeVal, List.Forall₂ (fun v v' => v' = v ∨ v' = v.stored) vs vs' → f.res vs' = f.res vs

theorem stored_pose2d (x : Vec3) : NodeVal.stored ⟨.pose2d, x⟩ = ⟨.pose2d, wrap2 x⟩ := rfl
theorem stored_pose3d (x : SE3) : NodeVal.stored ⟨.pose3d, x⟩ = ⟨.pose3d, x⟩ := rfl
theorem stored_landmark2d (x : Vec2) : NodeVal.stored ⟨.landmark2d, x⟩ = ⟨.landmark2d, x⟩ := rfl
theorem stored_landmark3d (x : Vec3) : NodeVal.stored ⟨.landmark3d, x⟩ = ⟨.landmark3d, x⟩ := rfl
theorem stored_plane4d (x : Vec4) : NodeVal.stored ⟨.plane4d, x⟩ = ⟨.plane4d, x⟩ := rfl

theorem wrap2_wrap2 (x : Vec3) : wrap2 (wrap2 x) = wrap2 x := NodeCell.store_store .pose2d x

theorem rel2dRes_wrap_left (obs xo xt : Vec3) : rel2dRes obs (wrap2 xo) xt = rel2dRes obs xo xt := by
  rw [← rel2dRes_wrap, wrap2_wrap2, rel2dRes_wrap]
theorem rel2dRes_wrap_right (obs xo xt : Vec3) : rel2dRes obs xo (wrap2 xt) = rel2dRes obs xo xt := by
  rw [← rel2dRes_wrap, wrap2_wrap2, rel2dRes_wrap]
theorem odomRes_wrap_left (obs xo xt : Vec3) : odomRes obs (wrap2 xo) xt = odomRes obs xo xt := by
  rw [← odomRes_wrap, wrap2_wrap2, odomRes_wrap]
theorem odomRes_wrap_right (obs xo xt : Vec3) : odomRes obs xo (wrap2 xt) = odomRes obs xo xt := by
  rw [← odomRes_wrap, wrap2_wrap2, odomRes_wrap]

theorem vals_one {k : NodeKind} {vs : List NodeVal} (h : vs.map (·.1) = [k]) : ∃ x : k.State, vs = [⟨k, x⟩] := by
  match vs, h with
  | [⟨_, x⟩], h =>
    simp only [List.map_cons, List.map_nil, List.cons.injEq, and_true] at h
    subst h
    exact ⟨x, rfl⟩

theorem vals_two {k l : NodeKind} {vs : List NodeVal} (h : vs.map (·.1) = [k, l]) :
    ∃ (x : k.State) (y : l.State), vs = [⟨k, x⟩, ⟨l, y⟩] := by
  match vs, h with
  | [⟨_, x⟩, ⟨_, y⟩], h =>
    simp only [List.map_cons, List.map_nil, List.cons.injEq, and_true] at h
    obtain ⟨rfl, rfl⟩ := h
    exact ⟨x, y, rfl⟩

theorem FactorVirt.Library.headingInvariant {f : FactorVirt} (h : f.Library) : f.HeadingInvariant := by
  have h2 : ∀ {v w : NodeVal} {vs' : List NodeVal}, List.Forall₂ (fun v v' => v' = v ∨ v' = v.stored) [v, w] vs' →
      ∃ v' w', vs' = [v', w'] ∧ (v' = v ∨ v' = v.stored) ∧ (w' = w ∨ w' = w.stored) := by
    intro v w vs' hf
    cases hf with
    | cons hv hf =>
      cases hf with
      | cons hw hf =>
        cases hf
        exact ⟨_, _, rfl, hv, hw⟩
  have h1 : ∀ {v : NodeVal} {vs' : List NodeVal}, List.Forall₂ (fun v v' => v' = v ∨ v' = v.stored) [v] vs' →
      ∃ v', vs' = [v'] ∧ (v' = v ∨ v' = v.stored) := by
    intro v vs' hf
    cases hf with
    | cons hv hf =>
      cases hf
      exact ⟨_, rfl, hv⟩
  intro vs hk vs' hf
  cases h with
  | prior2d obs W ty =>
    obtain ⟨x, rfl⟩ := vals_one hk
    obtain ⟨v, rfl, hv⟩ := h1 hf
    rcases hv with rfl | rfl
    · rfl
    · exact prior2dRes_wrap obs x
  | rel2d obs W ty =>
    obtain ⟨x, y, rfl⟩ := vals_two hk
    obtain ⟨v, w, rfl, hv, hw⟩ := h2 hf
    rcases hv with rfl | rfl <;> rcases hw with rfl | rfl
    · rfl
    · exact rel2dRes_wrap_right obs x y
    · exact rel2dRes_wrap_left obs x y
    · exact rel2dRes_wrap obs x y
  | odom obs W ty =>
    obtain ⟨x, y, rfl⟩ := vals_two hk
    obtain ⟨v, w, rfl, hv, hw⟩ := h2 hf
    rcases hv with rfl | rfl <;> rcases hw with rfl | rfl
    · rfl
    · exact odomRes_wrap_right obs x y
    · exact odomRes_wrap_left obs x y
    · exact odomRes_wrap obs x y
  | prior3d Tobs W ty =>
    obtain ⟨x, rfl⟩ := vals_one hk
    obtain ⟨v, rfl, hv⟩ := h1 hf
    rcases hv with rfl | rfl <;> rfl
  | rel3d Tobs W ty =>
    obtain ⟨x, y, rfl⟩ := vals_two hk
    obtain ⟨v, w, rfl, hv, hw⟩ := h2 hf
    rcases hv with rfl | rfl <;> rcases hw with rfl | rfl <;> rfl
  | land2d obs W rev ty =>
    cases rev
    · obtain ⟨x, y, rfl⟩ := vals_two (k := .pose2d) (l := .landmark2d) hk
      obtain ⟨v, w, rfl, hv, hw⟩ := h2 hf
      rcases hv with rfl | rfl <;> rcases hw with rfl | rfl
      · rfl
      · rfl
      · exact land2dRes_wrap obs x y
      · exact land2dRes_wrap obs x y
    · obtain ⟨x, y, rfl⟩ := vals_two (k := .landmark2d) (l := .pose2d) hk
      obtain ⟨v, w, rfl, hv, hw⟩ := h2 hf
      rcases hv with rfl | rfl <;> rcases hw with rfl | rfl
      · rfl
      · exact land2dRes_wrap obs y x
      · rfl
      · exact land2dRes_wrap obs y x
  | land3d obs W rev ty =>
    cases rev
    · obtain ⟨x, y, rfl⟩ := vals_two (k := .pose3d) (l := .landmark3d) hk
      obtain ⟨v, w, rfl, hv, hw⟩ := h2 hf
      rcases hv with rfl | rfl <;> rcases hw with rfl | rfl <;> rfl
    · obtain ⟨x, y, rfl⟩ := vals_two (k := .landmark3d) (l := .pose3d) hk
      obtain ⟨v, w, rfl, hv, hw⟩ := h2 hf
      rcases hv with rfl | rfl <;> rcases hw with rfl | rfl <;> rfl
  | plane4d obs W rev ty =>
    cases rev
    · obtain ⟨x, y, rfl⟩ := vals_two (k := .pose3d) (l := .plane4d) hk
      obtain ⟨v, w, rfl, hv, hw⟩ := h2 hf
      rcases hv with rfl | rfl <;> rcases hw with rfl | rfl <;> rfl
    · obtain ⟨x, y, rfl⟩ := vals_two (k := .plane4d) (l := .pose3d) hk
      obtain ⟨v, w, rfl, hv, hw⟩ := h2 hf
      rcases hv with rfl | rfl <;> rcases hw with rfl | rfl <;> rfl
  | p2plane px py ny W ty =>
    obtain ⟨x, rfl⟩ := vals_one hk
    obtain ⟨v, rfl, hv⟩ := h1 hf
    rcases hv with rfl | rfl <;> rfl

/-! ### Frame of the solver -/

/-- `c'` is the object `c` with other state members. -/
def NodeCell.SameButObj (c c' : NodeCell) : Prop := ∃ o, c' = { c with obj := o }

namespace NodeCell

theorem SameButObj.refl (c : NodeCell) : SameButObj c c := ⟨c.obj, rfl⟩

theorem SameButObj.trans {a b c : NodeCell} (h : SameButObj a b) (h' : SameButObj b c) : SameButObj a c := by
  obtain ⟨x, rfl⟩ := h
  obtain ⟨y, rfl⟩ := h'
  exact ⟨y, rfl⟩

theorem SameButState.toObj {a b : NodeCell} (h : SameButState a b) : SameButObj a b := by
  obtain ⟨x, rfl⟩ := h
  exact ⟨_, rfl⟩

theorem SameButObj.kind {a b : NodeCell} (h : SameButObj a b) : b.kind = a.kind := by
  obtain ⟨x, rfl⟩ := h; rfl
theorem SameButObj.id {a b : NodeCell} (h : SameButObj a b) : b.id = a.id := by
  obtain ⟨x, rfl⟩ := h; rfl
theorem SameButObj.mode {a b : NodeCell} (h : SameButObj a b) : b.mode = a.mode := by
  obtain ⟨x, rfl⟩ := h; rfl
theorem SameButObj.dim {a b : NodeCell} (h : SameButObj a b) : b.dim = a.dim := by
  obtain ⟨x, rfl⟩ := h; rfl

end NodeCell

/-- What a solver call can change: stored evaluations of factors, and states of active nodes. -/
structure World.Frame (w w' : World) : Prop where
  /-- graph and factors -/
  factors : SameFactors w w'
  /-- inactive nodes -/
  inactive : ∀ n, n ∉ w.g.active → w'.nh n = w.nh n
  /-- active nodes -/
  active : ∀ n, NodeCell.SameButObj (w.nh n) (w'.nh n)

namespace World.Frame

theorem refl (w : World) : Frame w w := ⟨.refl w, fun _ _ => rfl, fun _ => .refl _⟩

theorem trans {a b c : World} (h : Frame a b) (h' : Frame b c) : Frame a c :=
  ⟨h.factors.trans h'.factors, fun n hn => (h'.inactive n (by rw [h.factors.g]; exact hn)).trans (h.inactive n hn),
    fun n => (h.active n).trans (h'.active n)⟩

theorem wellTyped {w w' : World} (h : Frame w w') (ht : ∀ f ∈ w.g.factors, (w.fh f).wellTyped w.nh) :
    ∀ f ∈ w'.g.factors, (w'.fh f).wellTyped w'.nh := by
  intro f hf
  rw [h.factors.g] at hf
  have := ht f hf
  rw [FactorCell.wellTyped] at this ⊢
  rw [h.factors.nbrs, h.factors.virt, ← this]
  exact List.map_congr_left fun n _ => (h.active n).kind

theorem wired {w w' : World} (h : Frame w w') (hw : Wired w) : Wired w' := by
  have hd : (fun n => (w'.nh n).dim) = fun n => (w.nh n).dim := funext fun n => (h.active n).dim
  have hm : ∀ n, (w'.nh n).mode = (w.nh n).mode := fun n => (h.active n).mode
  constructor
  · rw [h.factors.g]; exact hw.active_nodup
  · rw [h.factors.g]; intro a ha b hb hab
    rw [(h.active a).id, (h.active b).id] at hab
    exact hw.ids a ha b hb hab
  · rw [h.factors.g]; intro a ha
    rw [hm]; exact hw.modes a ha
  · rw [h.factors.g]; intro f hf n hn
    rw [h.factors.nbrs] at hn
    rw [hm]; exact hw.nbrs_active f hf n hn
  · rw [h.factors.g]; intro f hf
    rw [h.factors.nbrs]
    simp only [hm]
    exact hw.nbrs_nodup f hf
  · exact h.wellTyped hw.typed
  · rw [h.factors.g, hd]; exact hw.stateDim
  · rw [h.factors.g]
    have : (fun f => (w'.fh f).virt.dim) = fun f => (w.fh f).virt.dim := funext fun f => by rw [h.factors.virt]
    rw [this]; exact hw.obsDim

end World.Frame

namespace FGraphSolve

theorem frame_built (w : World) : Frame w w.built := ⟨sameFactors_built w, fun _ _ => rfl, fun _ => .refl _⟩

theorem trial_frame {env : Env} {s s' : FGraphSolve} {delta : ℝ} (h : s.trial env = .ok (delta, s')) : Frame s.w s'.w := by
  obtain ⟨h1, -, -, h4, h5, -, -⟩ := trial_ok h
  refine ⟨h1, h4, fun n => ?_⟩
  by_cases hn : n ∈ s.w.g.active
  · exact NodeCell.SameButObj.trans (b := (s.w.nh n).bookkeep) ⟨_, rfl⟩ (h5 n hn).toObj
  · rw [h4 n hn]; exact .refl _

theorem reject_frame (s : FGraphSolve) : Frame s.w s.reject.w := by
  change Frame s.w s.w.syncState
  rw [syncState_eq]
  refine ⟨⟨rfl, fun _ => rfl, fun _ => rfl, fun _ => rfl⟩, fun n hn => if_neg hn, fun n => ?_⟩
  change NodeCell.SameButObj _ (if n ∈ s.w.g.active then (s.w.nh n).restore else s.w.nh n)
  split
  · exact ⟨_, rfl⟩
  · exact .refl _

/-- Executions of the loop: one constructor per path through the body. -/
inductive LMRun (env : Env) (maxIters : ℕ) : ℕ → FGraphSolve → LMResult → Prop
  | rejectLast {iter s delta s'} : s.trial env = .ok (delta, s') → delta < 0 → ¬ iter + 1 < maxIters →
      LMRun env maxIters iter s ⟨0, iter + 1, s'.reject⟩
  | rejectNext {iter s delta s' r} : s.trial env = .ok (delta, s') → delta < 0 → iter + 1 < maxIters →
      LMRun env maxIters (iter + 1) s'.reject r → LMRun env maxIters iter s r
  | converged {iter s delta s'} : s.trial env = .ok (delta, s') → 0 ≤ delta → delta < s.tol →
      LMRun env maxIters iter s ⟨iter + 1, iter + 1, s'⟩
  | acceptLast {iter s delta s'} : s.trial env = .ok (delta, s') → 0 ≤ delta → s.tol ≤ delta → ¬ iter + 1 < maxIters →
      LMRun env maxIters iter s ⟨0, iter + 1, s'.adapt delta⟩
  | acceptNext {iter s delta s' r} : s.trial env = .ok (delta, s') → 0 ≤ delta → s.tol ≤ delta → iter + 1 < maxIters →
      LMRun env maxIters (iter + 1) (s'.adapt delta) r → LMRun env maxIters iter s r

theorem lmLoop_run {env : Env} {maxIters : ℕ} : ∀ (k iter : ℕ) (s : FGraphSolve) (r : LMResult), maxIters - iter = k →
    lmLoop env maxIters iter s = .ok r → LMRun env maxIters iter s r := by
  intro k
  induction k using Nat.strong_induction_on with
  | _ k ih =>
    intro iter s r hk h
    rw [lmLoop] at h
    obtain ⟨⟨delta, s'⟩, h1, h⟩ := Out.bind_eq_ok.mp h
    have htol : s'.tol = s.tol := (trial_ok h1).2.2.1
    simp only [htol] at h
    by_cases hd : delta < 0
    · rw [if_pos hd] at h
      by_cases hi : iter + 1 < maxIters
      · rw [if_pos hi] at h
        exact .rejectNext h1 hd hi (ih (maxIters - (iter + 1)) (by omega) _ _ _ rfl h)
      · rw [if_neg hi, Out.ok.injEq] at h
        exact h ▸ .rejectLast h1 hd hi
    · rw [if_neg hd] at h
      by_cases ht : delta < s.tol
      · rw [if_pos ht, Out.ok.injEq] at h
        exact h ▸ .converged h1 (not_lt.mp hd) ht
      · rw [if_neg ht] at h
        by_cases hi : iter + 1 < maxIters
        · rw [if_pos hi] at h
          exact .acceptNext h1 (not_lt.mp hd) (not_lt.mp ht) hi (ih (maxIters - (iter + 1)) (by omega) _ _ _ rfl h)
        · rw [if_neg hi, Out.ok.injEq] at h
          exact h ▸ .acceptLast h1 (not_lt.mp hd) (not_lt.mp ht) hi

theorem LMRun.frame {env : Env} {maxIters iter : ℕ} {s : FGraphSolve} {r : LMResult} (h : LMRun env maxIters iter s r) :
    Frame s.w r.s.w := by
  induction h with
  | rejectLast h1 => exact (trial_frame h1).trans (reject_frame _)
  | rejectNext h1 _ _ _ ih => exact ((trial_frame h1).trans (reject_frame _)).trans ih
  | converged h1 => exact trial_frame h1
  | @acceptLast _ s _ s' h1 => exact (trial_frame h1 : Frame s.w s'.w)
  | @acceptNext _ s _ s' _ h1 _ _ _ _ ih => exact (trial_frame h1 : Frame s.w s'.w).trans ih

theorem solve_frame {env : Env} {method : Method} {maxIters : ℕ} {lambda tol : ℝ} {s s' : FGraphSolve}
    (h : s.solve env method maxIters lambda tol = .ok s') : Frame s.w s'.w := by
  cases method with
  | GN =>
    change ((gaussNewton env false _) >>= fun s => s.update) = _ at h
    obtain ⟨s1, h1, h⟩ := Out.bind_eq_ok.mp h
    obtain ⟨a, dx, -, -, -, rfl⟩ := gaussNewton_ok h1
    obtain ⟨w, h2, rfl⟩ := update_ok h
    obtain ⟨u1, u2, u3, u4⟩ := updateNodes_ok _ _ _ _ _ h2
    refine (frame_built s.w).trans ⟨⟨u1, fun f => ?_, fun f => ?_, fun f => ?_⟩, u3, fun n => (u4 n).toObj⟩ <;>
      exact congrArg _ (congrFun u2 f)
  | LM =>
    change (levenbergMarquardt env maxIters _ >>= fun r => Out.ok r.s) = _ at h
    obtain ⟨r, h1, h⟩ := Out.bind_eq_ok.mp h
    rw [Out.ok.injEq] at h
    subst h
    exact (lmLoop_run _ _ _ _ rfl h1).frame

theorem chi2Eval_frame {w w' : World} {c : ℝ} (h : w.chi2Eval = .ok (c, w')) : Frame w w' := by
  have ht : ∀ f ∈ w.g.factors, (w.fh f).wellTyped w.nh := by
    rw [chi2Eval] at h
    obtain ⟨w4, h4, -⟩ := Out.bind_eq_ok.mp h
    exact forAll_evalRes_ok _ _ _ h4
  rw [chi2Eval_eq w ht, Out.ok.injEq, Prod.mk.injEq] at h
  obtain ⟨-, rfl⟩ := h
  exact ⟨sameFactors_mapF (φ := (·.resd w.nh)) (fun _ => rfl) (fun _ => rfl) (fun _ => rfl) _ _, fun _ _ => rfl,
    fun _ => .refl _⟩

/-! ### Rejected steps -/

theorem reject_val {env : Env} {s s' : FGraphSolve} {delta : ℝ} (h : s.trial env = .ok (delta, s')) (n : NRef) :
    (s'.reject.w.nh n).val = if n ∈ s.w.g.active then (s.w.nh n).val.stored else (s.w.nh n).val := by
  obtain ⟨h1, -, -, h4, h5, -, -⟩ := trial_ok h
  have e : s'.reject.w.nh n = if n ∈ s'.w.g.active then (s'.w.nh n).restore else s'.w.nh n := by
    change s'.w.syncState.nh n = _
    rw [syncState_eq]
  rw [e, h1.g]
  split
  · rename_i hn
    rw [NodeCell.restore_of_same (h5 n hn), NodeCell.roundTrip_val]
  · rename_i hn
    rw [h4 n hn]

theorem reject_cost {env : Env} {s s' : FGraphSolve} {delta : ℝ} (h : s.trial env = .ok (delta, s'))
    (ht : ∀ f ∈ s.w.g.factors, (s.w.fh f).wellTyped s.w.nh)
    (hl : ∀ f ∈ s.w.g.factors, (s.w.fh f).virt.HeadingInvariant) : s'.reject.w.cost = s.w.cost := by
  refine cost_congr ((trial_frame h).trans (reject_frame _)).factors fun f hf => ?_
  refine hl f hf _ ?_ _ ?_
  · rw [List.map_map]; exact ht f hf
  · rw [List.forall₂_map_left_iff, List.forall₂_map_right_iff]
    refine List.forall₂_same.mpr fun n _ => ?_
    rw [reject_val h]
    split
    · exact Or.inr rfl
    · exact Or.inl rfl

theorem trial_typed {env : Env} {s s' : FGraphSolve} {delta : ℝ} (h : s.trial env = .ok (delta, s')) :
    ∀ f ∈ s.w.g.factors, (s.w.fh f).wellTyped s.w.nh := by
  rw [trial] at h
  obtain ⟨s1, h1, h⟩ := Out.bind_eq_ok.mp h
  obtain ⟨a, dx, -, -, ht, -⟩ := gaussNewton_ok h1
  exact ht

theorem LMRun.cost_le {env : Env} {maxIters iter : ℕ} {s : FGraphSolve} {r : LMResult} (h : LMRun env maxIters iter s r)
    (hl : ∀ f ∈ s.w.g.factors, (s.w.fh f).virt.HeadingInvariant) : r.s.w.cost ≤ s.w.cost := by
  have hl' : ∀ {w w' : World}, Frame w w' → (∀ f ∈ w.g.factors, (w.fh f).virt.HeadingInvariant) →
      ∀ f ∈ w'.g.factors, (w'.fh f).virt.HeadingInvariant := by
    intro w w' hf h f hm
    rw [hf.factors.virt]
    exact h f (by rw [← hf.factors.g]; exact hm)
  induction h with
  | rejectLast h1 => exact (reject_cost h1 (trial_typed h1) hl).le
  | rejectNext h1 _ _ _ ih =>
    exact (ih (hl' ((trial_frame h1).trans (reject_frame _)) hl)).trans (reject_cost h1 (trial_typed h1) hl).le
  | @converged _ s delta s' h1 h2 =>
    have h3 : delta = s.w.cost - s'.w.cost := (trial_ok h1).2.2.2.2.2.1
    change s'.w.cost ≤ _
    linarith
  | @acceptLast _ s delta s' h1 h2 =>
    have h3 : delta = s.w.cost - s'.w.cost := (trial_ok h1).2.2.2.2.2.1
    change s'.w.cost ≤ _
    linarith
  | @acceptNext _ s delta s' _ h1 h2 _ _ _ ih =>
    have h3 : delta = s.w.cost - s'.w.cost := (trial_ok h1).2.2.2.2.2.1
    have h4 := ih (hl' (trial_frame h1 : Frame s.w s'.w) hl)
    change _ ≤ s'.w.cost at h4
    linarith

/-! ### Damping -/

theorem nextLambda_pos {lambda delta den : ℝ} (h : 0 < lambda) : 0 < nextLambda lambda delta den := by
  rw [nextLambda]
  split_ifs <;> first | exact h | (norm_num; exact h)

theorem LMRun.lambda_pos {env : Env} {maxIters iter : ℕ} {s : FGraphSolve} {r : LMResult} (h : LMRun env maxIters iter s r)
    (hp : 0 < s.lambda) : 0 < r.s.lambda := by
  induction h with
  | @rejectLast _ s _ s' h1 =>
    have h3 : s'.lambda = s.lambda := (trial_ok h1).2.1
    change 0 < s'.lambda * 2
    rw [h3]; linarith
  | @rejectNext _ s _ s' _ h1 _ _ _ ih =>
    have h3 : s'.lambda = s.lambda := (trial_ok h1).2.1
    refine ih ?_
    change 0 < s'.lambda * 2
    rw [h3]; linarith
  | @converged _ s delta s' h1 h2 =>
    have h3 : s'.lambda = s.lambda := (trial_ok h1).2.1
    change 0 < s'.lambda
    rw [h3]; exact hp
  | @acceptLast _ s delta s' h1 h2 =>
    have h3 : s'.lambda = s.lambda := (trial_ok h1).2.1
    refine nextLambda_pos ?_
    rw [h3]; exact hp
  | @acceptNext _ s delta s' _ h1 h2 _ _ _ ih =>
    have h3 : s'.lambda = s.lambda := (trial_ok h1).2.1
    refine ih (nextLambda_pos ?_)
    rw [h3]; exact hp

theorem LMRun.tol_eq {env : Env} {maxIters iter : ℕ} {s : FGraphSolve} {r : LMResult} (h : LMRun env maxIters iter s r) :
    r.s.tol = s.tol := by
  induction h with
  | rejectLast h1 => exact (trial_ok h1).2.2.1
  | rejectNext h1 _ _ _ ih => exact ih.trans (trial_ok h1).2.2.1
  | converged h1 => exact (trial_ok h1).2.2.1
  | acceptLast h1 => exact (trial_ok h1).2.2.1
  | acceptNext h1 _ _ _ _ ih => exact ih.trans (trial_ok h1).2.2.1

end FGraphSolve

end Mrob
