import Verif.Lemmas.Weights

/-!
# The matrices an object keeps after `solve`
-/

open Matrix

namespace Mrob

open World Spec

/-- `L` is the information matrix of the problem linearised at the states of `w`, with the columns of the unknown nodes in
their order. -/
def InfoAt (w : World) {N : ℕ} (L : Matrix (Fin N) (Fin N) ℝ) : Prop := ∃ e : Cols w ≃ Fin N,
  (∀ c, (e c : ℕ) = offset (fun n => (w.nh n).dim) w.g.active c.1 + c.2) ∧ L.submatrix e e = infoMatrix (graphTerms w)

/-- `b` is the right-hand side of the problem linearised at the states of `w`. -/
def RhsAt (w : World) {N : ℕ} (b : Fin N → ℝ) : Prop := ∃ e : Cols w ≃ Fin N,
  (∀ c, (e c : ℕ) = offset (fun n => (w.nh n).dim) w.g.active c.1 + c.2) ∧ (fun c => b (e c)) = infoVector (graphTerms w)

namespace World

theorem infoAt_assembly {w : World} (hw : WellPosed w) (env : Env) : InfoAt w (w.assembly env).L :=
  ⟨colEquiv hw.wired, colEquiv_val hw.wired, assembly_L_terms hw.wired env hw.symm⟩

theorem rhsAt_assembly {w : World} (hw : WellPosed w) (env : Env) : RhsAt w (w.assembly env).b :=
  ⟨colEquiv hw.wired, colEquiv_val hw.wired, assembly_b_terms hw.wired env hw.symm⟩

/-- The columns of two states of a graph. -/
def frameCols {w w' : World} (h : Frame w w') : Cols w ≃ Cols w' where
  toFun c := ⟨⟨c.1.1, by rw [h.factors.g]; exact c.1.2⟩, ⟨c.2, by
    have : (w'.nh c.1).dim = (w.nh c.1).dim := congrArg NodeKind.dim (h.active c.1).kind
    rw [this]; exact c.2.2⟩⟩
  invFun c := ⟨⟨c.1.1, by rw [← h.factors.g]; exact c.1.2⟩, ⟨c.2, by
    have : (w'.nh c.1).dim = (w.nh c.1).dim := congrArg NodeKind.dim (h.active c.1).kind
    rw [← this]; exact c.2.2⟩⟩
  left_inv _ := rfl
  right_inv _ := rfl

theorem assembly_upper {w : World} (env : Env) (i j : Fin (w.assembly env).M) (h : j < i) : (w.assembly env).W i j = 0 := by
  have key : ∀ (l : List FRef) (row : ℕ), diagB (fun f => (w.built.fh f).virt.dim)
      (fun f l k => if l ≤ k then (w.built.fh f).weight * (w.built.fh f).virt.W l k else 0) row l i j = 0 := by
    intro l
    induction l with
    | nil => intro row; rfl
    | cons f l ih =>
      intro row
      rw [diagB]
      split_ifs with h1 h2 h3
      · exfalso
        have h4 : (i : ℕ) - row ≤ j - row := h3
        have : (j : ℕ) < i := h
        omega
      · rfl
      · rfl
      · rfl
      · exact ih _
  exact key _ _

theorem infoAt_frame {w w' : World} (h : Frame w w') {N : ℕ} {L : Matrix (Fin N) (Fin N) ℝ}
    (hi : ∀ c d, infoMatrix (graphTerms w') (frameCols h c) (frameCols h d) = infoMatrix (graphTerms w) c d)
    (hL : InfoAt w L) : InfoAt w' L := by
  obtain ⟨e, h1, h2⟩ := hL
  refine ⟨(frameCols h).symm.trans e, fun c => ?_, ?_⟩
  · have hd : (fun n => (w'.nh n).dim) = fun n => (w.nh n).dim := funext fun n => congrArg NodeKind.dim (h.active n).kind
    rw [hd]
    refine (h1 _).trans ?_
    exact congrArg (· + _) (congrArg (fun g : Graph => offset _ g.active _) h.factors.g.symm)
  · ext c d
    have := congrFun (congrFun h2 ((frameCols h).symm c)) ((frameCols h).symm d)
    rw [← hi, Equiv.apply_symm_apply, Equiv.apply_symm_apply] at this
    exact this

theorem jacRow_landmark {V V' : NRef → NodeVal} {obs : Vec3} {W : Mat3} {rev : Bool} {nbrs : List NRef} {a : NRef}
    (hk : ∀ n, (V' n).1 = (V n).1) (hV : ∀ n, (V n).1 = .pose3d → V' n = V n) (ha : (V a).1 = .landmark3d)
    (ht : nbrs.map (fun n => (V n).1) = (FactorVirt.land3d obs W rev .quadratic).kinds) {k : ℕ} (hk3 : k < 3) :
    jacRow V' a k (FactorVirt.land3d obs W rev .quadratic) nbrs = jacRow V a k (FactorVirt.land3d obs W rev .quadratic) nbrs := by
  have hval : ∀ (v : NodeVal) (kd : NodeKind), v.1 = kd → ∃ x : kd.State, v = ⟨kd, x⟩ := by
    rintro ⟨_, x⟩ _ rfl; exact ⟨x, rfl⟩
  funext l
  have hd : (fun n => (V' n).1.dim) = fun n => (V n).1.dim := funext fun n => congrArg NodeKind.dim (hk n)
  rw [jacRow, jacRow, hd]
  cases rev with
  | false =>
    change nbrs.map _ = [NodeKind.pose3d, .landmark3d] at ht
    obtain ⟨p, y, rfl⟩ := List.length_eq_two.mp (by simpa using congrArg List.length ht)
    simp only [List.map_cons, List.map_nil, List.cons.injEq, and_true] at ht
    obtain ⟨X, hX⟩ := hval _ _ ht.1
    obtain ⟨z, hz⟩ := hval _ _ ht.2
    obtain ⟨z', hz'⟩ := hval _ _ ((hk y).trans ht.2)
    have hp : V' p = ⟨.pose3d, X⟩ := (hV p ht.1).trans hX
    have hpa : p ≠ a := by rintro rfl; rw [ht.1] at ha; cases ha
    simp only [List.map_cons, List.map_nil, hX, hp, hz, hz', blockEntry, if_neg hpa]
    refine congrArg₂ _ rfl (congrArg₂ _ ?_ rfl)
    split
    · change blk2 _ _ l _ = blk2 _ _ l _
      unfold blk2
      rw [if_neg (by change ¬ 0 + 6 + k < 6; omega), if_neg (by change ¬ 0 + 6 + k < 6; omega)]
      rfl
    · rfl
  | true =>
    change nbrs.map _ = [NodeKind.landmark3d, .pose3d] at ht
    obtain ⟨y, p, rfl⟩ := List.length_eq_two.mp (by simpa using congrArg List.length ht)
    simp only [List.map_cons, List.map_nil, List.cons.injEq, and_true] at ht
    obtain ⟨X, hX⟩ := hval _ _ ht.2
    obtain ⟨z, hz⟩ := hval _ _ ht.1
    obtain ⟨z', hz'⟩ := hval _ _ ((hk y).trans ht.1)
    have hp : V' p = ⟨.pose3d, X⟩ := (hV p ht.2).trans hX
    have hpa : p ≠ a := by rintro rfl; rw [ht.2] at ha; cases ha
    simp only [List.map_cons, List.map_nil, hX, hp, hz, hz', blockEntry, if_neg hpa]
    refine congrArg₂ _ ?_ rfl
    split
    · change blk2 _ _ l _ = blk2 _ _ l _
      unfold blk2
      rw [if_pos (by omega), if_pos (by omega)]
      rfl
    · rfl

theorem info_landmarks {w w' : World} (hw : Wired w) (hL : LandmarkGraph w) (hF : Frame w w') (c d : Cols w) :
    infoMatrix (graphTerms w') (frameCols hF c) (frameCols hF d) = infoMatrix (graphTerms w) c d := by
  have hr : NoRansac w := fun f hf => by rw [hL.quadratic f hf]; decide
  have hk : ∀ n, ((w'.nh n).val).1 = ((w.nh n).val).1 := fun n => (hF.active n).kind
  have hV : ∀ n, ((w.nh n).val).1 = .pose3d → (w'.nh n).val = (w.nh n).val := by
    intro n hn
    by_cases ha : n ∈ w.g.active
    · have := hL.nodes n ha
      rw [show (w.nh n).kind = .pose3d from hn] at this
      cases this
    · rw [hF.inactive n ha]
  rw [infoMatrix_quad (hr.of_factors hF.factors), infoMatrix_quad hr, SameFactors.quadSum hF.factors, quadSum, quadSum]
  refine congrArg List.sum (List.map_congr_left fun f hf => ?_)
  obtain ⟨obs, W, rev, hv⟩ := hL.factors f hf
  have ht := hw.typed f hf
  rw [FactorCell.wellTyped, hv] at ht
  have hj : ∀ c : Cols w, jacRow (fun n => (w'.nh n).val) c.1 c.2 (w.fh f).virt.core (w.fh f).nbrs =
      jacRow (fun n => (w.nh n).val) c.1 c.2 (w.fh f).virt.core (w.fh f).nbrs := by
    intro c
    have h3 : (c.2 : ℕ) < 3 := by
      have h1 := c.2.2
      have h2 : (w.nh c.1).dim = 3 := congrArg NodeKind.dim (hL.nodes c.1 c.1.2)
      omega
    have key : ∀ v : FactorVirt, v = .land3d obs W rev .quadratic →
        jacRow (fun n => (w'.nh n).val) c.1 c.2 v.core (w.fh f).nbrs =
          jacRow (fun n => (w.nh n).val) c.1 c.2 v.core (w.fh f).nbrs := by
      rintro _ rfl
      exact jacRow_landmark (W := W) hk hV (hL.nodes c.1 c.1.2) ht h3
    exact key _ hv
  rw [hL.quadratic f hf]
  exact congrArg₂ (fun x y => robustWeight .quadratic 0 0 * (x ⬝ᵥ ((w.fh f).virt.W *ᵥ y))) (hj c) (hj d)

end World

namespace FGraphSolve

open World

/-- The matrices after a Gauss-Newton step. -/
theorem gn_sys {env : Env} {s s' : FGraphSolve} (hw : WellPosed s.w) {k : ℕ} {l t : ℝ}
    (h : s.solve env .GN k l t = .ok s') : s'.mats = s.w.assembly env ∧
      ∃ dx, s'.sys = ⟨(s.w.assembly env).N, (s.w.assembly env).L, (s.w.assembly env).b, dx⟩ := by
  change (FGraphSolve.gaussNewton env false _ >>= fun s => s.update) = _ at h
  obtain ⟨s1, h1, h⟩ := Out.bind_eq_ok.mp h
  obtain ⟨a, dx, h2, h3, -, rfl⟩ := gaussNewton_ok h1
  have h2' : s.w.buildAdjacency env = .ok (s.w.built, a) := h2
  rw [buildAdjacency_wired hw.wired hw.weightable env, Out.ok.injEq, Prod.mk.injEq] at h2'
  obtain ⟨-, rfl⟩ := h2'
  obtain ⟨w, h4, rfl⟩ := update_ok h
  exact ⟨rfl, dx, rfl⟩

/-- The matrices after a trial step. -/
theorem trial_sys {env : Env} {s s' : FGraphSolve} {delta : ℝ} (hw : WellPosed s.w) (h : s.trial env = .ok (delta, s')) :
    ∃ dx, s'.sys = ⟨(s.w.assembly env).N, damped true s.lambda (s.w.assembly env).L, (s.w.assembly env).b, dx⟩ := by
  have h0 := h
  rw [FGraphSolve.trial] at h0
  obtain ⟨s1, h1, -⟩ := Out.bind_eq_ok.mp h0
  obtain ⟨a, dx, h2, h3, -, -⟩ := FGraphSolve.gaussNewton_ok h1
  rw [buildAdjacency_wired hw.wired hw.weightable env, Out.ok.injEq, Prod.mk.injEq] at h2
  obtain ⟨-, rfl⟩ := h2
  obtain ⟨s2, h4, -, -, h7⟩ := FGraphSolve.trial_eq hw h3
  rw [h, Out.ok.injEq, Prod.mk.injEq] at h4
  obtain ⟨rfl, rfl⟩ := h4
  exact ⟨dx, h7⟩

/-- The last trial step of the loop. -/
theorem LMRun.lastTrial {env : Env} (henv : env.Sound) {maxIters iter : ℕ} {s : FGraphSolve} {r : LMResult}
    (h : LMRun env maxIters iter s r) : WellPosed s.w → 0 < s.lambda →
    ∃ (s0 s1 : FGraphSolve) (delta : ℝ), WellPosed s0.w ∧ Frame s.w s0.w ∧ 0 < s0.lambda ∧ s0.trial env = .ok (delta, s1) ∧
      r.s.sys = s1.sys ∧ (delta < 0 → r.s.w = s1.reject.w) ∧ (0 ≤ delta → r.s.w = s1.w) := by
  have hkeep : ∀ {s s' : FGraphSolve} {delta : ℝ}, WellPosed s.w → s.trial env = .ok (delta, s') → WellPosed s'.w :=
    fun hw h => (trial_model henv hw h).choose_spec.2.2.2
  induction h with
  | rejectLast h1 h2 => exact fun hw hl => ⟨_, _, _, hw, .refl _, hl, h1, rfl, fun _ => rfl, fun h => absurd h (not_le.mpr h2)⟩
  | converged h1 h2 => exact fun hw hl => ⟨_, _, _, hw, .refl _, hl, h1, rfl, fun h => absurd h2 (not_le.mpr h), fun _ => rfl⟩
  | acceptLast h1 h2 => exact fun hw hl => ⟨_, _, _, hw, .refl _, hl, h1, rfl, fun h => absurd h2 (not_le.mpr h), fun _ => rfl⟩
  | rejectNext h1 h2 _ _ ih =>
    intro hw hl
    have hw' := hkeep hw h1
    have hl' := (trial_ok h1).2.1
    have hw2 : WellPosed (FGraphSolve.reject _).w := hw'.of_frame (reject_frame _) fun f hf => by
      change 0 ≤ ((World.syncState _).fh f).weight
      rw [syncState_eq]; exact hw'.weight f hf
    obtain ⟨s0, s1, d, k1, k2, k3⟩ := ih hw2 (by change 0 < _ * _; rw [hl']; positivity)
    exact ⟨s0, s1, d, k1, ((trial_frame h1).trans (reject_frame _)).trans k2, k3⟩
  | acceptNext h1 h2 _ _ _ ih =>
    intro hw hl
    have hw' := hkeep hw h1
    have hl' := (trial_ok h1).2.1
    obtain ⟨s0, s1, d, k1, k2, k3⟩ := ih hw' (nextLambda_pos (by rw [hl']; exact hl))
    exact ⟨s0, s1, d, k1, (trial_frame h1).trans k2, k3⟩

end FGraphSolve

end Mrob
