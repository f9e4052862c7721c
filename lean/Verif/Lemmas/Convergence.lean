import Verif.Lemmas.LocalStep
import Verif.Lemmas.GaugePlanar
import Verif.Lemmas.Restated
import Verif.Spec.Convergence
import Verif.Props.GaussNewton
import Mathlib.Analysis.Matrix.Order

/-!
# Gauss-Newton near a solution without residuals
-/

open Matrix Filter Topology

namespace Mrob

open World Spec

theorem planarMoved_zero {x x' : Vec3} : planar x' = planar 0 * planar x ↔ x' 0 = x 0 ∧ x' 1 = x 1 ∧ SameAngle (x' 2) (x 2) := by
  rw [planar_eq_mul_iff]
  simp

theorem planarPoint_zero (l : Vec2) : planarPoint 0 l = l := by
  funext i
  fin_cases i <;> simp [planarPoint]

theorem turn_zero : turn 0 = 1 := by
  ext i j
  fin_cases i <;> fin_cases j <;> simp [turn]

/-- Regular planar factors correspond to themselves. -/
theorem regular_factors {nh : NRef → NodeCell} {V : FactorVirt} {nbrs : List NRef} (h : Regular nh V nbrs)
    (hk : ∀ n ∈ nbrs, PlanarKind (nh n).kind) : (planarSym 0).Factors V V := by
  have hW : ∀ W : Mat3, W = (turn 0)ᵀ * W * turn 0 := by
    intro W; rw [turn_zero, transpose_one, Matrix.one_mul, Matrix.mul_one]
  have hno : ∀ {n : NRef} {X : SE3}, n ∈ nbrs → (nh n).val = ⟨.pose3d, X⟩ → False := fun hn hv =>
    no_pose3d (w := ⟨nh, fun _ => FactorCell.new V nbrs 0 0, emptyGraph⟩) hk hn hv
  cases h with
  | prior2d => exact factor_moved (.prior2d _ _ _ _ _ (planarMoved_zero.mpr ⟨rfl, rfl, .refl _⟩) (hW _))
  | rel2d => exact factor_moved (.rel2d _ _ _)
  | odom => exact factor_moved (.odom _ _ _ _ (hW _))
  | land2d => exact factor_moved (.land2d _ _ _ _)
  | land2dRev => exact factor_moved (.land2d _ _ _ _)
  | land3d hn => exact (hno (by simp) hn).elim
  | land3dRev hn => exact (hno (by simp) hn).elim
  | p2plane hn => exact (hno (by simp) hn).elim

theorem regular_far {nh : NRef → NodeCell} {V : FactorVirt} {nbrs : List NRef} (h : Regular nh V nbrs) :
    FarLandmarks (nbrs.map fun n => (nh n).val) := by
  intro x l hx hl
  cases h with
  | prior2d hn => simp [hn] at hl
  | rel2d hn hm => simp [hn, hm] at hl
  | odom hn hm => simp [hn, hm] at hl
  | @land2d _ _ _ n m x' y' hn hm hfar =>
    simp [hn, hm] at hx hl
    subst hx hl
    nlinarith
  | @land2dRev _ _ _ n m x' y' hn hm hfar =>
    simp [hn, hm] at hx hl
    subst hx hl
    nlinarith
  | land3d hn hm => simp [hn, hm] at hl
  | land3dRev hn hm => simp [hn, hm] at hl
  | p2plane hn => simp [hn] at hl

namespace World

variable {w : World}

theorem disp_frame (e : Cols w → ℝ) : Frame w (w.disp e) := by
  refine ⟨⟨rfl, fun _ => rfl, fun _ => rfl, fun _ => rfl⟩, fun n hn => ?_, fun n => ?_⟩
  · have h1 : w.spread e n = 0 := funext fun k => spread_of_notMem e hn k
    change (w.nh n).shift (w.spread e n) = _
    rw [h1, NodeCell.shift, shift_zero]
  · constructor <;> rfl

/-- The nodes that matter. -/
abbrev Matters (w : World) (n : NRef) : Prop := n ∈ w.g.active ∨ ∃ f ∈ w.g.factors, n ∈ (w.fh f).nbrs

/-- The graph of the solver is `w` displaced by `e`, up to full turns. -/
structure Off (w : World) (e : Cols w → ℝ) (w' : World) : Prop where
  gauge : Gauge (planarSym 0) (w.disp e) w'
  wellPosed : WellPosed w'
  robust : NoRansac w'

theorem moved_disp (e z : Cols w → ℝ) {n : NRef} (hk : PlanarKind (w.nh n).kind) {v : NodeVal}
    (h : PlanarMoved 0 (((w.disp e).moved ((w.disp e).spread (-z : Cols w → ℝ))).nh n).val v) :
    PlanarMoved 0 (w.dval (e - z) n) v := by
  have hm : ((w.disp e).moved ((w.disp e).spread (-z : Cols w → ℝ))).nh n =
      if n ∈ w.g.active then ((w.disp e).nh n).update (w.spread (-z) n) else (w.disp e).nh n := rfl
  have hs : w.spread (e - z) n = w.spread e n + w.spread (-z) n := by rw [sub_eq_add_neg, spread_add]
  obtain ⟨k', x'⟩ := v
  rw [hm] at h
  by_cases ha : n ∈ w.g.active
  · rw [if_pos ha] at h
    rcases hk with hk | hk
    · obtain ⟨x, hx⟩ : ∃ x : Vec3, (w.nh n).val = ⟨.pose2d, x⟩ := by
        generalize w.nh n = c at hk
        obtain ⟨k, o, i, m, l⟩ := c
        obtain rfl : k = .pose2d := hk
        exact ⟨o.state, rfl⟩
      have e1 : (((w.disp e).nh n).update (w.spread (-z) n)).val = NodeVal.upd (w.dval e n) (w.spread (-z) n) := rfl
      rw [e1, dval_pose hx] at h
      rw [dval_pose hx]
      change PlanarMoved 0 ⟨.pose2d, wrap2 (w.pose x e n + fun i : Fin 3 => w.spread (-z) n i)⟩ _ at h
      cases k' <;> first | exact absurd h id | skip
      change planar x' = planar 0 * planar (wrap2 _) at h
      change planar x' = planar 0 * planar _
      rw [planar_wrap] at h
      rw [h, pose, pose, hs, add_assoc]
      rfl
    · obtain ⟨x, hx⟩ : ∃ x : Vec2, (w.nh n).val = ⟨.landmark2d, x⟩ := by
        generalize w.nh n = c at hk
        obtain ⟨k, o, i, m, l⟩ := c
        obtain rfl : k = .landmark2d := hk
        exact ⟨o.state, rfl⟩
      have e1 : (((w.disp e).nh n).update (w.spread (-z) n)).val = NodeVal.upd (w.dval e n) (w.spread (-z) n) := rfl
      rw [e1, dval_mark hx] at h
      rw [dval_mark hx, mark, hs]
      have : NodeVal.upd ⟨.landmark2d, w.mark x e n⟩ (w.spread (-z) n) =
          (⟨.landmark2d, x + fun i : Fin 2 => (w.spread e n + w.spread (-z) n) i⟩ : NodeVal) := by
        refine congrArg (Sigma.mk NodeKind.landmark2d) ?_
        change x + _ + _ = _
        rw [add_assoc]; rfl
      rwa [this] at h
  · rw [if_neg ha] at h
    have h1 : w.spread (-z) n = 0 := funext fun k => spread_of_notMem _ ha k
    change PlanarMoved 0 (w.dval e n) _ at h
    rw [h1, add_zero] at hs
    have : w.dval (e - z) n = w.dval e n := by
      rw [dval_of (k := (w.nh n).kind) (x := (w.nh n).obj.state) rfl, dval_of (k := (w.nh n).kind) (x := (w.nh n).obj.state) rfl, hs]
    rwa [this]

/-- The graphs nearby are regular. -/
theorem Solved.near (h : Solved w) :
    ∀ᶠ e in 𝓝 (0 : Cols w → ℝ), ∀ f ∈ w.g.factors, Regular (w.disp e).nh (w.fh f).virt (w.fh f).nbrs := by
  have : ∀ L : List FRef, (∀ f ∈ L, f ∈ w.g.factors) →
      ∀ᶠ e in 𝓝 (0 : Cols w → ℝ), ∀ f ∈ L, Regular (w.disp e).nh (w.fh f).virt (w.fh f).nbrs := by
    intro L
    induction L with
    | nil => intro _; exact Eventually.of_forall fun e f hf => absurd hf List.not_mem_nil
    | cons a L ih =>
      intro hL
      filter_upwards [ih fun f hf => hL f (List.mem_cons_of_mem _ hf),
        regular_near (h.regular a (hL a List.mem_cons_self)) (h.planar a (hL a List.mem_cons_self))] with e h1 h2 f hf
      rcases List.mem_cons.mp hf with rfl | hf
      · exact h2
      · exact h1 f hf
  exact this _ fun _ hf => hf

/-- Gauss-Newton is a contraction near the solution. -/
theorem Solved.step (h : Solved w) (hw : Wired w) (hpl : ∀ n ∈ w.g.active, PlanarKind (w.nh n).kind)
    (hdet : (infoMatrix (graphTerms w)).det ≠ 0) {env : Env} (henv : env.Sound) (hcomp : env.Complete)
    {c : ℝ} (hc : 0 < c) (hc1 : c ≤ 1) : ∃ ε > 0, ∀ (e : Cols w → ℝ) (s : FGraphSolve), ‖e‖ < ε → Off w e s.w →
    ∀ (k : ℕ) (l t : ℝ), ∃ s1, s.solve env .GN k l t = .ok s1 ∧ ∃ e', ‖e'‖ ≤ c * ‖e‖ ∧ Off w e' s1.w := by
  obtain ⟨ε, hε, hball⟩ := Metric.eventually_nhds_iff.mp (h.near.and (h.rate hdet hc))
  refine ⟨ε, hε, fun e s he hs k l t => ?_⟩
  obtain ⟨hr, hd, hrate⟩ := hball (by rwa [dist_zero_right] : dist e 0 < ε)
  have hwd : Wired (w.disp e) := (disp_frame e).wired hw
  have hrd : NoRansac (w.disp e) := h.robust
  have hG := hs.gauge
  have hdet' : (infoMatrix (graphTerms s.w)).det ≠ 0 := by
    intro h0
    refine hd ?_
    have := congrArg Matrix.det (hG.infoMatrix hwd hrd hs.robust)
    rw [det_mul, det_mul, det_submatrix_equiv_self, h0, mul_zero, zero_mul] at this
    exact this
  have hpd : (infoMatrix (graphTerms s.w)).PosDef := by
    have hpsd := FGraphSolve.terms_psd hs.wellPosed
    exact hpsd.posDef_iff_det_ne_zero.mpr hdet'
  obtain ⟨s1, h1⟩ := C36_returns env hcomp s hs.wellPosed hpd k l t
  obtain ⟨dx, hdx, hw1⟩ := FGraphSolve.gn_ok hs.wellPosed h1
  have hx := FGraphSolve.normal_solution henv hs.wellPosed hdx
  obtain ⟨z', hz1, hz2, -⟩ := hG.solution hwd hrd hs.robust (l := 0) (Or.inl rfl) _ (by rw [hx]; simp)
  rw [zero_smul, add_zero] at hz2
  obtain ⟨z, hzz⟩ : ∃ z : Cols w → ℝ, z = z' := ⟨z', rfl⟩
  have hF := FGraphSolve.solve_frame h1
  have hsmall : ‖e - z‖ ≤ c * ‖e‖ := hrate z (hzz ▸ hz2)
  have hsm : ‖e - z‖ < ε := by
    refine lt_of_le_of_lt (hsmall.trans ?_) he
    exact mul_le_of_le_one_left (norm_nonneg _) hc1
  have hr2 := (hball (by rwa [dist_zero_right] : dist (e - z) 0 < ε)).1
  refine ⟨s1, h1, e - z, hsmall, ?_, ?_, hs.robust.of_factors hF.factors⟩
  · refine ⟨?_, ?_, fun f hf => ?_, fun n hn => ?_, fun f hf => ?_, fun n hn => ?_, fun f hf => ?_⟩
    · rw [hF.factors.g]; exact hG.active
    · rw [hF.factors.g]; exact hG.factors
    · rw [hF.factors.nbrs]; exact hG.nbrs f hf
    · have hk : PlanarKind (w.nh n).kind := by
        rcases hn with hn | ⟨f, hf, hn⟩
        · exact hpl n hn
        · exact h.planar f hf n hn
      refine moved_disp e z hk ?_
      rw [hw1]
      have e1 : ∀ (w : World) δ n, ((w.built.moved δ).nh n).val = ((w.moved δ).nh n).val := fun _ _ _ => rfl
      rw [e1, moved_step hs.wellPosed.wired]
      rw [hzz]
      refine hG.moved_val _ _ ?_ (fun n _ => planar_follows _ _) hn
      refine Eq.trans ?_ (mulVec_neg _ _).symm
      rw [← hz1]
      rfl
    · rw [hF.factors.virt]; exact hG.virt f hf
    · exact hG.moves n hn
    · exact regular_far (hr2 f hf)
  · refine hs.wellPosed.of_frame hF fun f hf => ?_
    rw [hw1]
    exact hs.wellPosed.built_weight f hf

/-- Repeated calls. -/
theorem Solved.repeat (h : Solved w) (hw : Wired w) (hpl : ∀ n ∈ w.g.active, PlanarKind (w.nh n).kind)
    (hdet : (infoMatrix (graphTerms w)).det ≠ 0) {env : Env} (henv : env.Sound) (hcomp : env.Complete)
    {c : ℝ} (hc : 0 < c) (hc1 : c ≤ 1) : ∃ ε > 0, ∀ (calls : List (ℕ × ℝ × ℝ)) (e : Cols w → ℝ) (s : FGraphSolve), ‖e‖ < ε →
    Off w e s.w → ∃ s1, repeatGN env calls s = .ok s1 ∧ ∃ e', ‖e'‖ ≤ c ^ calls.length * ‖e‖ ∧ Off w e' s1.w := by
  obtain ⟨ε, hε, hstep⟩ := h.step hw hpl hdet henv hcomp hc hc1
  refine ⟨ε, hε, fun calls => ?_⟩
  induction calls with
  | nil => intro e s he hs; exact ⟨s, rfl, e, by simp, hs⟩
  | cons a calls ih =>
    intro e s he hs
    obtain ⟨s1, h1, e1, he1, hs1⟩ := hstep e s he hs a.1 a.2.1 a.2.2
    obtain ⟨s2, h2, e2, he2, hs2⟩ := ih e1 s1 (lt_of_le_of_lt (he1.trans (mul_le_of_le_one_left (norm_nonneg _) hc1)) he) hs1
    refine ⟨s2, ?_, e2, he2.trans ?_, hs2⟩
    · rw [repeatGN, h1]; exact h2
    · rw [List.length_cons, pow_succ, mul_assoc]
      exact mul_le_mul_of_nonneg_left he1 (by positivity)

/-- How far the states are. -/
theorem near_of_dval {e : Cols w → ℝ} {ρ : ℝ} (he : ‖e‖ ≤ ρ) {n : NRef} {v : NodeVal} (hv : PlanarMoved 0 (w.dval e n) v) :
    Near ρ (w.nh n).val v := by
  have hs : ∀ k, |w.spread e n k| ≤ ρ := by
    intro k
    unfold spread
    split
    · exact (norm_le_pi_norm e _).trans he
    · rw [abs_zero]; exact (norm_nonneg _).trans he
  obtain ⟨k', x'⟩ := v
  rw [dval_of (k := (w.nh n).kind) (x := (w.nh n).obj.state) rfl] at hv
  change Near ρ ⟨(w.nh n).kind, (w.nh n).obj.state⟩ _
  generalize (w.nh n).obj.state = x at hv ⊢
  generalize (w.nh n).kind = k at x hv ⊢
  cases k <;> cases k' <;> first | exact absurd hv id | skip
  · obtain ⟨h0, h1, j, h2⟩ := planarMoved_zero.mp hv
    refine ⟨?_, ?_, j, ?_⟩
    · rw [h0]
      refine le_trans (le_of_eq (congrArg abs ?_)) (hs 0)
      exact add_sub_cancel_left (x 0) _
    · rw [h1]
      refine le_trans (le_of_eq (congrArg abs ?_)) (hs 1)
      exact add_sub_cancel_left (x 1) _
    · rw [h2]
      refine le_trans (le_of_eq (congrArg abs ?_)) (hs 2)
      change x 2 + w.spread e n 2 + _ - x 2 - _ = _
      ring
  · have hv' : x' = planarPoint 0 _ := hv
    rw [planarPoint_zero] at hv'
    subst hv'
    refine ⟨le_trans (le_of_eq (congrArg abs ?_)) (hs 0), le_trans (le_of_eq (congrArg abs ?_)) (hs 1)⟩
    · exact add_sub_cancel_left (x 0) _
    · exact add_sub_cancel_left (x 1) _

/-- The displacement of a state that is near. -/
theorem dval_of_near {ρ : ℝ} (hρ : 0 ≤ ρ) {v v' : NodeVal} (h : Near ρ v v') :
    ∃ d : ℕ → ℝ, (∀ k, |d k| ≤ ρ) ∧ PlanarMoved 0 ⟨v.1, v.1.shift v.2 d⟩ v' := by
  obtain ⟨k, x⟩ := v
  obtain ⟨k', x'⟩ := v'
  cases k <;> cases k' <;> first | exact absurd h id | skip
  · obtain ⟨h0, h1, j, h2⟩ := h
    refine ⟨fun i => if i = 0 then x' 0 - x 0 else if i = 1 then x' 1 - x 1 else x' 2 - x 2 - j * (2 * Real.pi), fun i => ?_, ?_⟩
    · dsimp only
      split
      · exact h0
      · split
        · exact h1
        · exact h2
    · refine planarMoved_zero.mpr ⟨?_, ?_, j, ?_⟩
      · change x' 0 = x 0 + (x' 0 - x 0); ring
      · change x' 1 = x 1 + (x' 1 - x 1); ring
      · change x' 2 = x 2 + (x' 2 - x 2 - j * (2 * Real.pi)) + j * (2 * Real.pi); ring
  · obtain ⟨h0, h1⟩ := h
    refine ⟨fun i => if i = 0 then x' 0 - x 0 else x' 1 - x 1, fun i => ?_, ?_⟩
    · dsimp only
      split
      · exact h0
      · exact h1
    · change x' = planarPoint 0 _
      rw [planarPoint_zero]
      funext i
      fin_cases i
      · change x' 0 = x 0 + (x' 0 - x 0); ring
      · change x' 1 = x 1 + (x' 1 - x 1); ring

theorem shift_congr (k : NodeKind) (x : k.State) {u v : ℕ → ℝ} (h : ∀ i < k.dim, u i = v i) : k.shift x u = k.shift x v := by
  cases k
  · refine congrArg (fun d : Vec3 => (x : Vec3) + d) (funext fun i => h i i.2)
  · rfl
  · refine congrArg (fun d : Vec2 => (x : Vec2) + d) (funext fun i => h i i.2)
  · rfl
  · rfl

theorem planarMoved_refl {v : NodeVal} (h : PlanarKind v.1) : PlanarMoved 0 v v := by
  obtain ⟨k, x⟩ := v
  obtain rfl | rfl := h
  · exact planarMoved_zero.mpr ⟨rfl, rfl, .refl _⟩
  · exact (planarPoint_zero x).symm

/-- The displacement of a whole graph. -/
theorem exists_disp {ρ : ℝ} (hρ : 0 ≤ ρ) {val' : NRef → NodeVal} {I : NRef → Prop} (hI : ∀ n ∈ w.g.active, I n)
    (hk : ∀ n, I n → PlanarKind (w.nh n).kind)
    (hnear : ∀ n, I n → Near ρ (w.nh n).val (val' n)) (hanchor : ∀ n, I n → n ∉ w.g.active → val' n = (w.nh n).val) :
    ∃ e : Cols w → ℝ, ‖e‖ ≤ ρ ∧ ∀ n, I n → PlanarMoved 0 (w.dval e n) (val' n) := by
  choose d hd hm using fun (n : NRef) (hn : I n) => dval_of_near hρ (hnear n hn)
  refine ⟨fun c => d c.1 (hI _ c.1.2) c.2, (pi_norm_le_iff_of_nonneg hρ).mpr fun c => hd _ _ _, fun n hn => ?_⟩
  by_cases ha : n ∈ w.g.active
  · have := hm n hn
    rw [dval_of (k := (w.nh n).kind) (x := (w.nh n).obj.state) rfl, shift_congr _ _ (v := d n hn)]
    · exact this
    · intro i hi
      rw [spread, dif_pos ⟨ha, hi⟩]
  · rw [hanchor n hn ha, dval_of (k := (w.nh n).kind) (x := (w.nh n).obj.state) rfl,
      show w.spread _ n = 0 from funext fun k => spread_of_notMem _ ha k, shift_zero]
    exact planarMoved_refl (hk n hn)

end World

/-- Measurements that agree with the states. -/
theorem agrees_solved {nh : NRef → NodeCell} {V : FactorVirt} {nbrs : List NRef} (h : Agrees (fun n => (nh n).val) V nbrs)
    (hturn : ∀ obs W ty, V = .odom obs W ty → obs 1 = 0 ∨ SameAngle (obs 0) 0) :
    Regular nh V nbrs ∧ V.res (nbrs.map fun n => (nh n).val) = 0 ∧ ∀ n ∈ nbrs, PlanarKind (nh n).kind := by
  have hpi := Real.pi_pos
  have kp : ∀ {n : NRef} {x : Vec3}, (nh n).val = ⟨.pose2d, x⟩ → PlanarKind (nh n).kind := fun h => Or.inl (congrArg Sigma.fst h)
  have kl : ∀ {n : NRef} {x : Vec2}, (nh n).val = ⟨.landmark2d, x⟩ → PlanarKind (nh n).kind := fun h => Or.inr (congrArg Sigma.fst h)
  have cut3 : ∀ {r : Vec3}, r = 0 → r 2 ≠ -Real.pi := by rintro _ rfl h; change (0 : ℝ) = _ at h; linarith
  have cut2 : ∀ {r : Vec2}, r = 0 → r 1 ≠ -Real.pi := by rintro _ rfl h; change (0 : ℝ) = _ at h; linarith
  have land : ∀ {obs : Vec2} {x : Vec3} {y : Vec2}, 1e-3 < obs 0 →
      y = planarPoint x ![obs 0 * Real.cos (obs 1), obs 0 * Real.sin (obs 1)] →
      land2dRes obs x y = 0 ∧ 1e-6 < (y 0 - x 0) ^ 2 + (y 1 - x 1) ^ 2 := by
    intro obs x y hfar h
    have e : y = land2dInit obs x := by
      rw [h]
      funext i
      fin_cases i
      · simp [planarPoint, land2dInit, NodeKind.store, Real.cos_add]; ring
      · simp [planarPoint, land2dInit, NodeKind.store, Real.sin_add]; ring
    refine ⟨by rw [e]; exact C28_land2d_partial obs x (by linarith), ?_⟩
    have : (y 0 - x 0) ^ 2 + (y 1 - x 1) ^ 2 = obs 0 ^ 2 := by
      rw [e]
      simp [land2dInit, NodeKind.store]
      linear_combination obs 0 ^ 2 * Real.sin_sq_add_cos_sq (obs 1 + x 2)
    rw [this]
    nlinarith
  cases h with
  | @prior2d obs W ty n x hn h =>
    have e : prior2dRes obs x = 0 := by
      rw [← Matrix.one_mul (planar obs), show (1 : Matrix (Fin 3) (Fin 3) ℝ) = planar 0 by
        ext i j; fin_cases i <;> fin_cases j <;> simp [planar]] at h
      obtain ⟨h0, h1, h2⟩ := planarMoved_zero.mp h
      rw [prior2dRes, wrap2_eq_zero]
      refine ⟨sub_eq_zero.mpr h0, sub_eq_zero.mpr h1, ?_⟩
      obtain ⟨k, hk⟩ := h2
      exact ⟨k, by rw [Pi.sub_apply, hk]; ring⟩
    refine ⟨.prior2d hn (cut3 e), ?_, ?_⟩
    · simp only [List.map_cons, List.map_nil, hn]; exact e
    · simp only [List.mem_singleton]; rintro _ rfl; exact kp hn
  | @rel2d obs W ty n m x y hn hm h =>
    have e := (rel2dRes_eq_zero obs x y).mpr h
    refine ⟨.rel2d hn hm (cut3 e), ?_, ?_⟩
    · simp only [List.map_cons, List.map_nil, hn, hm]; exact e
    · simp only [List.mem_cons, List.not_mem_nil, or_false]; rintro _ (rfl | rfl) <;> [exact kp hn; exact kp hm]
  | @odom obs W ty n m x y hn hm h =>
    have e : odomRes obs x y = 0 := by
      have e1 : planar x * planar ![0, 0, obs 0] = planar ![x 0, x 1, x 2 + obs 0] :=
        ((planar_eq_mul_iff _ _ _).mpr ⟨by simp, by simp, by simpa using SameAngle.refl _⟩).symm
      rw [e1] at h
      obtain ⟨h0, h1, h2⟩ := (planar_eq_mul_iff _ _ _).mp h
      rw [odomRes, wrap2_eq_zero]
      simp at h0 h1 h2
      refine ⟨?_, ?_, ?_⟩
      · change x 0 + obs 1 * Real.cos (x 2 + obs 0) - y 0 = 0
        rw [h0]; ring
      · change x 1 + obs 1 * Real.sin (x 2 + obs 0) - y 1 = 0
        rw [h1]; ring
      · obtain ⟨k, hk⟩ := h2
        refine ⟨-k, ?_⟩
        change x 2 + obs 0 + obs 2 - y 2 = _
        rw [hk]; push_cast; ring
    refine ⟨.odom hn hm (cut3 e) (hturn _ _ _ rfl), ?_, ?_⟩
    · simp only [List.map_cons, List.map_nil, hn, hm]; exact e
    · simp only [List.mem_cons, List.not_mem_nil, or_false]; rintro _ (rfl | rfl) <;> [exact kp hn; exact kp hm]
  | @land2d obs W ty n m x y hn hm hfar h =>
    obtain ⟨e, hf⟩ := land hfar h
    refine ⟨.land2d hn hm hf (cut2 e), ?_, ?_⟩
    · simp only [List.map_cons, List.map_nil, hn, hm]; exact e
    · simp only [List.mem_cons, List.not_mem_nil, or_false]; rintro _ (rfl | rfl) <;> [exact kp hn; exact kl hm]
  | @land2dRev obs W ty n m x y hn hm hfar h =>
    obtain ⟨e, hf⟩ := land hfar h
    refine ⟨.land2dRev hn hm hf (cut2 e), ?_, ?_⟩
    · simp only [List.map_cons, List.map_nil, hn, hm]; exact e
    · simp only [List.mem_cons, List.not_mem_nil, or_false]; rintro _ (rfl | rfl) <;> [exact kl hm; exact kp hn]

/-- Starting near the states that agree with all measurements. -/
theorem displaced_off (ops : List GraphOp) (w₀ : World) (h₀ : w₀.g = emptyGraph) (hp : Proper w₀ ops)
    (hpsd : ∀ f ∈ addedFactors ops, (w₀.fh f).virt.W.PosSemidef)
    (hr : ∀ f ∈ addedFactors ops, (w₀.fh f).virt.robust ≠ .ransac)
    (hplanar : ∀ n ∈ addedNodes ops, (w₀.nh n).kind = .pose2d ∨ (w₀.nh n).kind = .landmark2d)
    (hagree : ∀ f ∈ addedFactors ops, Agrees (fun n => (w₀.nh n).val) (w₀.fh f).virt (w₀.fh f).nbrs)
    (hturn : ∀ f ∈ addedFactors ops, ∀ obs W ty, (w₀.fh f).virt = .odom obs W ty → obs 1 = 0 ∨ SameAngle (obs 0) 0) :
    Solved (World.run ops w₀) ∧ (∀ n ∈ (World.run ops w₀).g.active, PlanarKind ((World.run ops w₀).nh n).kind) ∧
    ∃ ε > 0, ∀ ρ, 0 ≤ ρ → ρ < ε → ∀ w₀' : World, w₀'.g = emptyGraph → Displaced ρ ops w₀ w₀' →
      (∀ f ∈ addedFactors ops, 0 ≤ (w₀'.fh f).weight) →
      ∃ e : Cols (World.run ops w₀) → ℝ, ‖e‖ ≤ ρ ∧ Off (World.run ops w₀) e (World.run ops w₀') := by
  have hfac : ∀ w : World, w.g = emptyGraph → (World.run ops w).g.factors = addedFactors ops := by
    intro w hw; rw [run_factors, hw]; rfl
  have hact : ∀ w : World, w.g = emptyGraph →
      (World.run ops w).g.active = (addedNodes ops).filter fun n => (w.nh n).mode = .standard := by
    intro w hw; rw [run_active ops hp.noSetMode, hw]; rfl
  have hval : ∀ (w : World) n, ((World.run ops w).nh n).val = (w.nh n).val := fun w n => (run_nh_static ops w n).1
  have hag : ∀ f ∈ (World.run ops w₀).g.factors,
      Agrees (fun n => ((World.run ops w₀).nh n).val) ((World.run ops w₀).fh f).virt ((World.run ops w₀).fh f).nbrs := by
    intro f hf
    rw [hfac _ h₀] at hf
    rw [(run_fh_static ops w₀ f).1, (run_fh_static ops w₀ f).2, funext (hval w₀)]
    exact hagree f hf
  have htu : ∀ f ∈ (World.run ops w₀).g.factors, ∀ obs W ty, ((World.run ops w₀).fh f).virt = .odom obs W ty →
      obs 1 = 0 ∨ SameAngle (obs 0) 0 := by
    intro f hf
    rw [hfac _ h₀] at hf
    rw [(run_fh_static ops w₀ f).1]
    exact hturn f hf
  have hS : Solved (World.run ops w₀) :=
    ⟨fun f hf => (agrees_solved (hag f hf) (htu f hf)).1, fun f hf => (agrees_solved (hag f hf) (htu f hf)).2.2,
      fun f hf => (agrees_solved (hag f hf) (htu f hf)).2.1, run_noRansac h₀ hr⟩
  have hpl : ∀ n ∈ (World.run ops w₀).g.active, PlanarKind ((World.run ops w₀).nh n).kind := by
    intro n hn
    rw [run_kind]
    rw [hact _ h₀] at hn
    exact hplanar n (List.mem_of_mem_filter hn)
  refine ⟨hS, hpl, ?_⟩
  obtain ⟨ε, hε, hnear⟩ := Metric.eventually_nhds_iff.mp hS.near
  refine ⟨ε, hε, fun ρ hρ hρε w₀' h₀' hD hwt => ?_⟩
  have hI : ∀ n, (n ∈ (World.run ops w₀).g.active ∨ ∃ f ∈ (World.run ops w₀).g.factors, n ∈ ((World.run ops w₀).fh f).nbrs) →
      Involved ops w₀ n := by
    rintro n (hn | ⟨f, hf, hn⟩)
    · rw [hact _ h₀] at hn; exact .inl (List.mem_of_mem_filter hn)
    · rw [hfac _ h₀] at hf; rw [(run_fh_static ops w₀ f).2] at hn; exact .inr ⟨f, hf, hn⟩
  have hkind : ∀ n, Involved ops w₀ n → PlanarKind ((World.run ops w₀).nh n).kind := by
    rintro n (hn | ⟨f, hf, hn⟩)
    · rw [run_kind]; exact hplanar n hn
    · refine hS.planar f (by rw [hfac _ h₀]; exact hf) n ?_
      rw [(run_fh_static ops w₀ f).2]; exact hn
  have hanchor : ∀ n, Involved ops w₀ n → n ∉ (World.run ops w₀).g.active →
      ((World.run ops w₀').nh n).val = ((World.run ops w₀).nh n).val := by
    intro n hn ha
    rw [hval, hval]
    refine hD.anchors n hn fun hst => ha ?_
    rw [hact _ h₀, List.mem_filter]
    refine ⟨?_, by simpa using hst⟩
    rcases hn with hn | ⟨f, hf, hn⟩
    · exact hn
    · rcases hp.registered f hf n hn with h | h
      · exact h
      · rw [hst] at h; cases h
  obtain ⟨e, he, hpm⟩ := exists_disp (w := World.run ops w₀) hρ (val' := fun n => ((World.run ops w₀').nh n).val)
    (I := Involved ops w₀) (fun n hn => hI n (.inl hn)) hkind (fun n hn => by rw [hval, hval]; exact hD.near.val n hn) hanchor
  have hreg := hnear (by rw [dist_zero_right]; exact he.trans_lt hρε : dist e 0 < ε)
  have hp' := Restated.proper (R := Near ρ) (by
      rintro ⟨k, x⟩ ⟨k', x'⟩ h
      cases k <;> cases k' <;> first | rfl | exact absurd h id) (by rintro _ _ rfl; rfl) hD.near hp
  refine ⟨e, he, ?_⟩
  · refine ⟨⟨?_, ?_, fun f hf => ?_, fun n hn => hpm n (hI n hn), fun f hf => ?_, fun n hn => ?_, fun f hf => ?_⟩, ?_, ?_⟩
    · change _ = (World.run ops w₀).g.active
      rw [hact _ h₀, hact _ h₀']
      exact List.filter_congr fun n hn => by rw [hD.near.mode n (.inl hn)]
    · change _ = (World.run ops w₀).g.factors
      rw [hfac _ h₀, hfac _ h₀']
    · change _ = ((World.run ops w₀).fh f).nbrs
      change f ∈ (World.run ops w₀).g.factors at hf
      rw [hfac _ h₀] at hf
      rw [(run_fh_static ops w₀ f).2, (run_fh_static ops w₀' f).2, hD.near.nbrs f hf]
    · change f ∈ (World.run ops w₀).g.factors at hf
      have h1 := regular_factors (hS.regular f hf) (hS.planar f hf)
      have h2 : ((World.run ops w₀').fh f).virt = ((World.run ops w₀).fh f).virt := by
        rw [(run_fh_static ops w₀ f).1, (run_fh_static ops w₀' f).1]
        exact hD.near.virt f (by rwa [hfac _ h₀] at hf)
      rw [h2]; exact h1
    · exact planar_moves _ (hpl n hn)
    · exact regular_far (hreg f hf)
    · refine run_wellPosed h₀' hp' (fun f hf => ?_) hwt
      rw [hD.near.virt f hf]; exact hpsd f hf
    · refine run_noRansac h₀' fun f hf => ?_
      rw [hD.near.virt f hf]; exact hr f hf

end Mrob
