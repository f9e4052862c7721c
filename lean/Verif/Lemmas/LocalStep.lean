import Verif.Lemmas.LocalGraph

/-!
# The normal equations near a solution without residuals
-/

open Matrix Asymptotics Filter Topology

namespace Mrob

open World Spec

namespace World

variable {w : World}

/-- Planar nodes. -/
def PlanarKind (k : NodeKind) : Prop := k = .pose2d ∨ k = .landmark2d

theorem blk_continuous {T : Type} [TopologicalSpace T] {t : T} {m n : ℕ} {M : T → Matrix (Fin m) (Fin n) ℝ}
    (h : ∀ i j, ContinuousAt (fun e => M e i j) t) (l : Fin m) (c : ℕ) : ContinuousAt (fun e => blk (M e) l c) t := by
  unfold blk
  split
  · exact h _ _
  · exact continuousAt_const

theorem blk2_continuous {T : Type} [TopologicalSpace T] {t : T} {m n k : ℕ} {M : T → Matrix (Fin m) (Fin n) ℝ}
    {K : T → Matrix (Fin m) (Fin k) ℝ} (h : ∀ i j, ContinuousAt (fun e => M e i j) t)
    (h' : ∀ i j, ContinuousAt (fun e => K e i j) t) (l : Fin m) (c : ℕ) : ContinuousAt (fun e => blk2 (M e) (K e) l c) t := by
  unfold blk2
  split
  · exact blk_continuous h l c
  · exact blk_continuous h' l _

theorem land_jac_continuous (n m : NRef) {x : Vec3} {y : Vec2} (hfar : 1e-6 < (y 0 - x 0) ^ 2 + (y 1 - x 1) ^ 2) :
    (∀ i j, ContinuousAt (fun e : Cols w → ℝ => (land2dJac (w.pose x e n) (w.mark y e m)).1 i j) 0) ∧
    ∀ i j, ContinuousAt (fun e : Cols w → ℝ => (land2dJac (w.pose x e n) (w.mark y e m)).2 i j) 0 := by
  have c0 : Continuous fun e : Cols w → ℝ => w.mark y e m 0 - w.pose x e n 0 := (mark_continuous y m 0).sub (pose_continuous x n 0)
  have c1 : Continuous fun e : Cols w → ℝ => w.mark y e m 1 - w.pose x e n 1 := (mark_continuous y m 1).sub (pose_continuous x n 1)
  have cq := (c0.mul c0).add (c1.mul c1)
  have hq0 : (0 : ℝ) < (w.mark y 0 m 0 - w.pose x 0 n 0) * (w.mark y 0 m 0 - w.pose x 0 n 0) +
      (w.mark y 0 m 1 - w.pose x 0 n 1) * (w.mark y 0 m 1 - w.pose x 0 n 1) := by
    rw [pose_zero, mark_zero]
    have : (0 : ℝ) < 1e-6 := by norm_num
    nlinarith
  have hev : ∀ᶠ e in 𝓝 (0 : Cols w → ℝ), ¬ (w.mark y e m 0 - w.pose x e n 0) * (w.mark y e m 0 - w.pose x e n 0) +
      (w.mark y e m 1 - w.pose x e n 1) * (w.mark y e m 1 - w.pose x e n 1) < 1e-6 := by
    have := ContinuousAt.eventually_lt (x₀ := (0 : Cols w → ℝ)) (f := fun _ => (1e-6 : ℝ)) continuousAt_const cq.continuousAt
      (by
        change (1e-6 : ℝ) < (w.mark y 0 m 0 - w.pose x 0 n 0) * (w.mark y 0 m 0 - w.pose x 0 n 0) +
          (w.mark y 0 m 1 - w.pose x 0 n 1) * (w.mark y 0 m 1 - w.pose x 0 n 1)
        rw [pose_zero, mark_zero]; nlinarith)
    filter_upwards [this] with e he
    exact not_lt.mpr he.le
  have k0 := c0.continuousAt (x := (0 : Cols w → ℝ))
  have k1 := c1.continuousAt (x := (0 : Cols w → ℝ))
  have kq := cq.continuousAt (x := (0 : Cols w → ℝ))
  have ks := kq.sqrt
  have hs0 := (Real.sqrt_pos.mpr hq0).ne'
  constructor
  · intro i j
    have : (fun e : Cols w → ℝ => (land2dJac (w.pose x e n) (w.mark y e m)).1 i j) =ᶠ[𝓝 0] fun e =>
      (!![-(w.mark y e m 0 - w.pose x e n 0) / Real.sqrt ((w.mark y e m 0 - w.pose x e n 0) * (w.mark y e m 0 - w.pose x e n 0) +
          (w.mark y e m 1 - w.pose x e n 1) * (w.mark y e m 1 - w.pose x e n 1)),
        -(w.mark y e m 1 - w.pose x e n 1) / Real.sqrt ((w.mark y e m 0 - w.pose x e n 0) * (w.mark y e m 0 - w.pose x e n 0) +
          (w.mark y e m 1 - w.pose x e n 1) * (w.mark y e m 1 - w.pose x e n 1)), 0;
        (w.mark y e m 1 - w.pose x e n 1) / ((w.mark y e m 0 - w.pose x e n 0) * (w.mark y e m 0 - w.pose x e n 0) +
          (w.mark y e m 1 - w.pose x e n 1) * (w.mark y e m 1 - w.pose x e n 1)),
        -(w.mark y e m 0 - w.pose x e n 0) / ((w.mark y e m 0 - w.pose x e n 0) * (w.mark y e m 0 - w.pose x e n 0) +
          (w.mark y e m 1 - w.pose x e n 1) * (w.mark y e m 1 - w.pose x e n 1)), -1] : Matrix (Fin 2) (Fin 3) ℝ) i j := by
      filter_upwards [hev] with e he
      simp only [land2dJac, if_neg he]
    refine ContinuousAt.congr ?_ this.symm
    fin_cases i <;> fin_cases j
    · exact k0.neg.div ks hs0
    · exact k1.neg.div ks hs0
    · exact continuousAt_const
    · exact k1.div kq hq0.ne'
    · exact k0.neg.div kq hq0.ne'
    · exact continuousAt_const
  · intro i j
    have : (fun e : Cols w → ℝ => (land2dJac (w.pose x e n) (w.mark y e m)).2 i j) =ᶠ[𝓝 0] fun e =>
      (!![(w.mark y e m 0 - w.pose x e n 0) / Real.sqrt ((w.mark y e m 0 - w.pose x e n 0) * (w.mark y e m 0 - w.pose x e n 0) +
          (w.mark y e m 1 - w.pose x e n 1) * (w.mark y e m 1 - w.pose x e n 1)),
        (w.mark y e m 1 - w.pose x e n 1) / Real.sqrt ((w.mark y e m 0 - w.pose x e n 0) * (w.mark y e m 0 - w.pose x e n 0) +
          (w.mark y e m 1 - w.pose x e n 1) * (w.mark y e m 1 - w.pose x e n 1));
        -(w.mark y e m 1 - w.pose x e n 1) / ((w.mark y e m 0 - w.pose x e n 0) * (w.mark y e m 0 - w.pose x e n 0) +
          (w.mark y e m 1 - w.pose x e n 1) * (w.mark y e m 1 - w.pose x e n 1)),
        (w.mark y e m 0 - w.pose x e n 0) / ((w.mark y e m 0 - w.pose x e n 0) * (w.mark y e m 0 - w.pose x e n 0) +
          (w.mark y e m 1 - w.pose x e n 1) * (w.mark y e m 1 - w.pose x e n 1))] : Matrix (Fin 2) (Fin 2) ℝ) i j := by
      filter_upwards [hev] with e he
      simp only [land2dJac, if_neg he]
    refine ContinuousAt.congr ?_ this.symm
    fin_cases i <;> fin_cases j
    · exact k0.div ks hs0
    · exact k1.div ks hs0
    · exact k1.neg.div kq hq0.ne'
    · exact k0.div kq hq0.ne'

theorem no_pose3d {nbrs : List NRef} (hk : ∀ n ∈ nbrs, PlanarKind (w.nh n).kind) {n : NRef} {X : SE3} (hn : n ∈ nbrs)
    (hv : (w.nh n).val = ⟨.pose3d, X⟩) : False := by
  have h1 : (w.nh n).kind = .pose3d := congrArg Sigma.fst hv
  rcases hk n hn with h2 | h2 <;> rw [h1] at h2 <;> cases h2

/-- The coefficients of the Jacobians are continuous. -/
theorem jac_continuous {V : FactorVirt} {nbrs : List NRef} (h : Regular w.nh V nbrs)
    (hk : ∀ n ∈ nbrs, PlanarKind (w.nh n).kind) (l : Fin V.dim) (c : ℕ) :
    ContinuousAt (fun e : Cols w → ℝ => V.jac (nbrs.map (w.dval e)) l c) 0 := by
  cases h with
  | @prior2d obs W ty n x hn hcut => exact continuousAt_const
  | @rel2d obs W ty n m x y hn hm hcut =>
    simp only [List.map_cons, List.map_nil, dval_pose hn, dval_pose hm]
    have cc : Continuous fun e : Cols w → ℝ => Real.cos (w.pose x e n 2) := Real.continuous_cos.comp (pose_continuous x n 2)
    have cs : Continuous fun e : Cols w → ℝ => Real.sin (w.pose x e n 2) := Real.continuous_sin.comp (pose_continuous x n 2)
    have c0 : Continuous fun e : Cols w → ℝ => w.pose y e m 0 - w.pose x e n 0 := (pose_continuous y m 0).sub (pose_continuous x n 0)
    have c1 : Continuous fun e : Cols w → ℝ => w.pose y e m 1 - w.pose x e n 1 := (pose_continuous y m 1).sub (pose_continuous x n 1)
    refine blk2_continuous (M := fun e => (rel2dJac (w.pose x e n) (w.pose y e m)).1)
      (K := fun e => (rel2dJac (w.pose x e n) (w.pose y e m)).2) (fun i j => ?_) (fun i j => ?_) l c
    · refine Continuous.continuousAt ?_
      fin_cases i <;> fin_cases j
      · exact cc.neg
      · exact cs.neg
      · exact (cs.neg.mul c0).add (cc.mul c1)
      · exact cs
      · exact cc.neg
      · exact (cc.neg.mul c0).sub (cs.mul c1)
      all_goals exact continuous_const
    · refine Continuous.continuousAt ?_
      fin_cases i <;> fin_cases j
      · exact cc
      · exact cs
      · exact continuous_const
      · exact cs.neg
      · exact cc
      all_goals exact continuous_const
  | @odom obs W ty n m x y hn hm hcut ht =>
    simp only [List.map_cons, List.map_nil, dval_pose hn, dval_pose hm]
    have cc : Continuous fun e : Cols w → ℝ => Real.cos (w.pose x e n 2) := Real.continuous_cos.comp (pose_continuous x n 2)
    have cs : Continuous fun e : Cols w → ℝ => Real.sin (w.pose x e n 2) := Real.continuous_sin.comp (pose_continuous x n 2)
    refine blk2_continuous (M := fun e => (odomJac obs (w.pose x e n)).1)
      (K := fun e => (odomJac obs (w.pose x e n)).2) (fun i j => ?_) (fun i j => ?_) l c
    · refine Continuous.continuousAt ?_
      fin_cases i <;> fin_cases j
      · exact continuous_const
      · exact continuous_const
      · exact continuous_const.mul cs
      · exact continuous_const
      · exact continuous_const
      · exact continuous_const.mul cc
      all_goals exact continuous_const
    · refine Continuous.continuousAt ?_
      fin_cases i <;> fin_cases j <;> exact continuous_const
  | @land2d obs W ty n m x y hn hm hfar hcut =>
    simp only [List.map_cons, List.map_nil, dval_pose hn, dval_mark hm]
    obtain ⟨h1, h2⟩ := land_jac_continuous (w := w) n m hfar
    exact blk2_continuous h1 h2 l c
  | @land2dRev obs W ty n m x y hn hm hfar hcut =>
    simp only [List.map_cons, List.map_nil, dval_pose hn, dval_mark hm]
    obtain ⟨h1, h2⟩ := land_jac_continuous (w := w) n m hfar
    exact blk2_continuous h2 h1 l c
  | land3d hn => exact (no_pose3d hk (by simp) hn).elim
  | land3dRev hn => exact (no_pose3d hk (by simp) hn).elim
  | p2plane hn => exact (no_pose3d hk (by simp) hn).elim

theorem blockEntry_continuous {dim : NRef → ℕ} {T : Type} [TopologicalSpace T] {t : T} {J : T → ℕ → ℝ}
    (h : ∀ c, ContinuousAt (fun e => J e c) t) (a : NRef) (k : ℕ) (nbrs : List NRef) : ∀ tk : ℕ,
    ContinuousAt (fun e => blockEntry dim (J e) a k tk nbrs) t := by
  induction nbrs with
  | nil => intro tk; exact continuousAt_const
  | cons n ns ih =>
    intro tk
    simp only [blockEntry]
    refine ContinuousAt.add ?_ (ih _)
    split
    · exact h _
    · exact continuousAt_const

theorem disp_pert_pose {n : NRef} {x : Vec3} (h : (w.nh n).val = ⟨.pose2d, x⟩) (e δ : Cols w → ℝ) (s : ℝ) :
    ∃ y : Vec3, (w.disp e).perturbed (s • δ : Cols w → ℝ) n = ⟨.pose2d, y⟩ ∧ wrap2 y = wrap2 (w.pose x (e + s • δ) n) := by
  obtain ⟨y, h1, h2⟩ := pert_pose2d (w := w.disp e) δ (dval_pose h e) s
  refine ⟨y, h1, h2.trans ?_⟩
  change wrap2 (w.pose x e n + s • fun i : Fin 3 => w.spread δ n i) = _
  rw [pose, pose, spread_add, spread_smul, add_assoc]
  rfl

theorem disp_pert_mark {n : NRef} {x : Vec2} (h : (w.nh n).val = ⟨.landmark2d, x⟩) (e δ : Cols w → ℝ) (s : ℝ) :
    (w.disp e).perturbed (s • δ : Cols w → ℝ) n = ⟨.landmark2d, w.mark x (e + s • δ) n⟩ := by
  refine (pert_landmark2d (w := w.disp e) δ (dval_mark h e) s).trans ?_
  refine congrArg (Sigma.mk NodeKind.landmark2d) ?_
  change w.mark x e n + s • (fun i : Fin 2 => w.spread δ n i) = _
  rw [mark, mark, spread_add, spread_smul, add_assoc]
  rfl

/-- The residual at a perturbation of the displaced states is that at the sum. -/
theorem res_disp {V : FactorVirt} {nbrs : List NRef} (h : Regular w.nh V nbrs)
    (hk : ∀ n ∈ nbrs, PlanarKind (w.nh n).kind) (e δ : Cols w → ℝ) (s : ℝ) :
    V.res (nbrs.map (w.dval (e + s • δ))) = V.res (nbrs.map ((w.disp e).perturbed (s • δ : Cols w → ℝ))) := by
  cases h with
  | @prior2d obs W ty n x hn hcut =>
    obtain ⟨p, h1, h2⟩ := disp_pert_pose hn e δ s
    simp only [List.map_cons, List.map_nil, dval_pose hn, h1]
    change prior2dRes obs _ = prior2dRes obs p
    rw [← prior2dRes_wrap obs p, h2, prior2dRes_wrap]
  | @rel2d obs W ty n m x y hn hm hcut =>
    obtain ⟨p, h1, h2⟩ := disp_pert_pose hn e δ s
    obtain ⟨q, h3, h4⟩ := disp_pert_pose hm e δ s
    simp only [List.map_cons, List.map_nil, dval_pose hn, dval_pose hm, h1, h3]
    change rel2dRes obs _ _ = rel2dRes obs p q
    rw [← rel2dRes_wrap obs p, h2, h4, rel2dRes_wrap]
  | @odom obs W ty n m x y hn hm hcut ht =>
    obtain ⟨p, h1, h2⟩ := disp_pert_pose hn e δ s
    obtain ⟨q, h3, h4⟩ := disp_pert_pose hm e δ s
    simp only [List.map_cons, List.map_nil, dval_pose hn, dval_pose hm, h1, h3]
    change odomRes obs _ _ = odomRes obs p q
    rw [← odomRes_wrap obs p, h2, h4, odomRes_wrap]
  | @land2d obs W ty n m x y hn hm hfar hcut =>
    obtain ⟨p, h1, h2⟩ := disp_pert_pose hn e δ s
    simp only [List.map_cons, List.map_nil, dval_pose hn, dval_mark hm, h1, disp_pert_mark hm]
    change land2dRes obs _ _ = land2dRes obs p _
    rw [← land2dRes_wrap obs p, h2, land2dRes_wrap]
  | @land2dRev obs W ty n m x y hn hm hfar hcut =>
    obtain ⟨p, h1, h2⟩ := disp_pert_pose hn e δ s
    simp only [List.map_cons, List.map_nil, dval_pose hn, dval_mark hm, h1, disp_pert_mark hm]
    change land2dRes obs _ _ = land2dRes obs p _
    rw [← land2dRes_wrap obs p, h2, land2dRes_wrap]
  | land3d hn => exact (no_pose3d hk (by simp) hn).elim
  | land3dRev hn => exact (no_pose3d hk (by simp) hn).elim
  | p2plane hn => exact (no_pose3d hk (by simp) hn).elim

/-- Residual of a factor at the displaced states. -/
noncomputable def dres (w : World) (f : FRef) (e : Cols w → ℝ) : Fin (w.fh f).virt.dim → ℝ :=
  (w.fh f).virt.res ((w.fh f).nbrs.map (w.dval e))
/-- Its Jacobian. -/
noncomputable def djac (w : World) (f : FRef) (e : Cols w → ℝ) : Matrix (Fin (w.fh f).virt.dim) (Cols w) ℝ :=
  Matrix.of fun l c => blockEntry (fun n => (w.nh n).dim) ((w.fh f).virt.jac ((w.fh f).nbrs.map (w.dval e)) l) c.1 c.2 0 (w.fh f).nbrs
/-- Its weight. -/
noncomputable def dwt (w : World) (f : FRef) (e : Cols w → ℝ) : ℝ := factorWeight (w.disp e) f

/-- The information matrix at the displaced states. -/
noncomputable def dH (w : World) (e : Cols w → ℝ) : Matrix (Cols w) (Cols w) ℝ := infoMatrix (graphTerms (w.disp e))
/-- The right hand side. -/
noncomputable def db (w : World) (e : Cols w → ℝ) : Cols w → ℝ := infoVector (graphTerms (w.disp e))

theorem dH_eq (e : Cols w → ℝ) : w.dH e =
    (w.g.factors.map fun f => (w.djac f e)ᵀ * (w.dwt f e • (w.fh f).virt.W) * w.djac f e).sum := by
  exact congrArg List.sum List.map_map

theorem db_eq (e : Cols w → ℝ) : w.db e =
    (w.g.factors.map fun f => ((w.djac f e)ᵀ * (w.dwt f e • (w.fh f).virt.W)) *ᵥ w.dres f e).sum := by
  exact congrArg List.sum List.map_map

theorem list_sum_mulVec {ι α : Type} [Fintype ι] (l : List α) (M : α → Matrix ι ι ℝ) (x : ι → ℝ) :
    (l.map M).sum *ᵥ x = (l.map fun a => M a *ᵥ x).sum := by
  induction l with
  | nil => simp
  | cons a l ih => rw [List.map_cons, List.sum_cons, add_mulVec, ih, List.map_cons, List.sum_cons]

theorem list_sum_sub {α E : Type} [AddCommGroup E] (l : List α) (a b : α → E) :
    (l.map a).sum - (l.map b).sum = (l.map fun f => a f - b f).sum := by
  induction l with
  | nil => simp
  | cons f l ih => rw [List.map_cons, List.sum_cons, List.map_cons, List.sum_cons, List.map_cons, List.sum_cons, ← ih]; abel

theorem db_sub (e : Cols w → ℝ) : w.db e - w.dH e *ᵥ e =
    (w.g.factors.map fun f => ((w.djac f e)ᵀ * (w.dwt f e • (w.fh f).virt.W)) *ᵥ (w.dres f e - w.djac f e *ᵥ e)).sum := by
  rw [db_eq, dH_eq, list_sum_mulVec, list_sum_sub]
  refine congrArg List.sum (List.map_congr_left fun f _ => ?_)
  rw [mulVec_sub, mulVec_mulVec]

section factor

variable {f : FRef} (h : Regular w.nh (w.fh f).virt (w.fh f).nbrs) (hk : ∀ n ∈ (w.fh f).nbrs, PlanarKind (w.nh n).kind)
include h hk

theorem djac_continuous (l : Fin (w.fh f).virt.dim) (c : Cols w) : ContinuousAt (fun e => w.djac f e l c) 0 :=
  blockEntry_continuous (fun k => jac_continuous h hk l k) _ _ _ 0

theorem dres_deriv : ∀ᶠ e in 𝓝 (0 : Cols w → ℝ), ∀ (l : Fin (w.fh f).virt.dim) (δ : Cols w → ℝ),
    HasDerivAt (fun s : ℝ => w.dres f (e + s • δ) l) (w.djac f e l ⬝ᵥ δ) 0 := by
  filter_upwards [regular_near h hk] with e he l δ
  have h1 := regular_deriv he δ l
  refine (h1.congr_of_eventuallyEq (Eventually.of_forall fun s => ?_)).congr_deriv ?_
  · exact congrFun (res_disp h hk e δ s) l
  · exact (sum_blockEntry (w := w.disp e) δ _ _ 0).symm

variable (h0 : (w.fh f).virt.res ((w.fh f).nbrs.map fun n => (w.nh n).val) = 0)
include h0

omit h hk in
theorem dres_zero : w.dres f 0 = 0 := by
  rw [dres, List.map_congr_left fun n _ => dval_zero n]
  exact h0

theorem dres_littleO (l : Fin (w.fh f).virt.dim) :
    (fun e => (w.dres f e - w.djac f e *ᵥ e) l) =o[𝓝 0] fun e : Cols w → ℝ => e := by
  refine littleO_of_directional (φ := fun e => w.dres f e l) (J := fun e => w.djac f e l) ?_ ?_ ?_
  · exact congrFun (dres_zero h0) l
  · filter_upwards [dres_deriv h hk] with e he δ
    exact he l δ
  · exact continuousAt_pi.mpr fun c => djac_continuous h hk l c

theorem dres_continuous (l : Fin (w.fh f).virt.dim) : ContinuousAt (fun e => w.dres f e l) 0 := by
  have h1 : ContinuousAt (fun e : Cols w → ℝ => (w.djac f e *ᵥ e) l) 0 := by
    change ContinuousAt (fun e : Cols w → ℝ => ∑ c, w.djac f e l c * e c) 0
    exact tendsto_finsetSum _ fun c _ => (djac_continuous h hk l c).mul (continuous_apply c).continuousAt
  have h2 : Tendsto (fun e => (w.dres f e - w.djac f e *ᵥ e) l) (𝓝 0) (𝓝 0) :=
    (dres_littleO h hk h0 l).trans_tendsto tendsto_id
  have h3 : Tendsto (fun e => (w.dres f e - w.djac f e *ᵥ e) l + (w.djac f e *ᵥ e) l) (𝓝 0) (𝓝 (0 + (w.djac f 0 *ᵥ 0) l)) :=
    h2.add h1
  rw [mulVec_zero] at h3
  simp only [Pi.sub_apply, sub_add_cancel] at h3
  refine ContinuousAt.congr (f := fun e => w.dres f e l) ?_ (Eventually.of_forall fun e => rfl)
  rw [ContinuousAt, congrFun (dres_zero h0) l]
  simpa using h3

omit h hk h0 in
theorem robustWeight_continuous {ty : Robust} (hr : ty ≠ .ransac) (a : ℝ) : ContinuousAt (robustWeight ty a) 0 := by
  have h1 : ContinuousAt (fun u : ℝ => 1 / (1 + u * u)) 0 :=
    continuousAt_const.div (continuousAt_const.add (continuousAt_id.mul continuousAt_id)) (by simp)
  cases ty with
  | huber =>
    refine ContinuousAt.congr (f := fun _ => (1 : ℝ)) continuousAt_const ?_
    filter_upwards [eventually_lt_nhds (show (0 : ℝ) < 1 from one_pos)] with u hu
    exact (if_pos hu).symm
  | cauchy => exact h1
  | mcclure => exact h1.div (continuousAt_const.add (continuousAt_id.mul continuousAt_id)) (by simp)
  | ransac => exact absurd rfl hr
  | quadratic => exact continuousAt_const

theorem dwt_continuous (hr : (w.fh f).virt.robust ≠ .ransac) : ContinuousAt (w.dwt f) 0 := by
  have h1 : ContinuousAt (fun e => factorChi2 (w.fh f).virt.W (w.dres f e)) 0 := by
    unfold factorChi2
    refine continuousAt_const.mul ?_
    simp only [dotProduct, mulVec]
    exact tendsto_finsetSum _ fun l _ => (dres_continuous h hk h0 l).mul
      (tendsto_finsetSum _ fun m _ => tendsto_const_nhds.mul (dres_continuous h hk h0 m))
  have h2 := h1.sqrt
  have e0 : Real.sqrt (factorChi2 (w.fh f).virt.W (w.dres f 0)) = 0 := by
    rw [dres_zero h0, factorChi2, zero_dotProduct, mul_zero, Real.sqrt_zero]
  have h3 := robustWeight_continuous hr (w.fh f).weight
  rw [← e0] at h3
  exact ContinuousAt.comp (g := robustWeight (w.fh f).virt.robust (w.fh f).weight)
    (f := fun e => Real.sqrt (factorChi2 (w.fh f).virt.W (w.dres f e))) h3 h2

end factor

/-- Graphs without residuals, regular and planar. -/
structure Solved (w : World) : Prop where
  regular : ∀ f ∈ w.g.factors, Regular w.nh (w.fh f).virt (w.fh f).nbrs
  planar : ∀ f ∈ w.g.factors, ∀ n ∈ (w.fh f).nbrs, PlanarKind (w.nh n).kind
  res : ∀ f ∈ w.g.factors, (w.fh f).virt.res ((w.fh f).nbrs.map fun n => (w.nh n).val) = 0
  robust : NoRansac w

namespace Solved

variable (h : Solved w)
include h

theorem coef_continuous {f : FRef} (hf : f ∈ w.g.factors) (c : Cols w) (l : Fin (w.fh f).virt.dim) :
    ContinuousAt (fun e => ((w.djac f e)ᵀ * (w.dwt f e • (w.fh f).virt.W)) c l) 0 := by
  simp only [Matrix.mul_apply, transpose_apply, Matrix.smul_apply, smul_eq_mul]
  exact tendsto_finsetSum _ fun m _ => (djac_continuous (h.regular f hf) (h.planar f hf) m c).mul
    ((dwt_continuous (h.regular f hf) (h.planar f hf) (h.res f hf) (h.robust f hf)).mul continuousAt_const)

omit h in
theorem list_continuous {α T : Type} [TopologicalSpace T] {t : T} (l : List α) {F : α → T → ℝ}
    (hF : ∀ f ∈ l, ContinuousAt (F f) t) : ContinuousAt (fun e => (l.map fun f => F f e).sum) t := by
  induction l with
  | nil => exact continuousAt_const
  | cons a l ih =>
    simp only [List.map_cons, List.sum_cons]
    exact (hF a List.mem_cons_self).add (ih fun f hf => hF f (List.mem_cons_of_mem _ hf))

omit h in
theorem list_littleO {α E F : Type} [NormedAddCommGroup E] [NormedAddCommGroup F] {l : List α} {L : Filter E} {T : α → E → F}
    (hT : ∀ f ∈ l, T f =o[L] fun e => e) : (fun e => (l.map fun f => T f e).sum) =o[L] fun e : E => e := by
  induction l with
  | nil => simpa using isLittleO_zero _ _
  | cons a l ih =>
    simp only [List.map_cons, List.sum_cons]
    exact (hT a List.mem_cons_self).add (ih fun f hf => hT f (List.mem_cons_of_mem _ hf))

omit h in
theorem list_sum_apply2 {α C D : Type} (l : List α) (M : α → Matrix C D ℝ) (c : C) (d : D) :
    (l.map M).sum c d = (l.map fun a => M a c d).sum := by
  induction l with
  | nil => rfl
  | cons a l ih => rw [List.map_cons, List.sum_cons, Matrix.add_apply, ih, List.map_cons, List.sum_cons]

theorem dH_continuous (c d : Cols w) : ContinuousAt (fun e => w.dH e c d) 0 := by
  simp only [dH_eq, list_sum_apply2]
  refine list_continuous _ fun f hf => ?_
  simp only [Matrix.mul_apply (M := (w.djac f _)ᵀ * (w.dwt f _ • (w.fh f).virt.W))]
  exact tendsto_finsetSum _ fun l _ => (h.coef_continuous hf c l).mul (djac_continuous (h.regular f hf) (h.planar f hf) l d)

theorem db_littleO : (fun e => w.db e - w.dH e *ᵥ e) =o[𝓝 0] fun e : Cols w → ℝ => e := by
  simp only [db_sub]
  refine list_littleO (l := w.g.factors) (L := 𝓝 (0 : Cols w → ℝ)) (T := fun f e =>
    ((w.djac f e)ᵀ * (w.dwt f e • (w.fh f).virt.W)) *ᵥ (w.dres f e - w.djac f e *ᵥ e)) fun f hf => ?_
  refine isLittleO_pi.mpr fun c => ?_
  change (fun e : Cols w → ℝ => ∑ l, ((w.djac f e)ᵀ * (w.dwt f e • (w.fh f).virt.W)) c l * (w.dres f e - w.djac f e *ᵥ e) l) =o[𝓝 0] fun e : Cols w → ℝ => e
  refine IsLittleO.fun_sum (g' := fun e : Cols w → ℝ => e) (A := fun l (e : Cols w → ℝ) =>
    ((w.djac f e)ᵀ * (w.dwt f e • (w.fh f).virt.W)) c l * (w.dres f e - w.djac f e *ᵥ e) l) fun l _ => ?_
  have h1 := (h.coef_continuous hf c l).isBigO_one ℝ
  have h2 := dres_littleO (h.regular f hf) (h.planar f hf) (h.res f hf) l
  have := h1.mul_isLittleO h2.norm_right
  simp only [one_mul] at this
  exact this.of_norm_right

/-- One step of Gauss-Newton. -/
theorem rate (hdet : (infoMatrix (graphTerms w)).det ≠ 0) {c : ℝ} (hc : 0 < c) : ∀ᶠ e in 𝓝 (0 : Cols w → ℝ),
    (w.dH e).det ≠ 0 ∧ ∀ x, w.dH e *ᵥ x = w.db e → ‖e - x‖ ≤ c * ‖e‖ := by
  refine newton_rate h.dH_continuous ?_ h.db_littleO hc
  have : w.dH 0 = infoMatrix (graphTerms w) := by
    rw [dH_eq, infoMatrix, graphTerms, List.map_map]
    refine congrArg List.sum (List.map_congr_left fun f _ => ?_)
    have e1 : w.djac f 0 = (factorTerm w f).J := by
      ext l c
      simp only [djac, of_apply, List.map_congr_left fun n _ => dval_zero (w := w) n]
      rfl
    have e2 : w.dwt f 0 = factorWeight w f := by
      change robustWeight _ _ (Real.sqrt (factorChi2 (w.fh f).virt.W ((w.fh f).virt.res ((w.fh f).nbrs.map (w.dval 0))))) = _
      rw [List.map_congr_left fun n _ => dval_zero n]
      rfl
    rw [Function.comp_apply, e1, e2]
  rw [this]; exact hdet

end Solved

end World

end Mrob
