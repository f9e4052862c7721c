import Verif.Lemmas.Gradient

/-!
# Factor classes with exact Jacobians
-/

open Matrix Spec

namespace Mrob

/-- Factors whose Jacobian is exact at the current states: everything planar away from the heading cut (landmarks more than
a millimetre away, odometry with no turn before the advance), and 3D landmarks and points on planes at rigid poses. -/
inductive Regular (nh : NRef → NodeCell) : FactorVirt → List NRef → Prop
  | prior2d {obs W ty n x} (hn : (nh n).val = ⟨.pose2d, x⟩) (hcut : prior2dRes obs x 2 ≠ -Real.pi) :
      Regular nh (.prior2d obs W ty) [n]
  | rel2d {obs W ty n m x y} (hn : (nh n).val = ⟨.pose2d, x⟩) (hm : (nh m).val = ⟨.pose2d, y⟩)
      (hcut : rel2dRes obs x y 2 ≠ -Real.pi) : Regular nh (.rel2d obs W ty) [n, m]
  | odom {obs W ty n m x y} (hn : (nh n).val = ⟨.pose2d, x⟩) (hm : (nh m).val = ⟨.pose2d, y⟩)
      (hcut : odomRes obs x y 2 ≠ -Real.pi) (hturn : obs 1 = 0 ∨ SameAngle (obs 0) 0) : Regular nh (.odom obs W ty) [n, m]
  | land2d {obs W ty n m x y} (hn : (nh n).val = ⟨.pose2d, x⟩) (hm : (nh m).val = ⟨.landmark2d, y⟩)
      (hfar : 1e-6 < (y 0 - x 0) ^ 2 + (y 1 - x 1) ^ 2) (hcut : land2dRes obs x y 1 ≠ -Real.pi) :
      Regular nh (.land2d obs W false ty) [n, m]
  | land2dRev {obs W ty n m x y} (hn : (nh n).val = ⟨.pose2d, x⟩) (hm : (nh m).val = ⟨.landmark2d, y⟩)
      (hfar : 1e-6 < (y 0 - x 0) ^ 2 + (y 1 - x 1) ^ 2) (hcut : land2dRes obs x y 1 ≠ -Real.pi) :
      Regular nh (.land2d obs W true ty) [m, n]
  | land3d {obs W ty n m X y} (hn : (nh n).val = ⟨.pose3d, X⟩) (hm : (nh m).val = ⟨.landmark3d, y⟩)
      (hX : IsRigid X.T) : Regular nh (.land3d obs W false ty) [n, m]
  | land3dRev {obs W ty n m X y} (hn : (nh n).val = ⟨.pose3d, X⟩) (hm : (nh m).val = ⟨.landmark3d, y⟩)
      (hX : IsRigid X.T) : Regular nh (.land3d obs W true ty) [m, n]
  | p2plane {px py ny W ty n X} (hn : (nh n).val = ⟨.pose3d, X⟩) (hX : IsRigid X.T) :
      Regular nh (.p2plane px py ny W ty) [n]

namespace World

variable {w : World}

theorem pert_active (c : NodeCell) {k : NodeKind} {x : k.State} (h : c.val = ⟨k, x⟩) (v : ℕ → ℝ) :
    (⟨c.kind, c.kind.updAux c.obj.state (c.kind.ofFlat v)⟩ : NodeVal) = ⟨k, k.updAux x (k.ofFlat v)⟩ := by
  obtain ⟨k', o, i, m, l⟩ := c
  obtain ⟨h1, h2⟩ := Sigma.mk.inj h
  change k' = _ at h1
  subst h1
  rw [← eq_of_heq h2]

theorem dim_of_val {n : NRef} {k : NodeKind} {x : k.State} (h : (w.nh n).val = ⟨k, x⟩) : (w.nh n).dim = k.dim := by
  rw [NodeCell.dim]
  exact congrArg NodeKind.dim (congrArg Sigma.fst h)

/-- The increment of a node as its class reads it. -/
noncomputable abbrev inc (w : World) (δ : Cols w → ℝ) (n : NRef) (k : NodeKind) : k.Dx := k.ofFlat (w.spread δ n)

theorem inc_smul_vec (δ : Cols w → ℝ) (n : NRef) (s : ℝ) :
    (NodeKind.ofFlat .pose2d (w.spread (s • δ) n) = (s • w.inc δ n .pose2d : Vec3)) ∧
    (NodeKind.ofFlat .pose3d (w.spread (s • δ) n) = (s • w.inc δ n .pose3d : Vec6)) ∧
    (NodeKind.ofFlat .landmark2d (w.spread (s • δ) n) = (s • w.inc δ n .landmark2d : Vec2)) ∧
    (NodeKind.ofFlat .landmark3d (w.spread (s • δ) n) = (s • w.inc δ n .landmark3d : Vec3)) := by
  rw [spread_smul]
  refine ⟨rfl, ?_, rfl, rfl⟩
  funext i
  rcases i with i | i <;> rfl

theorem inc_zero (δ : Cols w → ℝ) {n : NRef} (hn : n ∉ w.g.active) :
    w.inc δ n .pose2d = (0 : Vec3) ∧ w.inc δ n .pose3d = (0 : Vec6) ∧ w.inc δ n .landmark2d = (0 : Vec2) ∧
    w.inc δ n .landmark3d = (0 : Vec3) := by
  refine ⟨funext fun i => spread_of_notMem δ hn _, funext fun i => ?_, funext fun i => spread_of_notMem δ hn _,
    funext fun i => spread_of_notMem δ hn _⟩
  rcases i with i | i <;> exact spread_of_notMem δ hn _

theorem pert_pose2d (δ : Cols w → ℝ) {n : NRef} {x : Vec3} (h : (w.nh n).val = ⟨.pose2d, x⟩) (s : ℝ) :
    ∃ y : Vec3, w.perturbed (s • δ) n = ⟨.pose2d, y⟩ ∧
      wrap2 y = NodeKind.upd .pose2d x (s • w.inc δ n .pose2d : Vec3) := by
  by_cases hn : n ∈ w.g.active
  · refine ⟨wrap2 (x + (s • w.inc δ n .pose2d : Vec3)), ?_, wrap2_wrap2 _⟩
    rw [perturbed, if_pos hn, pert_active _ h, (inc_smul_vec δ n s).1]
    rfl
  · refine ⟨x, ?_, ?_⟩
    · rw [perturbed, if_neg hn, h]
    · rw [(inc_zero δ hn).1, smul_zero]
      change _ = wrap2 (x + 0)
      rw [add_zero]

theorem pert_pose3d (δ : Cols w → ℝ) {n : NRef} {X : SE3} (h : (w.nh n).val = ⟨.pose3d, X⟩) (s : ℝ) :
    w.perturbed (s • δ) n = ⟨.pose3d, NodeKind.updAux .pose3d X (s • w.inc δ n .pose3d : Vec6)⟩ := by
  by_cases hn : n ∈ w.g.active
  · rw [perturbed, if_pos hn, pert_active _ h, (inc_smul_vec δ n s).2.1]
  · rw [perturbed, if_neg hn, h, (inc_zero δ hn).2.1, smul_zero]
    have := updateLhs_zero X
    rw [smul_zero] at this
    exact congrArg (Sigma.mk NodeKind.pose3d) this.symm

theorem pert_landmark2d (δ : Cols w → ℝ) {n : NRef} {y : Vec2} (h : (w.nh n).val = ⟨.landmark2d, y⟩) (s : ℝ) :
    w.perturbed (s • δ) n = ⟨.landmark2d, NodeKind.upd .landmark2d y (s • w.inc δ n .landmark2d : Vec2)⟩ := by
  by_cases hn : n ∈ w.g.active
  · rw [perturbed, if_pos hn, pert_active _ h, (inc_smul_vec δ n s).2.2.1]; rfl
  · rw [perturbed, if_neg hn, h, (inc_zero δ hn).2.2.1, smul_zero]
    exact congrArg (Sigma.mk NodeKind.landmark2d) (add_zero y).symm

theorem pert_landmark3d (δ : Cols w → ℝ) {n : NRef} {y : Vec3} (h : (w.nh n).val = ⟨.landmark3d, y⟩) (s : ℝ) :
    w.perturbed (s • δ) n = ⟨.landmark3d, NodeKind.updAux .landmark3d y (s • w.inc δ n .landmark3d : Vec3)⟩ := by
  by_cases hn : n ∈ w.g.active
  · rw [perturbed, if_pos hn, pert_active _ h, (inc_smul_vec δ n s).2.2.2]
  · rw [perturbed, if_neg hn, h, (inc_zero δ hn).2.2.2, smul_zero]
    exact congrArg (Sigma.mk NodeKind.landmark3d) (add_zero y).symm

theorem row1 {m d : ℕ} (δ : Cols w → ℝ) {n : NRef} (hd : (w.nh n).dim = d) (M : Matrix (Fin m) (Fin d) ℝ) (l : Fin m) :
    w.rowApply δ (blk M l) 0 [n] = (M *ᵥ fun k : Fin d => w.spread δ n k) l := by
  subst hd
  rw [rowApply, rowApply, add_zero]
  refine Finset.sum_congr rfl fun k _ => ?_
  rw [zero_add, blk, dif_pos k.2]

theorem row2 {m d e : ℕ} (δ : Cols w → ℝ) {n n' : NRef} (hd : (w.nh n).dim = d) (he : (w.nh n').dim = e)
    (M : Matrix (Fin m) (Fin d) ℝ) (K : Matrix (Fin m) (Fin e) ℝ) (l : Fin m) :
    w.rowApply δ (blk2 M K l) 0 [n, n'] =
      (M *ᵥ fun k : Fin d => w.spread δ n k) l + (K *ᵥ fun k : Fin e => w.spread δ n' k) l := by
  subst hd; subst he
  rw [rowApply, rowApply, rowApply, add_zero]
  congr 1
  · refine Finset.sum_congr rfl fun k _ => ?_
    rw [zero_add, blk2, if_pos k.2, blk, dif_pos k.2]
  · refine Finset.sum_congr rfl fun k _ => ?_
    rw [zero_add, blk2, if_neg (by omega), Nat.add_sub_cancel_left, blk, dif_pos k.2]

theorem at6_sum {m : Type*} (J : Matrix m I6 ℝ) (v : ℕ → ℝ) (l : m) :
    (J.submatrix id at6 *ᵥ fun k : Fin 6 => v k) l = (J *ᵥ NodeKind.ofFlat .pose3d v) l := by
  rw [mulVec, mulVec, dotProduct, dotProduct, Fintype.sum_sum_type, Fin.sum_univ_six, Fin.sum_univ_three, Fin.sum_univ_three]
  simp [at6, NodeKind.ofFlat]
  ring

theorem regular_deriv {V : FactorVirt} {nbrs : List NRef} (h : Regular w.nh V nbrs) (δ : Cols w → ℝ) (l : Fin V.dim) :
    HasDerivAt (fun s : ℝ => V.res (nbrs.map (w.perturbed (s • δ))) l)
      (w.rowApply δ (V.jac (nbrs.map fun n => (w.nh n).val) l) 0 nbrs) 0 := by
  cases h with
  | @prior2d obs W ty n x hn hcut =>
    choose p hp hp' using pert_pose2d δ hn
    simp only [List.map_cons, List.map_nil, hp]
    refine HasDerivAt.congr_deriv (f := fun s => prior2dRes obs (p s) l) ?_ (row1 δ (dim_of_val hn) _ l).symm
    simp only [← prior2dRes_wrap obs (p _), hp']
    exact hasDerivAt_pi.mp (C26_prior2d obs x hcut (w.inc δ n .pose2d)) l
  | @rel2d obs W ty n m x y hn hm hcut =>
    choose p hp hp' using pert_pose2d δ hn
    choose q hq hq' using pert_pose2d δ hm
    simp only [List.map_cons, List.map_nil, hp, hq, hn, hm]
    refine HasDerivAt.congr_deriv (f := fun s => rel2dRes obs (p s) (q s) l) ?_
      (row2 δ (dim_of_val hn) (dim_of_val hm) _ _ l).symm
    simp only [← rel2dRes_wrap obs (p _), hp', hq']
    exact hasDerivAt_pi.mp (C26_rel2d obs x y hcut (w.inc δ n .pose2d) (w.inc δ m .pose2d)) l
  | @odom obs W ty n m x y hn hm hcut ht =>
    choose p hp hp' using pert_pose2d δ hn
    choose q hq hq' using pert_pose2d δ hm
    simp only [List.map_cons, List.map_nil, hp, hq, hn, hm]
    refine HasDerivAt.congr_deriv (f := fun s => odomRes obs (p s) (q s) l) ?_
      (row2 δ (dim_of_val hn) (dim_of_val hm) _ _ l).symm
    simp only [← odomRes_wrap obs (p _), hp', hq']
    exact hasDerivAt_pi.mp ((C26_odom_iff obs x y hcut).mpr ht (w.inc δ n .pose2d) (w.inc δ m .pose2d)) l
  | @land2d obs W ty n m x y hn hm hfar hcut =>
    choose p hp hp' using pert_pose2d δ hn
    simp only [List.map_cons, List.map_nil, hp, pert_landmark2d δ hm, hn, hm]
    refine HasDerivAt.congr_deriv
      (f := fun s => land2dRes obs (p s) (NodeKind.upd .landmark2d y (s • w.inc δ m .landmark2d : Vec2)) l) ?_
      (row2 δ (dim_of_val hn) (dim_of_val hm) _ _ l).symm
    simp only [← land2dRes_wrap obs (p _), hp']
    exact hasDerivAt_pi.mp (C26_land2d obs x y hfar hcut (w.inc δ n .pose2d) (w.inc δ m .landmark2d)) l
  | @land2dRev obs W ty n m x y hn hm hfar hcut =>
    choose p hp hp' using pert_pose2d δ hn
    simp only [List.map_cons, List.map_nil, hp, pert_landmark2d δ hm, hn, hm]
    refine HasDerivAt.congr_deriv
      (f := fun s => land2dRes obs (p s) (NodeKind.upd .landmark2d y (s • w.inc δ m .landmark2d : Vec2)) l) ?_
      ((row2 δ (dim_of_val hm) (dim_of_val hn) _ _ l).trans (add_comm _ _)).symm
    simp only [← land2dRes_wrap obs (p _), hp']
    exact hasDerivAt_pi.mp (C26_land2d obs x y hfar hcut (w.inc δ n .pose2d) (w.inc δ m .landmark2d)) l
  | @land3d obs W ty n m X y hn hm hX =>
    simp only [List.map_cons, List.map_nil, pert_pose3d δ hn, pert_landmark3d δ hm, hn, hm]
    refine HasDerivAt.congr_deriv (f := fun s => land3dRes obs _ _ l) ?_
      (row2 δ (dim_of_val hn) (dim_of_val hm) _ _ l).symm
    refine HasDerivAt.congr_deriv (hasDerivAt_pi.mp (C26_land3d obs hX y (w.inc δ n .pose3d) (w.inc δ m .landmark3d)) l) ?_
    exact congrArg (· + _) (at6_sum (land3dJac X y).1 (w.spread δ n) l).symm
  | @land3dRev obs W ty n m X y hn hm hX =>
    simp only [List.map_cons, List.map_nil, pert_pose3d δ hn, pert_landmark3d δ hm, hn, hm]
    refine HasDerivAt.congr_deriv (f := fun s => land3dRes obs _ _ l) ?_
      ((row2 δ (dim_of_val hm) (dim_of_val hn) _ _ l).trans (add_comm _ _)).symm
    refine HasDerivAt.congr_deriv (hasDerivAt_pi.mp (C26_land3d obs hX y (w.inc δ n .pose3d) (w.inc δ m .landmark3d)) l) ?_
    exact congrArg (· + _) (at6_sum (land3dJac X y).1 (w.spread δ n) l).symm
  | @p2plane px py ny W ty n X hn hX =>
    simp only [List.map_cons, List.map_nil, pert_pose3d δ hn, hn]
    refine HasDerivAt.congr_deriv (f := fun s => p2planeRes px py ny _) ?_ (row1 δ (dim_of_val hn) _ l).symm
    refine (C26_point2plane px py ny hX (w.inc δ n .pose3d)).congr_deriv ?_
    exact (at6_sum (Matrix.of fun (_ : Fin 1) j => p2planeJac px ny X j) (w.spread δ n) l).symm

theorem upd_zero_pose2d (x d : Vec3) : NodeKind.upd .pose2d x ((0 : ℝ) • d) = wrap2 x := by
  rw [zero_smul]
  exact congrArg wrap2 (add_zero x)

theorem upd_zero_landmark2d (x d : Vec2) : NodeKind.upd .landmark2d x ((0 : ℝ) • d) = x := by
  rw [zero_smul]
  exact add_zero x

theorem updAux_zero_landmark3d (x d : Vec3) : NodeKind.updAux .landmark3d x ((0 : ℝ) • d) = x := by
  rw [zero_smul]
  exact add_zero x

theorem updAux_zero_pose3d (X : SE3) (d : Vec6) : NodeKind.updAux .pose3d X ((0 : ℝ) • d) = X := updateLhs_zero_smul X d

theorem regular_zero {V : FactorVirt} {nbrs : List NRef} (h : Regular w.nh V nbrs) (δ : Cols w → ℝ) :
    V.res (nbrs.map (w.perturbed ((0 : ℝ) • δ))) = V.res (nbrs.map fun n => (w.nh n).val) := by
  cases h with
  | @prior2d obs W ty n x hn hcut =>
    obtain ⟨p, hp, hp'⟩ := pert_pose2d δ hn 0
    rw [upd_zero_pose2d] at hp'
    simp only [List.map_cons, List.map_nil, hp, hn]
    change prior2dRes obs p = prior2dRes obs x
    rw [← prior2dRes_wrap, hp', prior2dRes_wrap]
  | @rel2d obs W ty n m x y hn hm hcut =>
    obtain ⟨p, hp, hp'⟩ := pert_pose2d δ hn 0
    obtain ⟨q, hq, hq'⟩ := pert_pose2d δ hm 0
    rw [upd_zero_pose2d] at hp' hq'
    simp only [List.map_cons, List.map_nil, hp, hq, hn, hm]
    change rel2dRes obs p q = rel2dRes obs x y
    rw [← rel2dRes_wrap, hp', hq', rel2dRes_wrap]
  | @odom obs W ty n m x y hn hm hcut ht =>
    obtain ⟨p, hp, hp'⟩ := pert_pose2d δ hn 0
    obtain ⟨q, hq, hq'⟩ := pert_pose2d δ hm 0
    rw [upd_zero_pose2d] at hp' hq'
    simp only [List.map_cons, List.map_nil, hp, hq, hn, hm]
    change odomRes obs p q = odomRes obs x y
    rw [← odomRes_wrap, hp', hq', odomRes_wrap]
  | @land2d obs W ty n m x y hn hm hfar hcut =>
    obtain ⟨p, hp, hp'⟩ := pert_pose2d δ hn 0
    rw [upd_zero_pose2d] at hp'
    simp only [List.map_cons, List.map_nil, hp, pert_landmark2d δ hm, upd_zero_landmark2d, hn, hm]
    change land2dRes obs p y = land2dRes obs x y
    rw [← land2dRes_wrap, hp', land2dRes_wrap]
  | @land2dRev obs W ty n m x y hn hm hfar hcut =>
    obtain ⟨p, hp, hp'⟩ := pert_pose2d δ hn 0
    rw [upd_zero_pose2d] at hp'
    simp only [List.map_cons, List.map_nil, hp, pert_landmark2d δ hm, upd_zero_landmark2d, hn, hm]
    change land2dRes obs p y = land2dRes obs x y
    rw [← land2dRes_wrap, hp', land2dRes_wrap]
  | @land3d obs W ty n m X y hn hm hX =>
    simp only [List.map_cons, List.map_nil, pert_pose3d δ hn, pert_landmark3d δ hm, updAux_zero_pose3d,
      updAux_zero_landmark3d, hn, hm]
  | @land3dRev obs W ty n m X y hn hm hX =>
    simp only [List.map_cons, List.map_nil, pert_pose3d δ hn, pert_landmark3d δ hm, updAux_zero_pose3d,
      updAux_zero_landmark3d, hn, hm]
  | @p2plane px py ny W ty n X hn hX =>
    simp only [List.map_cons, List.map_nil, pert_pose3d δ hn, updAux_zero_pose3d, hn]

/-- Graphs of regular factors. -/
theorem smooth_of_regular (h : ∀ f ∈ w.g.factors, Regular w.nh (w.fh f).virt (w.fh f).nbrs) : Smooth w := by
  intro f hf δ
  refine ⟨regular_zero (h f hf) δ, hasDerivAt_pi.mpr fun l => ?_⟩
  rw [term_mulVec]
  exact regular_deriv (h f hf) δ l

end World

end Mrob
