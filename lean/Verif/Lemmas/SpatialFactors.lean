import Verif.Lemmas.SpatialChart
import Verif.Lemmas.LocalStep

/-!
# The normal equations of spatial graphs near states without residuals
-/

open Matrix Filter Topology Asymptotics

namespace Mrob

open Spec World

attribute [local instance] Matrix.linftyOpNormedAddCommGroup Matrix.linftyOpNormedSpace Matrix.linftyOpNormedRing

section newton

variable {ι T : Type} [Fintype ι] [DecidableEq ι] {F : Filter T}

/-- Steps from the solution of linear systems that are almost those of the error. -/
theorem newton_filter {H : T → Matrix ι ι ℝ} {H0 : Matrix ι ι ℝ} {e b : T → ι → ℝ}
    (hH : ∀ i j, Tendsto (fun t => H t i j) F (𝓝 (H0 i j))) (h0 : H0.det ≠ 0)
    (hb : (fun t => b t - H t *ᵥ e t) =o[F] fun t => ‖e t‖) :
    (∀ᶠ t in F, (H t).det ≠ 0) ∧ (fun t => e t - (H t)⁻¹ *ᵥ b t) =o[F] fun t => ‖e t‖ := by
  have hH' : Tendsto H F (𝓝 H0) := tendsto_pi_nhds.mpr fun i => tendsto_pi_nhds.mpr fun j => hH i j
  have hdet : Tendsto (fun t => (H t).det) F (𝓝 H0.det) := (Continuous.matrix_det continuous_id).continuousAt.tendsto.comp hH'
  have hadj : Tendsto (fun t => (H t).adjugate) F (𝓝 H0.adjugate) :=
    (Continuous.matrix_adjugate continuous_id).continuousAt.tendsto.comp hH'
  have hinv : Tendsto (fun t => ((H t).det)⁻¹ • (H t).adjugate) F (𝓝 ((H0.det)⁻¹ • H0.adjugate)) := (hdet.inv₀ h0).smul hadj
  have hne : ∀ᶠ t in F, (H t).det ≠ 0 := hdet.eventually_ne h0
  refine ⟨hne, ?_⟩
  have h1 : (fun t => (((H t).det)⁻¹ • (H t).adjugate) *ᵥ (H t *ᵥ e t - b t)) =o[F] fun t => ‖e t‖ := by
    have k2 : (fun t => (((H t).det)⁻¹ • (H t).adjugate) *ᵥ (H t *ᵥ e t - b t)) =O[F]
        fun t => ‖((H t).det)⁻¹ • (H t).adjugate‖ * ‖b t - H t *ᵥ e t‖ := by
      refine IsBigO.of_bound 1 (Eventually.of_forall fun t => ?_)
      rw [one_mul, norm_mul, norm_norm, norm_norm, norm_sub_rev (b t)]
      exact Matrix.linfty_opNorm_mulVec _ _
    refine k2.trans_isLittleO ?_
    have k3 := ((hinv.isBigO_one ℝ).norm_left).mul_isLittleO hb.norm_left
    simp only [one_mul] at k3
    exact k3
  refine h1.congr' ?_ EventuallyEq.rfl
  filter_upwards [hne] with t ht
  rw [mulVec_sub, mulVec_mulVec, smul_mul_assoc, adjugate_mul, smul_smul, inv_mul_cancel₀ ht, one_smul, one_mulVec,
    Matrix.inv_def, Ring.inverse_eq_inv']

theorem blk_lim {m n : ℕ} {M : T → Matrix (Fin m) (Fin n) ℝ} {M0 : Matrix (Fin m) (Fin n) ℝ}
    (h : ∀ i j, Tendsto (fun e => M e i j) F (𝓝 (M0 i j))) (l : Fin m) (c : ℕ) : Tendsto (fun e => blk (M e) l c) F (𝓝 (blk M0 l c)) := by
  unfold blk
  split
  · exact h _ _
  · exact tendsto_const_nhds

theorem blk2_lim {m n k : ℕ} {M : T → Matrix (Fin m) (Fin n) ℝ} {M0 : Matrix (Fin m) (Fin n) ℝ}
    {K : T → Matrix (Fin m) (Fin k) ℝ} {K0 : Matrix (Fin m) (Fin k) ℝ} (h : ∀ i j, Tendsto (fun e => M e i j) F (𝓝 (M0 i j)))
    (h' : ∀ i j, Tendsto (fun e => K e i j) F (𝓝 (K0 i j))) (l : Fin m) (c : ℕ) :
    Tendsto (fun e => blk2 (M e) (K e) l c) F (𝓝 (blk2 M0 K0 l c)) := by
  unfold blk2
  split
  · exact blk_lim h l c
  · exact blk_lim h' l _

theorem blockEntry_lim {dim : NRef → ℕ} {J : T → ℕ → ℝ} {J0 : ℕ → ℝ} (h : ∀ c, Tendsto (fun e => J e c) F (𝓝 (J0 c)))
    (a : NRef) (k : ℕ) (nbrs : List NRef) : ∀ tk : ℕ,
    Tendsto (fun e => blockEntry dim (J e) a k tk nbrs) F (𝓝 (blockEntry dim J0 a k tk nbrs)) := by
  induction nbrs with
  | nil => intro tk; exact tendsto_const_nhds
  | cons n ns ih =>
    intro tk
    simp only [blockEntry]
    refine Tendsto.add ?_ (ih _)
    split
    · exact h _
    · exact tendsto_const_nhds

theorem list_lim {α : Type} (l : List α) {f : α → T → ℝ} {a : α → ℝ} (h : ∀ x ∈ l, Tendsto (f x) F (𝓝 (a x))) :
    Tendsto (fun t => (l.map fun x => f x t).sum) F (𝓝 (l.map a).sum) := by
  induction l with
  | nil => exact tendsto_const_nhds
  | cons x l ih =>
    simp only [List.map_cons, List.sum_cons]
    exact (h x List.mem_cons_self).add (ih fun y hy => h y (List.mem_cons_of_mem _ hy))

theorem list_small {α E : Type} [NormedAddCommGroup E] (l : List α) {f : α → T → E} {g : T → ℝ} (h : ∀ x ∈ l, f x =o[F] g) :
    (fun t => (l.map fun x => f x t).sum) =o[F] g := by
  induction l with
  | nil => simpa using isLittleO_zero _ _
  | cons x l ih =>
    simp only [List.map_cons, List.sum_cons]
    exact (h x List.mem_cons_self).add (ih fun y hy => h y (List.mem_cons_of_mem _ hy))

end newton

theorem rel3d_exact {O A B : SE3} (hB : IsRigid B.T) (h : B.T = A.T * O.T) : (rel3dJac O A B).2 = -1 := by
  have : rel3dTr O A B = SE3.default := by
    refine SE3.ext ?_
    change A.T * O.T * B.inv.T = 1
    rw [← h, mul_inv_cancel' hB]
  change -(rel3dTr O A B).adj = _
  rw [this, adj_one]

namespace World

variable {w : World}

/-- The given states. -/
noncomputable def here (w : World) : NRef → NodeVal := fun n => (w.nh n).val

theorem spread_flat {n : NRef} {A : SE3} (hn : (w.nh n).val = ⟨.pose3d, A⟩) {X : NRef → NodeVal} (hX : Good w X) (hA : IsRigid A.T)
    {m : Type} (J : Matrix m I6 ℝ) (l : m) : (J.submatrix id at6 *ᵥ fun k : Fin 6 => w.spread (w.errs X) n k) l =
    (J *ᵥ vec6 (skewVec (turnOf A (poseOf (X n)))) (shiftOf A (poseOf (X n)))) l := by
  rw [at6_sum, hX.pose_flat hn hA]

/-- The residuals to first order. -/
theorem res_first (hs : Spatial w) {V : FactorVirt} {nbrs : List NRef} (h : AgreesSpatial w.here V nbrs) (l : Fin V.dim) :
    (fun X => V.res (nbrs.map X) l - w.rowApply (w.errs X) (V.jac (nbrs.map w.here) l) 0 nbrs) =o[w.nearby] w.errNorm := by
  have hg := errNorm_lim hs
  cases h with
  | @prior3d A W ty n hn hA =>
    change (w.nh n).val = _ at hn
    refine ((poseNear hs hn hA).prior hg (at6 l)).congr' ?_ EventuallyEq.rfl
    filter_upwards [good_near] with X hX
    have e : w.rowApply (w.errs X) ((FactorVirt.prior3d A W ty).jac ([n].map w.here) l) 0 [n] =
        ((1 : Mat6) *ᵥ vec6 (skewVec (turnOf A (poseOf (X n)))) (shiftOf A (poseOf (X n)))) (at6 l) :=
      (row1 (d := 6) _ (dim_of_val hn) _ _).trans (spread_flat hn hX hA (1 : Mat6) (at6 l))
    rw [e, one_mulVec, List.map_cons, List.map_nil, eq_poseOf (hX.pose_kind hn)]
    rfl
  | @rel3d O A B W ty n m hn hm hA hB h =>
    change (w.nh n).val = _ at hn
    change (w.nh m).val = _ at hm
    refine ((poseNear hs hn hA).relRes (poseNear hs hm hB) hg h (at6 l)).congr' ?_ EventuallyEq.rfl
    filter_upwards [good_near] with X hX
    have e0 : (FactorVirt.rel3d O W ty).jac ([n, m].map w.here) = blk2 ((1 : Mat6).submatrix at6 at6) ((-1 : Mat6).submatrix at6 at6) := by
      rw [← rel3d_exact hB h]
      simp only [List.map_cons, List.map_nil, here, hn, hm]
      rfl
    have e : w.rowApply (w.errs X) ((FactorVirt.rel3d O W ty).jac ([n, m].map w.here) l) 0 [n, m] =
        ((1 : Mat6) *ᵥ vec6 (skewVec (turnOf A (poseOf (X n)))) (shiftOf A (poseOf (X n)))) (at6 l) +
        ((-1 : Mat6) *ᵥ vec6 (skewVec (turnOf B (poseOf (X m)))) (shiftOf B (poseOf (X m)))) (at6 l) := by
      rw [e0]
      exact (row2 (d := 6) (e := 6) _ (dim_of_val hn) (dim_of_val hm) _ _ _).trans
        (congrArg₂ _ (spread_flat hn hX hA (1 : Mat6) (at6 l)) (spread_flat hm hX hB (-1 : Mat6) (at6 l)))
    rw [e, one_mulVec, neg_mulVec, one_mulVec, List.map_cons, List.map_cons, List.map_nil, eq_poseOf (hX.pose_kind hn),
      eq_poseOf (hX.pose_kind hm)]
    change _ = rel3dRes O _ _ (at6 l) - (vec6 _ _ (at6 l) + -vec6 _ _ (at6 l))
    rw [← sub_eq_add_neg]; rfl
  | @land3d obs y A W ty n m hn hm hA h =>
    change (w.nh n).val = _ at hn
    change (w.nh m).val = _ at hm
    refine ((poseNear hs hn hA).landRes hg (markNear hm) h l).congr' ?_ EventuallyEq.rfl
    filter_upwards [good_near] with X hX
    have e0 : (FactorVirt.land3d obs W false ty).jac ([n, m].map w.here) = blk2 ((land3dJac A y).1.submatrix id at6) (land3dJac A y).2 := by
      simp only [List.map_cons, List.map_nil, here, hn, hm]
      rfl
    have e : w.rowApply (w.errs X) ((FactorVirt.land3d obs W false ty).jac ([n, m].map w.here) l) 0 [n, m] =
        ((land3dJac A y).1 *ᵥ vec6 (skewVec (turnOf A (poseOf (X n)))) (shiftOf A (poseOf (X n)))) l +
        ((land3dJac A y).2 *ᵥ (markOf (X m) - y)) l := by
      rw [e0, ← hX.mark_spread hm]
      exact (row2 (d := 6) (e := 3) _ (dim_of_val hn) (dim_of_val hm) _ _ _).trans
        (congrArg₂ _ (spread_flat hn hX hA _ l) rfl)
    rw [e, List.map_cons, List.map_cons, List.map_nil, eq_poseOf (hX.pose_kind hn), eq_markOf (hX.mark_kind hm), add_sub_cancel]
    rfl
  | @land3dRev obs y A W ty n m hn hm hA h =>
    change (w.nh n).val = _ at hn
    change (w.nh m).val = _ at hm
    refine ((poseNear hs hn hA).landRes hg (markNear hm) h l).congr' ?_ EventuallyEq.rfl
    filter_upwards [good_near] with X hX
    have e0 : (FactorVirt.land3d obs W true ty).jac ([m, n].map w.here) = blk2 (land3dJac A y).2 ((land3dJac A y).1.submatrix id at6) := by
      simp only [List.map_cons, List.map_nil, here, hn, hm]
      rfl
    have e : w.rowApply (w.errs X) ((FactorVirt.land3d obs W true ty).jac ([m, n].map w.here) l) 0 [m, n] =
        ((land3dJac A y).1 *ᵥ vec6 (skewVec (turnOf A (poseOf (X n)))) (shiftOf A (poseOf (X n)))) l +
        ((land3dJac A y).2 *ᵥ (markOf (X m) - y)) l := by
      rw [e0, ← hX.mark_spread hm]
      refine (row2 (d := 3) (e := 6) _ (dim_of_val hm) (dim_of_val hn) _ _ _).trans ?_
      rw [add_comm]
      exact congrArg₂ _ (spread_flat hn hX hA _ l) rfl
    rw [e, List.map_cons, List.map_cons, List.map_nil, eq_poseOf (hX.pose_kind hn), eq_markOf (hX.mark_kind hm), add_sub_cancel]
    rfl
  | @p2plane px py ny A W ty n hn hA h =>
    change (w.nh n).val = _ at hn
    refine ((poseNear hs hn hA).planeRes hg h).congr' ?_ EventuallyEq.rfl
    filter_upwards [good_near] with X hX
    have e0 : (FactorVirt.p2plane px py ny W ty).jac ([n].map w.here) =
        blk ((Matrix.of fun (_ : Fin 1) j => p2planeJac px ny A j).submatrix id at6) := by
      simp only [List.map_cons, List.map_nil, here, hn]
      rfl
    have e : w.rowApply (w.errs X) ((FactorVirt.p2plane px py ny W ty).jac ([n].map w.here) l) 0 [n] =
        ((Matrix.of fun (_ : Fin 1) j => p2planeJac px ny A j) *ᵥ vec6 (skewVec (turnOf A (poseOf (X n)))) (shiftOf A (poseOf (X n)))) l := by
      rw [e0]
      exact (row1 (d := 6) _ (dim_of_val hn) _ _).trans (spread_flat hn hX hA _ l)
    rw [e, List.map_cons, List.map_nil, eq_poseOf (hX.pose_kind hn)]
    rfl

/-- The Jacobians. -/
theorem jac_lim (hs : Spatial w) {V : FactorVirt} {nbrs : List NRef} (h : AgreesSpatial w.here V nbrs) (l : Fin V.dim) (c : ℕ) :
    Tendsto (fun X => V.jac (nbrs.map X) l c) w.nearby (𝓝 (V.jac (nbrs.map w.here) l c)) := by
  have hg := errNorm_lim hs
  have hmark : ∀ {m : NRef} {y : Vec3}, (w.nh m).val = ⟨.landmark3d, y⟩ → Tendsto (fun X : NRef → NodeVal => markOf (X m)) w.nearby (𝓝 y) := by
    intro m y hm
    have := ((markNear hm).trans_tendsto hg).add_const y
    simp only [sub_add_cancel, zero_add] at this
    exact this
  cases h with
  | @prior3d A W ty n hn hA => exact tendsto_const_nhds
  | @rel3d O A B W ty n m hn hm hA hB h =>
    change (w.nh n).val = _ at hn
    change (w.nh m).val = _ at hm
    have h1 := blk2_lim (F := w.nearby) (M := fun X : NRef → NodeVal => (rel3dJac O (poseOf (X n)) (poseOf (X m))).1.submatrix at6 at6)
      (M0 := (rel3dJac O A B).1.submatrix at6 at6)
      (K := fun X : NRef → NodeVal => (rel3dJac O (poseOf (X n)) (poseOf (X m))).2.submatrix at6 at6)
      (K0 := (rel3dJac O A B).2.submatrix at6 at6) (fun i j => tendsto_const_nhds)
      (fun i j => by
        have := (poseNear hs hn hA).relJac (poseNear hs hm hB) hg h (at6 i) (at6 j)
        rw [← rel3d_exact hB h] at this
        exact this) l c
    have e0 : (FactorVirt.rel3d O W ty).jac ([n, m].map w.here) =
        blk2 ((rel3dJac O A B).1.submatrix at6 at6) ((rel3dJac O A B).2.submatrix at6 at6) := by
      simp only [List.map_cons, List.map_nil, here, hn, hm]
      rfl
    rw [e0]
    refine h1.congr' ?_
    filter_upwards [good_near] with X hX
    rw [List.map_cons, List.map_cons, List.map_nil, eq_poseOf (hX.pose_kind hn), eq_poseOf (hX.pose_kind hm)]
    rfl
  | @land3d obs y A W ty n m hn hm hA h =>
    change (w.nh n).val = _ at hn
    change (w.nh m).val = _ at hm
    have h1 := blk2_lim (F := w.nearby) (M := fun X : NRef → NodeVal => (land3dJac (poseOf (X n)) (markOf (X m))).1.submatrix id at6)
      (M0 := (land3dJac A y).1.submatrix id at6)
      (K := fun X : NRef → NodeVal => (land3dJac (poseOf (X n)) (markOf (X m))).2)
      (K0 := (land3dJac A y).2) (fun i j => ((poseNear hs hn hA).landJac hg (hmark hm) i).1 (at6 j))
      (fun i j => ((poseNear hs hn hA).landJac hg (hmark hm) i).2 j) l c
    have e0 : (FactorVirt.land3d obs W false ty).jac ([n, m].map w.here) = blk2 ((land3dJac A y).1.submatrix id at6) (land3dJac A y).2 := by
      simp only [List.map_cons, List.map_nil, here, hn, hm]
      rfl
    rw [e0]
    refine h1.congr' ?_
    filter_upwards [good_near] with X hX
    rw [List.map_cons, List.map_cons, List.map_nil, eq_poseOf (hX.pose_kind hn), eq_markOf (hX.mark_kind hm)]
    rfl
  | @land3dRev obs y A W ty n m hn hm hA h =>
    change (w.nh n).val = _ at hn
    change (w.nh m).val = _ at hm
    have h1 := blk2_lim (F := w.nearby) (K := fun X : NRef → NodeVal => (land3dJac (poseOf (X n)) (markOf (X m))).1.submatrix id at6)
      (K0 := (land3dJac A y).1.submatrix id at6)
      (M := fun X : NRef → NodeVal => (land3dJac (poseOf (X n)) (markOf (X m))).2)
      (M0 := (land3dJac A y).2) (fun i j => ((poseNear hs hn hA).landJac hg (hmark hm) i).2 j)
      (fun i j => ((poseNear hs hn hA).landJac hg (hmark hm) i).1 (at6 j)) l c
    have e0 : (FactorVirt.land3d obs W true ty).jac ([m, n].map w.here) = blk2 (land3dJac A y).2 ((land3dJac A y).1.submatrix id at6) := by
      simp only [List.map_cons, List.map_nil, here, hn, hm]
      rfl
    rw [e0]
    refine h1.congr' ?_
    filter_upwards [good_near] with X hX
    rw [List.map_cons, List.map_cons, List.map_nil, eq_poseOf (hX.pose_kind hn), eq_markOf (hX.mark_kind hm)]
    rfl
  | @p2plane px py ny A W ty n hn hA h =>
    change (w.nh n).val = _ at hn
    have h1 := blk_lim (F := w.nearby) (M := fun X : NRef → NodeVal => Matrix.of fun (_ : Fin 1) (j : Fin 6) => p2planeJac px ny (poseOf (X n)) (at6 j))
      (M0 := Matrix.of fun (_ : Fin 1) (j : Fin 6) => p2planeJac px ny A (at6 j))
      (fun i j => (poseNear hs hn hA).planeJacLim hg px ny (at6 j)) l c
    have e0 : (FactorVirt.p2plane px py ny W ty).jac ([n].map w.here) =
        blk (Matrix.of fun (_ : Fin 1) j => p2planeJac px ny A (at6 j)) := by
      simp only [List.map_cons, List.map_nil, here, hn]
      rfl
    rw [e0]
    refine h1.congr' ?_
    filter_upwards [good_near] with X hX
    rw [List.map_cons, List.map_nil, eq_poseOf (hX.pose_kind hn)]
    rfl

/-- The states are close to themselves. -/
theorem Spatial.good (hs : Spatial w) : Good w w.here := by
  refine ⟨fun n hn => ?_, fun _ _ => rfl⟩
  rcases hs.cases hn with ⟨A, h, hA, -⟩ | ⟨l, h⟩
  · rw [here, h]; exact ⟨hA.lastRow, Or.inl (rigid_R hA)⟩
  · rw [here, h]; exact trivial

theorem Spatial.size_zero (hs : Spatial w) : w.size w.here = 0 := by
  rw [size, norm_eq_zero]
  funext a
  rcases hs.cases a.2 with ⟨A, h, -, -⟩ | ⟨l, h⟩
  · rw [here, h]
    change ‖fun p : I4 × I4 => A.T p.1 p.2 - A.T p.1 p.2‖ = 0
    simp only [sub_self]
    exact norm_zero
  · rw [here, h]
    change ‖fun i : Fin 3 => l i - l i‖ = 0
    simp only [sub_self]
    exact norm_zero

theorem Spatial.self (hs : Spatial w) {p : (NRef → NodeVal) → Prop} (h : ∀ᶠ X in w.nearby, p X) : p w.here := by
  obtain ⟨ε, hε, h⟩ := nearby_iff.mp h
  exact h _ (by rw [hs.size_zero]; exact hε) hs.good

theorem Spatial.errs_zero (hs : Spatial w) : w.errs w.here = 0 := by
  obtain ⟨C, hC⟩ := (errs_bigO hs).bound
  have := hs.self hC
  rw [hs.size_zero, norm_zero, mul_zero] at this
  exact norm_le_zero_iff.mp this

theorem rowApply_zero (Jl : ℕ → ℝ) (nbrs : List NRef) : ∀ tk, w.rowApply (0 : Cols w → ℝ) Jl tk nbrs = 0 := by
  induction nbrs with
  | nil => intro tk; rfl
  | cons n ns ih => intro tk; rw [rowApply, ih, spread_zero]; simp

theorem res_zero (hs : Spatial w) {V : FactorVirt} {nbrs : List NRef} (h : AgreesSpatial w.here V nbrs) : V.res (nbrs.map w.here) = 0 := by
  funext l
  have := hs.self ((isLittleO_iff.mp (res_first hs h l)) one_pos)
  rw [hs.errs_zero, rowApply_zero, sub_zero, errNorm, hs.errs_zero, norm_zero, norm_zero, mul_zero] at this
  exact norm_le_zero_iff.mp this

/-- Residual of a factor at other states. -/
noncomputable def pres (w : World) (f : FRef) (X : NRef → NodeVal) : Fin (w.fh f).virt.dim → ℝ := (w.fh f).virt.res ((w.fh f).nbrs.map X)
/-- Its Jacobian. -/
noncomputable def pjac (w : World) (f : FRef) (X : NRef → NodeVal) : Matrix (Fin (w.fh f).virt.dim) (Cols w) ℝ :=
  Matrix.of fun l c => blockEntry (fun n => (w.nh n).dim) ((w.fh f).virt.jac ((w.fh f).nbrs.map X) l) c.1 c.2 0 (w.fh f).nbrs
/-- Its weight. -/
noncomputable def pwt (w : World) (f : FRef) (X : NRef → NodeVal) : ℝ :=
  robustWeight (w.fh f).virt.robust (w.fh f).weight (Real.sqrt (factorChi2 (w.fh f).virt.W (w.pres f X)))
/-- The information matrix. -/
noncomputable def pH (w : World) (X : NRef → NodeVal) : Matrix (Cols w) (Cols w) ℝ :=
  (w.g.factors.map fun f => (w.pjac f X)ᵀ * (w.pwt f X • (w.fh f).virt.W) * w.pjac f X).sum
/-- The right hand side. -/
noncomputable def pb (w : World) (X : NRef → NodeVal) : Cols w → ℝ :=
  (w.g.factors.map fun f => ((w.pjac f X)ᵀ * (w.pwt f X • (w.fh f).virt.W)) *ᵥ w.pres f X).sum

theorem vals_put {X : NRef → NodeVal} (hX : Good w X) : (fun n => ((w.put X).nh n).val) = X := funext hX.put_val

theorem pjac_put {X : NRef → NodeVal} (hX : Good w X) (f : FRef) : (factorTerm (w.put X) f).J = w.pjac f X := by
  have h := vals_put hX
  ext l c
  change blockEntry _ ((w.fh f).virt.jac ((w.fh f).nbrs.map fun n => ((w.put X).nh n).val) l) c.1 c.2 0 _ = _
  rw [h]; rfl

theorem pres_put {X : NRef → NodeVal} (hX : Good w X) (f : FRef) : (factorTerm (w.put X) f).r = w.pres f X := by
  have h := vals_put hX
  change (w.fh f).virt.res ((w.fh f).nbrs.map fun n => ((w.put X).nh n).val) = _
  rw [h]; rfl

theorem pwt_put {X : NRef → NodeVal} (hX : Good w X) (f : FRef) : factorWeight (w.put X) f = w.pwt f X := by
  have h := vals_put hX
  change robustWeight _ _ (Real.sqrt (factorChi2 (w.fh f).virt.W ((w.fh f).virt.res ((w.fh f).nbrs.map fun n => ((w.put X).nh n).val)))) = _
  rw [h]; rfl

theorem pH_put {X : NRef → NodeVal} (hX : Good w X) : infoMatrix (graphTerms (w.put X)) = w.pH X := by
  refine (congrArg List.sum List.map_map).trans (congrArg List.sum (List.map_congr_left fun f _ => ?_))
  exact congrArg₂ (fun (J : Matrix (Fin (w.fh f).virt.dim) (Cols w) ℝ) (a : ℝ) => Jᵀ * (a • (w.fh f).virt.W) * J) (pjac_put hX f) (pwt_put hX f)

theorem pb_put {X : NRef → NodeVal} (hX : Good w X) : infoVector (graphTerms (w.put X)) = w.pb X := by
  refine (congrArg List.sum List.map_map).trans (congrArg List.sum (List.map_congr_left fun f _ => ?_))
  refine (congrArg₂ (fun (J : Matrix (Fin (w.fh f).virt.dim) (Cols w) ℝ) (a : ℝ) => (Jᵀ * (a • (w.fh f).virt.W)) *ᵥ w.pres f X)
    (pjac_put hX f) (pwt_put hX f)).symm.trans ?_ |>.symm
  exact (congrArg (fun r : Fin (w.fh f).virt.dim → ℝ => ((factorTerm (w.put X) f).Jᵀ * (factorTerm (w.put X) f).W) *ᵥ r) (pres_put hX f)).symm

theorem pH_here : w.pH w.here = infoMatrix (graphTerms w) := by
  rw [infoMatrix, graphTerms, List.map_map]
  rfl

section factor

variable (hs : Spatial w) {f : FRef} (h : AgreesSpatial w.here (w.fh f).virt (w.fh f).nbrs)
include hs h

theorem pjac_lim (l : Fin (w.fh f).virt.dim) (c : Cols w) : Tendsto (fun X => w.pjac f X l c) w.nearby (𝓝 (w.pjac f w.here l c)) :=
  blockEntry_lim (fun k => jac_lim hs h l k) _ _ _ 0

theorem pres_first (l : Fin (w.fh f).virt.dim) : (fun X => (w.pres f X - w.pjac f w.here *ᵥ w.errs X) l) =o[w.nearby] w.errNorm := by
  refine (res_first hs h l).congr_left fun X => ?_
  rw [Pi.sub_apply]
  exact congrArg _ (sum_blockEntry (w := w) (w.errs X) _ _ 0).symm

omit h in
theorem errs_apply (c : Cols w) : (fun X => w.errs X c) =O[w.nearby] w.errNorm := by
  refine IsBigO.of_bound 1 (Eventually.of_forall fun X => ?_)
  rw [one_mul, Real.norm_eq_abs, Real.norm_eq_abs, abs_of_nonneg (show 0 ≤ w.errNorm X from norm_nonneg _)]
  exact norm_le_pi_norm (w.errs X) c

theorem pres_small (l : Fin (w.fh f).virt.dim) : (fun X => (w.pres f X - w.pjac f X *ᵥ w.errs X) l) =o[w.nearby] w.errNorm := by
  have h1 : (fun X => ((w.pjac f w.here - w.pjac f X) *ᵥ w.errs X) l) =o[w.nearby] w.errNorm := by
    change (fun X => ∑ c, (w.pjac f w.here l c - w.pjac f X l c) * w.errs X c) =o[w.nearby] w.errNorm
    refine IsLittleO.fun_sum fun c _ => ?_
    have k1 : (fun X => w.pjac f w.here l c - w.pjac f X l c) =o[w.nearby] fun _ => (1 : ℝ) := by
      rw [isLittleO_one_iff]
      have := (pjac_lim hs h l c).const_sub (w.pjac f w.here l c)
      rwa [sub_self] at this
    have := k1.mul_isBigO (errs_apply hs c)
    simp only [one_mul] at this
    exact this
  refine ((pres_first hs h l).add h1).congr_left fun X => ?_
  rw [sub_mulVec]
  simp only [Pi.sub_apply]
  ring

theorem pres_lim (l : Fin (w.fh f).virt.dim) : Tendsto (fun X => w.pres f X l) w.nearby (𝓝 0) := by
  have h1 := (pres_first hs h l).trans_tendsto (errNorm_lim hs)
  have h2 : Tendsto (fun X => (w.pjac f w.here *ᵥ w.errs X) l) w.nearby (𝓝 0) := by
    change Tendsto (fun X => ∑ c, w.pjac f w.here l c * w.errs X c) w.nearby (𝓝 0)
    have := tendsto_finsetSum (Finset.univ : Finset (Cols w)) fun c _ =>
      ((errs_apply hs c).trans_tendsto (errNorm_lim hs)).const_mul (w.pjac f w.here l c)
    simpa using this
  have := h1.add h2
  simp only [Pi.sub_apply, sub_add_cancel, add_zero] at this
  exact this

theorem pwt_lim (hr : (w.fh f).virt.robust ≠ .ransac) : Tendsto (w.pwt f) w.nearby (𝓝 (w.pwt f w.here)) := by
  have e0 : w.pres f w.here = 0 := res_zero hs h
  have h1 : Tendsto (fun X => factorChi2 (w.fh f).virt.W (w.pres f X)) w.nearby (𝓝 0) := by
    unfold factorChi2
    have k : Tendsto (fun X => w.pres f X ⬝ᵥ (w.fh f).virt.W *ᵥ w.pres f X) w.nearby (𝓝 0) := by
      simp only [dotProduct, mulVec]
      have := tendsto_finsetSum (Finset.univ : Finset (Fin (w.fh f).virt.dim)) fun l _ => (pres_lim hs h l).mul
        (tendsto_finsetSum (Finset.univ : Finset (Fin (w.fh f).virt.dim)) fun m _ => (pres_lim hs h m).const_mul ((w.fh f).virt.W l m))
      simpa using this
    have := k.const_mul (0.5 : ℝ)
    rw [mul_zero] at this
    exact this
  have h2 := h1.sqrt
  rw [Real.sqrt_zero] at h2
  have e1 : Real.sqrt (factorChi2 (w.fh f).virt.W (w.pres f w.here)) = 0 := by
    rw [e0, factorChi2, zero_dotProduct, mul_zero, Real.sqrt_zero]
  have h3 := (robustWeight_continuous hr (w.fh f).weight).tendsto.comp h2
  have e2 : w.pwt f w.here = robustWeight (w.fh f).virt.robust (w.fh f).weight 0 := by rw [pwt, e1]
  rw [e2]
  exact h3

theorem coef_lim (hr : (w.fh f).virt.robust ≠ .ransac) (c : Cols w) (l : Fin (w.fh f).virt.dim) :
    Tendsto (fun X => ((w.pjac f X)ᵀ * (w.pwt f X • (w.fh f).virt.W)) c l) w.nearby
      (𝓝 (((w.pjac f w.here)ᵀ * (w.pwt f w.here • (w.fh f).virt.W)) c l)) := by
  simp only [Matrix.mul_apply, transpose_apply, Matrix.smul_apply, smul_eq_mul]
  exact tendsto_finsetSum _ fun m _ => (pjac_lim hs h m c).mul ((pwt_lim hs h hr).mul tendsto_const_nhds)

end factor

/-- Spatial graphs without residuals. -/
structure SpatialSolved (w : World) : Prop where
  spatial : Spatial w
  agrees : ∀ f ∈ w.g.factors, AgreesSpatial w.here (w.fh f).virt (w.fh f).nbrs
  robust : NoRansac w

namespace SpatialSolved

variable (h : SpatialSolved w)
include h

theorem pH_lim (c d : Cols w) : Tendsto (fun X => w.pH X c d) w.nearby (𝓝 (w.pH w.here c d)) := by
  simp only [pH, Solved.list_sum_apply2]
  refine list_lim _ fun f hf => ?_
  simp only [Matrix.mul_apply (M := (w.pjac f _)ᵀ * (w.pwt f _ • (w.fh f).virt.W))]
  exact tendsto_finsetSum _ fun l _ => (coef_lim h.spatial (h.agrees f hf) (h.robust f hf) c l).mul (pjac_lim h.spatial (h.agrees f hf) l d)

theorem pb_small : (fun X => w.pb X - w.pH X *ᵥ w.errs X) =o[w.nearby] fun X => ‖w.errs X‖ := by
  have e : ∀ X, w.pb X - w.pH X *ᵥ w.errs X = (w.g.factors.map fun f =>
      ((w.pjac f X)ᵀ * (w.pwt f X • (w.fh f).virt.W)) *ᵥ (w.pres f X - w.pjac f X *ᵥ w.errs X)).sum := by
    intro X
    rw [pb, pH, list_sum_mulVec, list_sum_sub]
    refine congrArg List.sum (List.map_congr_left fun f _ => ?_)
    rw [mulVec_sub, mulVec_mulVec]
  simp only [e]
  refine list_small (F := w.nearby) w.g.factors (f := fun f X =>
      ((w.pjac f X)ᵀ * (w.pwt f X • (w.fh f).virt.W)) *ᵥ (w.pres f X - w.pjac f X *ᵥ w.errs X)) fun f hf => ?_
  refine isLittleO_pi.mpr fun c => ?_
  change (fun X => ∑ l, ((w.pjac f X)ᵀ * (w.pwt f X • (w.fh f).virt.W)) c l * (w.pres f X - w.pjac f X *ᵥ w.errs X) l) =o[w.nearby] w.errNorm
  refine IsLittleO.fun_sum fun l _ => ?_
  have := ((coef_lim h.spatial (h.agrees f hf) (h.robust f hf) c l).isBigO_one ℝ).mul_isLittleO (pres_small h.spatial (h.agrees f hf) l)
  simp only [one_mul] at this
  exact this

/-- The solution of the normal equations. -/
theorem newton (hdet : (infoMatrix (graphTerms w)).det ≠ 0) : (∀ᶠ X in w.nearby, (w.pH X).det ≠ 0) ∧
    (fun X => w.errs X - (w.pH X)⁻¹ *ᵥ w.pb X) =o[w.nearby] w.errNorm :=
  newton_filter h.pH_lim (by rwa [pH_here]) h.pb_small

end SpatialSolved

end World

end Mrob
