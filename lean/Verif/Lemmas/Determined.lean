import Verif.Spec.Determined
import Verif.Lemmas.Smooth
import Verif.Lemmas.Parts
import Verif.Lemmas.SO3Hist
import Verif.Lemmas.PlaneGrad
import Verif.Props.GaussNewton
import Mathlib.LinearAlgebra.Matrix.ToLinearEquiv

/-!
# Graphs that determine their nodes
-/

open Matrix

namespace Mrob

open World Spec

/-! ### Poses with an invertible rotation block -/

/-- The rotation block is invertible and the last row is that of a rigid motion. -/
def Solid (X : SE3) : Prop := X.R.det ≠ 0 ∧ LastRow X.T

theorem Solid.of_rigid {X : SE3} (h : IsRigid X.T) : Solid X := by
  refine ⟨?_, h.lastRow⟩
  have h1 : (tl3 X.T).det = 1 := h.1.2
  change (tl3 X.T).det ≠ 0
  rw [h1]
  exact one_ne_zero

theorem solid_homog {A : Mat3} (hA : A.det ≠ 0) (v : Vec3) : Solid ⟨homog A v 1⟩ := by
  refine ⟨?_, lastRow_homog A v⟩
  change (tl3 (homog A v 1)).det ≠ 0
  rwa [tl3_homog]

theorem det_ofVec_ne (w : Vec3) : (SO3.ofVec w).R.det ≠ 0 := by
  intro h
  have := det_ofVec w
  rw [h] at this
  norm_num at this

/-- Every pose made by `regenerate`, whatever it is made from. -/
theorem solid_regenerate (X : SE3) : Solid X.regenerate := solid_homog (det_ofVec_ne _) _

theorem Solid.inv {X : SE3} (h : Solid X) : Solid X.inv := solid_homog (by rw [det_transpose]; exact h.1) _

theorem tl3_mul {A B : Mat4} (hB : LastRow B) : tl3 (A * B) = tl3 A * tl3 B := by
  ext i j
  simp [tl3, toBlocks₁₁, Matrix.mul_apply, Fintype.sum_sum_type, hB.1]

theorem Solid.mul {X Y : SE3} (hX : Solid X) (hY : Solid Y) : Solid (X.mul Y) := by
  refine ⟨?_, hX.2.mul hY.2⟩
  have : (X.mul Y).R = X.R * Y.R := tl3_mul hY.2
  rw [this, det_mul]
  exact mul_ne_zero hX.1 hY.1

theorem Solid.det_adj {X : SE3} (h : Solid X) : X.adj.det ≠ 0 := by
  rw [SE3.adj, det_fromBlocks_zero₁₂]
  exact mul_ne_zero h.1 h.1

theorem Solid.det_T {X : SE3} (h : Solid X) : X.T.det ≠ 0 := by
  have e : X.T = fromBlocks X.R (Matrix.of fun i _ => X.t i) 0 1 := by
    ext i j
    rcases i with i | ⟨⟩ <;> rcases j with j | ⟨⟩
    · rfl
    · rfl
    · exact h.2.1 j
    · exact h.2.2
  rw [e, det_fromBlocks_zero₂₁, det_one, mul_one]
  exact h.1

/-! ### Blocks -/

theorem at6_bijective : Function.Bijective at6 := by decide
theorem at4_bijective : Function.Bijective at4 := by decide

theorem det_at6 (M : Mat6) : (M.submatrix at6 at6).det = M.det :=
  det_submatrix_equiv_self (Equiv.ofBijective at6 at6_bijective) M

theorem det_at4 (M : Mat4) : (M.submatrix at4 at4).det = M.det :=
  det_submatrix_equiv_self (Equiv.ofBijective at4 at4_bijective) M

theorem det_rel2d (x y : Vec3) : (rel2dJac x y).1.det ≠ 0 ∧ (rel2dJac x y).2.det ≠ 0 := by
  have h := Real.sin_sq_add_cos_sq (x 2)
  constructor
  · have : (rel2dJac x y).1.det = -1 := by
      rw [rel2dJac, det_fin_three]
      simp
      linear_combination -h
    rw [this]; norm_num
  · have : (rel2dJac x y).2.det = 1 := by
      rw [rel2dJac, det_fin_three]
      simp
      linear_combination h
    rw [this]; norm_num

theorem det_odom (obs x : Vec3) : (odomJac obs x).1.det ≠ 0 ∧ (odomJac obs x).2.det ≠ 0 := by
  constructor
  · have : (odomJac obs x).1.det = 1 := by
      rw [odomJac, det_fin_three]
      simp
    rw [this]; norm_num
  · have : (odomJac obs x).2.det = -1 := by
      rw [odomJac, det_fin_three]
      simp
    rw [this]; norm_num

theorem det_land2d (x : Vec3) (y : Vec2) : (land2dJac x y).2.det ≠ 0 := by
  rw [land2dJac]
  split_ifs with h
  · simp
  · generalize y 0 - x 0 = dx at h ⊢
    generalize y 1 - x 1 = dy at h ⊢
    have hq : 0 < dx * dx + dy * dy := by
      have : (0 : ℝ) < 1e-6 := by norm_num
      linarith [not_lt.mp h]
    have hs := Real.sqrt_pos.mpr hq
    have e : ∀ q r : ℝ, 0 < r → q = dx * dx + dy * dy → (!![dx / r, dy / r; -dy / q, dx / q]).det = 1 / r := by
      intro q r hr hqe
      have hq' : q ≠ 0 := by rw [hqe]; exact hq.ne'
      rw [det_fin_two]
      simp
      field_simp
      linarith
    rw [e _ _ hs rfl]
    positivity

theorem det_prior2d : prior2dJac.det ≠ 0 := by rw [prior2dJac, det_one]; norm_num

theorem det_prior3d : (prior3dJac.submatrix at6 at6).det ≠ 0 := by rw [det_at6, prior3dJac, det_one]; norm_num

theorem det_rel3d_first (Tobs X Y : SE3) : ((rel3dJac Tobs X Y).1.submatrix at6 at6).det ≠ 0 := by
  rw [det_at6, rel3dJac, det_one]; norm_num

theorem det_rel3d_second {Tobs X Y : SE3} (hT : Solid Tobs) (hX : Solid X) (hY : Solid Y) :
    ((rel3dJac Tobs X Y).2.submatrix at6 at6).det ≠ 0 := by
  rw [det_at6, rel3dJac]
  dsimp only
  rw [det_neg]
  exact mul_ne_zero (pow_ne_zero _ (by norm_num)) ((hX.mul hT).mul hY.inv).det_adj

theorem det_plane4d {X : SE3} (hX : Solid X) (p : Vec4) : ((planeJac X p).2.submatrix at4 at4).det ≠ 0 := by
  rw [det_at4, planeJac]
  dsimp only
  rw [det_transpose]
  exact hX.det_T

namespace World

variable {w : World}

theorem zero_row1 {d : ℕ} {δ : Cols w → ℝ} {n : NRef} (hd : (w.nh n).dim = d) {M : Matrix (Fin d) (Fin d) ℝ} (hM : M.det ≠ 0)
    (h0 : ∀ l, w.rowApply δ (blk M l) 0 [n] = 0) : ∀ k, w.spread δ n k = 0 := by
  have h1 : M *ᵥ (fun k : Fin d => w.spread δ n k) = 0 := by
    funext l
    rw [← row1 δ hd]
    exact h0 l
  have h2 := Matrix.eq_zero_of_mulVec_eq_zero hM h1
  intro k
  by_cases hk : k < d
  · exact congrFun h2 ⟨k, hk⟩
  · rw [spread, dif_neg (by rw [hd]; tauto)]

theorem zero_right {d e : ℕ} {δ : Cols w → ℝ} {n m : NRef} (hd : (w.nh n).dim = e) (he : (w.nh m).dim = d)
    {M : Matrix (Fin d) (Fin e) ℝ} {K : Matrix (Fin d) (Fin d) ℝ} (hK : K.det ≠ 0)
    (h0 : ∀ l, w.rowApply δ (blk2 M K l) 0 [n, m] = 0) (hk : ∀ k, w.spread δ n k = 0) : ∀ k, w.spread δ m k = 0 := by
  have h1 : K *ᵥ (fun k : Fin d => w.spread δ m k) = 0 := by
    funext l
    have := h0 l
    rw [row2 δ hd he] at this
    simp only [hk] at this
    rw [show (fun _ : Fin e => (0 : ℝ)) = 0 from rfl, mulVec_zero, Pi.zero_apply, zero_add] at this
    exact this
  have h2 := Matrix.eq_zero_of_mulVec_eq_zero hK h1
  intro k
  by_cases hk : k < d
  · exact congrFun h2 ⟨k, hk⟩
  · rw [spread, dif_neg (by rw [he]; tauto)]

theorem zero_left {d e : ℕ} {δ : Cols w → ℝ} {n m : NRef} (hd : (w.nh n).dim = d) (he : (w.nh m).dim = e)
    {M : Matrix (Fin d) (Fin d) ℝ} {K : Matrix (Fin d) (Fin e) ℝ} (hM : M.det ≠ 0)
    (h0 : ∀ l, w.rowApply δ (blk2 M K l) 0 [n, m] = 0) (hk : ∀ k, w.spread δ m k = 0) : ∀ k, w.spread δ n k = 0 := by
  have h1 : M *ᵥ (fun k : Fin d => w.spread δ n k) = 0 := by
    funext l
    have := h0 l
    rw [row2 δ hd he] at this
    simp only [hk] at this
    rw [show (fun _ : Fin e => (0 : ℝ)) = 0 from rfl, mulVec_zero, Pi.zero_apply, add_zero] at this
    exact this
  have h2 := Matrix.eq_zero_of_mulVec_eq_zero hM h1
  intro k
  by_cases hk : k < d
  · exact congrFun h2 ⟨k, hk⟩
  · rw [spread, dif_neg (by rw [hd]; tauto)]

/-- The linearised measurement fixes the increment of the node. -/
theorem fixes_zero {V : FactorVirt} {nbrs known : List NRef} {m : NRef} (h : Fixes V nbrs known m)
    (ht : nbrs.map (fun n => (w.nh n).kind) = V.kinds)
    (hs : ∀ n ∈ nbrs, ∀ X : SE3, (w.nh n).val = ⟨.pose3d, X⟩ → Solid X) (δ : Cols w → ℝ)
    (h0 : ∀ l, w.rowApply δ (V.jac (nbrs.map fun n => (w.nh n).val) l) 0 nbrs = 0)
    (hk : ∀ n ∈ known, ∀ k, w.spread δ n k = 0) : ∀ k, w.spread δ m k = 0 := by
  cases h with
  | prior2d =>
    obtain ⟨x, hx⟩ := val_of_kind (List.cons.inj ht).1
    exact zero_row1 (d := 3) (dim_of_val hx) det_prior2d h0
  | prior3d =>
    obtain ⟨x, hx⟩ := val_of_kind (List.cons.inj ht).1
    exact zero_row1 (d := 6) (dim_of_val hx) det_prior3d h0
  | @rel2d obs W ty n =>
    obtain ⟨x, hx⟩ := val_of_kind (List.cons.inj ht).1
    obtain ⟨y, hy⟩ := val_of_kind (List.cons.inj (List.cons.inj ht).2).1
    simp only [List.map_cons, List.map_nil, hx, hy] at h0
    exact zero_right (d := 3) (e := 3) (dim_of_val hx) (dim_of_val hy) (det_rel2d x y).2 h0 (hk _ (by simp))
  | @rel2dBack obs W ty _ m =>
    obtain ⟨x, hx⟩ := val_of_kind (List.cons.inj ht).1
    obtain ⟨y, hy⟩ := val_of_kind (List.cons.inj (List.cons.inj ht).2).1
    simp only [List.map_cons, List.map_nil, hx, hy] at h0
    exact zero_left (d := 3) (e := 3) (dim_of_val hx) (dim_of_val hy) (det_rel2d x y).1 h0 (hk _ (by simp))
  | odom =>
    obtain ⟨x, hx⟩ := val_of_kind (List.cons.inj ht).1
    obtain ⟨y, hy⟩ := val_of_kind (List.cons.inj (List.cons.inj ht).2).1
    simp only [List.map_cons, List.map_nil, hx, hy] at h0
    exact zero_right (d := 3) (e := 3) (dim_of_val hx) (dim_of_val hy) (det_odom _ x).2 h0 (hk _ (by simp))
  | odomBack =>
    obtain ⟨x, hx⟩ := val_of_kind (List.cons.inj ht).1
    obtain ⟨y, hy⟩ := val_of_kind (List.cons.inj (List.cons.inj ht).2).1
    simp only [List.map_cons, List.map_nil, hx, hy] at h0
    exact zero_left (d := 3) (e := 3) (dim_of_val hx) (dim_of_val hy) (det_odom _ x).1 h0 (hk _ (by simp))
  | @rel3d Tobs W ty n m hT =>
    obtain ⟨x, hx⟩ := val_of_kind (List.cons.inj ht).1
    obtain ⟨y, hy⟩ := val_of_kind (List.cons.inj (List.cons.inj ht).2).1
    simp only [List.map_cons, List.map_nil, hx, hy] at h0
    have hX := hs _ (by simp) x hx
    have hY := hs _ (by simp) y hy
    exact zero_right (d := 6) (e := 6) (dim_of_val hx) (dim_of_val hy) (det_rel3d_second (.of_rigid hT) hX hY) h0 (hk _ (by simp))
  | @rel3dBack Tobs =>
    obtain ⟨x, hx⟩ := val_of_kind (List.cons.inj ht).1
    obtain ⟨y, hy⟩ := val_of_kind (List.cons.inj (List.cons.inj ht).2).1
    simp only [List.map_cons, List.map_nil, hx, hy] at h0
    exact zero_left (d := 6) (e := 6) (dim_of_val hx) (dim_of_val hy) (det_rel3d_first Tobs x y) h0 (hk _ (by simp))
  | land2d =>
    obtain ⟨x, hx⟩ := val_of_kind (List.cons.inj ht).1
    obtain ⟨y, hy⟩ := val_of_kind (List.cons.inj (List.cons.inj ht).2).1
    simp only [List.map_cons, List.map_nil, hx, hy] at h0
    exact zero_right (d := 2) (e := 3) (dim_of_val hx) (dim_of_val hy) (det_land2d x y) h0 (hk _ (by simp))
  | land2dRev =>
    obtain ⟨y, hy⟩ := val_of_kind (List.cons.inj ht).1
    obtain ⟨x, hx⟩ := val_of_kind (List.cons.inj (List.cons.inj ht).2).1
    simp only [List.map_cons, List.map_nil, hx, hy] at h0
    exact zero_left (d := 2) (e := 3) (dim_of_val hy) (dim_of_val hx) (det_land2d x y) h0 (hk _ (by simp))
  | land3d =>
    obtain ⟨x, hx⟩ := val_of_kind (List.cons.inj ht).1
    obtain ⟨y, hy⟩ := val_of_kind (List.cons.inj (List.cons.inj ht).2).1
    simp only [List.map_cons, List.map_nil, hx, hy] at h0
    exact zero_right (d := 3) (e := 6) (dim_of_val hx) (dim_of_val hy) (K := (land3dJac x y).2) (hs _ (by simp) x hx).inv.1 h0 (hk _ (by simp))
  | land3dRev =>
    obtain ⟨y, hy⟩ := val_of_kind (List.cons.inj ht).1
    obtain ⟨x, hx⟩ := val_of_kind (List.cons.inj (List.cons.inj ht).2).1
    simp only [List.map_cons, List.map_nil, hx, hy] at h0
    exact zero_left (d := 3) (e := 6) (dim_of_val hy) (dim_of_val hx) (M := (land3dJac x y).2) (hs _ (by simp) x hx).inv.1 h0 (hk _ (by simp))
  | plane4d =>
    obtain ⟨x, hx⟩ := val_of_kind (List.cons.inj ht).1
    obtain ⟨y, hy⟩ := val_of_kind (List.cons.inj (List.cons.inj ht).2).1
    simp only [List.map_cons, List.map_nil, hx, hy] at h0
    exact zero_right (d := 4) (e := 6) (dim_of_val hx) (dim_of_val hy) (det_plane4d (hs _ (by simp) x hx) y) h0 (hk _ (by simp))
  | plane4dRev =>
    obtain ⟨y, hy⟩ := val_of_kind (List.cons.inj ht).1
    obtain ⟨x, hx⟩ := val_of_kind (List.cons.inj (List.cons.inj ht).2).1
    simp only [List.map_cons, List.map_nil, hx, hy] at h0
    exact zero_left (d := 4) (e := 6) (dim_of_val hy) (dim_of_val hx) (det_plane4d (hs _ (by simp) x hx) y) h0 (hk _ (by simp))

/-- An increment that no measurement sees is zero at every tied node. -/
theorem tied_zero (ht : ∀ f ∈ w.g.factors, (w.fh f).wellTyped w.nh)
    (hs : ∀ f ∈ w.g.factors, ∀ n ∈ (w.fh f).nbrs, ∀ X : SE3, (w.nh n).val = ⟨.pose3d, X⟩ → Solid X) {δ : Cols w → ℝ}
    (h0 : ∀ f ∈ w.g.factors, (w.fh f).virt.W.PosDef → (w.fh f).virt.robust ≠ .ransac → (factorTerm w f).J *ᵥ δ = 0) {n : NRef}
    (h : Tied w n) : ∀ k, w.spread δ n k = 0 := by
  induction h with
  | known hn => exact spread_of_notMem δ hn
  | @measured f known m hf hW hr hfix _ ih =>
    refine fixes_zero hfix (ht f hf) (hs f hf) δ (fun l => ?_) ih
    have := congrFun (h0 f hf hW hr) l
    rw [term_mulVec] at this
    exact this

end World

/-- The quadratic form of the information matrix. -/
theorem infoMatrix_form {C : Type} [Fintype C] (ts : List (Term C)) (x : C → ℝ) :
    x ⬝ᵥ (infoMatrix ts *ᵥ x) = (ts.map fun t => (t.J *ᵥ x) ⬝ᵥ (t.W *ᵥ (t.J *ᵥ x))).sum := by
  unfold infoMatrix
  induction ts with
  | nil => simp
  | cons t ts ih =>
    rw [List.map_cons, List.sum_cons, List.map_cons, List.sum_cons, add_mulVec, dotProduct_add, ih]
    congr 1
    rw [Matrix.mul_assoc, ← mulVec_mulVec, ← mulVec_mulVec, dotProduct_mulVec, vecMul_transpose]

/-- Poses whose rotation block is invertible. -/
def SolidPoses (w : World) : Prop :=
  ∀ f ∈ w.g.factors, ∀ n ∈ (w.fh f).nbrs, ∀ X : SE3, (w.nh n).val = ⟨.pose3d, X⟩ → Solid X

theorem posDef_of_tied {w : World} (hw : WellPosed w) (hs : SolidPoses w) (ht : ∀ n ∈ w.g.active, Tied w n) :
    (infoMatrix (graphTerms w)).PosDef := by
  have hpsd := FGraphSolve.terms_psd hw
  refine Matrix.PosDef.of_dotProduct_mulVec_pos hpsd.isHermitian fun x hx => ?_
  rw [star_trivial]
  have h1 := hpsd.dotProduct_mulVec_nonneg x
  rw [star_trivial] at h1
  refine lt_of_le_of_ne h1 fun h0 => hx ?_
  rw [infoMatrix_form, graphTerms, List.map_map] at h0
  have hnn : ∀ f ∈ w.g.factors, 0 ≤ ((fun t : Term (Cols w) => (t.J *ᵥ x) ⬝ᵥ (t.W *ᵥ (t.J *ᵥ x))) ∘ factorTerm w) f := by
    intro f hf
    have := ((hw.psd f hf).smul (robustWeight_nonneg (w.fh f).virt.robust (hw.weight f hf)
      (Real.sqrt_nonneg (factorChi2 (w.fh f).virt.W ((w.fh f).virt.res ((w.fh f).vals w.nh)))))).dotProduct_mulVec_nonneg
        ((factorTerm w f).J *ᵥ x)
    rw [star_trivial] at this
    exact this
  have hz : ∀ f ∈ w.g.factors, (w.fh f).virt.W.PosDef → (w.fh f).virt.robust ≠ .ransac → (factorTerm w f).J *ᵥ x = 0 := by
    intro f hf hW hr
    by_contra hne
    have h2 := (List.all_zero_of_le_zero_le_of_sum_eq_zero (by
      intro t ht
      obtain ⟨f, hf, rfl⟩ := List.mem_map.mp ht
      exact hnn f hf) h0.symm) (List.mem_map_of_mem hf)
    have hpos : 0 < factorWeight w f := (C24_weight_partial _ hr _ _ _ (Real.sqrt_nonneg _) le_rfl).1
    have h3 := (hW.smul hpos).dotProduct_mulVec_pos hne
    rw [star_trivial] at h3
    exact h3.ne' h2
  funext c
  have := tied_zero hw.wired.typed hs hz (ht c.1 c.1.2) c.2
  rwa [spread_apply] at this

/-! ### Preservation by the solver -/

theorem _root_.Spec.Tied.of_frame {w w' : World} (hF : Frame w w') {n : NRef} (h : Tied w n) : Tied w' n := by
  induction h with
  | known hn => exact .known (by rw [hF.factors.g]; exact hn)
  | @measured f known m hf hW hr hfix _ ih =>
    refine .measured (f := f) (known := known) (by rw [hF.factors.g]; exact hf) ?_ ?_ ?_ ih
    · rw [hF.factors.virt]; exact hW
    · rw [hF.factors.virt]; exact hr
    · rw [hF.factors.virt, hF.factors.nbrs]; exact hfix

theorem solid_moved {w : World} (hs : SolidPoses w) {δ : NRef → ℕ → ℝ} {w' : World} (hF : SameFactors w w')
    (hv : ∀ n, (w'.nh n).val = ((w.moved δ).nh n).val) : SolidPoses w' := by
  intro f hf n hn X hX
  rw [hF.g] at hf
  rw [hF.nbrs] at hn
  rw [hv] at hX
  change (if n ∈ w.g.active then (w.nh n).update (δ n) else w.nh n).val = _ at hX
  split at hX
  · revert hX
    generalize w.nh n = c
    rcases c with ⟨k, obj, id, mode, nb⟩
    cases k with
    | pose3d =>
      intro hX
      have : X = (obj.state.updateLhs (NodeKind.ofFlat .pose3d (δ n))).regenerate := by
        have := eq_of_heq (Sigma.mk.inj hX).2
        exact this.symm
      rw [this]
      exact solid_regenerate _
    | pose2d => exact fun hX => absurd (Sigma.mk.inj hX).1 NodeKind.noConfusion
    | landmark2d => exact fun hX => absurd (Sigma.mk.inj hX).1 NodeKind.noConfusion
    | landmark3d => exact fun hX => absurd (Sigma.mk.inj hX).1 NodeKind.noConfusion
    | plane4d => exact fun hX => absurd (Sigma.mk.inj hX).1 NodeKind.noConfusion
  · exact hs f hf n hn X hX

namespace FGraphSolve

theorem trial_keeps {env : Env} {s s' : FGraphSolve} {delta : ℝ} (hw : WellPosed s.w) (h : s.trial env = .ok (delta, s')) :
    WellPosed s'.w ∧ ∃ δ, ∀ n, (s'.w.nh n).val = ((s.w.moved δ).nh n).val := by
  have h0 := h
  rw [FGraphSolve.trial] at h0
  obtain ⟨s1, h1, -⟩ := Out.bind_eq_ok.mp h0
  obtain ⟨a, dx, h2, h3, -, -⟩ := FGraphSolve.gaussNewton_ok h1
  rw [buildAdjacency_wired hw.wired hw.weightable env, Out.ok.injEq, Prod.mk.injEq] at h2
  obtain ⟨-, rfl⟩ := h2
  obtain ⟨s2, h4, h5, h6, h7⟩ := FGraphSolve.trial_eq hw h3
  have hF := FGraphSolve.trial_frame h
  rw [h, Out.ok.injEq, Prod.mk.injEq] at h4
  obtain ⟨rfl, rfl⟩ := h4
  exact ⟨hw.of_frame hF fun f hf => by rw [h6]; exact hw.built_weight f hf, _, h5⟩

theorem reject_keeps {env : Env} {s s' : FGraphSolve} {delta : ℝ} (hs : SolidPoses s.w) (hw' : WellPosed s'.w)
    (h : s.trial env = .ok (delta, s')) : WellPosed s'.reject.w ∧ SolidPoses s'.reject.w := by
  constructor
  · refine hw'.of_frame (reject_frame _) fun f hf => ?_
    have : s'.reject.w.fh f = s'.w.fh f := by
      change s'.w.syncState.fh f = _
      rw [syncState_eq]
    rw [this]; exact hw'.weight f hf
  · have hF := ((trial_frame h).trans (reject_frame s')).factors
    intro f hf n hn X hX
    rw [hF.g] at hf
    rw [hF.nbrs] at hn
    rw [reject_val h] at hX
    refine hs f hf n hn X ?_
    split at hX
    · revert hX
      generalize (s.w.nh n).val = v
      rcases v with ⟨k, x⟩
      cases k <;> intro hX <;> first | exact hX | exact absurd (Sigma.mk.inj hX).1 NodeKind.noConfusion
    · exact hX

theorem LMRun.keeps {env : Env} {maxIters iter : ℕ} {s : FGraphSolve} {r : LMResult} (h : LMRun env maxIters iter s r) :
    WellPosed s.w → SolidPoses s.w → WellPosed r.s.w ∧ SolidPoses r.s.w := by
  have key : ∀ {s s' : FGraphSolve} {delta : ℝ}, WellPosed s.w → SolidPoses s.w → s.trial env = .ok (delta, s') →
      WellPosed s'.w ∧ SolidPoses s'.w := by
    intro s s' delta hw hs h
    obtain ⟨h1, δ, h2⟩ := trial_keeps hw h
    exact ⟨h1, solid_moved hs (trial_frame h).factors h2⟩
  induction h with
  | rejectLast h1 => exact fun hw hs => reject_keeps hs (key hw hs h1).1 h1
  | rejectNext h1 _ _ _ ih =>
    intro hw hs
    obtain ⟨a, b⟩ := reject_keeps hs (key hw hs h1).1 h1
    exact ih a b
  | converged h1 => exact fun hw hs => key hw hs h1
  | acceptLast h1 =>
    intro hw hs
    obtain ⟨a, b⟩ := key hw hs h1
    exact ⟨a, b⟩
  | acceptNext h1 _ _ _ _ ih =>
    intro hw hs
    obtain ⟨a, b⟩ := key hw hs h1
    exact ih a b

theorem solve_keeps {env : Env} {method : Method} {k : ℕ} {l t : ℝ} {s s' : FGraphSolve} (hw : WellPosed s.w)
    (hs : SolidPoses s.w) (h : s.solve env method k l t = .ok s') : WellPosed s'.w ∧ SolidPoses s'.w := by
  have hF := solve_frame h
  cases method with
  | GN =>
    obtain ⟨dx, -, h2⟩ := gn_ok hw h
    refine ⟨hw.of_frame hF fun f hf => ?_, solid_moved (δ := s.w.unstack dx) hs hF.factors fun n => by rw [h2]; rfl⟩
    rw [h2]
    exact hw.built_weight f hf
  | LM =>
    change (levenbergMarquardt env k _ >>= fun r => Out.ok r.s) = _ at h
    obtain ⟨r, h1, h2⟩ := Out.bind_eq_ok.mp h
    rw [Out.ok.injEq] at h2
    subst h2
    exact (lmLoop_run _ _ _ _ rfl h1).keeps hw hs

theorem solve_returns {env : Env} (hcomp : env.Complete) {s : FGraphSolve} (hw : WellPosed s.w) (hs : SolidPoses s.w)
    (ht : ∀ n ∈ s.w.g.active, Tied s.w n) (method : Method) (k : ℕ) (l t : ℝ) :
    ∃ s', s.solve env method k l t = .ok s' ∧ WellPosed s'.w ∧ SolidPoses s'.w ∧ ∀ n ∈ s'.w.g.active, Tied s'.w n := by
  have h1 : ∃ s', s.solve env method k l t = .ok s' := by
    cases method with
    | GN => exact C36_returns env hcomp s hw (posDef_of_tied hw hs ht) k l t
    | LM =>
      obtain ⟨r, hr⟩ := lmLoop_total hcomp k _ 0 ⟨s.w, 1e-5, t, s.sys, s.mats⟩ rfl hw (by norm_num)
      refine ⟨r.s, ?_⟩
      change (levenbergMarquardt env k _ >>= fun r => Out.ok r.s) = _
      rw [levenbergMarquardt]
      change (lmLoop env k 0 ⟨s.w, 1e-5, t, s.sys, s.mats⟩ >>= _) = _
      rw [hr]
      rfl
  obtain ⟨s', h⟩ := h1
  obtain ⟨a, b⟩ := solve_keeps hw hs h
  have hF := solve_frame h
  refine ⟨s', h, a, b, fun n hn => (ht n ?_).of_frame hF⟩
  rw [hF.factors.g] at hn
  exact hn

theorem gn_nan {env : Env} {s : FGraphSolve} (hw : WellPosed s.w) (k : ℕ) (l t : ℝ)
    (h : env.chol _ (s.w.assembly env).L (s.w.assembly env).b = none) : s.solve env .GN k l t = .nan := by
  change (FGraphSolve.gaussNewton env false ⟨s.w, l, t, s.sys, s.mats⟩ >>= fun s => s.update) = _
  have hg : FGraphSolve.gaussNewton env false ⟨s.w, l, t, s.sys, s.mats⟩ = .nan := by
    rw [gaussNewton]
    dsimp only
    rw [buildAdjacency_wired hw.wired hw.weightable env, Out.ok_bind]
    dsimp only
    rw [if_neg Bool.false_ne_true]
    split
    · rename_i dx hdx
      exact absurd (h.symm.trans hdx) (Option.some_ne_none _).symm
    · rfl
  rw [hg]
  rfl

end FGraphSolve

/-! ### Increments that no measurement sees -/

theorem det_of_unseen {w : World} {δ : Cols w → ℝ} (hne : δ ≠ 0) (h : ∀ f ∈ w.g.factors, (factorTerm w f).J *ᵥ δ = 0) :
    (infoMatrix (graphTerms w)).det = 0 := by
  refine Matrix.exists_mulVec_eq_zero_iff.mp ⟨δ, hne, ?_⟩
  funext c
  rw [Spec.infoMatrix_mulVec_apply, Pi.zero_apply]
  refine List.sum_eq_zero fun x hx => ?_
  obtain ⟨t, ht, rfl⟩ := List.mem_map.mp hx
  obtain ⟨f, hf, rfl⟩ := List.mem_map.mp ht
  rw [h f hf, mulVec_zero, mulVec_zero, Pi.zero_apply]

/-- A common displacement of all nodes along the first axis. -/
def commonX (w : World) : Cols w → ℝ := fun c => if (c.2 : ℕ) = 0 then 1 else 0

theorem spread_commonX {w : World} {n : NRef} (hn : n ∈ w.g.active) (k : ℕ) :
    w.spread (commonX w) n k = if k = 0 then 1 else 0 := by
  rw [spread]
  split_ifs with h1 h2 h2
  · exact if_pos h2
  · exact if_neg h2
  · subst h2
    exact absurd ⟨hn, NodeCell.dim_pos _⟩ h1
  · rfl

theorem relative_zero {w : World} {V : FactorVirt} {nbrs : List NRef} (h : Relative w V nbrs)
    (ht : nbrs.map (fun n => (w.nh n).kind) = V.kinds) (ha : ∀ n ∈ nbrs, n ∈ w.g.active) (l : Fin V.dim) :
    w.rowApply (commonX w) (V.jac (nbrs.map fun n => (w.nh n).val) l) 0 nbrs = 0 := by
  have e3 : (fun k : Fin 3 => if (k : ℕ) = 0 then (1 : ℝ) else 0) = ![1, 0, 0] := by
    funext k; fin_cases k <;> simp
  have e2 : (fun k : Fin 2 => if (k : ℕ) = 0 then (1 : ℝ) else 0) = ![1, 0] := by
    funext k; fin_cases k <;> simp
  cases h with
  | @rel2d obs W ty n m =>
    obtain ⟨x, hx⟩ := val_of_kind (List.cons.inj ht).1
    obtain ⟨y, hy⟩ := val_of_kind (List.cons.inj (List.cons.inj ht).2).1
    simp only [List.map_cons, List.map_nil, hx, hy]
    refine (row2 _ (d := 3) (e := 3) (dim_of_val hx) (dim_of_val hy) (rel2dJac x y).1 (rel2dJac x y).2 l).trans ?_
    simp only [spread_commonX (ha n (by simp)), spread_commonX (ha m (by simp)), e3]
    revert l
    intro (l : Fin 3)
    fin_cases l <;> simp [rel2dJac]
  | @odom obs W ty n m =>
    obtain ⟨x, hx⟩ := val_of_kind (List.cons.inj ht).1
    obtain ⟨y, hy⟩ := val_of_kind (List.cons.inj (List.cons.inj ht).2).1
    simp only [List.map_cons, List.map_nil, hx, hy]
    refine (row2 _ (d := 3) (e := 3) (dim_of_val hx) (dim_of_val hy) (odomJac obs x).1 (odomJac obs x).2 l).trans ?_
    simp only [spread_commonX (ha n (by simp)), spread_commonX (ha m (by simp)), e3]
    revert l
    intro (l : Fin 3)
    fin_cases l <;> simp [odomJac]
  | @land2d obs W ty n m x y hx hy hq =>
    simp only [List.map_cons, List.map_nil, hx, hy]
    refine (row2 _ (d := 3) (e := 2) (dim_of_val hx) (dim_of_val hy) (land2dJac x y).1 (land2dJac x y).2 l).trans ?_
    simp only [spread_commonX (ha n (by simp)), spread_commonX (ha m (by simp)), e3, e2]
    have hq' : ¬ (y 0 - x 0) * (y 0 - x 0) + (y 1 - x 1) * (y 1 - x 1) < 1e-6 := by
      rw [not_lt, ← sq, ← sq]; exact hq
    revert l
    intro (l : Fin 2)
    rw [land2dJac, if_neg hq']
    fin_cases l <;> simp <;> ring
  | @land2dRev obs W ty n m x y hx hy hq =>
    simp only [List.map_cons, List.map_nil, hx, hy]
    refine (row2 _ (d := 2) (e := 3) (dim_of_val hy) (dim_of_val hx) (land2dJac x y).2 (land2dJac x y).1 l).trans ?_
    simp only [spread_commonX (ha n (by simp)), spread_commonX (ha m (by simp)), e3, e2]
    have hq' : ¬ (y 0 - x 0) * (y 0 - x 0) + (y 1 - x 1) * (y 1 - x 1) < 1e-6 := by
      rw [not_lt, ← sq, ← sq]; exact hq
    revert l
    intro (l : Fin 2)
    rw [land2dJac, if_neg hq']
    fin_cases l <;> simp <;> ring

theorem commonX_ne {w : World} (h : w.g.active ≠ []) : commonX w ≠ 0 := by
  obtain ⟨n, hn⟩ := List.exists_mem_of_ne_nil _ h
  intro h0
  have := congrFun h0 ⟨⟨n, hn⟩, ⟨0, NodeCell.dim_pos _⟩⟩
  exact one_ne_zero (this : (1 : ℝ) = 0)

/-- A displacement of one node along its first coordinate. -/
def shiftOne (w : World) (m : NRef) : Cols w → ℝ := fun c => if (c.1 : NRef) = m ∧ (c.2 : ℕ) = 0 then 1 else 0

theorem rowApply_zero {w : World} {δ : Cols w → ℝ} {nbrs : List NRef} (h : ∀ n ∈ nbrs, ∀ k, w.spread δ n k = 0) (Jl : ℕ → ℝ) :
    ∀ tk, w.rowApply δ Jl tk nbrs = 0 := by
  induction nbrs with
  | nil => intro tk; rfl
  | cons n ns ih =>
    intro tk
    rw [rowApply, ih (fun m hm => h m (List.mem_cons_of_mem _ hm)), add_zero]
    refine Finset.sum_eq_zero fun k _ => ?_
    rw [h n (by simp), mul_zero]

/-- Fewer scalar measurements than unknowns. -/
theorem det_of_few {w : World} (h : (w.g.factors.map fun f => (w.fh f).virt.dim).sum < Fintype.card (Cols w)) :
    (infoMatrix (graphTerms w)).det = 0 := by
  let L : (Cols w → ℝ) →ₗ[ℝ] ((i : Fin w.g.factors.length) → Fin (w.fh w.g.factors[i]).virt.dim → ℝ) :=
    LinearMap.pi fun i => (factorTerm w w.g.factors[i]).J.mulVecLin
  have hc : Module.finrank ℝ ((i : Fin w.g.factors.length) → Fin (w.fh w.g.factors[i]).virt.dim → ℝ) <
      Module.finrank ℝ (Cols w → ℝ) := by
    rw [Module.finrank_pi_fintype, Module.finrank_fintype_fun_eq_card]
    simp only [Module.finrank_fintype_fun_eq_card, Fintype.card_fin]
    refine lt_of_eq_of_lt ?_ h
    rw [← List.sum_ofFn]
    congr 1
    exact List.ofFn_getElem_eq_map _ (fun f => (w.fh f).virt.dim)
  obtain ⟨δ, h1, h2⟩ := (Submodule.ne_bot_iff _).mp (LinearMap.ker_ne_bot_of_finrank_lt (f := L) hc)
  refine det_of_unseen h2 fun f hf => ?_
  obtain ⟨i, hi, rfl⟩ := List.getElem_of_mem hf
  exact congrFun (LinearMap.mem_ker.mp h1) ⟨i, hi⟩

theorem assembly_det {w : World} (hw : WellPosed w) {env : Env} (h : (infoMatrix (graphTerms w)).det = 0) :
    (w.assembly env).L.det = 0 := by
  rw [← assembly_L_terms hw.wired env hw.symm] at h
  have := det_submatrix_equiv_self (colEquiv hw.wired) (w.assembly env).L
  rw [← this]
  exact h

theorem total_eq_sum {α : Type*} (d : α → ℕ) (l : List α) : total d l = (l.map d).sum := by
  induction l with
  | nil => rfl
  | cons a l ih => simp [total, ih]

end Mrob
