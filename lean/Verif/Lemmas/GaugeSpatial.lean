import Verif.Lemmas.GaugePlanar
import Verif.Spec.WorldFrame3d
import Verif.Props.SE3Ln

/-!
# Rigid motions of a graph
-/

open Matrix

namespace Mrob

open World Spec

/-- Coefficients of a square matrix, zero outside. -/
noncomputable def fnOf {n : ℕ} (M : Matrix (Fin n) (Fin n) ℝ) (k j : ℕ) : ℝ := if h : k < n ∧ j < n then M ⟨k, h.1⟩ ⟨j, h.2⟩ else 0

theorem fnOf_val {n : ℕ} (M : Matrix (Fin n) (Fin n) ℝ) (k j : Fin n) : fnOf M k j = M k j := by rw [fnOf, dif_pos ⟨k.2, j.2⟩]

theorem fnOf_mul {n : ℕ} {M K : Matrix (Fin n) (Fin n) ℝ} (h : M * K = 1) (i : ℕ) (hi : i < n) (j : ℕ) (hj : j < n) :
    ∑ k ∈ Finset.range n, fnOf M i k * fnOf K k j = if i = j then 1 else 0 := by
  rw [← Fin.sum_univ_eq_sum_range (fun k => fnOf M i k * fnOf K k j)]
  have e := congrFun (congrFun h ⟨i, hi⟩) ⟨j, hj⟩
  rw [Matrix.mul_apply, Matrix.one_apply] at e
  refine Eq.trans (Finset.sum_congr rfl fun k _ => ?_) (e.trans (if_congr Fin.ext_iff rfl rfl))
  rw [← fnOf_val M, ← fnOf_val K]

theorem fnOf_mulVec {n : ℕ} (M : Matrix (Fin n) (Fin n) ℝ) (δ : ℕ → ℝ) (i : Fin n) :
    ∑ k ∈ Finset.range n, fnOf M i k * δ k = (M *ᵥ fun k : Fin n => δ k) i := by
  rw [← Fin.sum_univ_eq_sum_range (fun k => fnOf M i k * δ k)]
  exact Finset.sum_congr rfl fun k _ => by rw [fnOf_val]

/-- The motion as a transformation of the world. -/
noncomputable def spatialSym (G : Mat4) : Sym where
  rel := SpatialMoved G
  A
    | .pose3d => fnOf (adjoint6 G)
    | .landmark3d => fnOf G.toBlocks₁₁
    | .plane4d => fnOf ((SE3.mk G).inv.Tᵀ.submatrix at4 at4)
    | _ => 0
  Ai
    | .pose3d => fnOf (adjoint6 (SE3.mk G).inv.T)
    | .landmark3d => fnOf G.toBlocks₁₁ᵀ
    | .plane4d => fnOf (Gᵀ.submatrix at4 at4)
    | _ => 0
  ok := MildErrors
  kind := by
    rintro ⟨k, x⟩ ⟨k', x'⟩ h
    cases k <;> cases k' <;> first | rfl | exact absurd h id

/-- Numbering of the coordinates of a twist. -/
noncomputable def eq6 : Fin 6 ≃ I6 := Equiv.ofBijective at6 (by decide)
/-- Numbering of homogeneous coordinates. -/
noncomputable def eq4 : Fin 4 ≃ I4 := Equiv.ofBijective at4 (by decide)

theorem at6_mul {m k : Type} (M : Matrix m I6 ℝ) (K : Matrix I6 k ℝ) {m' k' : Type} (f : m' → m) (g : k' → k) :
    M.submatrix f at6 * K.submatrix at6 g = (M * K).submatrix f g :=
  Matrix.submatrix_mul_equiv M K f eq6 g

theorem at4_mul {m k : Type} (M : Matrix m I4 ℝ) (K : Matrix I4 k ℝ) {m' k' : Type} (f : m' → m) (g : k' → k) :
    M.submatrix f at4 * K.submatrix at4 g = (M * K).submatrix f g :=
  Matrix.submatrix_mul_equiv M K f eq4 g

theorem at6_mulVec {m m' : Type} (M : Matrix m I6 ℝ) (v : Vec6) (f : m' → m) :
    M.submatrix f at6 *ᵥ (fun i => v (at6 i)) = fun i => (M *ᵥ v) (f i) := by
  funext i
  exact Equiv.sum_comp eq6 fun k => M (f i) k * v k

theorem at6_one : (1 : Mat6).submatrix at6 at6 = 1 := Matrix.submatrix_one_equiv eq6
theorem at4_one : (1 : Mat4).submatrix at4 at4 = 1 := Matrix.submatrix_one_equiv eq4

theorem adjoint_eq (G : Mat4) : adjoint G = (SE3.mk G).adj := by
  rw [adjoint, crossMat_eq_hat3]; rfl

variable {G : Mat4}

theorem moved_mk {X X' : SE3} (h : X'.T = G * X.T) : X' = (SE3.mk G).mul X := SE3.ext h

theorem spatialMoved_kind {v v' : NodeVal} (h : SpatialMoved G v v') : v.1 = .pose3d ∨ v.1 = .landmark3d ∨ v.1 = .plane4d := by
  obtain ⟨k, x⟩ := v
  obtain ⟨k', x'⟩ := v'
  cases k <;> cases k' <;> first | exact absurd h id | simp

theorem adjoint6_inv (hG : IsRigid G) : adjoint6 G * adjoint6 (SE3.mk G).inv.T = 1 := by
  have hG' : IsRigid (SE3.mk G).T := hG
  rw [adjoint6, adjoint6, at6_mul, adjoint_eq, adjoint_eq, (C12_adj_hom hG' hG').2.2, at6_one]

theorem plane_inv (hG : IsRigid G) : (SE3.mk G).inv.Tᵀ.submatrix at4 at4 * Gᵀ.submatrix at4 at4 = 1 := by
  have hG' : IsRigid (SE3.mk G).T := hG
  rw [at4_mul, ← transpose_mul]
  have : G * (SE3.mk G).inv.T = 1 := mul_inv_cancel' hG'
  rw [this, transpose_one, at4_one]

theorem spatial_moves (hG : IsRigid G) (κ : NodeKind) (hκ : κ = .pose3d ∨ κ = .landmark3d ∨ κ = .plane4d) :
    (spatialSym G).Moves κ := by
  have hG' : IsRigid (SE3.mk G).T := hG
  constructor
  · rintro ⟨k, x⟩ ⟨k', x'⟩ - h
    cases k <;> cases k' <;> first | exact absurd h id | exact h
  · intro i hi j hj
    rcases hκ with rfl | rfl | rfl
    · exact fnOf_mul (adjoint6_inv hG) i hi j hj
    · exact fnOf_mul (rigid_R hG').1 i hi j hj
    · exact fnOf_mul (plane_inv hG) i hi j hj

/-! ### Logarithms -/

theorem mild_plain {R : Mat3} (h : Mild R) : Plain R := by
  have := Real.pi_gt_three
  exact ⟨h.1, Or.inl (by have := h.2; linarith), Or.inl h.2⟩

/-- The logarithm of a conjugate. -/
theorem lnVee_conj {g a : SE3} (hg : IsRigid g.T) (ha : IsRigid a.T) (hm : Mild a.R) :
    ((g.mul a).mul g.inv).lnVee = g.adj *ᵥ a.lnVee := by
  have hp := mild_plain hm
  have hlen := C07_norm_partial (rigid_R ha) (hp.1.imp_right fun h => le_trans (by norm_num) h.le) hp.2.1 hp.2.2
  have hexp := C13_exp_ln_partial ha hp.1 hp.2.1 hp.2.2
  have hhead : head3 a.lnVee = (SO3.mk a.R).lnVee := by rw [se3_lnVee ha, head3_vec6]
  have hw : len (head3 a.lnVee) = angle a.R := by rw [hhead, hlen]
  have h0 : angle a.R = 0 → head3 a.lnVee = 0 := by
    intro h; rw [h, len_eq_vnorm] at hw; exact vnorm_eq_zero.mp hw
  have h12 := C12_adjoint_exact hg a.lnVee (hm.1.symm.imp (fun h => by rw [hw]; exact lt_trans (by norm_num) h) h0)
  have e : (g.mul a).mul g.inv = SE3.ofVec (g.adj *ᵥ a.lnVee) := by
    apply SE3.ext
    have h := congrArg SE3.T h12
    rw [SE3.updateRhs, SE3.updateLhs, hexp] at h
    change g.T * a.T * g.inv.T = _
    have h' : g.T * a.T = (SE3.ofVec (g.adj *ᵥ a.lnVee)).T * g.T := h
    rw [h', Matrix.mul_assoc, mul_inv_cancel' hg, Matrix.mul_one]
  rw [e, ← vec6_eta (g.adj *ᵥ a.lnVee)]
  have hw' : len (head3 (g.adj *ᵥ a.lnVee)) = angle a.R := by
    rw [(adj_mulVec g _).1, len_eq_vnorm, vnorm_rot (rigid_R hg), ← len_eq_vnorm, hw]
  refine C13_ln_exp_partial (hm.1.imp (fun h => ?_) fun h => ?_) fun h => ?_
  · rw [(adj_mulVec g _).1, h0 h, mulVec_zero]
  · rw [hw']
    refine ⟨h, ?_⟩
    have := Real.pi_gt_three
    have := hm.2
    linarith
  · rw [hw'] at h
    exact absurd hm.2 (not_lt.mpr h.1)

/-! ### Factors -/

theorem inv_eq {a : SE3} (h : IsRigid a.T) : a.T⁻¹ = a.inv.T := Matrix.inv_eq_right_inv (mul_inv_cancel' h)

theorem rel3dTr_conj {g obs X Y : SE3} (hg : IsRigid g.T) (hY : IsRigid Y.T) :
    rel3dTr obs (g.mul X) (g.mul Y) = (g.mul (rel3dTr obs X Y)).mul g.inv := by
  apply SE3.ext
  change g.T * X.T * obs.T * (g.mul Y).inv.T = g.T * (X.T * obs.T * Y.inv.T) * g.inv.T
  rw [(C10_inverse hg hY).2.2.2]
  change _ * (Y.inv.T * g.inv.T) = _
  simp only [Matrix.mul_assoc]

theorem prior3dTr_conj {g obs X : SE3} (hg : IsRigid g.T) (ho : IsRigid obs.T) :
    prior3dTr (g.mul obs) (g.mul X) = (g.mul (prior3dTr obs X)).mul g.inv := by
  apply SE3.ext
  change g.T * X.T * (g.mul obs).inv.T = g.T * (X.T * obs.inv.T) * g.inv.T
  rw [(C10_inverse hg ho).2.2.2]
  change _ * (obs.inv.T * g.inv.T) = _
  simp only [Matrix.mul_assoc]

theorem land3dJac_eq (X : SE3) (l : Vec3) : (land3dJac X l).1 = fromCols (X.Rᵀ * hat3 l) (-X.Rᵀ) := by
  ext i j
  change (X.inv.T * land3dJr l) (Sum.inl i) j = _
  rw [inv_T, homog, land3dJr, fromBlocks_multiply]
  rcases j with j | j
  · simp
  · simp

theorem hat3_moved {g : SE3} (hg : IsRigid g.T) (q : Vec3) : hat3 (g.transform q) * g.R = g.R * hat3 q + hat3 g.t * g.R := by
  rw [SE3.transform, hat3_add, add_mul, ← rot_conj_hat3 (rigid_R hg), Matrix.mul_assoc _ _ g.R, (rigid_R hg).transpose_mul,
    Matrix.mul_one]

theorem land3dJac_moved {g X : SE3} (hg : IsRigid g.T) (hX : IsRigid X.T) (l : Vec3) :
    (land3dJac (g.mul X) (g.transform l)).1 * g.adj = (land3dJac X l).1 ∧
    (land3dJac (g.mul X) (g.transform l)).2 * g.R = (land3dJac X l).2 := by
  have hr := (rigid_R hg).transpose_mul
  constructor
  · rw [land3dJac_eq, land3dJac_eq, SE3.adj, fromCols_mul_fromBlocks, mul_R hg hX, transpose_mul, Matrix.mul_assoc _ (hat3 _),
      hat3_moved hg, Matrix.mul_zero, zero_add]
    congr 1
    · rw [mul_add, neg_mul, add_neg_cancel_right, Matrix.mul_assoc, ← Matrix.mul_assoc g.Rᵀ, hr, Matrix.one_mul]
    · rw [neg_mul, Matrix.mul_assoc, hr, Matrix.mul_one]
  · change (g.mul X).inv.R * g.R = X.inv.R
    rw [inv_R, inv_R, mul_R hg hX, transpose_mul, Matrix.mul_assoc, hr, Matrix.mul_one]

theorem pointJr_moved {g : SE3} (hg : IsRigid g.T) (q : Vec3) : pointJr (g.transform q) * g.adj = g.R * pointJr q := by
  rw [pointJr, pointJr, SE3.adj, fromCols_mul_fromBlocks, mul_fromCols, neg_mul, hat3_moved hg]
  congr 1
  · rw [Matrix.one_mul, mul_neg]; abel
  · rw [Matrix.mul_zero, zero_add, Matrix.one_mul, Matrix.mul_one]

theorem p2plane_moved {g X : SE3} (hg : IsRigid g.T) (hX : IsRigid X.T) (px py ny : Vec3) :
    p2planeRes px (g.transform py) (g.R *ᵥ ny) (g.mul X) = p2planeRes px py ny X ∧
    p2planeJac px (g.R *ᵥ ny) (g.mul X) ᵥ* g.adj = p2planeJac px ny X := by
  have hr := (rigid_R hg).transpose_mul
  have ht : (g.mul X).transform px = g.transform (X.transform px) := (C11_action hg hX px px).1
  constructor
  · have e : g.transform (X.transform px) - g.transform py = g.R *ᵥ (X.transform px - py) := by
      rw [mulVec_sub]
      exact add_sub_add_right_eq_sub _ _ _
    rw [p2planeRes, p2planeRes, ht, e, dotProduct_mulVec, vecMul_mulVec, hr, vecMul_one]
  · rw [p2planeJac, p2planeJac, vecMul_vecMul, ht, pointJr_moved hg, ← vecMul_vecMul, vecMul_mulVec, hr, vecMul_one]

/-- A row. -/
def rowOf (v : Vec3) : Matrix Unit (Fin 3) ℝ := Matrix.of fun _ j => v j

theorem rowOf_mul (v : Vec3) (M : Mat3) : rowOf v * M = rowOf (v ᵥ* M) := by
  ext i j; rfl

theorem row_cross (t n : Vec3) : t ᵥ* hat3 n + n ᵥ* hat3 t = 0 := by
  have h : ∀ a b : Vec3, a ᵥ* hat3 b = -(hat3 b *ᵥ a) := by
    intro a b
    rw [← mulVec_transpose, hat3_transpose, neg_mulVec]
  rw [h, h, hat3_mulVec_comm t, neg_neg, neg_add_cancel]

theorem planeJr_moved {g : SE3} (hg : IsRigid g.T) (n : Vec3) : g.Tᵀ * planeJr (g.R *ᵥ n) * g.adj = planeJr n := by
  have hr := (rigid_R hg).transpose_mul
  have e1 : g.Tᵀ = fromBlocks g.Rᵀ 0 (rowOf g.t) 1 := by
    conv_lhs => rw [rigid_T hg, homog, fromBlocks_transpose]
    congr 1
  have e2 : ∀ n, planeJr n = fromBlocks (hat3 n) 0 0 (rowOf n) := fun _ => rfl
  rw [e1, e2, e2, SE3.adj, fromBlocks_multiply, fromBlocks_multiply]
  simp only [Matrix.mul_zero, Matrix.zero_mul, add_zero, zero_add, Matrix.one_mul, rowOf_mul]
  congr 1
  · rw [← rot_conj_hat3 (rigid_R hg), ← Matrix.mul_assoc, ← Matrix.mul_assoc, hr, Matrix.one_mul, Matrix.mul_assoc, hr, Matrix.mul_one]
  · have := row_cross g.t (g.R *ᵥ n)
    rw [← vecMul_vecMul]
    have e3 : ∀ a b : Vec3, rowOf a + rowOf b = rowOf (a + b) := fun _ _ => rfl
    rw [e3, ← add_vecMul, this, zero_vecMul]
    rfl
  · rw [vecMul_mulVec, hr, vecMul_one]

theorem plane_head {g : SE3} (hg : IsRigid g.T) {p p' : Vec4} (h : g.Tᵀ *ᵥ p' = p) :
    (fun i => p' (Sum.inl i)) = g.R *ᵥ fun i => p (Sum.inl i) := by
  have e1 : g.Tᵀ = fromBlocks g.Rᵀ 0 (rowOf g.t) 1 := by
    conv_lhs => rw [rigid_T hg, homog, fromBlocks_transpose]
    congr 1
  have e2 : (fun i => p (Sum.inl i)) = g.Rᵀ *ᵥ fun i => p' (Sum.inl i) := by
    rw [← h, e1, fromBlocks_mulVec]
    funext i
    simp [Function.comp_def]
  rw [e2, mulVec_mulVec, (rigid_R hg).1, one_mulVec]

theorem plane_moved {g X : SE3} (hg : IsRigid g.T) (obs : Vec4) {p p' : Vec4} (h : g.Tᵀ *ᵥ p' = p) :
    planeRes obs (g.mul X) p' = planeRes obs X p ∧ (planeJac (g.mul X) p').1 * g.adj = (planeJac X p).1 ∧
    (planeJac (g.mul X) p').2 * g.inv.Tᵀ = (planeJac X p).2 := by
  have e : planeLocal (g.mul X) p' = planeLocal X p := by
    change (g.T * X.T)ᵀ *ᵥ p' = X.Tᵀ *ᵥ p
    rw [transpose_mul, ← mulVec_mulVec, h]
  refine ⟨by rw [planeRes, planeRes, e], ?_, ?_⟩
  · change (g.T * X.T)ᵀ * planeJr (fun i => p' (Sum.inl i)) * g.adj = X.Tᵀ * planeJr fun i => p (Sum.inl i)
    rw [plane_head hg h, transpose_mul, Matrix.mul_assoc, Matrix.mul_assoc, ← Matrix.mul_assoc g.Tᵀ, planeJr_moved hg]
  · change (g.T * X.T)ᵀ * g.inv.Tᵀ = X.Tᵀ
    rw [← transpose_mul, ← Matrix.mul_assoc, inv_mul_cancel' hg, Matrix.one_mul]

theorem spatial_A6 : (Matrix.of fun i j : Fin 6 => (spatialSym G).A .pose3d i j) = adjoint6 G := by
  ext i j; exact fnOf_val _ i j

theorem spatial_A3 : (Matrix.of fun i j : Fin 3 => (spatialSym G).A .landmark3d i j) = G.toBlocks₁₁ := by
  ext i j; exact fnOf_val _ i j

theorem spatial_A4 : (Matrix.of fun i j : Fin 4 => (spatialSym G).A .plane4d i j) = (SE3.mk G).inv.Tᵀ.submatrix at4 at4 := by
  ext i j; exact fnOf_val _ i j

theorem movePoint_eq (p : Vec3) : movePoint G p = (SE3.mk G).transform p := rfl

theorem one_info {n : ℕ} (W : Matrix (Fin n) (Fin n) ℝ) : W = (1 : Matrix (Fin n) (Fin n) ℝ)ᵀ * W * 1 := by
  rw [transpose_one, Matrix.one_mul, Matrix.mul_one]

theorem block6 {m : ℕ} {ι : Type} (f : Fin m → ι) {M' M : Matrix ι I6 ℝ} (h : M' * (SE3.mk G).adj = M) :
    M'.submatrix f at6 * adjoint6 G = (1 : Matrix (Fin m) (Fin m) ℝ) * M.submatrix f at6 := by
  rw [adjoint6, at6_mul, adjoint_eq, h, Matrix.one_mul]

theorem block4 {m : ℕ} {ι : Type} (f : Fin m → ι) {M' M : Matrix ι I4 ℝ} (h : M' * (SE3.mk G).inv.Tᵀ = M) :
    M'.submatrix f at4 * (SE3.mk G).inv.Tᵀ.submatrix at4 at4 = (1 : Matrix (Fin m) (Fin m) ℝ) * M.submatrix f at4 := by
  rw [at4_mul, h, Matrix.one_mul]

theorem block1 : (1 : Mat6).submatrix at6 at6 * adjoint6 G = adjoint6 G * (1 : Mat6).submatrix at6 at6 := by
  rw [at6_one, Matrix.one_mul, Matrix.mul_one]

theorem spatial_factor (hG : IsRigid G) {v v' : FactorVirt} (h : SpatialFactorMoved G v v') : (spatialSym G).Factors v v' := by
  have hG' : IsRigid (SE3.mk G).T := hG
  cases h with
  | land3d obs W rev ty =>
    refine ⟨rfl, (1 : Mat3), one_info _, ?_⟩
    intro vals vals' ht hr hok
    cases rev with
    | false =>
      obtain ⟨X, X', l, l', rfl, rfl, hx, hl⟩ := rel_two (κ := .pose3d) (μ := .landmark3d) ht hr
      obtain rfl : X' = _ := moved_mk hx
      obtain rfl : l' = (SE3.mk G).transform l := hl
      have hX := hok.1 X (by simp)
      obtain ⟨j1, j2⟩ := land3dJac_moved hG' hX l
      refine ⟨?_, jacRel_blk2 (κ := .pose3d) (μ := .landmark3d) rfl rfl ?_ ?_⟩
      · exact (C30_land3d obs hG' hX l).trans (one_mulVec _).symm
      · rw [spatial_A6]; exact block6 _ j1
      · rw [spatial_A3]; exact j2.trans (Matrix.one_mul _).symm
    | true =>
      obtain ⟨l, l', X, X', rfl, rfl, hl, hx⟩ := rel_two (κ := .landmark3d) (μ := .pose3d) ht hr
      obtain rfl : X' = _ := moved_mk hx
      obtain rfl : l' = (SE3.mk G).transform l := hl
      have hX := hok.1 X (by simp)
      obtain ⟨j1, j2⟩ := land3dJac_moved hG' hX l
      refine ⟨?_, jacRel_blk2 (κ := .landmark3d) (μ := .pose3d) rfl rfl ?_ ?_⟩
      · exact (C30_land3d obs hG' hX l).trans (one_mulVec _).symm
      · rw [spatial_A3]; exact j2.trans (Matrix.one_mul _).symm
      · rw [spatial_A6]; exact block6 _ j1
  | plane4d obs W rev ty =>
    refine ⟨rfl, (1 : Matrix (Fin 4) (Fin 4) ℝ), one_info _, ?_⟩
    intro vals vals' ht hr hok
    cases rev with
    | false =>
      obtain ⟨X, X', p, p', rfl, rfl, hx, hp⟩ := rel_two (κ := .pose3d) (μ := .plane4d) ht hr
      obtain rfl : X' = _ := moved_mk hx
      obtain ⟨j0, j1, j2⟩ := plane_moved (X := X) hG' (planeObs obs) hp
      refine ⟨?_, jacRel_blk2 (κ := .pose3d) (μ := .plane4d) rfl rfl ?_ ?_⟩
      · exact (congrArg (fun (z : Vec4) (i : Fin 4) => z (at4 i)) j0).trans (one_mulVec _).symm
      · rw [spatial_A6]; exact block6 _ j1
      · rw [spatial_A4]; exact block4 _ j2
    | true =>
      obtain ⟨p, p', X, X', rfl, rfl, hp, hx⟩ := rel_two (κ := .plane4d) (μ := .pose3d) ht hr
      obtain rfl : X' = _ := moved_mk hx
      obtain ⟨j0, j1, j2⟩ := plane_moved (X := X) hG' (planeObs obs) hp
      refine ⟨?_, jacRel_blk2 (κ := .plane4d) (μ := .pose3d) rfl rfl ?_ ?_⟩
      · exact (congrArg (fun (z : Vec4) (i : Fin 4) => z (at4 i)) j0).trans (one_mulVec _).symm
      · rw [spatial_A4]; exact block4 _ j2
      · rw [spatial_A6]; exact block6 _ j1
  | p2plane px py ny W ty =>
    refine ⟨rfl, (1 : Matrix (Fin 1) (Fin 1) ℝ), one_info _, ?_⟩
    intro vals vals' ht hr hok
    obtain ⟨X, X', rfl, rfl, hx⟩ := rel_one (κ := .pose3d) ht hr
    obtain rfl : X' = _ := moved_mk hx
    obtain ⟨j0, j1⟩ := p2plane_moved hG' (hok.1 X (by simp)) px py ny
    refine ⟨?_, jacRel_blk (κ := .pose3d) rfl ?_⟩
    · exact (congrArg (fun (z : ℝ) (_ : Fin 1) => z) j0).trans (one_mulVec _).symm
    · rw [spatial_A6]
      refine block6 (M' := Matrix.of fun (_ : Fin 1) j => p2planeJac px ((SE3.mk G).R *ᵥ ny) ((SE3.mk G).mul X) j)
        (M := Matrix.of fun (_ : Fin 1) j => p2planeJac px ny X j) id ?_
      ext i k
      exact congrFun j1 k
  | prior3d obs obs' W W' ty ho ho' hW =>
    refine ⟨rfl, adjoint6 G, hW, ?_⟩
    intro vals vals' ht hr hok
    obtain ⟨X, X', rfl, rfl, hx⟩ := rel_one (κ := .pose3d) ht hr
    obtain rfl : X' = _ := moved_mk hx
    obtain rfl : obs' = _ := moved_mk ho'
    have hX := hok.1 X (by simp)
    have hm := hok.2.1 obs W ty X rfl rfl
    rw [inv_eq ho] at hm
    refine ⟨?_, jacRel_blk (κ := .pose3d) rfl ?_⟩
    · have e : prior3dRes ((SE3.mk G).mul obs) ((SE3.mk G).mul X) = adjoint G *ᵥ prior3dRes obs X := by
        rw [prior3dRes, prior3dTr_conj hG' ho, lnVee_conj (a := prior3dTr obs X) hG' (mul_isRigid hX (inv_isRigid ho)) hm, adjoint_eq]; rfl
      refine (congrArg (fun (z : Vec6) (i : Fin 6) => z (at6 i)) e).trans ?_
      exact (at6_mulVec (adjoint G) _ at6).symm
    · rw [spatial_A6]; exact block1
  | rel3d obs W W' ty ho hW =>
    refine ⟨rfl, adjoint6 G, hW, ?_⟩
    intro vals vals' ht hr hok
    obtain ⟨X, X', Y, Y', rfl, rfl, hx, hy⟩ := rel_two (κ := .pose3d) (μ := .pose3d) ht hr
    obtain rfl : X' = _ := moved_mk hx
    obtain rfl : Y' = _ := moved_mk hy
    have hX := hok.1 X (by simp)
    have hY := hok.1 Y (by simp)
    have hm := hok.2.2 obs W ty X Y rfl rfl
    rw [inv_eq hY] at hm
    have hT : IsRigid (rel3dTr obs X Y).T := mul_isRigid (mul_isRigid hX ho) (inv_isRigid hY)
    refine ⟨?_, jacRel_blk2 (κ := .pose3d) (μ := .pose3d) rfl rfl ?_ ?_⟩
    · have e : rel3dRes obs ((SE3.mk G).mul X) ((SE3.mk G).mul Y) = adjoint G *ᵥ rel3dRes obs X Y := by
        rw [rel3dRes, rel3dTr_conj hG' hY, lnVee_conj hG' hT hm, adjoint_eq]; rfl
      refine (congrArg (fun (z : Vec6) (i : Fin 6) => z (at6 i)) e).trans ?_
      exact (at6_mulVec (adjoint G) _ at6).symm
    · rw [spatial_A6]; exact block1
    · rw [spatial_A6]
      have e : (rel3dTr obs ((SE3.mk G).mul X) ((SE3.mk G).mul Y)).adj * (SE3.mk G).adj = (SE3.mk G).adj * (rel3dTr obs X Y).adj := by
        rw [rel3dTr_conj hG' hY, adj_mul (mul_isRigid hG' hT) (inv_isRigid hG'), Matrix.mul_assoc, (C12_adj_hom hG' hG').2.1,
          Matrix.mul_one, adj_mul hG' hT]
      change (-(rel3dTr obs ((SE3.mk G).mul X) ((SE3.mk G).mul Y)).adj).submatrix at6 at6 * (adjoint G).submatrix at6 at6 =
        (adjoint G).submatrix at6 at6 * (-(rel3dTr obs X Y).adj).submatrix at6 at6
      rw [at6_mul, at6_mul, adjoint_eq, neg_mul, mul_neg, e]

/-! ### Updates -/

theorem regenerate_plain {M : SE3} (h : IsRigid M.T) (hp : Plain M.R) : M.regenerate = M := by
  rw [C13_regenerate h, C13_exp_ln_partial h hp.1 hp.2.1 hp.2.2]

theorem lin_pose (δ : ℕ → ℝ) : NodeKind.ofFlat .pose3d ((spatialSym G).lin .pose3d δ) =
    (SE3.mk G).adj *ᵥ vec6 (fun i => δ i) fun i => δ (3 + i) := by
  have key : ∀ i : Fin 6, (spatialSym G).lin .pose3d δ i = ((SE3.mk G).adj *ᵥ vec6 (fun i => δ i) fun i => δ (3 + i)) (at6 i) := by
    intro i
    refine (fnOf_mulVec (adjoint6 G) δ i).trans ?_
    have := congrFun (at6_mulVec (adjoint G) (vec6 (fun i => δ i) fun i => δ (3 + i)) at6) i
    rw [adjoint_eq] at this
    refine Eq.trans ?_ this
    rw [adjoint6, adjoint_eq]
    have e : (fun k : Fin 6 => δ k) = fun k => vec6 (fun i => δ i) (fun i => δ (3 + i)) (at6 k) := by
      funext k
      fin_cases k <;> rfl
    rw [e]
  funext i
  rcases i with i | i
  · have := key ⟨i, by omega⟩
    rw [show at6 ⟨i, by omega⟩ = Sum.inl i from dif_pos i.2] at this
    exact this
  · have := key ⟨3 + i, by omega⟩
    rw [show at6 ⟨3 + i, by omega⟩ = Sum.inr i from by
      rw [at6, dif_neg (by simp)]; congr 1; ext; simp] at this
    exact this

theorem pose_upd {X : SE3} (hG : IsRigid (SE3.mk G).T) (hX : IsRigid X.T) {δ : ℕ → ℝ}
    (hw : (∀ i : Fin 3, δ i = 0) ∨ 1e-3 < len fun i : Fin 3 => δ i)
    (h1 : Plain (NormedSpace.exp (twist (fun i => δ i) fun i => δ (3 + i)) * X.T).toBlocks₁₁)
    (h2 : Plain (G * (NormedSpace.exp (twist (fun i => δ i) fun i => δ (3 + i)) * X.T)).toBlocks₁₁) :
    (((SE3.mk G).mul X).updateLhs (NodeKind.ofFlat .pose3d ((spatialSym G).lin .pose3d δ))).regenerate.T =
      G * (X.updateLhs (NodeKind.ofFlat .pose3d δ)).regenerate.T := by
  have hd : NodeKind.ofFlat .pose3d δ = vec6 (fun i => δ i) fun i => δ (3 + i) := rfl
  have hw' : 1e-3 < len (fun i : Fin 3 => δ i) ∨ (fun i : Fin 3 => δ i) = 0 := hw.symm.imp id fun h => funext h
  have hexp := C08_exp_exact (fun i => δ i) (fun i => δ (3 + i)) hw'
  rw [← hexp] at h1 h2
  rw [lin_pose, hd]
  generalize hξ : vec6 (fun i : Fin 3 => δ i) (fun i : Fin 3 => δ (3 + i)) = ξ at *
  have hh : head3 ξ = fun i : Fin 3 => δ i := by rw [← hξ, head3_vec6]
  have hr : IsRigid (SE3.ofVec ξ).T := by
    rw [se3_ofVec_T]
    refine isRigid_homog ?_ _
    rw [hh]
    rcases hw' with h | h
    · exact ofVec_isRotation_of_ge (le_trans (by norm_num) h.le)
    · rw [h, ofVec_zero]; exact isRotation_one
  have hM : IsRigid (X.updateLhs ξ).T := mul_isRigid hr hX
  have h12 := congrArg SE3.T (C12_adjoint_exact hG ξ (by rw [hh]; exact hw'))
  have e : ((SE3.mk G).mul X).updateLhs ((SE3.mk G).adj *ᵥ ξ) = (SE3.mk G).mul (X.updateLhs ξ) := by
    apply SE3.ext
    change (SE3.ofVec _).T * (G * X.T) = G * ((SE3.ofVec ξ).T * X.T)
    rw [← Matrix.mul_assoc, ← Matrix.mul_assoc]
    exact congrArg (· * X.T) h12.symm
  rw [e, regenerate_plain (mul_isRigid hG hM) h2, regenerate_plain hM h1]
  rfl

/-- Normalisation of planes and rotations. -/
theorem normalizeHead_turn {g : SE3} (hg : IsRigid g.T) (h0 : g.t = 0) (y : Vec4) :
    g.Tᵀ *ᵥ normalizeHead y = normalizeHead (g.Tᵀ *ᵥ y) := by
  have e1 : g.Tᵀ = fromBlocks g.Rᵀ 0 0 1 := by
    conv_lhs => rw [rigid_T hg, homog, fromBlocks_transpose, h0]
    congr 1
  have e2 : ∀ y : Vec4, g.Tᵀ *ᵥ y = Sum.elim (g.Rᵀ *ᵥ fun i => y (Sum.inl i)) fun u => y (Sum.inr u) := by
    intro y
    rw [e1, fromBlocks_mulVec]
    simp [Function.comp_def]
  have e3 : sqNorm (fun i => (g.Tᵀ *ᵥ y) (Sum.inl i)) = sqNorm fun i => y (Sum.inl i) := by
    rw [e2]
    change (g.Rᵀ *ᵥ fun i => y (Sum.inl i)) ⬝ᵥ (g.Rᵀ *ᵥ fun i => y (Sum.inl i)) = (fun i => y (Sum.inl i)) ⬝ᵥ fun i => y (Sum.inl i)
    rw [dotProduct_mulVec, vecMul_transpose, mulVec_mulVec, (rigid_R hg).1, one_mulVec]
  rw [normalizeHead, normalizeHead]
  dsimp only
  rw [e3]
  split
  · rw [e2, e2]
    funext i
    rcases i with i | i
    · change (g.Rᵀ *ᵥ fun i => y (Sum.inl i) / _) i = (g.Rᵀ *ᵥ fun i => y (Sum.inl i)) i / _
      simp only [mulVec, dotProduct, Finset.sum_div, mul_div_assoc]
    · rfl
  · rfl

theorem lin_plane (δ : ℕ → ℝ) : NodeKind.ofFlat .plane4d ((spatialSym G).lin .plane4d δ) =
    (SE3.mk G).inv.Tᵀ *ᵥ (NodeKind.ofFlat .plane4d δ : Vec4) := by
  have key : ∀ i : Fin 4, (spatialSym G).lin .plane4d δ i = ((SE3.mk G).inv.Tᵀ *ᵥ (NodeKind.ofFlat .plane4d δ : Vec4)) (at4 i) := by
    intro i
    refine (fnOf_mulVec ((SE3.mk G).inv.Tᵀ.submatrix at4 at4) δ i).trans ?_
    rw [mulVec, mulVec, dotProduct, dotProduct, ← Equiv.sum_comp eq4]
    refine Finset.sum_congr rfl fun k _ => congrArg (_ * ·) ?_
    change δ k = NodeKind.ofFlat .plane4d δ (at4 k)
    fin_cases k <;> rfl
  funext i
  rcases i with i | i
  · exact (key ⟨i, by omega⟩).trans (congrArg _ (dif_pos i.2))
  · exact (key 3).trans (congrArg _ (dif_neg (by decide)))

theorem spatial_upd (hG : IsRigid G) {v v' : NodeVal} (h : SpatialMoved G v v') (hp : v.1 = .plane4d → (SE3.mk G).t = 0) {δ : ℕ → ℝ}
    (hs : MildStep G v δ) : SpatialMoved G (v.upd δ) (v'.upd ((spatialSym G).lin v.1 δ)) := by
  have hG' : IsRigid (SE3.mk G).T := hG
  obtain ⟨k, x⟩ := v
  obtain ⟨k', x'⟩ := v'
  cases k <;> cases k' <;> first | exact absurd h id | skip
  · obtain rfl : x' = _ := moved_mk h
    obtain ⟨hX, hw, h1, h2⟩ := hs x rfl
    exact pose_upd hG' hX hw h1 h2
  · obtain rfl : x' = (SE3.mk G).transform x := h
    change ((SE3.mk G).transform x + fun i : Fin 3 => (spatialSym G).lin .landmark3d δ i) = (SE3.mk G).transform ((x : Vec3) + fun i : Fin 3 => δ i)
    have e : (fun i : Fin 3 => (spatialSym G).lin .landmark3d δ i) = (SE3.mk G).R *ᵥ fun i : Fin 3 => δ i :=
      funext fun i => fnOf_mulVec _ δ i
    rw [e, SE3.transform, SE3.transform, mulVec_add]
    abel
  · have h' : Gᵀ *ᵥ (x' : Vec4) = x := h
    change Gᵀ *ᵥ normalizeHead ((x' : Vec4) + NodeKind.ofFlat .plane4d ((spatialSym G).lin .plane4d δ)) =
      normalizeHead ((x : Vec4) + NodeKind.ofFlat .plane4d δ)
    have e : Gᵀ * (SE3.mk G).inv.Tᵀ = 1 := by
      have : (SE3.mk G).inv.T * G = 1 := inv_mul_cancel' hG'
      rw [← transpose_mul, this, transpose_one]
    refine (normalizeHead_turn hG' (hp rfl) _).trans (congrArg normalizeHead ?_)
    change Gᵀ *ᵥ _ = _
    rw [mulVec_add, h', lin_plane, mulVec_mulVec, e, one_mulVec]

end Mrob
