import Verif.Lemmas.GaugeSpatial
import Verif.Spec.BodyFrame

/-!
# Another frame fixed to the vehicle
-/

open Matrix

namespace Mrob

open World Spec

variable {G : Mat4}

/-- Another frame of the vehicle as a change of coordinates: the increments are the same. -/
noncomputable def bodySym (G : Mat4) : Sym where
  rel := BodyMoved G
  A _ k j := if k = j then 1 else 0
  Ai _ k j := if k = j then 1 else 0
  ok := SameSide G
  kind := by
    rintro ⟨k, x⟩ ⟨k', x'⟩ h
    cases k <;> cases k' <;> first | rfl | exact absurd h id

theorem body_A (κ : NodeKind) (n : ℕ) : (Matrix.of fun i j : Fin n => (bodySym G).A κ i j) = 1 := by
  ext i j
  change (if (i : ℕ) = j then (1 : ℝ) else 0) = _
  rw [Matrix.one_apply]
  exact if_congr Fin.ext_iff.symm rfl rfl

theorem body_B {m n k : ℕ} (κ : NodeKind) {B : Matrix (Fin m) (Fin k) ℝ} {M' : Matrix (Fin m) (Fin n) ℝ} {M : Matrix (Fin k) (Fin n) ℝ}
    (h : M' = B * M) : M' * Matrix.of (fun i j : Fin n => (bodySym G).A κ i j) = B * M := by
  rw [body_A, Matrix.mul_one, h]

theorem body_id {m n : ℕ} (κ : NodeKind) {M' M : Matrix (Fin m) (Fin n) ℝ} (h : M' = M) :
    M' * Matrix.of (fun i j : Fin n => (bodySym G).A κ i j) = (1 : Matrix (Fin m) (Fin m) ℝ) * M :=
  body_B κ (by rw [h, Matrix.one_mul])

theorem body_lin {κ : NodeKind} {δ : ℕ → ℝ} {k : ℕ} (hk : k < κ.dim) : (bodySym G).lin κ δ k = δ k := by
  rw [Sym.lin, Finset.sum_eq_single k]
  · change (if k = k then 1 else 0) * _ = _
    rw [if_pos rfl, one_mul]
  · intro j _ hj
    change (if k = j then (1 : ℝ) else 0) * _ = _
    rw [if_neg (Ne.symm hj), zero_mul]
  · intro h; exact absurd (Finset.mem_range.mpr hk) h

theorem body_moves (κ : NodeKind) (hκ : κ = .pose3d ∨ κ = .landmark3d ∨ κ = .plane4d) : (bodySym G).Moves κ := by
  constructor
  · rintro ⟨k, x⟩ ⟨k', x'⟩ - h
    cases k <;> cases k' <;> first | exact absurd h id | exact h
  · intro i hi j _
    change ∑ k ∈ Finset.range κ.dim, (if i = k then (1 : ℝ) else 0) * (if k = j then 1 else 0) = _
    rw [Finset.sum_eq_single i]
    · rw [if_pos rfl, one_mul]
    · intro k _ hk
      rw [if_neg (Ne.symm hk), zero_mul]
    · intro h; exact absurd (Finset.mem_range.mpr hi) h

theorem body_mk {X X' : SE3} (h : X'.T = X.T * G) : X' = X.mul (SE3.mk G) := SE3.ext h

theorem bodyMoved_kind {v v' : NodeVal} (h : BodyMoved G v v') : v.1 = .pose3d ∨ v.1 = .landmark3d ∨ v.1 = .plane4d := by
  obtain ⟨k, x⟩ := v
  obtain ⟨k', x'⟩ := v'
  cases k <;> cases k' <;> first | exact absurd h id | simp

section

variable {g X Y : SE3} (hg : IsRigid g.T)
include hg

theorem prior3dTr_body {obs : SE3} (ho : IsRigid obs.T) : prior3dTr (obs.mul g) (X.mul g) = prior3dTr obs X := by
  apply SE3.ext
  change X.T * g.T * (obs.mul g).inv.T = X.T * obs.inv.T
  rw [(C10_inverse ho hg).2.2.2]
  change X.T * g.T * (g.inv.T * obs.inv.T) = _
  rw [Matrix.mul_assoc, ← Matrix.mul_assoc g.T, mul_inv_cancel' hg, Matrix.one_mul]

theorem rel3dTr_body {obs obs' : SE3} (hY : IsRigid Y.T) (ho : g.T * obs'.T = obs.T * g.T) :
    rel3dTr obs' (X.mul g) (Y.mul g) = rel3dTr obs X Y := by
  apply SE3.ext
  change X.T * g.T * obs'.T * (Y.mul g).inv.T = X.T * obs.T * Y.inv.T
  rw [(C10_inverse hY hg).2.2.2]
  change X.T * g.T * obs'.T * (g.inv.T * Y.inv.T) = _
  rw [Matrix.mul_assoc X.T, ho, ← Matrix.mul_assoc X.T, Matrix.mul_assoc _ g.T, ← Matrix.mul_assoc g.T, mul_inv_cancel' hg,
    Matrix.one_mul]

theorem land3dRes_body (hX : IsRigid X.T) (obs' l : Vec3) :
    land3dRes obs' (X.mul g) l = g.Rᵀ *ᵥ land3dRes (g.transform obs') X l := by
  rw [land3dRes, land3dRes, (C10_inverse hX hg).2.2.2, (C11_action (inv_isRigid hg) (inv_isRigid hX) l l).1]
  have h := (C11_action hg hg obs' obs').2.2.1
  have e : ∀ u v : Vec3, g.inv.transform u - g.inv.transform v = g.Rᵀ *ᵥ (u - v) := by
    intro u v
    rw [SE3.transform, SE3.transform, add_sub_add_right_eq_sub, ← mulVec_sub, inv_R]
  conv_lhs => rw [← h]
  exact e _ _

theorem land3dJac_body (hX : IsRigid X.T) (l : Vec3) :
    (land3dJac (X.mul g) l).1 = g.Rᵀ * (land3dJac X l).1 ∧ (land3dJac (X.mul g) l).2 = g.Rᵀ * (land3dJac X l).2 := by
  constructor
  · rw [land3dJac_eq, land3dJac_eq, mul_fromCols, mul_R hX hg, transpose_mul, Matrix.mul_assoc, mul_neg]
  · change (X.mul g).inv.R = g.Rᵀ * X.inv.R
    rw [inv_R, inv_R, mul_R hX hg, transpose_mul]

theorem head_unit {obs : Vec4} (h : len (fun i => obs (Sum.inl i)) = 1) : len (fun i => (g.Tᵀ *ᵥ obs) (Sum.inl i)) = 1 := by
  have e := plane_head hg (p' := obs) (p := g.Tᵀ *ᵥ obs) rfl
  rw [e, len, dotProduct_mulVec, vecMul_mulVec, (rigid_R hg).transpose_mul, vecMul_one] at h
  exact h

omit hg in
theorem planeObs_unit {obs : Vec4} (h : len (fun i => obs (Sum.inl i)) = 1) : planeObs obs = obs := by
  have e : sqNorm (fun i => obs (Sum.inl i)) = 1 := by
    have := congrArg (· ^ 2) h
    simp only [len] at this
    rw [Real.sq_sqrt (by rw [dotProduct]; exact Finset.sum_nonneg fun i _ => mul_self_nonneg _), one_pow] at this
    exact this
  rw [planeObs, normalizeHead]
  dsimp only
  rw [e, if_pos (by norm_num), Real.sqrt_one]
  funext i
  rcases i with i | i
  · simp
  · rfl

theorem offset_unit {obs : Vec4} (h : len (fun i => obs (Sum.inl i)) = 1) :
    planeObs (nonnegOffset (g.Tᵀ *ᵥ obs)) = nonnegOffset (g.Tᵀ *ᵥ obs) := by
  apply planeObs_unit
  have h1 := head_unit hg h
  rw [nonnegOffset]
  split
  · rw [← h1, len, len]
    congr 1
    exact neg_dotProduct_neg (fun i => (g.Tᵀ *ᵥ obs) (Sum.inl i)) fun i => (g.Tᵀ *ᵥ obs) (Sum.inl i)
  · exact h1

omit hg in
theorem plane_body (obs p : Vec4)
    (hs : ((X.Tᵀ *ᵥ p) (Sum.inr ()) < 0 ↔ ((X.T * g.T)ᵀ *ᵥ p) (Sum.inr ()) < 0) ↔ 0 ≤ (g.Tᵀ *ᵥ obs) (Sum.inr ())) :
    planeRes (nonnegOffset (g.Tᵀ *ᵥ obs)) (X.mul g) p = g.Tᵀ *ᵥ planeRes obs X p ∧
    (planeJac (X.mul g) p).1 = g.Tᵀ * (planeJac X p).1 ∧ (planeJac (X.mul g) p).2 = g.Tᵀ * (planeJac X p).2 := by
  have e : planeLocal (X.mul g) p = g.Tᵀ *ᵥ planeLocal X p := by
    change (X.T * g.T)ᵀ *ᵥ p = g.Tᵀ *ᵥ (X.Tᵀ *ᵥ p)
    rw [transpose_mul, mulVec_mulVec]
  refine ⟨?_, ?_, ?_⟩
  · have hs' : (planeLocal X p (Sum.inr ()) < 0 ↔ planeLocal (X.mul g) p (Sum.inr ()) < 0) ↔ 0 ≤ (g.Tᵀ *ᵥ obs) (Sum.inr ()) := hs
    rw [planeRes, planeRes, nonnegOffset]
    by_cases ho : (g.Tᵀ *ᵥ obs) (Sum.inr ()) < 0
    · rw [if_pos ho]
      have hn := mt hs'.mp (not_le.mpr ho)
      by_cases h : planeLocal X p (Sum.inr ()) < 0
      · rw [if_pos h, if_neg fun h' => hn ⟨fun _ => h', fun _ => h⟩, e, mulVec_add, sub_neg_eq_add]
      · have h' : planeLocal (X.mul g) p (Sum.inr ()) < 0 := by
          by_contra h'
          exact hn ⟨fun a => absurd a h, fun a => absurd a h'⟩
        rw [if_neg h, if_pos h', e, mulVec_sub, ← sub_eq_add_neg]
    · rw [if_neg ho]
      have hn := hs'.mpr (not_lt.mp ho)
      by_cases h : planeLocal X p (Sum.inr ()) < 0
      · rw [if_pos h, if_pos (hn.mp h), e, mulVec_add]
      · rw [if_neg h, if_neg fun h' => h (hn.mpr h'), e, mulVec_sub]
  · change (X.T * g.T)ᵀ * _ = g.Tᵀ * (X.Tᵀ * _)
    rw [transpose_mul, Matrix.mul_assoc]
  · change (X.T * g.T)ᵀ = g.Tᵀ * X.Tᵀ
    rw [transpose_mul]

end

theorem body_factor (hG : IsRigid G) {v v' : FactorVirt} (h : BodyFactorMoved G v v') : (bodySym G).Factors v v' := by
  have hG' : IsRigid (SE3.mk G).T := hG
  cases h with
  | prior3d obs obs' W ty ho ho' =>
    refine ⟨rfl, (1 : Matrix (Fin 6) (Fin 6) ℝ), one_info _, ?_⟩
    intro vals vals' ht hr hok
    obtain ⟨X, X', rfl, rfl, hx⟩ := rel_one (κ := .pose3d) ht hr
    obtain rfl : X' = _ := body_mk hx
    obtain rfl : obs' = _ := body_mk ho'
    refine ⟨?_, jacRel_blk (κ := .pose3d) rfl ?_⟩
    · have e : prior3dRes (obs.mul (SE3.mk G)) (X.mul (SE3.mk G)) = prior3dRes obs X := by
        rw [prior3dRes, prior3dTr_body hG' ho, prior3dRes]
      exact (congrArg (fun (z : Vec6) (i : Fin 6) => z (at6 i)) e).trans (one_mulVec _).symm
    · exact body_id _ rfl
  | rel3d obs obs' W ty ho =>
    refine ⟨rfl, (1 : Matrix (Fin 6) (Fin 6) ℝ), one_info _, ?_⟩
    intro vals vals' ht hr hok
    obtain ⟨X, X', Y, Y', rfl, rfl, hx, hy⟩ := rel_two (κ := .pose3d) (μ := .pose3d) ht hr
    obtain rfl : X' = _ := body_mk hx
    obtain rfl : Y' = _ := body_mk hy
    have e := rel3dTr_body (X := X) (obs := obs) (obs' := obs') hG' (hok.1 Y (by simp)) ho
    refine ⟨?_, jacRel_blk2 (κ := .pose3d) (μ := .pose3d) rfl rfl ?_ ?_⟩
    · have e' : rel3dRes obs' (X.mul (SE3.mk G)) (Y.mul (SE3.mk G)) = rel3dRes obs X Y := by
        rw [rel3dRes, e, rel3dRes]
      exact (congrArg (fun (z : Vec6) (i : Fin 6) => z (at6 i)) e').trans (one_mulVec _).symm
    · exact body_id _ rfl
    · exact body_id _ (congrArg (fun T : SE3 => (-T.adj).submatrix at6 at6) e)
  | land3d obs obs' W W' rev ty ho hW =>
    refine ⟨rfl, G.toBlocks₁₁ᵀ, hW, ?_⟩
    intro vals vals' ht hr hok
    obtain rfl : obs = (SE3.mk G).transform obs' := ho
    cases rev with
    | false =>
      obtain ⟨X, X', l, l', rfl, rfl, hx, hl⟩ := rel_two (κ := .pose3d) (μ := .landmark3d) ht hr
      obtain rfl : X' = _ := body_mk hx
      obtain rfl : l' = l := hl
      have hX := hok.1 X (by simp)
      obtain ⟨j1, j2⟩ := land3dJac_body hG' hX l'
      refine ⟨land3dRes_body hG' hX obs' l', jacRel_blk2 (κ := .pose3d) (μ := .landmark3d) rfl rfl ?_ ?_⟩
      · exact body_B _ (congrArg (fun M => M.submatrix id at6) j1)
      · exact body_B _ j2
    | true =>
      obtain ⟨l, l', X, X', rfl, rfl, hl, hx⟩ := rel_two (κ := .landmark3d) (μ := .pose3d) ht hr
      obtain rfl : X' = _ := body_mk hx
      obtain rfl : l' = l := hl
      have hX := hok.1 X (by simp)
      obtain ⟨j1, j2⟩ := land3dJac_body hG' hX l'
      refine ⟨land3dRes_body hG' hX obs' l', jacRel_blk2 (κ := .landmark3d) (μ := .pose3d) rfl rfl ?_ ?_⟩
      · exact body_B _ j2
      · exact body_B _ (congrArg (fun M => M.submatrix id at6) j1)
  | plane4d obs obs' W W' rev ty hu ho hW =>
    refine ⟨rfl, Gᵀ.submatrix at4 at4, hW, ?_⟩
    intro vals vals' ht hr hok
    have ho1 : planeObs obs = obs := planeObs_unit hu
    have ho2 : planeObs obs' = nonnegOffset (Gᵀ *ᵥ obs) := by
      rw [ho]; exact offset_unit hG' hu
    have hB : ∀ (z : Vec4), (fun i : Fin 4 => (Gᵀ *ᵥ z) (at4 i)) = Gᵀ.submatrix at4 at4 *ᵥ fun i => z (at4 i) := by
      intro z
      funext i
      rw [mulVec, mulVec, dotProduct, dotProduct, ← Equiv.sum_comp eq4]
      rfl
    cases rev with
    | false =>
      obtain ⟨X, X', p, p', rfl, rfl, hx, hp⟩ := rel_two (κ := .pose3d) (μ := .plane4d) ht hr
      obtain rfl : X' = _ := body_mk hx
      obtain rfl : p' = p := hp
      obtain ⟨j0, j1, j2⟩ := plane_body (X := X) (g := SE3.mk G) obs p' (hok.2 obs W _ ty X p' rfl (by simp) (by simp))
      refine ⟨?_, jacRel_blk2 (κ := .pose3d) (μ := .plane4d) rfl rfl ?_ ?_⟩
      · change (fun i : Fin 4 => planeRes (planeObs obs') _ _ (at4 i)) = _ *ᵥ fun i : Fin 4 => planeRes (planeObs obs) _ _ (at4 i)
        rw [ho1, ho2]
        exact (congrArg (fun (z : Vec4) (i : Fin 4) => z (at4 i)) j0).trans (hB _)
      · exact body_B _ ((congrArg (fun M => M.submatrix at4 at6) j1).trans (at4_mul _ _ _ _).symm)
      · exact body_B _ ((congrArg (fun M => M.submatrix at4 at4) j2).trans (at4_mul _ _ _ _).symm)
    | true =>
      obtain ⟨p, p', X, X', rfl, rfl, hp, hx⟩ := rel_two (κ := .plane4d) (μ := .pose3d) ht hr
      obtain rfl : X' = _ := body_mk hx
      obtain rfl : p' = p := hp
      obtain ⟨j0, j1, j2⟩ := plane_body (X := X) (g := SE3.mk G) obs p' (hok.2 obs W _ ty X p' rfl (by simp) (by simp))
      refine ⟨?_, jacRel_blk2 (κ := .plane4d) (μ := .pose3d) rfl rfl ?_ ?_⟩
      · change (fun i : Fin 4 => planeRes (planeObs obs') _ _ (at4 i)) = _ *ᵥ fun i : Fin 4 => planeRes (planeObs obs) _ _ (at4 i)
        rw [ho1, ho2]
        exact (congrArg (fun (z : Vec4) (i : Fin 4) => z (at4 i)) j0).trans (hB _)
      · exact body_B _ ((congrArg (fun M => M.submatrix at4 at4) j2).trans (at4_mul _ _ _ _).symm)
      · exact body_B _ ((congrArg (fun M => M.submatrix at4 at6) j1).trans (at4_mul _ _ _ _).symm)
  | p2plane px px' py ny W ty hp =>
    refine ⟨rfl, (1 : Matrix (Fin 1) (Fin 1) ℝ), one_info _, ?_⟩
    intro vals vals' ht hr hok
    obtain ⟨X, X', rfl, rfl, hx⟩ := rel_one (κ := .pose3d) ht hr
    obtain rfl : X' = _ := body_mk hx
    obtain rfl : px = (SE3.mk G).transform px' := hp
    have e := (C11_action (hok.1 X (by simp)) hG' px' px').1
    refine ⟨?_, jacRel_blk (κ := .pose3d) rfl ?_⟩
    · have e' : p2planeRes px' py ny (X.mul (SE3.mk G)) = p2planeRes ((SE3.mk G).transform px') py ny X := by
        rw [p2planeRes, e, p2planeRes]
      exact (congrArg (fun (z : ℝ) (_ : Fin 1) => z) e').trans (one_mulVec _).symm
    · exact body_id _ (congrArg (fun q : Vec3 => Matrix.of fun (_ : Fin 1) j => (ny ᵥ* pointJr q) (at6 j)) e)

theorem body_flat {κ : NodeKind} {δ : ℕ → ℝ} : κ.ofFlat ((bodySym G).lin κ δ) = κ.ofFlat δ := by
  have hκ : ∀ i < κ.dim, (bodySym G).lin κ δ i = δ i := fun i hi => body_lin hi
  cases κ
  · funext i; exact hκ i i.2
  · funext i
    rcases i with i | i
    · exact hκ i (by change (i : ℕ) < 6; omega)
    · exact hκ (3 + i) (by change 3 + (i : ℕ) < 6; omega)
  · funext i; exact hκ i i.2
  · funext i; exact hκ i i.2
  · funext i
    rcases i with i | i
    · exact hκ i (by change (i : ℕ) < 4; omega)
    · exact hκ 3 (by change 3 < 4; omega)

theorem body_pose_upd {X : SE3} (hG : IsRigid (SE3.mk G).T) (hX : IsRigid X.T) {δ : ℕ → ℝ}
    (hw : (∀ i : Fin 3, δ i = 0) ∨ 1e-3 < len fun i : Fin 3 => δ i)
    (h1 : Spec.Plain (NormedSpace.exp (twist (fun i => δ i) fun i => δ (3 + i)) * X.T).toBlocks₁₁)
    (h2 : Spec.Plain (NormedSpace.exp (twist (fun i => δ i) fun i => δ (3 + i)) * X.T * G).toBlocks₁₁) :
    ((X.mul (SE3.mk G)).updateLhs (NodeKind.ofFlat .pose3d δ)).regenerate.T =
      (X.updateLhs (NodeKind.ofFlat .pose3d δ)).regenerate.T * G := by
  have hd : NodeKind.ofFlat .pose3d δ = vec6 (fun i => δ i) fun i => δ (3 + i) := rfl
  have hw' : 1e-3 < len (fun i : Fin 3 => δ i) ∨ (fun i : Fin 3 => δ i) = 0 := hw.symm.imp id fun h => funext h
  have hexp := C08_exp_exact (fun i => δ i) (fun i => δ (3 + i)) hw'
  rw [← hexp] at h1 h2
  rw [hd]
  generalize hξ : vec6 (fun i : Fin 3 => δ i) (fun i : Fin 3 => δ (3 + i)) = ξ at *
  have hh : head3 ξ = fun i : Fin 3 => δ i := by rw [← hξ, head3_vec6]
  have hr : IsRigid (SE3.ofVec ξ).T := by
    rw [se3_ofVec_T]
    refine isRigid_homog ?_ _
    rw [hh]
    rcases hw' with h | h
    · exact ofVec_isRotation_of_ge (le_trans (by norm_num) h.le)
    · rw [h, ofVec_zero]; exact isRotation_one
  have hM : IsRigid (X.updateLhs ξ).T := mul_isRigid hr hX
  have e : (X.mul (SE3.mk G)).updateLhs ξ = (X.updateLhs ξ).mul (SE3.mk G) := by
    apply SE3.ext
    change (SE3.ofVec _).T * (X.T * G) = (SE3.ofVec ξ).T * X.T * G
    rw [Matrix.mul_assoc]
  rw [e, regenerate_plain (mul_isRigid hM hG) h2, regenerate_plain hM h1]
  rfl

theorem body_upd (hG : IsRigid G) {v v' : NodeVal} (h : BodyMoved G v v') {δ : ℕ → ℝ} (hs : BodyStep G v δ) :
    BodyMoved G (v.upd δ) (v'.upd ((bodySym G).lin v.1 δ)) := by
  have hG' : IsRigid (SE3.mk G).T := hG
  obtain ⟨k, x⟩ := v
  obtain ⟨k', x'⟩ := v'
  cases k <;> cases k' <;> first | exact absurd h id | skip
  · obtain rfl : x' = _ := body_mk h
    obtain ⟨hX, hw, h1, h2⟩ := hs x rfl
    have := body_pose_upd hG' hX hw h1 h2
    rw [NodeVal.upd, NodeVal.upd]
    dsimp only
    rw [body_flat]
    exact this
  all_goals
    obtain rfl : x' = x := h
    rw [NodeVal.upd, NodeVal.upd]
    dsimp only
    rw [body_flat]
    rfl

end Mrob
