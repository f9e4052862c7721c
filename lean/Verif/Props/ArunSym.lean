import Verif.Lemmas.ArunSym
import Verif.Props.IterReg
import Verif.Props.Arun

/-!
# C83: registration commutes with exchanging, moving and reordering the clouds
-/

open Matrix

namespace Mrob

open Spec

/-- C83, exchange: registering `Y` to `X` succeeds exactly when registering `X` to `Y` does, and gives the inverse motion.
The decompositions may come from different solvers. -/
theorem C83_exchange (svd svd' : Mat3 → SVD3) (hsvd : ∀ H, (svd H).Decomposes H) (hsvd' : ∀ H, (svd' H).Decomposes H)
    (X Y : List Vec3) (T A T' : SE3) (h : arun svd X Y T = .ok (true, A)) :
    ∃ A', arun svd' Y X T' = .ok (true, A') ∧ A.T * A'.T = 1 := by
  obtain ⟨hl, hX⟩ := arun_nonempty h
  have hY : Y ≠ [] := fun e => hX (List.length_eq_zero_iff.mp (by rw [← hl, e]; rfl))
  obtain ⟨A', h'⟩ := arun_succeeds (svd' := svd') (X' := Y) (Y' := X) T' h hl.symm hY (by
    rw [moment_swap]
    have := sv_unique (hsvd' _) (hsvd (moment X Y)).transpose
    exact this)
  refine ⟨A', h', ?_⟩
  have hA := C56_rigid svd hsvd X Y T A h
  have hA' := C56_rigid svd' hsvd' Y X T' A' h'
  by_contra hne
  have hi : A.inv.T ≠ A'.T := fun e => hne (by rw [← e]; exact mul_inv_cancel' hA)
  have hi' : A'.inv.T ≠ A.T := fun e => hne (by rw [← e]; exact inv_mul_cancel' hA')
  have h1 := C56_optimal svd' hsvd' Y X T' A' h' A.inv.T (inv_isRigid hA) hi
  have h2 := C56_optimal svd hsvd X Y T A h A'.inv.T (inv_isRigid hA') hi'
  rw [alignCost_swap hA (inv_isRigid hA) (inv_mul_cancel' hA)] at h1
  rw [alignCost_swap hA' (inv_isRigid hA') (inv_mul_cancel' hA')] at h2
  exact lt_asymm h1 h2

/-- C83, motion: moving the clouds by rigid motions `P` and `Q` changes the result from `A` to `Q A P⁻¹`. -/
theorem C83_moved (svd svd' : Mat3 → SVD3) (hsvd : ∀ H, (svd H).Decomposes H) (hsvd' : ∀ H, (svd' H).Decomposes H)
    (X Y : List Vec3) (P Q : Mat4) (hP : IsRigid P) (hQ : IsRigid Q) (T A T' : SE3) (h : arun svd X Y T = .ok (true, A)) :
    ∃ A', arun svd' (X.map (movePoint P)) (Y.map (movePoint Q)) T' = .ok (true, A') ∧ A'.T * P = Q * A.T := by
  obtain ⟨hl, hX⟩ := arun_nonempty h
  have hY : Y ≠ [] := fun e => hX (List.length_eq_zero_iff.mp (by rw [← hl, e]; rfl))
  obtain ⟨A', h'⟩ := arun_succeeds (svd' := svd') (X' := X.map (movePoint P)) (Y' := Y.map (movePoint Q)) T' h
    (by simpa using hl) (by simpa using hX) (by
      rw [moment_move hX hY]
      have := sv_unique (hsvd' _) ((hsvd (moment X Y)).conj (isRigid_iff.mp hP).1.transpose_mul (isRigid_iff.mp hQ).1.transpose_mul)
      exact this)
  refine ⟨A', h', ?_⟩
  have hA := C56_rigid svd hsvd X Y T A h
  have hA' := C56_rigid svd' hsvd' _ _ T' A' h'
  have hPi := inv_isRigid (a := ⟨P⟩) hP
  have hPP : (SE3.mk P).inv.T * P = 1 := inv_mul_cancel' (a := ⟨P⟩) hP
  have hQQ : (SE3.mk Q).inv.T * Q = 1 := inv_mul_cancel' (a := ⟨Q⟩) hQ
  have hQQ' : Q * (SE3.mk Q).inv.T = 1 := mul_inv_cancel' (a := ⟨Q⟩) hQ
  -- the two candidates
  have hB : IsRigid (Q * A.T * (SE3.mk P).inv.T) :=
    mul_isRigid (a := ⟨Q * A.T⟩) (b := (SE3.mk P).inv) (mul_isRigid (a := ⟨Q⟩) (b := A) hQ hA) hPi
  have hC : IsRigid ((SE3.mk Q).inv.T * (A'.T * P)) :=
    mul_isRigid (a := (SE3.mk Q).inv) (b := ⟨A'.T * P⟩) (inv_isRigid (a := ⟨Q⟩) hQ) (mul_isRigid (a := A') (b := ⟨P⟩) hA' hP)
  have eB : Q * A.T * (SE3.mk P).inv.T * P = Q * A.T := by rw [Matrix.mul_assoc, hPP, Matrix.mul_one]
  have eC : A'.T * P = Q * ((SE3.mk Q).inv.T * (A'.T * P)) := by rw [← Matrix.mul_assoc Q, hQQ', Matrix.one_mul]
  by_contra hne
  have h1 := C56_optimal svd' hsvd' _ _ T' A' h' _ hB fun e => hne (by rw [← e, eB])
  have h2 := C56_optimal svd hsvd X Y T A h _ hC fun e => hne (by rw [← e, ← eC])
  rw [alignCost_move hP hQ hA eB, alignCost_move hP hQ hC eC] at h1
  exact lt_asymm h1 h2

/-- C83, order: the result does not depend on the order of the correspondences. -/
theorem C83_reordered (svd svd' : Mat3 → SVD3) (hsvd : ∀ H, (svd H).Decomposes H) (hsvd' : ∀ H, (svd' H).Decomposes H)
    (X Y X' Y' : List Vec3) (hl : Y.length = X.length) (hl' : Y'.length = X'.length) (hp : (X.zip Y).Perm (X'.zip Y'))
    (T A T' : SE3) (h : arun svd X Y T = .ok (true, A)) : arun svd' X' Y' T' = .ok (true, A) := by
  obtain ⟨-, hX⟩ := arun_nonempty h
  have hlen : X'.length = X.length := by
    have := hp.length_eq
    rw [List.length_zip, List.length_zip, hl, hl', min_self, min_self] at this
    exact this.symm
  obtain ⟨A', h'⟩ := arun_succeeds (svd' := svd') (X' := X') (Y' := Y') T' h hl'
    (fun e => hX (List.length_eq_zero_iff.mp (by rw [← hlen, e]; rfl))) (by
      rw [← moment_perm hl hl' hp]
      exact sv_unique (hsvd' _) (hsvd _))
  rw [h']
  have hc : ∀ M, alignCost M (X.zip Y) = alignCost M (X'.zip Y') := fun M => (hp.map _).sum_eq
  have : A'.T = A.T := by
    by_contra hne
    have h1 := C56_optimal svd hsvd X Y T A h A'.T (C56_rigid svd' hsvd' _ _ _ _ h') hne
    have h2 := C56_optimal svd' hsvd' X' Y' T' A' h' A.T (C56_rigid svd hsvd _ _ _ _ h) (Ne.symm hne)
    rw [hc, hc] at h1
    exact lt_asymm h1 h2
  cases A; cases A'
  dsimp only at this
  rw [this]

/-- C83, refusals: when `arun` refuses a pair of clouds it refuses them exchanged, moved and reordered. -/
theorem C83_refused (svd svd' : Mat3 → SVD3) (hsvd : ∀ H, (svd H).Decomposes H) (hsvd' : ∀ H, (svd' H).Decomposes H)
    (X Y : List Vec3) (T T' : SE3) (h : arun svd X Y T = .ok (false, T)) :
    arun svd' Y X T' = .ok (false, T') ∧
    (∀ P Q, IsRigid P → IsRigid Q → arun svd' (X.map (movePoint P)) (Y.map (movePoint Q)) T' = .ok (false, T')) ∧
    ∀ X' Y' : List Vec3, Y'.length = X'.length → (X.zip Y).Perm (X'.zip Y') → arun svd' X' Y' T' = .ok (false, T') := by
  have hl := (arun_inv h).1
  have key : ∀ X' Y' : List Vec3, Y'.length = X'.length → (∀ A, arun svd' X' Y' T' = .ok (true, A) →
      ∃ A', arun svd X Y T = .ok (true, A')) → arun svd' X' Y' T' = .ok (false, T') := by
    intro X' Y' hl' hc
    obtain ⟨b, A, hA, hb⟩ := C56_total svd' X' Y' T' hl'
    cases b with
    | false => rw [hA, hb rfl]
    | true =>
      obtain ⟨A', hA'⟩ := hc A hA
      rw [h] at hA'
      simp at hA'
  refine ⟨key _ _ hl.symm fun A hA => ?_, fun P Q hP hQ => key _ _ (by simpa using hl) fun A hA => ?_,
    fun X' Y' hl' hp => key _ _ hl' fun A hA => ?_⟩
  · obtain ⟨A', h', -⟩ := C83_exchange svd' svd hsvd' hsvd Y X T' A T hA
    exact ⟨A', h'⟩
  · obtain ⟨A', h', -⟩ := C83_moved svd' svd hsvd' hsvd _ _ (SE3.mk P).inv.T (SE3.mk Q).inv.T (inv_isRigid (a := ⟨P⟩) hP)
      (inv_isRigid (a := ⟨Q⟩) hQ) T' A T hA
    have e : ∀ (M : Mat4), IsRigid M → ∀ Z : List Vec3, (Z.map (movePoint M)).map (movePoint (SE3.mk M).inv.T) = Z :=
      fun M hM Z => by
        rw [List.map_map]
        conv_rhs => rw [← List.map_id Z]
        refine List.map_congr_left fun x _ => ?_
        rw [Function.comp_apply, ← movePoint_mul hM.lastRow, inv_mul_cancel' (a := ⟨M⟩) hM, movePoint_rigid]
        have e1 : tl3 (1 : Mat4) = 1 := by rw [← homog_one]; simp
        have e2 : tr3 (1 : Mat4) = 0 := by rw [← homog_one]; simp
        rw [e1, e2, one_mulVec, add_zero, id]
    rw [e P hP, e Q hQ] at h'
    exact ⟨A', h'⟩
  · exact ⟨A, C83_reordered svd' svd hsvd' hsvd X' Y' X Y hl' hl hp.symm T' A T hA⟩

/-- C83, iterative methods: moving the first cloud by a rigid motion `P`, with the covariances of `gicp` rotated along, and
starting from `T P⁻¹` takes the same number of iterations and ends at the result times `P⁻¹`. -/
theorem C83_iterative_moved (X Y : List Vec3) (P : Mat4) (hP : IsRigid P) (tol : ℝ) (S T T' : SE3) (hS : S.T * P = T.T) (k : ℕ) :
    (∀ w, weightedPoint X Y w tol T = .ok (k, T') →
      ∃ S', weightedPoint (X.map (movePoint P)) Y w tol S = .ok (k, S') ∧ S'.T * P = T'.T) ∧
    ∀ covX covY, gicp X Y covX covY tol T = .ok (k, T') →
      ∃ S', gicp (X.map (movePoint P)) Y (covX.map fun C => P.toBlocks₁₁ * C * P.toBlocks₁₁ᵀ) covY tol S = .ok (k, S') ∧
        S'.T * P = T'.T :=
  ⟨fun _ h => regLoop_moved (fun _ _ e => regStep_moved hP.lastRow e (fun _ => rfl) X Y) hS h,
    fun covX covY h => regLoop_moved (fun _ _ e =>
      regStep_moved hP.lastRow e (gicpWeight_moved hP.lastRow e covX covY) X Y) hS h⟩

/-- C83, iterative methods: the order of the correspondences does not change the outcome. -/
theorem C83_iterative_reordered (tol : ℝ) (T : SE3) :
    (∀ l l' : List (Vec3 × Vec3 × ℝ), l.Perm l' →
      weightedPoint (l.map fun p => p.1) (l.map fun p => p.2.1) (l.map fun p => p.2.2) tol T =
        weightedPoint (l'.map fun p => p.1) (l'.map fun p => p.2.1) (l'.map fun p => p.2.2) tol T) ∧
    ∀ l l' : List (Vec3 × Vec3 × Mat3 × Mat3), l.Perm l' →
      gicp (l.map fun p => p.1) (l.map fun p => p.2.1) (l.map fun p => p.2.2.1) (l.map fun p => p.2.2.2) tol T =
        gicp (l'.map fun p => p.1) (l'.map fun p => p.2.1) (l'.map fun p => p.2.2.1) (l'.map fun p => p.2.2.2) tol T := by
  constructor
  · intro l l' h
    unfold weightedPoint
    congr 1
    funext T
    refine (regStep_perm (u := fun w : ℝ => .ok (w • 1)) (fun c => Or.inl ⟨_, rfl⟩) h (fun i hi => ?_) fun i hi => ?_).symm <;>
      rw [pointWeight, Out.index_map_getElem _ _ _ hi, Out.ok_bind]
  · intro l l' h
    unfold gicp
    congr 1
    funext T
    classical
    refine (regStep_perm (u := fun c : Mat3 × Mat3 =>
      if IsUnit (c.2 + T.R * c.1 * T.Rᵀ).det then .ok (c.2 + T.R * c.1 * T.Rᵀ)⁻¹ else .nan) (fun c => ?_) h (fun i hi => ?_)
        fun i hi => ?_).symm
    · split_ifs
      exacts [Or.inl ⟨_, rfl⟩, Or.inr rfl]
    · rw [gicpWeight, Out.index_map_getElem _ _ _ hi, Out.index_map_getElem _ _ _ hi, Out.ok_bind, Out.ok_bind]
    · rw [gicpWeight, Out.index_map_getElem _ _ _ hi, Out.index_map_getElem _ _ _ hi, Out.ok_bind, Out.ok_bind]

/-- A pair of clouds which `arun` accepts, a pair which it refuses, and a run of `gicp` and of `weighted_point`. -/
example : ∃ svd : Mat3 → SVD3, (∀ H, (svd H).Decomposes H) ∧
    (∃ (X Y : List Vec3) (A : SE3), X ≠ Y ∧ arun svd X Y SE3.default = .ok (true, A)) ∧
    arun svd octahedron octahedron SE3.default = .ok (false, SE3.default) ∧
    ∃ (S T' : SE3) (P : Mat4), IsRigid P ∧ P ≠ 1 ∧ S.T * P = SE3.default.T ∧
      gicp octahedron octahedronTurned (List.replicate 6 0) (List.replicate 6 1) 1e-4 SE3.default = .ok (1, T') ∧
      weightedPoint octahedron octahedronTurned (List.replicate 6 1) 1e-4 SE3.default = .ok (1, T') := by
  obtain ⟨svd, hsvd⟩ := exists_svd
  have hM : IsRigid (homog 1 ![1, 2, 3] 1) := isRigid_homog isRotation_one _
  obtain ⟨T', h1, h2, -⟩ := C57_rigid_fails
  refine ⟨svd, hsvd, ⟨[![2, 0, 0], ![-2, 0, 0], ![0, 1, 0], ![0, -1, 0]], _, _, ?_,
    C64_separated_partial svd hsvd _ (by simp) (homog 1 ![1, 2, 3] 1) hM 1 (by simp) ![8, 2, 0] ?_ ?_ ?_ _⟩,
    (C64_fails svd hsvd).2.2 _, (SE3.mk (homog 1 ![1, 2, 3] 1)).inv, T', homog 1 ![1, 2, 3] 1, hM, ?_,
    inv_mul_cancel' (a := ⟨homog 1 ![1, 2, 3] 1⟩) hM, h1, h2⟩
  · intro h
    have := congrFun (List.cons.inj h).1 1
    rw [movePoint_rigid] at this
    norm_num at this
  · ext i j
    fin_cases i <;> fin_cases j <;> simp [scatter, meanPoint, vecMulVec_apply] <;> norm_num
  · simp; norm_num
  · simp; norm_num
  · intro h
    have := congrFun (congrFun h (.inl 0)) (.inr ())
    simp [homog] at this

end Mrob
