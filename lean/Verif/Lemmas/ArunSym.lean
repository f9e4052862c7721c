import Verif.Props.Arun

/-! # Lemmas about `arun` on exchanged, moved and reordered clouds -/

open Matrix

namespace Mrob

open Spec

theorem SVD3.Decomposes.transpose {d : SVD3} {H : Mat3} (h : d.Decomposes H) : SVD3.Decomposes ⟨d.V, d.sv, d.U⟩ Hᵀ := by
  refine ⟨h.2.1, h.1, h.2.2.1, h.2.2.2.1, ?_⟩
  conv_lhs => rw [h.2.2.2.2]
  rw [transpose_mul, transpose_mul, transpose_transpose, diagonal_transpose, Matrix.mul_assoc]

theorem SVD3.Decomposes.conj {d : SVD3} {H P Q : Mat3} (h : d.Decomposes H) (hP : Pᵀ * P = 1) (hQ : Qᵀ * Q = 1) :
    SVD3.Decomposes ⟨P * d.U, d.sv, Q * d.V⟩ (P * H * Qᵀ) := by
  have key : ∀ {A B : Mat3}, Aᵀ * A = 1 → Bᵀ * B = 1 → (A * B)ᵀ * (A * B) = 1 := fun {A B} hA hB => by
    rw [transpose_mul, Matrix.mul_assoc, ← Matrix.mul_assoc Aᵀ, hA, Matrix.one_mul, hB]
  refine ⟨key hP h.1, key hQ h.2.1, h.2.2.1, h.2.2.2.1, ?_⟩
  conv_lhs => rw [h.2.2.2.2]
  rw [transpose_mul]
  simp only [Matrix.mul_assoc]

/-- The cross moment of the clouds around their means. -/
noncomputable def moment (X Y : List Vec3) : Mat3 := crossMoment (centred X (rowMean X)) (centred Y (rowMean Y))

/-- Whether `arun` succeeds depends only on the singular values of the cross moment. -/
theorem arun_succeeds {svd svd' : Mat3 → SVD3} {X Y X' Y' : List Vec3} {T A : SE3} (T' : SE3)
    (h : arun svd X Y T = .ok (true, A)) (hl : Y'.length = X'.length) (hX : X' ≠ [])
    (hsv : (svd' (moment X' Y')).sv = (svd (moment X Y)).sv) : ∃ A', arun svd' X' Y' T' = .ok (true, A') := by
  obtain ⟨-, h⟩ := arun_inv h
  rcases h with h | ⟨-, -, h1, h2, -⟩
  · simp at h
  unfold moment at hsv
  rw [← hsv] at h1 h2
  obtain ⟨b, A', hb, -⟩ := C56_total svd' X' Y' T' hl
  cases b with
  | true => exact ⟨A', hb⟩
  | false =>
    exfalso
    rw [arun, if_neg (not_not.mpr hl), if_neg (by simpa [List.length_eq_zero_iff] using hX)] at hb
    dsimp only at hb
    rw [if_neg (not_lt.mpr h1), if_neg (not_lt.mpr h2)] at hb
    simp at hb

theorem arun_nonempty {svd : Mat3 → SVD3} {X Y : List Vec3} {T A : SE3} (h : arun svd X Y T = .ok (true, A)) :
    Y.length = X.length ∧ X ≠ [] := by
  obtain ⟨hl, h⟩ := arun_inv h
  rcases h with h | ⟨-, hX, -⟩
  · simp at h
  · exact ⟨hl, hX⟩

theorem moment_swap (X Y : List Vec3) : moment Y X = (moment X Y)ᵀ := by
  unfold moment
  generalize centred X (rowMean X) = A
  generalize centred Y (rowMean Y) = B
  unfold crossMoment
  induction A generalizing B with
  | nil => cases B <;> simp
  | cons a A ih =>
    cases B with
    | nil => simp
    | cons b B =>
      rw [List.zipWith_cons_cons, List.zipWith_cons_cons, List.sum_cons, List.sum_cons, transpose_add, ih, transpose_vecMulVec]

theorem rowMean_move {M : Mat4} {X : List Vec3} (hX : X ≠ []) :
    rowMean (X.map (movePoint M)) = tl3 M *ᵥ rowMean X + tr3 M := by
  have hN : (X.length : ℝ) ≠ 0 := by simpa [List.length_eq_zero_iff] using hX
  have hsum : ∀ Z : List Vec3, (Z.map (movePoint M)).sum = tl3 M *ᵥ Z.sum + (Z.length : ℝ) • tr3 M := by
    intro Z
    induction Z with
    | nil => simp
    | cons z Z ih =>
      rw [List.map_cons, List.sum_cons, ih, List.sum_cons, mulVec_add, movePoint_rigid, List.length_cons]
      push_cast
      module
  rw [rowMean, hsum, List.length_map, rowMean, smul_add, smul_smul, inv_mul_cancel₀ hN, one_smul, mulVec_smul]

theorem moment_move {P Q : Mat4} {X Y : List Vec3} (hX : X ≠ []) (hY : Y ≠ []) :
    moment (X.map (movePoint P)) (Y.map (movePoint Q)) = tl3 P * moment X Y * (tl3 Q)ᵀ := by
  unfold moment
  rw [rowMean_move hX, rowMean_move hY]
  have hc : ∀ (M : Mat4) (c : Vec3) (Z : List Vec3),
      centred (Z.map (movePoint M)) (tl3 M *ᵥ c + tr3 M) = (centred Z c).map (tl3 M *ᵥ ·) := fun M c Z => by
    unfold centred
    rw [List.map_map, List.map_map]
    refine List.map_congr_left fun z _ => ?_
    simp only [Function.comp_apply, movePoint_rigid, add_sub_add_right_eq_sub, ← mulVec_sub]
  rw [hc, hc]
  generalize centred X (rowMean X) = A
  generalize centred Y (rowMean Y) = B
  unfold crossMoment
  induction A generalizing B with
  | nil => simp
  | cons a A ih =>
    cases B with
    | nil => simp
    | cons b B =>
      rw [List.map_cons, List.map_cons, List.zipWith_cons_cons, List.zipWith_cons_cons, List.sum_cons, List.sum_cons, ih,
        Matrix.mul_add, Matrix.add_mul, mul_vecMulVec, vecMulVec_mul, vecMul_transpose]

theorem moment_perm {X Y X' Y' : List Vec3} (hl : Y.length = X.length) (hl' : Y'.length = X'.length)
    (h : (X.zip Y).Perm (X'.zip Y')) : moment X Y = moment X' Y' := by
  have e1 : ∀ {X Y : List Vec3}, Y.length = X.length → rowMean X = ((X.zip Y).length : ℝ)⁻¹ • ((X.zip Y).map Prod.fst).sum :=
    fun {X Y} hl => by
      rw [rowMean, List.map_fst_zip (by omega), List.length_zip, hl, min_self]
  have e2 : ∀ {X Y : List Vec3}, Y.length = X.length → rowMean Y = ((X.zip Y).length : ℝ)⁻¹ • ((X.zip Y).map Prod.snd).sum :=
    fun {X Y} hl => by
      rw [rowMean, List.map_snd_zip (by omega), List.length_zip, hl, min_self]
  have e3 : ∀ {X Y : List Vec3} (a b : Vec3), crossMoment (centred X a) (centred Y b) =
      ((X.zip Y).map fun p => vecMulVec (p.1 - a) (p.2 - b)).sum := fun {X Y} a b => by
    unfold crossMoment centred
    rw [List.zipWith_map, ← List.map_uncurry_zip_eq_zipWith]
    rfl
  unfold moment
  rw [e3, e3, e1 hl, e2 hl, e1 hl', e2 hl', h.length_eq, (h.map Prod.fst).sum_eq, (h.map Prod.snd).sum_eq, (h.map _).sum_eq]

/-! ### Costs -/

theorem movePoint_mul {M N : Mat4} (hN : LastRow N) (x : Vec3) : movePoint (M * N) x = movePoint M (movePoint N x) := by
  have e : ∀ (M : Mat4) (p : Vec3), movePoint M p = fun i => (M *ᵥ homPt p) (.inl i) := fun M p => by
    funext i
    simp [mulVec, dotProduct, homPt, Fintype.sum_sum_type, movePoint]
  rw [e, e, ← mulVec_mulVec, mulVec_homPt hN]

theorem dist2_rigid {M : Mat4} (hM : IsRigid M) (p q : Vec3) : dist2 (movePoint M p) (movePoint M q) = dist2 p q := by
  have hR := (isRigid_iff.mp hM).1.transpose_mul
  have e : ∀ a b : Vec3, dist2 a b = (a - b) ⬝ᵥ (a - b) := fun a b => by simp [dist2, dotProduct, pow_two]
  rw [e, e, movePoint_rigid, movePoint_rigid, add_sub_add_right_eq_sub, ← mulVec_sub, dotProduct_mulVec, vecMul_mulVec, hR,
    vecMul_one]

theorem alignCost_swap {M N : Mat4} (hM : IsRigid M) (hN : IsRigid N) (h : N * M = 1) (X Y : List Vec3) :
    alignCost N (Y.zip X) = alignCost M (X.zip Y) := by
  unfold alignCost
  rw [← List.zip_swap X Y, List.map_map]
  congr 1
  refine List.map_congr_left fun p _ => ?_
  have h1 : movePoint N (movePoint M p.1) = p.1 := by
    rw [← movePoint_mul hM.lastRow, h]
    funext i; simp [movePoint, Matrix.one_apply]
  change dist2 p.1 (movePoint N p.2) = dist2 p.2 (movePoint M p.1)
  rw [← dist2_rigid hN p.2, h1]
  simp only [dist2]
  exact Finset.sum_congr rfl fun i _ => by ring

theorem alignCost_move {P Q M : Mat4} (hP : IsRigid P) (hQ : IsRigid Q) (hM : IsRigid M) {M' : Mat4} (h : M' * P = Q * M)
    (X Y : List Vec3) : alignCost M' ((X.map (movePoint P)).zip (Y.map (movePoint Q))) = alignCost M (X.zip Y) := by
  unfold alignCost
  rw [List.zip_map, List.map_map]
  congr 1
  refine List.map_congr_left fun p _ => ?_
  change dist2 (movePoint Q p.2) (movePoint M' (movePoint P p.1)) = dist2 p.2 (movePoint M p.1)
  rw [← movePoint_mul hP.lastRow, h, movePoint_mul hM.lastRow, dist2_rigid hQ]

/-! ## Iterative registration -/

theorem Out.bind_assoc' {α β γ : Type} (x : Out α) (f : α → Out β) (g : β → Out γ) :
    x >>= f >>= g = x >>= fun a => f a >>= g := by cases x <;> rfl

theorem Out.index_map {α β : Type} (f : α → β) (l : List α) (i : ℕ) :
    Out.index (l.map f) i = Out.index l i >>= fun a => .ok (f a) := by
  unfold Out.index
  rw [List.getElem?_map]
  cases l[i]? <;> rfl

theorem regLoop_moved {step step' : SE3 → Out Vec6} {P : Mat4} (hs : ∀ S T : SE3, S.T * P = T.T → step' S = step T) {tol : ℝ}
    {i k : ℕ} {S T T' : SE3} (h : S.T * P = T.T) (hr : regLoop step tol i T = .ok (k, T')) :
    ∃ S', regLoop step' tol i S = .ok (k, S') ∧ S'.T * P = T'.T := by
  induction hm : 20 - i using Nat.strong_induction_on generalizing i S T with
  | _ m ih =>
    rw [regLoop] at hr ⊢
    rw [hs S T h]
    obtain ⟨d, hd, hr⟩ := Out.bind_eq_ok.mp hr
    rw [hd, Out.ok_bind]
    have hu : (S.updateLhs d).T * P = (T.updateLhs d).T := by
      change (SE3.ofVec d).T * S.T * P = (SE3.ofVec d).T * T.T
      rw [Matrix.mul_assoc, h]
    by_cases hc : vnorm d > tol ∧ i + 1 < 20
    · rw [if_pos hc] at hr ⊢
      exact ih (20 - (i + 1)) (by omega) hu hr rfl
    · rw [if_neg hc] at hr ⊢
      cases hr
      exact ⟨_, rfl, hu⟩

theorem regStep_moved {W W' : SE3 → ℕ → Out Mat3} {P : Mat4} (hP : LastRow P) {S T : SE3} (h : S.T * P = T.T)
    (hW : ∀ i, W' S i = W T i) (X Y : List Vec3) : regStep W' (X.map (movePoint P)) Y S = regStep W X Y T := by
  unfold regStep regSystem
  rw [List.length_map]
  congr 3
  funext i
  rw [Out.index_map, Out.bind_assoc', hW]
  congr 1
  funext x
  rw [Out.ok_bind, transform_eq_movePoint, transform_eq_movePoint, ← movePoint_mul hP, h]

theorem R_moved {P : Mat4} (hP : LastRow P) {S T : SE3} (h : S.T * P = T.T) : S.R * tl3 P = T.R := by
  change tl3 S.T * tl3 P = tl3 T.T
  rw [← h]
  ext i j
  simp [tl3, toBlocks₁₁, Matrix.mul_apply, Fintype.sum_sum_type, hP.1]

theorem gicpWeight_moved {P : Mat4} (hP : LastRow P) {S T : SE3} (h : S.T * P = T.T) (covX covY : List Mat3) (i : ℕ) :
    gicpWeight (covX.map fun C => tl3 P * C * (tl3 P)ᵀ) covY S i = gicpWeight covX covY T i := by
  unfold gicpWeight
  congr 1
  funext sy
  rw [Out.index_map, Out.bind_assoc']
  congr 1
  funext sx
  rw [Out.ok_bind]
  have e : S.R * (tl3 P * sx * (tl3 P)ᵀ) * S.Rᵀ = T.R * sx * T.Rᵀ := by
    rw [← R_moved hP h, transpose_mul]
    simp only [Matrix.mul_assoc]
  rw [e]

/-! ## Order of the correspondences -/

theorem traverse_range {α β : Type} {f : ℕ → Out β} {g : α → Out β} (l : List α)
    (h : ∀ i (hi : i < l.length), f i = g l[i]) : Out.traverse f (List.range l.length) = Out.traverse g l := by
  have e : ∀ {γ : Type} (f : γ → Out β) (l : List γ), Out.traverse f l = Out.traverse id (l.map f) := fun f l => by
    induction l with
    | nil => rfl
    | cons a l ih => simp only [Out.traverse, List.map_cons, ih, id_eq]
  rw [e f, e g]
  congr 1
  refine List.ext_getElem (by simp) fun i h1 h2 => ?_
  have hi : i < l.length := by simpa using h1
  simpa using h i hi

theorem traverse_perm {α β : Type} [AddCommMonoid β] {g : α → Out β} (hg : ∀ a, (∃ b, g a = .ok b) ∨ g a = .nan) {l l' : List α}
    (h : l.Perm l') : (Out.traverse g l >>= fun ts => .ok ts.sum) = Out.traverse g l' >>= fun ts => .ok ts.sum := by
  have hc : ∀ a (l : List α), (Out.traverse g (a :: l) >>= fun ts => .ok ts.sum) =
      g a >>= fun b => (Out.traverse g l >>= fun ts => .ok ts.sum) >>= fun s => .ok (b + s) := fun a l => by
    rw [Out.traverse, Out.bind_assoc']
    congr 1
    funext b
    cases Out.traverse g l <;> simp [Out.bind_assoc'] <;> rfl
  induction h with
  | nil => rfl
  | cons a _ ih => rw [hc, hc, ih]
  | swap a b l =>
    rw [hc, hc, hc, hc]
    generalize (Out.traverse g l >>= fun ts => (.ok ts.sum : Out β)) = r
    rcases hg a with ⟨x, hx⟩ | hx <;> rcases hg b with ⟨y, hy⟩ | hy <;> rw [hx, hy] <;> cases r <;>
      first | rfl | exact congrArg Out.ok (add_left_comm _ _ _)
  | trans _ _ ih1 ih2 => exact ih1.trans ih2

theorem Out.index_map_getElem {α β : Type} (f : α → β) (l : List α) (i : ℕ) (hi : i < l.length) :
    Out.index (l.map f) i = .ok (f l[i]) := by
  rw [Out.index_eq_ok, List.getElem?_map, List.getElem?_eq_getElem hi]
  rfl

theorem regSystem_list {γ : Type} {W : SE3 → ℕ → Out Mat3} {T : SE3} {u : γ → Out Mat3} (l : List (Vec3 × Vec3 × γ))
    (hW : ∀ i (hi : i < l.length), W T i = u l[i].2.2) :
    regSystem W (l.map fun p => p.1) (l.map fun p => p.2.1) T =
      Out.traverse (fun p : Vec3 × Vec3 × γ => u p.2.2 >>= fun L => .ok (regTerm L (T.transform p.1) p.2.1)) l >>=
        fun ts => .ok ts.sum := by
  unfold regSystem
  rw [List.length_map, traverse_range l fun i hi => ?_]
  rw [Out.index_map_getElem _ _ _ hi, Out.index_map_getElem _ _ _ hi, Out.ok_bind, Out.ok_bind, hW i hi]

theorem regStep_perm {γ : Type} {W W' : SE3 → ℕ → Out Mat3} {T : SE3} {u : γ → Out Mat3}
    (hu : ∀ c, (∃ L, u c = .ok L) ∨ u c = .nan) {l l' : List (Vec3 × Vec3 × γ)} (h : l.Perm l')
    (hW : ∀ i (hi : i < l.length), W T i = u l[i].2.2) (hW' : ∀ i (hi : i < l'.length), W' T i = u l'[i].2.2) :
    regStep W' (l'.map fun p => p.1) (l'.map fun p => p.2.1) T = regStep W (l.map fun p => p.1) (l.map fun p => p.2.1) T := by
  unfold regStep
  rw [regSystem_list l hW, regSystem_list l' hW', traverse_perm (fun p => ?_) h]
  rcases hu p.2.2 with ⟨L, hL⟩ | hn
  · exact Or.inl ⟨_, by rw [hL, Out.ok_bind]⟩
  · exact Or.inr (by rw [hn]; rfl)

end Mrob
