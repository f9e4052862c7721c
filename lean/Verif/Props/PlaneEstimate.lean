import Verif.Lemmas.Arun

/-! # Property C58: plane, normal and centroid of a cloud -/

open Matrix

namespace Mrob

open Spec

theorem sum_movePoint (M : Mat4) (X : List Vec3) : (X.map (movePoint M)).sum = tl3 M *ᵥ X.sum + (X.length : ℝ) • tr3 M := by
  induction X with
  | nil => simp
  | cons z X ih =>
    rw [List.map_cons, List.sum_cons, ih, List.sum_cons, mulVec_add, movePoint_rigid, List.length_cons]
    push_cast
    module

/-- Sum of the squared values of an affine function over a cloud. -/
theorem planeFit_eq (n : Vec3) (d : ℝ) (X : List Vec3) (hX : X ≠ []) :
    planeFit n d X = n ⬝ᵥ (crossMoment (centred X (rowMean X)) (centred X (rowMean X)) *ᵥ n)
      + X.length * (n ⬝ᵥ rowMean X + d) ^ 2 := by
  have hN : (X.length : ℝ) ≠ 0 := by
    simpa [List.length_eq_zero_iff] using hX
  have hsum : X.sum = (X.length : ℝ) • rowMean X := by rw [rowMean, smul_smul, mul_inv_cancel₀ hN, one_smul]
  have key : ∀ (c : Vec3) (Z : List Vec3), planeFit n d Z = n ⬝ᵥ (crossMoment (centred Z c) (centred Z c) *ᵥ n)
      + 2 * (n ⬝ᵥ c + d) * (n ⬝ᵥ (Z.sum - (Z.length : ℝ) • c)) + Z.length * (n ⬝ᵥ c + d) ^ 2 := by
    intro c Z
    induction Z with
    | nil => simp [planeFit, crossMoment, centred]
    | cons z Z ih =>
      have e1 : planeFit n d (z :: Z) = (n ⬝ᵥ z + d) ^ 2 + planeFit n d Z := by simp [planeFit]
      have e2 : crossMoment (centred (z :: Z) c) (centred (z :: Z) c) = vecMulVec (z - c) (z - c) +
          crossMoment (centred Z c) (centred Z c) := by simp [crossMoment, centred]
      have e3 : n ⬝ᵥ (vecMulVec (z - c) (z - c) *ᵥ n) = (n ⬝ᵥ z - n ⬝ᵥ c) ^ 2 := by
        rw [vecMulVec_mulVec, op_smul_eq_smul, dotProduct_smul, dotProduct_sub, smul_eq_mul, dotProduct_comm (z - c),
          dotProduct_sub]
        ring
      rw [e1, ih, e2, add_mulVec, dotProduct_add, e3, List.sum_cons, List.length_cons]
      simp only [dotProduct_sub, dotProduct_add, dotProduct_smul, smul_eq_mul]
      push_cast
      ring
  rw [key (rowMean X) X, ← hsum, sub_self, dotProduct_zero]
  ring

theorem crossMoment_symm (A : List Vec3) : (crossMoment A A)ᵀ = crossMoment A A := by
  induction A with
  | nil => simp [crossMoment]
  | cons a A ih =>
    have e : crossMoment (a :: A) (a :: A) = vecMulVec a a + crossMoment A A := by simp [crossMoment]
    rw [e, transpose_add, ih, transpose_vecMulVec]

/-- `estimate_centroid` is the mean, and commutes with rigid motions, in fact with all affine maps. -/
theorem C58_centroid (X : List Vec3) (hX : X ≠ []) (M : Mat4) :
    estimateCentroid X = .ok (meanPoint X) ∧
      estimateCentroid (X.map (movePoint M)) = .ok (movePoint M (meanPoint X)) := by
  have hN : (X.length : ℝ) ≠ 0 := by
    simpa [List.length_eq_zero_iff] using hX
  have h0 : X.length ≠ 0 := by exact_mod_cast hN
  refine ⟨by rw [estimateCentroid, if_neg h0]; rfl, ?_⟩
  rw [estimateCentroid, if_neg (by simpa using h0), rowMean, sum_movePoint, List.length_map, movePoint_rigid, smul_add,
    smul_smul, inv_mul_cancel₀ hN, one_smul, meanPoint, mulVec_smul]

example : ∃ X : List Vec3, X ≠ [] := ⟨[![1, 2, 3], ![4, 5, 6]], by simp⟩

/-- `estimate_plane` returns a plane with unit normal through the mean of the points, and no plane with unit normal has a
smaller sum of squared distances.  `estimate_normal` is its normal. -/
theorem C58_plane (e : EigSolver) (he : e.Sound) (X : List Vec3) (hX : X ≠ []) :
    ∃ (n : Vec3) (d : ℝ), estimatePlane e X = .ok (Sum.elim n fun _ => d) ∧ estimateNormal e X = .ok n ∧ n ⬝ᵥ n = 1 ∧
      n ⬝ᵥ meanPoint X + d = 0 ∧ ∀ (m : Vec3) (d' : ℝ), m ⬝ᵥ m = 1 → planeFit n d X ≤ planeFit m d' X := by
  have h0 : X.length ≠ 0 := by simpa [List.length_eq_zero_iff] using hX
  have hd := he.2 (crossMoment (centred X (rowMean X)) (centred X (rowMean X))) (crossMoment_symm _)
  set D := e.eig3 (crossMoment (centred X (rowMean X)) (centred X (rowMean X))) with hD
  have hp : estimatePlane e X = .ok (Sum.elim (fun i => D.vec i 0) fun _ => -(rowMean X ⬝ᵥ fun i => D.vec i 0)) := by
    rw [estimatePlane, if_neg h0]
  refine ⟨fun i => D.vec i 0, -(rowMean X ⬝ᵥ fun i => D.vec i 0), hp, ?_, hd.unit 0, ?_, fun m d' hm => ?_⟩
  · rw [estimateNormal, hp, Out.ok_bind]; rfl
  · rw [dotProduct_comm]; exact add_neg_cancel _
  · rw [planeFit_eq _ _ X hX, planeFit_eq m d' X hX, hd.attains 0, dotProduct_comm (fun i => D.vec i 0), add_neg_cancel]
    have h1 := hd.le_quad (by simp) m
    rw [hm, mul_one] at h1
    have h2 : 0 ≤ (X.length : ℝ) * (m ⬝ᵥ rowMean X + d') ^ 2 := by positivity
    have h3 : (0 : ℝ) ^ 2 = 0 := by norm_num
    rw [h3, mul_zero, add_zero]
    linarith

/-- The plane of the moved points is a moved plane: it has the same residual, and moving it back gives a best plane of the
original points. -/
theorem C58_equivariant (e : EigSolver) (he : e.Sound) (X : List Vec3) (hX : X ≠ []) (M : Mat4) (hM : IsRigid M)
    (n n' : Vec3) (d d' : ℝ) (h : estimatePlane e X = .ok (Sum.elim n fun _ => d))
    (h' : estimatePlane e (X.map (movePoint M)) = .ok (Sum.elim n' fun _ => d')) :
    planeFit n' d' (X.map (movePoint M)) = planeFit n d X ∧
      planeFit (M.toBlocks₁₁ *ᵥ n) (d - (M.toBlocks₁₁ *ᵥ n) ⬝ᵥ fun i => M (.inl i) (.inr ())) (X.map (movePoint M)) = planeFit n d X ∧
      ((∀ (m : Vec3) (k : ℝ), m ⬝ᵥ m = 1 → planeFit m k X = planeFit n d X → (m = n ∧ k = d) ∨ (m = -n ∧ k = -d)) →
        (n' = M.toBlocks₁₁ *ᵥ n ∧ d' = d - (M.toBlocks₁₁ *ᵥ n) ⬝ᵥ fun i => M (.inl i) (.inr ())) ∨
        (n' = -(M.toBlocks₁₁ *ᵥ n) ∧ d' = -(d - (M.toBlocks₁₁ *ᵥ n) ⬝ᵥ fun i => M (.inl i) (.inr ())))) := by
  have hR : IsRotation (tl3 M) := (isRigid_iff.mp hM).1
  change _ ∧ planeFit (tl3 M *ᵥ n) (d - (tl3 M *ᵥ n) ⬝ᵥ tr3 M) _ = _ ∧ (_ →
    (n' = tl3 M *ᵥ n ∧ d' = d - (tl3 M *ᵥ n) ⬝ᵥ tr3 M) ∨ (n' = -(tl3 M *ᵥ n) ∧ d' = -(d - (tl3 M *ᵥ n) ⬝ᵥ tr3 M)))
  have rr : ∀ u v : Vec3, (tl3 M *ᵥ u) ⬝ᵥ (tl3 M *ᵥ v) = u ⬝ᵥ v := fun u v => by
    rw [dotProduct_mulVec, ← mulVec_transpose, mulVec_mulVec, hR.transpose_mul, one_mulVec]
  have fwd : ∀ (m : Vec3) (k : ℝ), planeFit (tl3 M *ᵥ m) (k - (tl3 M *ᵥ m) ⬝ᵥ tr3 M) (X.map (movePoint M)) = planeFit m k X := by
    intro m k
    rw [planeFit, planeFit, List.map_map]
    refine congrArg List.sum (List.map_congr_left fun x _ => ?_)
    simp only [Function.comp, movePoint_rigid, dotProduct_add, rr]
    ring
  have hX' : X.map (movePoint M) ≠ [] := by simpa using hX
  obtain ⟨a, b, e1, -, e3, -, e5⟩ := C58_plane e he X hX
  obtain ⟨a', b', f1, -, f3, -, f5⟩ := C58_plane e he _ hX'
  have inj : ∀ {p q : Vec3} {r s : ℝ}, (Out.ok (Sum.elim p fun _ : Unit => r) : Out Vec4) = .ok (Sum.elim q fun _ => s) → p = q ∧ r = s :=
    fun hh => by
      have := Out.ok.inj hh
      exact ⟨funext fun i => congrFun this (.inl i), congrFun this (.inr ())⟩
  obtain ⟨rfl, rfl⟩ := inj (e1.symm.trans h)
  obtain ⟨rfl, rfl⟩ := inj (f1.symm.trans h')
  -- the plane moved back
  have back : planeFit ((tl3 M)ᵀ *ᵥ a') (b' + a' ⬝ᵥ tr3 M) X = planeFit a' b' (X.map (movePoint M)) := by
    have := fwd ((tl3 M)ᵀ *ᵥ a') (b' + a' ⬝ᵥ tr3 M)
    rw [mulVec_mulVec, hR.1, one_mulVec, add_sub_cancel_right] at this
    exact this.symm
  have ub : ((tl3 M)ᵀ *ᵥ a') ⬝ᵥ ((tl3 M)ᵀ *ᵥ a') = 1 := by
    rw [dotProduct_mulVec, ← mulVec_transpose, transpose_transpose, mulVec_mulVec, hR.1, one_mulVec, f3]
  have heq : planeFit a' b' (X.map (movePoint M)) = planeFit a b X := by
    refine le_antisymm ?_ ?_
    · rw [← fwd a b]
      exact f5 _ _ (by rw [rr, e3])
    · rw [← back]
      exact e5 _ _ ub
  refine ⟨heq, fwd a b, fun hu => ?_⟩
  rcases hu _ _ ub (back.trans heq) with ⟨h1, h2⟩ | ⟨h1, h2⟩
  · left
    have h3 : a' = tl3 M *ᵥ a := by rw [← h1, mulVec_mulVec, hR.1, one_mulVec]
    refine ⟨h3, ?_⟩
    rw [← h3, ← h2, add_sub_cancel_right]
  · right
    have h3 : a' = -(tl3 M *ᵥ a) := by rw [← mulVec_neg, ← h1, mulVec_mulVec, hR.1, one_mulVec]
    refine ⟨h3, ?_⟩
    have h4 : tl3 M *ᵥ a = -a' := by rw [h3, neg_neg]
    have h5 : b = -(b' + a' ⬝ᵥ tr3 M) := by rw [h2, neg_neg]
    rw [h4, h5, neg_dotProduct]
    ring

/-- Uniqueness up to sign holds for four points in a plane, and a motion. -/
example : ∃ (e : EigSolver) (X : List Vec3) (n : Vec3) (d : ℝ), e.Sound ∧ X ≠ [] ∧
    estimatePlane e X = .ok (Sum.elim n fun _ => d) ∧
    ∀ (m : Vec3) (k : ℝ), m ⬝ᵥ m = 1 → planeFit m k X = planeFit n d X → (m = n ∧ k = d) ∨ (m = -n ∧ k = -d) := by
  obtain ⟨e, he⟩ := exists_sound
  obtain ⟨n, d, h1, -, h3, -, h5⟩ := C58_plane e he [![1, 0, 0], ![-1, 0, 0], ![0, 1, 0], ![0, -1, 0]] (by simp)
  have key : ∀ (m : Vec3) (k : ℝ), m ⬝ᵥ m = 1 →
      planeFit m k [![1, 0, 0], ![-1, 0, 0], ![0, 1, 0], ![0, -1, 0]] = 0 → m 0 = 0 ∧ m 1 = 0 ∧ k = 0 ∧ m 2 * m 2 = 1 := by
    intro m k hm hz
    simp [planeFit, dotProduct, Fin.sum_univ_three] at hz hm
    have a : m 0 = 0 := by nlinarith [sq_nonneg (m 0), sq_nonneg (m 1), sq_nonneg k]
    have b : m 1 = 0 := by nlinarith [sq_nonneg (m 0), sq_nonneg (m 1), sq_nonneg k]
    have c : k = 0 := by nlinarith [sq_nonneg (m 0), sq_nonneg (m 1), sq_nonneg k]
    rw [a, b] at hm
    exact ⟨a, b, c, by linarith⟩
  have hz : planeFit n d [![1, 0, 0], ![-1, 0, 0], ![0, 1, 0], ![0, -1, 0]] = 0 := by
    refine le_antisymm ((h5 ![0, 0, 1] 0 (by simp [dotProduct, Fin.sum_univ_three])).trans (le_of_eq ?_)) ?_
    · simp [planeFit, dotProduct, Fin.sum_univ_three]
    · exact List.sum_nonneg fun c hc => by
        obtain ⟨p, -, rfl⟩ := List.mem_map.mp hc
        positivity
  refine ⟨e, _, n, d, he, by simp, h1, fun m k hm hk => ?_⟩
  rw [hz] at hk
  obtain ⟨a, b, c, f⟩ := key m k hm hk
  obtain ⟨a', b', c', f'⟩ := key n d h3 hz
  have : m 2 = n 2 ∨ m 2 = -n 2 := mul_self_eq_mul_self_iff.mp (f.trans f'.symm)
  rcases this with g | g
  · exact Or.inl ⟨by ext i; fin_cases i <;> simp_all, by simp_all⟩
  · exact Or.inr ⟨by ext i; fin_cases i <;> simp_all, by simp_all⟩

end Mrob
