import Verif.Lemmas.PlaneGrad
import Verif.Spec.PlaneSecond
import Mathlib.Analysis.Calculus.Deriv.Polynomial
import Mathlib.Analysis.SpecialFunctions.Pow.Real

/-! # Second derivative of the cost of a plane -/

open Matrix Filter Topology

namespace Mrob

open Spec

/-- The exponential of the library along a line through zero is, near zero, a polynomial. -/
theorem ofVec_poly (xi : Vec6) : ∃ A B C : Mat4, ∀ᶠ k : ℝ in 𝓝 0, (SE3.ofVec (k • xi)).T =
    1 + k • hat6 xi + k ^ 2 • ((1 / 2 : ℝ) • (hat6 xi * hat6 xi)) + k ^ 3 • A + k ^ 4 • B + k ^ 5 • C := by
  set w := head3 xi with hw
  set v := tail3 xi with hv
  refine ⟨homog (-(sqNorm w / 6) • hat3 w) ((1 / 6 : ℝ) • (hat3 w * hat3 w) *ᵥ v) 0,
    homog (-(sqNorm w / 24) • (hat3 w * hat3 w)) (-(sqNorm w / 24) • hat3 w *ᵥ v) 0,
    homog 0 (-(sqNorm w / 120) • (hat3 w * hat3 w) *ᵥ v) 0, ?_⟩
  have hlim : Tendsto (fun k : ℝ => |k| * vnorm w) (𝓝 0) (𝓝 0) := by
    have : Continuous fun k : ℝ => |k| * vnorm w := by fun_prop
    simpa using this.tendsto 0
  filter_upwards [hlim.eventually_lt_const (show (0 : ℝ) < 1e-5 by norm_num)] with k hk
  have e1 : head3 (k • xi) = k • w := by funext i; fin_cases i <;> simp [head3, hw]
  have e2 : tail3 (k • xi) = k • v := by funext i; fin_cases i <;> simp [tail3, hv]
  rw [se3_ofVec_T, e1, e2, ofVec_R, vMat, hat6_eq, ← hw, ← hv, ← homog_one]
  rw [vnorm_smul, sqNorm_smul, expC1, expC2, vC2, vC3, if_pos hk, if_pos hk,
    if_neg (by norm_num at hk ⊢; linarith), if_neg (by norm_num at hk ⊢; linarith)]
  simp only [rod, hat3_smul, homog_mul, homog_smul, homog_add]
  congr 1
  · ext i j
    simp only [Matrix.add_apply, Matrix.smul_apply, smul_eq_mul, Matrix.smul_mul, Matrix.mul_smul, Matrix.zero_apply]
    ring
  · funext i
    simp only [add_mulVec, smul_mulVec, mulVec_smul, one_mulVec, Pi.add_apply, Pi.smul_apply, smul_eq_mul,
      Matrix.smul_mul, Matrix.mul_smul, Pi.zero_apply]
    ring
  · ring

theorem second_of_poly {f : ℝ → ℝ} {P : Polynomial ℝ} (hP : f =ᶠ[𝓝 0] fun k => P.eval k) :
    deriv (deriv f) 0 = 2 * P.coeff 2 := by
  have h1 : deriv f =ᶠ[𝓝 0] fun k => P.derivative.eval k := by
    refine hP.deriv.trans (Eventually.of_forall fun k => ?_)
    exact P.deriv
  rw [h1.deriv_eq, Polynomial.deriv]
  rw [← Polynomial.coeff_zero_eq_eval_zero, Polynomial.coeff_derivative, Polynomial.coeff_derivative]
  norm_num
  ring

/-- A quadratic form along a polynomial curve. -/
theorem quad_curve_poly (Q : Mat4) (u : Fin 6 → Vec4) (f : ℝ → ℝ)
    (hf : ∀ᶠ k in 𝓝 (0 : ℝ), f k = (∑ i : Fin 6, k ^ (i : ℕ) • u i) ⬝ᵥ (Q *ᵥ ∑ i : Fin 6, k ^ (i : ℕ) • u i)) :
    ∃ P : Polynomial ℝ, (f =ᶠ[𝓝 0] fun k => P.eval k) ∧
      P.coeff 2 = u 0 ⬝ᵥ (Q *ᵥ u 2) + u 1 ⬝ᵥ (Q *ᵥ u 1) + u 2 ⬝ᵥ (Q *ᵥ u 0) := by
  let P : Polynomial ℝ := ∑ i : Fin 6, ∑ j : Fin 6, Polynomial.C (u i ⬝ᵥ (Q *ᵥ u j)) * Polynomial.X ^ ((i : ℕ) + (j : ℕ))
  refine ⟨P, ?_, ?_⟩
  · filter_upwards [hf] with k hk
    rw [hk]
    simp only [P, Polynomial.eval_finset_sum, Polynomial.eval_mul, Polynomial.eval_C, Polynomial.eval_pow, Polynomial.eval_X]
    rw [mulVec_sum, sum_dotProduct]
    refine Finset.sum_congr rfl fun i _ => ?_
    rw [dotProduct_sum]
    refine Finset.sum_congr rfl fun j _ => ?_
    simp only [mulVec_smul, dotProduct_smul, smul_dotProduct, smul_eq_mul]
    ring
  · simp only [P, Polynomial.finset_sum_coeff, Polynomial.coeff_C_mul_X_pow, Fin.sum_univ_six]
    norm_num

/-- The ordered products of the generators, summed along a twist. -/
noncomputable def ordered (xi : Vec6) : Mat4 :=
  ∑ i, ∑ j, (xi i * xi j) • (if pos6 i ≤ pos6 j then lieG i * lieG j else lieG j * lieG i)

theorem ordered_homPt (xi : Vec6) (q : Vec3) :
    ordered xi *ᵥ homPt q = Sum.elim (overcount (head3 xi) (tail3 xi) q) 0 := by
  have h : ordered xi = homog (!![-(xi (.inl 1) ^ 2 + xi (.inl 2) ^ 2), 0, 0;
      2 * xi (.inl 0) * xi (.inl 1), -(xi (.inl 0) ^ 2 + xi (.inl 2) ^ 2), 0;
      2 * xi (.inl 0) * xi (.inl 2), 2 * xi (.inl 1) * xi (.inl 2), -(xi (.inl 0) ^ 2 + xi (.inl 1) ^ 2)])
      (![2 * (xi (.inl 1) * xi (.inr 2) - xi (.inl 2) * xi (.inr 1)),
        2 * (xi (.inl 2) * xi (.inr 0) - xi (.inl 0) * xi (.inr 2)),
        2 * (xi (.inl 0) * xi (.inr 1) - xi (.inl 1) * xi (.inr 0))]) 0 := by
    simp only [ordered, Fintype.sum_sum_type, Fin.sum_univ_three]
    simp only [pos6, lieG, homog_mul]
    norm_num
    simp only [homog_smul, homog_add]
    congr 1
    · ext i j
      fin_cases i <;> fin_cases j <;> simp <;> ring
    · funext i
      fin_cases i <;> simp [mulVec, dotProduct, Fin.sum_univ_three] <;> ring
    · simp
  rw [h]
  funext i
  rcases i with i | ⟨⟩
  · fin_cases i <;> simp [homog, homPt, mulVec, dotProduct, Fintype.sum_sum_type, Fin.sum_univ_three, overcount, head3, tail3]
      <;> ring
  · simp [homog, homPt, mulVec, dotProduct, Fintype.sum_sum_type]

theorem quad_ordered_point {T : Mat4} (h : LastRow T) (pl : Vec4) (p : Vec3) (xi : Vec6) :
    pl ⬝ᵥ ((ordered xi * (T * vecMulVec (homPt p) (homPt p) * Tᵀ)) *ᵥ pl) = planeEval pl (movePoint T p) *
      ∑ i, pl (.inl i) * overcount (head3 xi) (tail3 xi) (movePoint T p) i := by
  have e0 : homPt p ⬝ᵥ (Tᵀ *ᵥ pl) = planeEval pl (movePoint T p) := by
    rw [planeEval_eq, ← mulVec_homPt h, mulVec_transpose, dotProduct_comm, ← dotProduct_mulVec]
  have e1 : vecMulVec (homPt p) (homPt p) *ᵥ (Tᵀ *ᵥ pl) = planeEval pl (movePoint T p) • homPt p := by
    rw [vecMulVec_mulVec, e0]
    funext i
    simp [mul_comm]
  rw [← mulVec_mulVec, ← mulVec_mulVec, ← mulVec_mulVec, e1, mulVec_smul, mulVec_smul, dotProduct_smul, mulVec_homPt h,
    ordered_homPt, smul_eq_mul]
  simp [dotProduct, Fintype.sum_sum_type]

theorem quad_ordered {T : Mat4} (h : LastRow T) (pl : Vec4) (l : List Vec3) (xi : Vec6) :
    pl ⬝ᵥ ((ordered xi * (T * sumOuter l * Tᵀ)) *ᵥ pl) = cloudExcess pl T l (head3 xi) (tail3 xi) := by
  induction l with
  | nil => simp [sumOuter_nil, cloudExcess]
  | cons p l ih =>
    rw [sumOuter_cons, Matrix.mul_add, Matrix.add_mul, Matrix.mul_add, add_mulVec, dotProduct_add, ih,
      quad_ordered_point h]
    rfl

/-- One entry of the Hessian, in terms of the generators. -/
theorem ddQ_quad (Q : Mat4) (hQ : Qᵀ = Q) (pl : Vec4) (i j : I6) : pl ⬝ᵥ (ddQ Q (gradOf Q) i j *ᵥ pl) =
    pl ⬝ᵥ ((lieG i * lieG j * Q) *ᵥ pl) + pl ⬝ᵥ ((lieG j * lieG i * Q) *ᵥ pl) +
      2 * (pl ⬝ᵥ ((lieG i * lieG j * Q) *ᵥ pl)) + 2 * (pl ⬝ᵥ ((lieG i * Q * (lieG j)ᵀ) *ᵥ pl)) := by
  have ht : ∀ A : Mat4, pl ⬝ᵥ (Aᵀ *ᵥ pl) = pl ⬝ᵥ (A *ᵥ pl) := fun A => by
    rw [mulVec_transpose, dotProduct_comm, ← dotProduct_mulVec]
  simp only [ddQ, gradOf, gradRows_eq, add_mulVec, dotProduct_add, ht]
  simp only [transpose_mul, hQ, Matrix.mul_add, Matrix.add_mul, add_mulVec, dotProduct_add, Matrix.mul_smul, smul_mulVec,
    dotProduct_smul, smul_eq_mul, Matrix.mul_assoc]
  ring

/-- The upper triangle of the Hessian, read as a symmetric matrix, along a twist. -/
theorem hessian_quad (Q : Mat4) (hQ : Qᵀ = Q) (pl : Vec4) (xi : Vec6) :
    ∑ i, ∑ j, xi i * xi j * (if pos6 i ≤ pos6 j then pl ⬝ᵥ (ddQ Q (gradOf Q) i j *ᵥ pl)
      else pl ⬝ᵥ (ddQ Q (gradOf Q) j i *ᵥ pl)) =
    2 * (pl ⬝ᵥ ((hat6 xi * hat6 xi * Q) *ᵥ pl)) + 2 * (pl ⬝ᵥ ((hat6 xi * Q * (hat6 xi)ᵀ) *ᵥ pl)) +
      2 * (pl ⬝ᵥ ((ordered xi * Q) *ᵥ pl)) := by
  have hs : ∀ i j, pl ⬝ᵥ ((lieG i * Q * (lieG j)ᵀ) *ᵥ pl) = pl ⬝ᵥ ((lieG j * Q * (lieG i)ᵀ) *ᵥ pl) := fun i j => by
    rw [show lieG j * Q * (lieG i)ᵀ = (lieG i * Q * (lieG j)ᵀ)ᵀ by
      simp [transpose_mul, hQ, Matrix.mul_assoc], mulVec_transpose, dotProduct_comm _ (pl ᵥ* _), ← dotProduct_mulVec]
  have he : ∀ i j, (if pos6 i ≤ pos6 j then pl ⬝ᵥ (ddQ Q (gradOf Q) i j *ᵥ pl) else pl ⬝ᵥ (ddQ Q (gradOf Q) j i *ᵥ pl)) =
      pl ⬝ᵥ ((lieG i * lieG j * Q) *ᵥ pl) + pl ⬝ᵥ ((lieG j * lieG i * Q) *ᵥ pl) +
      2 * (pl ⬝ᵥ ((lieG i * Q * (lieG j)ᵀ) *ᵥ pl)) +
      2 * (pl ⬝ᵥ (((if pos6 i ≤ pos6 j then lieG i * lieG j else lieG j * lieG i) * Q) *ᵥ pl)) := fun i j => by
    split_ifs
    · rw [ddQ_quad Q hQ]; ring
    · rw [ddQ_quad Q hQ, hs i j]; ring
  have e1 : pl ⬝ᵥ ((hat6 xi * hat6 xi * Q) *ᵥ pl) = ∑ i, ∑ j, xi i * xi j * (pl ⬝ᵥ ((lieG i * lieG j * Q) *ᵥ pl)) := by
    rw [hat6_eq_sum, Finset.sum_mul_sum]
    simp only [Finset.sum_mul, Matrix.sum_mulVec, dotProduct_sum, Matrix.smul_mul, Matrix.mul_smul, smul_mulVec,
      dotProduct_smul, smul_eq_mul]
    refine Finset.sum_congr rfl fun i _ => Finset.sum_congr rfl fun j _ => by ring
  have e1' : pl ⬝ᵥ ((hat6 xi * hat6 xi * Q) *ᵥ pl) = ∑ i, ∑ j, xi i * xi j * (pl ⬝ᵥ ((lieG j * lieG i * Q) *ᵥ pl)) := by
    rw [e1, Finset.sum_comm]
    refine Finset.sum_congr rfl fun i _ => Finset.sum_congr rfl fun j _ => by ring
  have e2 : pl ⬝ᵥ ((hat6 xi * Q * (hat6 xi)ᵀ) *ᵥ pl) =
      ∑ i, ∑ j, xi i * xi j * (pl ⬝ᵥ ((lieG i * Q * (lieG j)ᵀ) *ᵥ pl)) := by
    rw [hat6_eq_sum, transpose_sum, Finset.sum_mul, Finset.sum_mul_sum]
    simp only [transpose_smul, Matrix.sum_mulVec, dotProduct_sum, Matrix.smul_mul, Matrix.mul_smul, smul_mulVec,
      dotProduct_smul, smul_eq_mul]
    refine Finset.sum_congr rfl fun i _ => Finset.sum_congr rfl fun j _ => by ring
  have e3 : pl ⬝ᵥ ((ordered xi * Q) *ᵥ pl) = ∑ i, ∑ j, xi i * xi j *
      (pl ⬝ᵥ (((if pos6 i ≤ pos6 j then lieG i * lieG j else lieG j * lieG i) * Q) *ᵥ pl)) := by
    simp only [ordered, Finset.sum_mul, Matrix.sum_mulVec, dotProduct_sum, Matrix.smul_mul, smul_mulVec,
      dotProduct_smul, smul_eq_mul]
  rw [two_mul (pl ⬝ᵥ ((hat6 xi * hat6 xi * Q) *ᵥ pl))]
  nth_rw 1 [e1]
  rw [e1', e2, e3]
  simp only [he, mul_add, Finset.sum_add_distrib, Finset.mul_sum]
  congr 1
  · congr 1
    refine Finset.sum_congr rfl fun i _ => Finset.sum_congr rfl fun j _ => by ring
  · refine Finset.sum_congr rfl fun i _ => Finset.sum_congr rfl fun j _ => by ring

/-- The cost of one cloud along the left update of the pose is a polynomial near zero. -/
theorem cloudCost_poly {X : SE3} (hX : LastRow X.T) (pl : Vec4) (l : List Vec3) (xi : Vec6) :
    ∃ P : Polynomial ℝ, ((fun k : ℝ => cloudCost pl (X.updateLhs (k • xi)).T l) =ᶠ[𝓝 0] fun k => P.eval k) ∧
      P.coeff 2 = pl ⬝ᵥ ((hat6 xi * hat6 xi * (X.T * sumOuter l * X.Tᵀ)) *ᵥ pl) +
        pl ⬝ᵥ ((hat6 xi * (X.T * sumOuter l * X.Tᵀ) * (hat6 xi)ᵀ) *ᵥ pl) := by
  obtain ⟨A, B, C, hk⟩ := ofVec_poly xi
  set Q := X.T * sumOuter l * X.Tᵀ with hQd
  have hQ : Qᵀ = Q := conj_transpose (sumOuter_transpose l)
  set M := hat6 xi
  obtain ⟨P, hP, h2⟩ := quad_curve_poly Q
    ![pl, Mᵀ *ᵥ pl, ((1 / 2 : ℝ) • (M * M))ᵀ *ᵥ pl, Aᵀ *ᵥ pl, Bᵀ *ᵥ pl, Cᵀ *ᵥ pl]
    (fun k : ℝ => cloudCost pl (X.updateLhs (k • xi)).T l) (by
    filter_upwards [hk] with k hk
    rw [← quad_cloud (lastRow_updateLhs hX _)]
    have : (X.updateLhs (k • xi)).T = (SE3.ofVec (k • xi)).T * X.T := rfl
    rw [this, transpose_mul]
    have e : (SE3.ofVec (k • xi)).T * X.T * sumOuter l * (X.Tᵀ * (SE3.ofVec (k • xi)).Tᵀ) =
        (SE3.ofVec (k • xi)).T * Q * (SE3.ofVec (k • xi)).Tᵀ := by rw [hQd]; simp only [Matrix.mul_assoc]
    rw [e, quad_conj, hk]
    simp only [transpose_add, transpose_one, add_mulVec, one_mulVec, Fin.sum_univ_six, transpose_smul, smul_mulVec]
    simp)
  refine ⟨P, hP, h2.trans ?_⟩
  have h1 : ∀ N : Mat4, pl ⬝ᵥ (Q *ᵥ (Nᵀ *ᵥ pl)) = pl ⬝ᵥ ((N * Q) *ᵥ pl) := fun N => by
    rw [mulVec_mulVec, show Q * Nᵀ = (N * Q)ᵀ by rw [transpose_mul, hQ], mulVec_transpose, dotProduct_comm,
      ← dotProduct_mulVec]
  have h2 : ∀ N : Mat4, (Nᵀ *ᵥ pl) ⬝ᵥ (Q *ᵥ pl) = pl ⬝ᵥ ((N * Q) *ᵥ pl) := fun N => by
    rw [mulVec_transpose, ← dotProduct_mulVec, mulVec_mulVec]
  have h3 := quad_conj pl M Q
  change pl ⬝ᵥ (Q *ᵥ (((1 / 2 : ℝ) • (M * M))ᵀ *ᵥ pl)) + (Mᵀ *ᵥ pl) ⬝ᵥ (Q *ᵥ (Mᵀ *ᵥ pl)) +
    (((1 / 2 : ℝ) • (M * M))ᵀ *ᵥ pl) ⬝ᵥ (Q *ᵥ pl) = _
  rw [h1, h2, ← h3, Matrix.smul_mul, smul_mulVec, dotProduct_smul, smul_eq_mul]
  ring

/-- Second derivative of the cost of one cloud along the left update of the pose. -/
theorem cloudCost_second {X : SE3} (hX : LastRow X.T) (pl : Vec4) (l : List Vec3) (xi : Vec6) :
    deriv (deriv fun k : ℝ => cloudCost pl (X.updateLhs (k • xi)).T l) 0 =
      2 * (pl ⬝ᵥ ((hat6 xi * hat6 xi * (X.T * sumOuter l * X.Tᵀ)) *ᵥ pl)) +
      2 * (pl ⬝ᵥ ((hat6 xi * (X.T * sumOuter l * X.Tᵀ) * (hat6 xi)ᵀ) *ᵥ pl)) := by
  obtain ⟨P, hP, h2⟩ := cloudCost_poly hX pl l xi
  rw [second_of_poly hP, h2]
  ring

/-- The same for a sum over planes. -/
theorem sum_cloudCost_second {α : Type} {X : SE3} (hX : LastRow X.T) (L : List α) (c : α → ℝ) (pl : α → Vec4)
    (l : α → List Vec3) (xi : Vec6) :
    deriv (deriv fun k : ℝ => (L.map fun q => c q + cloudCost (pl q) (X.updateLhs (k • xi)).T (l q)).sum) 0 =
      (L.map fun q => 2 * (pl q ⬝ᵥ ((hat6 xi * hat6 xi * (X.T * sumOuter (l q) * X.Tᵀ)) *ᵥ pl q)) +
        2 * (pl q ⬝ᵥ ((hat6 xi * (X.T * sumOuter (l q) * X.Tᵀ) * (hat6 xi)ᵀ) *ᵥ pl q))).sum := by
  suffices ∃ P : Polynomial ℝ, ((fun k : ℝ => (L.map fun q => c q + cloudCost (pl q) (X.updateLhs (k • xi)).T (l q)).sum)
      =ᶠ[𝓝 0] fun k => P.eval k) ∧ 2 * P.coeff 2 = (L.map fun q =>
        2 * (pl q ⬝ᵥ ((hat6 xi * hat6 xi * (X.T * sumOuter (l q) * X.Tᵀ)) *ᵥ pl q)) +
        2 * (pl q ⬝ᵥ ((hat6 xi * (X.T * sumOuter (l q) * X.Tᵀ) * (hat6 xi)ᵀ) *ᵥ pl q))).sum by
    obtain ⟨P, hP, h2⟩ := this
    rw [second_of_poly hP, h2]
  induction L with
  | nil => exact ⟨0, by simp, by simp⟩
  | cons q L ih =>
    obtain ⟨P, hP, h2⟩ := ih
    obtain ⟨R, hR, h3⟩ := cloudCost_poly hX (pl q) (l q) xi
    refine ⟨Polynomial.C (c q) + R + P, ?_, ?_⟩
    · filter_upwards [hP, hR] with k h h'
      simp only [List.map_cons, List.sum_cons, Polynomial.eval_add, Polynomial.eval_C]
      rw [h, h']
    · rw [List.map_cons, List.sum_cons, ← h2, Polynomial.coeff_add, Polynomial.coeff_add, Polynomial.coeff_C, h3]
      norm_num
      ring

end Mrob
