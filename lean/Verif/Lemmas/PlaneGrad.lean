import Verif.Lemmas.PlaneObj
import Verif.Lemmas.Deriv

/-! # Derivatives of the cost of a plane -/

open Matrix

namespace Mrob

open Spec

theorem lastRow_homog (A : Mat3) (b : Vec3) : LastRow (homog A b 1) := ⟨fun _ => rfl, rfl⟩

theorem LastRow.mul {A B : Mat4} (hA : LastRow A) (hB : LastRow B) : LastRow (A * B) := by
  constructor
  · intro j
    simp [Matrix.mul_apply, Fintype.sum_sum_type, hA.1, hA.2, hB.1]
  · simp [Matrix.mul_apply, Fintype.sum_sum_type, hA.1, hA.2, hB.2]

theorem lastRow_ofVec (xi : Vec6) : LastRow (SE3.ofVec xi).T := by
  rw [se3_ofVec_T]
  exact lastRow_homog _ _

theorem lastRow_updateLhs {X : SE3} (h : LastRow X.T) (xi : Vec6) : LastRow (X.updateLhs xi).T :=
  (lastRow_ofVec xi).mul h

/-- The rows assigned by the code are those of the product with the generator. -/
theorem gradRows_eq (Q : Mat4) (i : I6) : gradRows Q i = lieG i * Q := by
  ext r c
  rcases i with i | i <;> fin_cases i <;> rcases r with r | ⟨⟩ <;> try fin_cases r
  all_goals simp [gradRows, rows4, lieG, homog, Matrix.mul_apply, Fintype.sum_sum_type, Fin.sum_univ_three]

/-- The generators span the twists. -/
theorem hat6_eq_sum (xi : Vec6) : hat6 xi = ∑ i, xi i • lieG i := by
  ext r c
  rw [Matrix.sum_apply, Fintype.sum_sum_type, Fin.sum_univ_three, Fin.sum_univ_three]
  rcases r with r | ⟨⟩ <;> rcases c with c | ⟨⟩ <;> (try fin_cases r) <;> (try fin_cases c)
  all_goals simp [hat6, lieG, homog]

theorem sum_gradOf (Q : Mat4) (hQ : Qᵀ = Q) (xi : Vec6) :
    ∑ i, xi i • gradOf Q i = hat6 xi * Q + Q * (hat6 xi)ᵀ := by
  simp only [gradOf, gradRows_eq, smul_add, Finset.sum_add_distrib, transpose_mul, hQ]
  rw [hat6_eq_sum, Finset.sum_mul, transpose_sum, Finset.mul_sum]
  simp only [smul_mul_assoc, transpose_smul, mul_smul_comm]

/-- Derivative of the cost of one cloud under the left update of the pose. -/
theorem cloudCost_deriv {X : SE3} (hX : LastRow X.T) (pl : Vec4) (l : List Vec3) (xi : Vec6) :
    HasDerivAt (fun h : ℝ => cloudCost pl (X.updateLhs (h • xi)).T l)
      ((fun i => pl ⬝ᵥ (gradOf (X.T * sumOuter l * X.Tᵀ) i *ᵥ pl)) ⬝ᵥ xi) 0 := by
  have hd := updateLhs_deriv X xi
  have h1 := (hd.mul (MDeriv.const (sumOuter l) 0)).mul hd.transpose
  simp only [updateLhs_zero_smul] at h1
  have h2 := (VDeriv.const pl 0).dot (h1.mulVec (VDeriv.const pl 0))
  simp only [fun h : ℝ => (quad_cloud (lastRow_updateLhs hX (h • xi)) pl l)] at h2
  refine h2.congr_deriv ?_
  have e : (fun i => pl ⬝ᵥ (gradOf (X.T * sumOuter l * X.Tᵀ) i *ᵥ pl)) ⬝ᵥ xi =
      pl ⬝ᵥ ((∑ i, xi i • gradOf (X.T * sumOuter l * X.Tᵀ) i) *ᵥ pl) := by
    rw [Matrix.sum_mulVec, dotProduct_sum]
    simp only [smul_mulVec, dotProduct_smul, smul_eq_mul]
    simp only [dotProduct, mul_comm]
  rw [e, sum_gradOf _ (conj_transpose (sumOuter_transpose l))]
  simp only [zero_dotProduct, zero_add, mulVec_zero, add_zero, Matrix.mul_zero, transpose_mul, Matrix.mul_assoc]

theorem planeCost_set {Ts : List Mat4} {clouds : List (List Vec3)} {t : ℕ} (h1 : t < Ts.length) (h2 : t < clouds.length)
    (pl : Vec4) (T : Mat4) :
    planeCost pl (Ts.set t T) clouds = planeCost pl Ts clouds - cloudCost pl Ts[t] clouds[t] + cloudCost pl T clouds[t] := by
  induction Ts generalizing clouds t with
  | nil => simp at h1
  | cons A Ts ih =>
    cases clouds with
    | nil => simp at h2
    | cons c clouds =>
      cases t with
      | zero => simp [planeCost]; ring
      | succ t =>
        have := ih (clouds := clouds) (t := t) (by simpa using h1) (by simpa using h2)
        simp only [planeCost, List.set_cons_succ, List.zipWith_cons_cons, List.sum_cons, List.getElem_cons_succ] at this ⊢
        rw [this]
        ring

theorem hat3_at_zero : hat3 (0 : Vec3) = 0 := by
  ext i j
  fin_cases i <;> fin_cases j <;> simp [hat3]

theorem ofVec_translation (k : ℝ) (v : Vec3) : (SE3.ofVec (k • vec6 0 v)).T = 1 + k • hat6 (vec6 0 v) := by
  have e : k • vec6 0 v = vec6 0 (k • v) := by
    funext i
    rcases i with i | i <;> simp [vec6]
  rw [e, se3_ofVec_T, head3_vec6, tail3_vec6, ofVec_zero]
  have : vMat (0 : Vec3) = 1 := by rw [vMat, rod_at_zero]
  rw [this, one_mulVec, ← homog_one, hat6_eq, head3_vec6, tail3_vec6, hat3_at_zero, homog_smul, homog_add]
  simp

theorem quad_hat_translation (Q : Mat4) (pl : Vec4) (v : Vec3) :
    pl ⬝ᵥ ((hat6 (vec6 0 v) * Q * (hat6 (vec6 0 v))ᵀ) *ᵥ pl) = Q (.inr ()) (.inr ()) * (∑ i, pl (.inl i) * v i) ^ 2 := by
  rw [hat6_eq, head3_vec6, tail3_vec6, hat3_at_zero]
  simp [homog, mulVec, dotProduct, Matrix.mul_apply, Fintype.sum_sum_type, Fin.sum_univ_three]
  ring

/-- The cost of one cloud under a translation: a polynomial of degree two. -/
theorem cloudCost_translation {X : SE3} (hX : LastRow X.T) (pl : Vec4) (l : List Vec3) (v : Vec3) (k : ℝ) :
    cloudCost pl (X.updateLhs (k • vec6 0 v)).T l = cloudCost pl X.T l
      + k * ((fun i => pl ⬝ᵥ (gradOf (X.T * sumOuter l * X.Tᵀ) i *ᵥ pl)) ⬝ᵥ vec6 0 v)
      + k ^ 2 * ((X.T * sumOuter l * X.Tᵀ) (.inr ()) (.inr ()) * (∑ i, pl (.inl i) * v i) ^ 2) := by
  rw [← quad_cloud (lastRow_updateLhs hX _), ← quad_cloud hX]
  have e : (fun i => pl ⬝ᵥ (gradOf (X.T * sumOuter l * X.Tᵀ) i *ᵥ pl)) ⬝ᵥ vec6 0 v =
      pl ⬝ᵥ ((∑ i, vec6 0 v i • gradOf (X.T * sumOuter l * X.Tᵀ) i) *ᵥ pl) := by
    rw [Matrix.sum_mulVec, dotProduct_sum]
    simp only [smul_mulVec, dotProduct_smul, smul_eq_mul]
    simp only [dotProduct, mul_comm]
  rw [e, sum_gradOf _ (conj_transpose (sumOuter_transpose l)), ← quad_hat_translation]
  set Q := X.T * sumOuter l * X.Tᵀ with hQ
  set V := hat6 (vec6 0 v)
  have : (X.updateLhs (k • vec6 0 v)).T * sumOuter l * (X.updateLhs (k • vec6 0 v)).Tᵀ =
      Q + k • (V * Q + Q * Vᵀ) + k ^ 2 • (V * Q * Vᵀ) := by
    rw [show (X.updateLhs (k • vec6 0 v)).T = (1 + k • V) * X.T by rw [← ofVec_translation]; rfl]
    rw [transpose_mul, transpose_add, transpose_one, transpose_smul]
    calc (1 + k • V) * X.T * sumOuter l * (X.Tᵀ * (1 + k • Vᵀ)) = (1 + k • V) * Q * (1 + k • Vᵀ) := by
          rw [hQ]; simp only [Matrix.mul_assoc]
      _ = _ := by
          simp only [add_mul, mul_add, one_mul, mul_one, smul_mul_assoc, mul_smul_comm, smul_smul, smul_add, pow_two]
          abel
  rw [this]
  simp only [add_mulVec, smul_mulVec, dotProduct_add, dotProduct_smul, smul_eq_mul]

theorem hessian_translation (Q : Mat4) (pl : Vec4) (i j : Fin 3) :
    pl ⬝ᵥ (ddQ Q (gradOf Q) (.inr i) (.inr j) *ᵥ pl) = 2 * pl (.inl i) * pl (.inl j) * Q (.inr ()) (.inr ()) := by
  fin_cases i <;> fin_cases j <;>
  · simp [ddQ, gradOf, gradRows, rows4, lieG, homog, mulVec, dotProduct, Matrix.mul_apply, Fintype.sum_sum_type,
      Fin.sum_univ_three]
    try ring

end Mrob
