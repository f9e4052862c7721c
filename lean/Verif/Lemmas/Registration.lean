import Verif.Model.Registration
import Verif.Spec.Registration
import Verif.Lemmas.Plane
import Verif.Lemmas.Rotation

/-! # Lemmas about the registration of point clouds -/

open Matrix

namespace Mrob

open Spec

/-! ## The trace inequality -/

theorem orth_row {Z : Mat3} (h : Z * Zᵀ = 1) (i : Fin 3) : Z i 0 ^ 2 + Z i 1 ^ 2 + Z i 2 ^ 2 = 1 := by
  have := congrFun (congrFun h i) i
  rw [Matrix.mul_apply, Matrix.one_apply_eq, Fin.sum_univ_three] at this
  simp only [transpose_apply] at this
  linarith

theorem orth_diag_le {Z : Mat3} (h : Z * Zᵀ = 1) (i : Fin 3) : Z i i ≤ 1 := by
  have := orth_row h i
  fin_cases i <;> simp at this ⊢ <;> nlinarith [sq_nonneg (Z 0 0), sq_nonneg (Z 0 1), sq_nonneg (Z 0 2), sq_nonneg (Z 1 0),
    sq_nonneg (Z 1 1), sq_nonneg (Z 1 2), sq_nonneg (Z 2 0), sq_nonneg (Z 2 1), sq_nonneg (Z 2 2)]

theorem orth_det {Z : Mat3} (h : Z * Zᵀ = 1) : Z.det = 1 ∨ Z.det = -1 := by
  have := congrArg Matrix.det h
  rw [det_mul, det_transpose, det_one] at this
  exact mul_self_eq_one_iff.mp this

/-- The trace of an orthogonal matrix of determinant `s`. -/
theorem orth_trace_le {Z : Mat3} (h : Z * Zᵀ = 1) {s : ℝ} (hs : Z.det = s) (h1 : s = 1 ∨ s = -1) :
    Z 0 0 + Z 1 1 + Z 2 2 ≤ 2 + s := by
  rcases h1 with rfl | rfl
  · have h0 := orth_diag_le h 0; have h1 := orth_diag_le h 1; have h2 := orth_diag_le h 2; linarith
  · have hr : IsRotation (-Z) := ⟨by simp [h], by rw [det_neg, hs]; norm_num [Fintype.card_fin]⟩
    have := neg_one_le_cosOf hr
    rw [cosOf_eq] at this
    simp only [Matrix.neg_apply] at this
    linarith

theorem kabsch_le {sv : Fin 3 → ℝ} (ha : Antitone sv) (h2 : 0 ≤ sv 2) {Z : Mat3} (h : Z * Zᵀ = 1) {s : ℝ}
    (hs : Z.det = s) (h1 : s = 1 ∨ s = -1) :
    Z 0 0 * sv 0 + Z 1 1 * sv 1 + Z 2 2 * sv 2 ≤ sv 0 + sv 1 + s * sv 2 := by
  have a01 : sv 1 ≤ sv 0 := ha (by decide)
  have a12 : sv 2 ≤ sv 1 := ha (by decide)
  have d0 := orth_diag_le h 0
  have d1 := orth_diag_le h 1
  have tr := orth_trace_le h hs h1
  nlinarith [mul_nonneg (sub_nonneg.mpr a01) (sub_nonneg.mpr d0),
    mul_nonneg (sub_nonneg.mpr a12) (add_nonneg (sub_nonneg.mpr d0) (sub_nonneg.mpr d1)),
    mul_nonneg h2 (sub_nonneg.mpr tr)]

theorem sq_sum_left {a b : ℝ} (h : a ^ 2 + b ^ 2 = 0) : a = 0 := by
  have : a ^ 2 = 0 := by nlinarith [sq_nonneg a, sq_nonneg b]
  exact pow_eq_zero_iff (n := 2) (by norm_num) |>.mp this

/-- Equality forces the diagonal matrix when the singular values are distinct. -/
theorem kabsch_eq {sv : Fin 3 → ℝ} (h01 : sv 1 < sv 0) (h12 : sv 2 < sv 1) (h2 : 0 ≤ sv 2) {Z : Mat3} (h : Z * Zᵀ = 1)
    {s : ℝ} (hs : Z.det = s) (h1 : s = 1 ∨ s = -1)
    (he : sv 0 + sv 1 + s * sv 2 ≤ Z 0 0 * sv 0 + Z 1 1 * sv 1 + Z 2 2 * sv 2) : Z = diagonal ![1, 1, s] := by
  have d0 := orth_diag_le h 0
  have d1 := orth_diag_le h 1
  have tr := orth_trace_le h hs h1
  have k0 := mul_nonneg (sub_nonneg.mpr h01.le) (sub_nonneg.mpr d0)
  have k1 := mul_nonneg (sub_nonneg.mpr h12.le) (add_nonneg (sub_nonneg.mpr d0) (sub_nonneg.mpr d1))
  have k2 := mul_nonneg h2 (sub_nonneg.mpr tr)
  have e0 : (sv 0 - sv 1) * (1 - Z 0 0) = 0 := by nlinarith
  have e1 : (sv 1 - sv 2) * (1 - Z 0 0 + (1 - Z 1 1)) = 0 := by nlinarith
  have z0 : Z 0 0 = 1 := by
    rcases mul_eq_zero.mp e0 with hh | hh <;> linarith
  have z1 : Z 1 1 = 1 := by
    rcases mul_eq_zero.mp e1 with hh | hh <;> linarith
  have h' : Zᵀ * Zᵀᵀ = 1 := by rw [transpose_transpose]; exact mul_eq_one_comm.mp h
  have r0 := orth_row h 0
  have r1 := orth_row h 1
  have c0 := orth_row h' 0
  have c1 := orth_row h' 1
  simp only [transpose_apply] at c0 c1
  rw [z0] at r0 c0
  rw [z1] at r1 c1
  have z01 : Z 0 1 = 0 := sq_sum_left (b := Z 0 2) (by linarith)
  have z02 : Z 0 2 = 0 := sq_sum_left (b := Z 0 1) (by linarith)
  have z10 : Z 1 0 = 0 := sq_sum_left (b := Z 1 2) (by linarith)
  have z12 : Z 1 2 = 0 := sq_sum_left (b := Z 1 0) (by linarith)
  have z20 : Z 2 0 = 0 := sq_sum_left (b := Z 1 0) (by linarith)
  have z21 : Z 2 1 = 0 := sq_sum_left (b := Z 0 1) (by linarith)
  have z22 : Z 2 2 = s := by
    rw [det_fin_three, z0, z1, z01, z02, z10, z12, z20, z21] at hs
    linarith
  ext i j
  fin_cases i <;> fin_cases j <;> simp [z0, z1, z01, z02, z10, z12, z20, z21, z22]

/-! ## The rotation computed by `arun` -/

theorem flipLast_eq (V : Mat3) : flipLast V = V * diagonal ![1, 1, -1] := by
  ext i j
  rw [mul_diagonal]
  fin_cases j <;> simp [flipLast]

/-- Sign of the determinant of `V Uᵀ`. -/
noncomputable def svdSign (d : SVD3) : ℝ := (d.V * d.Uᵀ).det

section
variable {d : SVD3} {H : Mat3}

theorem SVD3.Decomposes.orthU (h : d.Decomposes H) : d.U * d.Uᵀ = 1 := mul_eq_one_comm.mp h.1
theorem SVD3.Decomposes.orthV (h : d.Decomposes H) : d.V * d.Vᵀ = 1 := mul_eq_one_comm.mp h.2.1

theorem svdSign_eq (h : d.Decomposes H) : svdSign d = 1 ∨ svdSign d = -1 :=
  orth_det (Z := d.V * d.Uᵀ) (by
    rw [transpose_mul, transpose_transpose, Matrix.mul_assoc, ← Matrix.mul_assoc d.Uᵀ, h.1, Matrix.one_mul, h.orthV])

theorem arunRotation_eq (h : d.Decomposes H) : arunRotation d = d.V * diagonal ![1, 1, svdSign d] * d.Uᵀ := by
  rw [arunRotation]
  rcases svdSign_eq h with hs | hs
  · have : ¬ (d.V * d.Uᵀ).det < 0 := by change ¬ svdSign d < 0; rw [hs]; norm_num
    rw [if_neg this, hs]
    have e : diagonal (![1, 1, 1] : Fin 3 → ℝ) = 1 := by
      rw [← diagonal_one]; congr 1; funext i; fin_cases i <;> rfl
    rw [e, Matrix.mul_one]
  · have : (d.V * d.Uᵀ).det < 0 := by change svdSign d < 0; rw [hs]; norm_num
    rw [if_pos this, hs, flipLast_eq]

theorem diagSign_sq (h : d.Decomposes H) :
    diagonal ![1, 1, svdSign d] * diagonal ![1, 1, svdSign d] = (1 : Mat3) := by
  rw [diagonal_mul_diagonal, ← diagonal_one]
  congr 1
  funext i
  fin_cases i
  · simp
  · simp
  · rcases svdSign_eq h with hs | hs <;> simp [hs]

theorem arunRotation_isRotation (h : d.Decomposes H) : IsRotation (arunRotation d) := by
  have e := arunRotation_eq h
  refine ⟨?_, ?_⟩
  · rw [e, transpose_mul, transpose_mul, transpose_transpose, diagonal_transpose]
    calc d.V * diagonal ![1, 1, svdSign d] * d.Uᵀ * (d.U * (diagonal ![1, 1, svdSign d] * d.Vᵀ))
        = d.V * diagonal ![1, 1, svdSign d] * (d.Uᵀ * d.U) * diagonal ![1, 1, svdSign d] * d.Vᵀ := by
          simp only [Matrix.mul_assoc]
      _ = d.V * (diagonal ![1, 1, svdSign d] * diagonal ![1, 1, svdSign d]) * d.Vᵀ := by
          rw [h.1]; simp only [Matrix.mul_one, Matrix.mul_assoc]
      _ = 1 := by rw [diagSign_sq h, Matrix.mul_one, h.orthV]
  · rw [e, det_mul, det_mul, det_diagonal, Fin.prod_univ_three]
    have hs : svdSign d = d.V.det * d.U.det := by rw [svdSign, det_mul, det_transpose]
    have h2 : svdSign d * svdSign d = 1 := by rcases svdSign_eq h with hs | hs <;> rw [hs] <;> norm_num
    rw [det_transpose]
    simp only [cons_val_zero, cons_val_one, cons_val_two, one_mul]
    calc d.V.det * ![1, 1, svdSign d] 2 * d.U.det = svdSign d * (d.V.det * d.U.det) := by
          simp; ring
      _ = 1 := by rw [← hs, h2]

/-- The matrix whose diagonal decides the cost of a rotation. -/
theorem trace_svd (h : d.Decomposes H) (M : Mat3) :
    (M * H).trace = (d.Vᵀ * M * d.U) 0 0 * d.sv 0 + (d.Vᵀ * M * d.U) 1 1 * d.sv 1 + (d.Vᵀ * M * d.U) 2 2 * d.sv 2 := by
  have e : (M * H).trace = (d.Vᵀ * M * d.U * diagonal d.sv).trace := by
    conv_lhs => rw [h.2.2.2.2]
    rw [show M * (d.U * diagonal d.sv * d.Vᵀ) = (M * d.U * diagonal d.sv) * d.Vᵀ by simp only [Matrix.mul_assoc],
      trace_mul_comm]
    simp only [Matrix.mul_assoc]
  rw [e, trace, Fin.sum_univ_three]
  simp only [diag_apply, mul_diagonal]

theorem rotZ_orth (h : d.Decomposes H) {M : Mat3} (hM : IsRotation M) :
    (d.Vᵀ * M * d.U) * (d.Vᵀ * M * d.U)ᵀ = 1 ∧ (d.Vᵀ * M * d.U).det = svdSign d := by
  constructor
  · rw [transpose_mul, transpose_mul, transpose_transpose]
    calc d.Vᵀ * M * d.U * (d.Uᵀ * (Mᵀ * d.V)) = d.Vᵀ * (M * ((d.U * d.Uᵀ) * Mᵀ)) * d.V := by simp only [Matrix.mul_assoc]
      _ = 1 := by rw [h.orthU, Matrix.one_mul, hM.1, Matrix.mul_one, h.2.1]
  · rw [det_mul, det_mul, det_transpose, hM.2, mul_one, svdSign, det_mul, det_transpose]

theorem trace_arunRotation (h : d.Decomposes H) :
    (arunRotation d * H).trace = d.sv 0 + d.sv 1 + svdSign d * d.sv 2 := by
  have e : d.Vᵀ * arunRotation d * d.U = diagonal ![1, 1, svdSign d] := by
    rw [arunRotation_eq h]
    calc d.Vᵀ * (d.V * diagonal ![1, 1, svdSign d] * d.Uᵀ) * d.U
        = (d.Vᵀ * d.V) * diagonal ![1, 1, svdSign d] * (d.Uᵀ * d.U) := by simp only [Matrix.mul_assoc]
      _ = _ := by rw [h.2.1, h.1, Matrix.one_mul, Matrix.mul_one]
  rw [trace_svd h, e]
  simp

theorem trace_le_arun (h : d.Decomposes H) {M : Mat3} (hM : IsRotation M) :
    (M * H).trace ≤ (arunRotation d * H).trace := by
  obtain ⟨h1, h2⟩ := rotZ_orth h hM
  rw [trace_arunRotation h, trace_svd h]
  exact kabsch_le h.2.2.1 h.2.2.2.1 h1 h2 (svdSign_eq h)

theorem trace_eq_arun (h : d.Decomposes H) (h01 : d.sv 1 < d.sv 0) (h12 : d.sv 2 < d.sv 1) {M : Mat3} (hM : IsRotation M)
    (he : (arunRotation d * H).trace ≤ (M * H).trace) : M = arunRotation d := by
  obtain ⟨h1, h2⟩ := rotZ_orth h hM
  rw [trace_arunRotation h, trace_svd h] at he
  have := kabsch_eq h01 h12 h.2.2.2.1 h1 h2 (svdSign_eq h) he
  rw [arunRotation_eq h, ← this]
  calc M = (d.V * d.Vᵀ) * M * (d.U * d.Uᵀ) := by rw [h.orthU, h.orthV, Matrix.one_mul, Matrix.mul_one]
    _ = _ := by simp only [Matrix.mul_assoc]

end

/-! ## The cost as a function of the rotation -/

theorem trace_mul_vecMulVec (R : Mat3) (x y : Vec3) : (R * vecMulVec x y).trace = y ⬝ᵥ (R *ᵥ x) := by
  rw [mul_vecMulVec, trace_vecMulVec, dotProduct_comm]

/-- Sum of the outer products of the pairs. -/
def outerSum (P : List (Vec3 × Vec3)) : Mat3 := (P.map fun p => vecMulVec p.1 p.2).sum

theorem dist2_eq (p q : Vec3) : dist2 p q = (p - q) ⬝ᵥ (p - q) := by
  simp [dist2, dotProduct, pow_two]

theorem cost_expand {R : Mat3} (hR : Rᵀ * R = 1) (t : Vec3) (P : List (Vec3 × Vec3)) :
    (P.map fun p => dist2 p.2 (R *ᵥ p.1 + t)).sum = (P.map fun p => p.1 ⬝ᵥ p.1 + p.2 ⬝ᵥ p.2).sum + P.length * (t ⬝ᵥ t)
      - 2 * (R * outerSum P).trace - 2 * (t ⬝ᵥ (P.map Prod.snd).sum) + 2 * (t ⬝ᵥ (R *ᵥ (P.map Prod.fst).sum)) := by
  induction P with
  | nil => simp [outerSum]
  | cons p P ih =>
    have hx : (R *ᵥ p.1) ⬝ᵥ (R *ᵥ p.1) = p.1 ⬝ᵥ p.1 := by
      rw [dotProduct_mulVec, ← mulVec_transpose, mulVec_mulVec, hR, one_mulVec]
    have ho : outerSum (p :: P) = vecMulVec p.1 p.2 + outerSum P := by simp [outerSum]
    rw [List.map_cons, List.sum_cons, ih]
    simp only [List.map_cons, List.sum_cons, List.length_cons, ho, Matrix.mul_add, trace_add, trace_mul_vecMulVec,
      dotProduct_add, mulVec_add, dist2_eq, sub_dotProduct, dotProduct_sub, add_dotProduct, hx]
    rw [dotProduct_comm (R *ᵥ p.1) p.2, dotProduct_comm (R *ᵥ p.1) t, dotProduct_comm t p.2]
    push_cast
    ring

theorem crossMoment_centred (P : List (Vec3 × Vec3)) (a b : Vec3) :
    crossMoment (centred (P.map Prod.fst) a) (centred (P.map Prod.snd) b) = outerSum P - vecMulVec a (P.map Prod.snd).sum
      - vecMulVec (P.map Prod.fst).sum b + (P.length : ℝ) • vecMulVec a b := by
  induction P with
  | nil => simp [crossMoment, centred, outerSum]
  | cons p P ih =>
    have e : crossMoment (centred ((p :: P).map Prod.fst) a) (centred ((p :: P).map Prod.snd) b) =
        vecMulVec (p.1 - a) (p.2 - b) + crossMoment (centred (P.map Prod.fst) a) (centred (P.map Prod.snd) b) := by
      simp [crossMoment, centred]
    rw [e, ih]
    ext i j
    simp [outerSum, vecMulVec_apply]
    ring

/-- The cost around the centroids. -/
theorem cost_centred {R : Mat3} (hR : Rᵀ * R = 1) (t : Vec3) (P : List (Vec3 × Vec3)) (hP : P ≠ []) :
    (P.map fun p => dist2 p.2 (R *ᵥ p.1 + t)).sum = ((P.map fun p => p.1 ⬝ᵥ p.1 + p.2 ⬝ᵥ p.2).sum
      - P.length * (rowMean (P.map Prod.fst) ⬝ᵥ rowMean (P.map Prod.fst))
      - P.length * (rowMean (P.map Prod.snd) ⬝ᵥ rowMean (P.map Prod.snd)))
      - 2 * (R * crossMoment (centred (P.map Prod.fst) (rowMean (P.map Prod.fst)))
          (centred (P.map Prod.snd) (rowMean (P.map Prod.snd)))).trace
      + P.length * dist2 (rowMean (P.map Prod.snd)) (R *ᵥ rowMean (P.map Prod.fst) + t) := by
  have hn : (P.length : ℝ) ≠ 0 := by
    simpa [List.length_eq_zero_iff] using hP
  have e1 : (P.map Prod.fst).sum = (P.length : ℝ) • rowMean (P.map Prod.fst) := by
    simp [rowMean, smul_smul, hn]
  have e2 : (P.map Prod.snd).sum = (P.length : ℝ) • rowMean (P.map Prod.snd) := by
    simp [rowMean, smul_smul, hn]
  rw [cost_expand hR, crossMoment_centred, e1, e2]
  set a := rowMean (P.map Prod.fst)
  set b := rowMean (P.map Prod.snd)
  have ha : (R *ᵥ a) ⬝ᵥ (R *ᵥ a) = a ⬝ᵥ a := by
    rw [dotProduct_mulVec, ← mulVec_transpose, mulVec_mulVec, hR, one_mulVec]
  have e3 : (R * (outerSum P - vecMulVec a ((P.length : ℝ) • b) - vecMulVec ((P.length : ℝ) • a) b
      + (P.length : ℝ) • vecMulVec a b)).trace = (R * outerSum P).trace - P.length * (b ⬝ᵥ (R *ᵥ a)) := by
    rw [Matrix.mul_add, Matrix.mul_sub, Matrix.mul_sub, trace_add, trace_sub, trace_sub, Matrix.mul_smul, trace_smul,
      trace_mul_vecMulVec, trace_mul_vecMulVec, trace_mul_vecMulVec]
    simp only [smul_dotProduct, mulVec_smul, dotProduct_smul, smul_eq_mul]
    ring
  rw [e3]
  simp only [dist2_eq, sub_dotProduct, dotProduct_sub, add_dotProduct, dotProduct_add, dotProduct_smul, mulVec_smul, ha,
    smul_eq_mul]
  rw [dotProduct_comm (R *ᵥ a) b, dotProduct_comm (R *ᵥ a) t, dotProduct_comm t b]
  ring

theorem movePoint_rigid (T : Mat4) (p : Vec3) : movePoint T p = tl3 T *ᵥ p + tr3 T := by
  ext i
  simp [movePoint, tl3, tr3, mulVec, dotProduct, toBlocks₁₁]

end Mrob
