import Verif.Lemmas.Weights
import Verif.Spec.Statistics
import Mathlib.LinearAlgebra.Matrix.NonsingularInverse
import Mathlib.LinearAlgebra.Matrix.PosDef
import Mathlib.Data.Matrix.Block

/-!
# Least squares with random errors
-/

open Matrix

namespace Mrob

open World Spec

section Moments

variable {Ω K C : Type} [Fintype Ω] [Fintype K] [Fintype C]

/-- Second moments of a random vector. -/
def moment2 {ι : Type} (p : Ω → ℝ) (x : Ω → ι → ℝ) : Matrix ι ι ℝ := Matrix.of fun i j => ∑ ω, p ω * (x ω i * x ω j)

theorem moment_eq {ι : Type} (p : Ω → ℝ) (x : Ω → ι → ℝ) : moment2 p x = ∑ ω, p ω • vecMulVec (x ω) (x ω) := by
  ext i j
  rw [Matrix.sum_apply]
  rfl

theorem moment_mulVec (p : Ω → ℝ) (B : Matrix C K ℝ) (x : Ω → K → ℝ) : moment2 p (fun ω => B *ᵥ x ω) = B * moment2 p x * Bᵀ := by
  rw [moment_eq, moment_eq, Matrix.mul_sum, Matrix.sum_mul]
  refine Finset.sum_congr rfl fun ω _ => ?_
  rw [Matrix.mul_smul, Matrix.smul_mul, mul_vecMulVec, vecMulVec_mul, vecMul_transpose]

theorem mean_mulVec (p : Ω → ℝ) (B : Matrix C K ℝ) (x : Ω → K → ℝ) (h : ∀ k, ∑ ω, p ω * x ω k = 0) (c : C) :
    ∑ ω, p ω * (B *ᵥ x ω) c = 0 := by
  simp only [mulVec, dotProduct, Finset.mul_sum]
  rw [Finset.sum_comm]
  refine Finset.sum_eq_zero fun k _ => ?_
  have e : ∀ ω, p ω * (B c k * x ω k) = B c k * (p ω * x ω k) := fun ω => by ring
  simp only [e]
  rw [← Finset.mul_sum, h, mul_zero]

theorem mean_form (p : Ω → ℝ) (M : Matrix K K ℝ) (x : Ω → K → ℝ) : ∑ ω, p ω * (x ω ⬝ᵥ (M *ᵥ x ω)) = (M * moment2 p x).trace := by
  rw [moment_eq, Matrix.mul_sum, trace_sum]
  refine Finset.sum_congr rfl fun ω _ => ?_
  rw [Matrix.mul_smul, trace_smul, mul_vecMulVec, trace_vecMulVec, smul_eq_mul, dotProduct_comm]

variable [DecidableEq K] [DecidableEq C] {A : Matrix K C ℝ} {W V : Matrix K K ℝ}

/-- The covariance of the least squares estimate. -/
theorem moment_solution (p : Ω → ℝ) {e : Ω → K → ℝ} (hV : moment2 p e = V) (hWV : W * V = 1) (hW : Wᵀ = W)
    (hH : IsUnit (Aᵀ * W * A).det) : moment2 p (fun ω => ((Aᵀ * W * A)⁻¹ * (Aᵀ * W)) *ᵥ e ω) = (Aᵀ * W * A)⁻¹ := by
  have hs : (Aᵀ * W * A)ᵀ = Aᵀ * W * A := by rw [transpose_mul, transpose_mul, transpose_transpose, hW, Matrix.mul_assoc]
  rw [moment_mulVec, hV, transpose_mul, transpose_mul, transpose_transpose, hW, transpose_nonsing_inv, hs]
  calc _ = (Aᵀ * W * A)⁻¹ * (Aᵀ * (W * V) * W * A) * (Aᵀ * W * A)⁻¹ := by simp only [Matrix.mul_assoc]
    _ = _ := by rw [hWV, Matrix.mul_one, nonsing_inv_mul _ hH, Matrix.one_mul]

/-- No other linear unbiased estimate has a smaller covariance. -/
theorem moment_best (p : Ω → ℝ) (hp : ∀ ω, 0 ≤ p ω) {e : Ω → K → ℝ} (hV : moment2 p e = V) (hWV : W * V = 1) (hW : Wᵀ = W)
    (hH : IsUnit (Aᵀ * W * A).det) (B : Matrix C K ℝ) (hB : B * A = 1) :
    (moment2 p (fun ω => B *ᵥ e ω) - (Aᵀ * W * A)⁻¹).PosSemidef := by
  have hs : (Aᵀ * W * A)ᵀ = Aᵀ * W * A := by rw [transpose_mul, transpose_mul, transpose_transpose, hW, Matrix.mul_assoc]
  set H := Aᵀ * W * A with hHd
  have hi : (H⁻¹)ᵀ = H⁻¹ := by rw [transpose_nonsing_inv, hs]
  have hVW : V * W = 1 := mul_eq_one_comm.mp hWV
  have hAB : Aᵀ * Bᵀ = 1 := by rw [← transpose_mul, hB, transpose_one]
  have key : moment2 p (fun ω => (B - H⁻¹ * (Aᵀ * W)) *ᵥ e ω) = moment2 p (fun ω => B *ᵥ e ω) - H⁻¹ := by
    rw [moment_mulVec, moment_mulVec, hV, transpose_sub, transpose_mul, transpose_mul, transpose_transpose, hW, hi, Matrix.sub_mul, Matrix.mul_sub,
      Matrix.sub_mul, Matrix.sub_mul]
    have e1 : B * V * (W * A * H⁻¹) = H⁻¹ := by
      calc _ = B * (V * W) * A * H⁻¹ := by simp only [Matrix.mul_assoc]
        _ = _ := by rw [hVW, Matrix.mul_one, hB, Matrix.one_mul]
    have e2 : H⁻¹ * (Aᵀ * W) * V * Bᵀ = H⁻¹ := by
      calc _ = H⁻¹ * (Aᵀ * (W * V) * Bᵀ) := by simp only [Matrix.mul_assoc]
        _ = _ := by rw [hWV, Matrix.mul_one, hAB, Matrix.mul_one]
    have e3 : H⁻¹ * (Aᵀ * W) * V * (W * A * H⁻¹) = H⁻¹ := by
      calc _ = H⁻¹ * (Aᵀ * (W * V) * W * A) * H⁻¹ := by simp only [Matrix.mul_assoc]
        _ = _ := by rw [hWV, Matrix.mul_one, ← hHd, nonsing_inv_mul _ hH, Matrix.one_mul]
    rw [e1, e2, e3]; abel
  rw [← key, moment_eq]
  refine posSemidef_sum _ fun ω _ => ?_
  have := posSemidef_vecMulVec_self_star ((B - H⁻¹ * (Aᵀ * W)) *ᵥ e ω)
  rw [star_trivial] at this
  exact this.smul (hp ω)

/-- The expected weighted square of the errors, and of what the estimate leaves of them. -/
theorem mean_error (p : Ω → ℝ) {e : Ω → K → ℝ} (hV : moment2 p e = V) (hWV : W * V = 1) :
    ∑ ω, p ω * (e ω ⬝ᵥ (W *ᵥ e ω)) = Fintype.card K := by
  rw [mean_form, hV, hWV, trace_one]

theorem mean_rest (p : Ω → ℝ) {e : Ω → K → ℝ} (hV : moment2 p e = V) (hWV : W * V = 1) (hW : Wᵀ = W)
    (hH : IsUnit (Aᵀ * W * A).det) :
    ∑ ω, p ω * ((A *ᵥ (((Aᵀ * W * A)⁻¹ * (Aᵀ * W)) *ᵥ e ω) - e ω) ⬝ᵥ (W *ᵥ (A *ᵥ (((Aᵀ * W * A)⁻¹ * (Aᵀ * W)) *ᵥ e ω) - e ω))) =
      Fintype.card K - Fintype.card C := by
  have hs : (Aᵀ * W * A)ᵀ = Aᵀ * W * A := by rw [transpose_mul, transpose_mul, transpose_transpose, hW, Matrix.mul_assoc]
  set H := Aᵀ * W * A with hHd
  have hi : (H⁻¹)ᵀ = H⁻¹ := by rw [transpose_nonsing_inv, hs]
  have e1 : ∀ ω, A *ᵥ ((H⁻¹ * (Aᵀ * W)) *ᵥ e ω) - e ω = (A * (H⁻¹ * (Aᵀ * W)) - 1) *ᵥ e ω := by
    intro ω
    rw [sub_mulVec, one_mulVec, mulVec_mulVec]
  simp only [e1]
  rw [mean_form, moment_mulVec, hV, transpose_sub, transpose_one, transpose_mul, transpose_mul, transpose_mul, transpose_transpose, hW, hi]
  set P := A * (H⁻¹ * (Aᵀ * W)) with hP
  have hVW : V * W = 1 := mul_eq_one_comm.mp hWV
  have e2 : V * (W * A * H⁻¹ * Aᵀ) = P * V := by
    calc _ = (V * W) * A * H⁻¹ * Aᵀ := by simp only [Matrix.mul_assoc]
      _ = A * H⁻¹ * Aᵀ * (W * V) := by rw [hVW, hWV, Matrix.one_mul, Matrix.mul_one]
      _ = _ := by rw [hP]; simp only [Matrix.mul_assoc]
  have e3 : P * P = P := by
    calc _ = A * (H⁻¹ * (Aᵀ * W * A) * (H⁻¹ * (Aᵀ * W))) := by rw [hP]; simp only [Matrix.mul_assoc]
      _ = _ := by rw [← hHd, nonsing_inv_mul _ hH, Matrix.one_mul]
  have e4 : (P - 1) * V * (W * A * H⁻¹ * Aᵀ - 1) = V - P * V := by
    rw [mul_sub, Matrix.mul_one, Matrix.mul_assoc, e2, ← Matrix.mul_assoc, sub_mul, e3, Matrix.one_mul, sub_self, Matrix.zero_mul, sub_mul, Matrix.one_mul]
    abel
  have e5 : (W * (P * V)).trace = Fintype.card C := by
    calc _ = (H⁻¹ * (Aᵀ * W * A) * (1 : Matrix C C ℝ)).trace := by
          rw [trace_mul_comm, Matrix.mul_assoc, hVW, Matrix.mul_one, hP, trace_mul_comm]; simp only [Matrix.mul_assoc, Matrix.mul_one]
      _ = _ := by rw [← hHd, nonsing_inv_mul _ hH, Matrix.one_mul, trace_one]
  have e6 : W * A * H⁻¹ * Aᵀ = (W * A * H⁻¹) * Aᵀ := rfl
  have e7 : (P - 1) * V * ((W * A * H⁻¹) * Aᵀ - 1) = V - P * V := e4
  first
    | rw [e7, mul_sub, trace_sub, hWV, trace_one, e5]
    | (simp only [Matrix.mul_assoc] at e7 ⊢; rw [e7, mul_sub, trace_sub, hWV, trace_one, e5])

end Moments

/-! ### All measurements of a graph as one vector -/

theorem sum_factors {l : List FRef} (hnd : l.Nodup) (g : FRef → ℝ) : ∑ f : {f // f ∈ l}, g f = (l.map g).sum := by
  rw [← List.sum_toFinset g hnd]
  exact (Finset.sum_subtype l.toFinset (fun x => by simp) g).symm

namespace World

/-- The scalar measurements. -/
abbrev Rows (w : World) : Type := (f : {f : FRef // f ∈ w.g.factors}) × Fin (w.fh f).virt.dim

/-- All Jacobians below each other. -/
noncomputable def allJ (w : World) : Matrix (Rows w) (Cols w) ℝ := Matrix.of fun k c => (factorTerm w k.1).J k.2 c

/-- All information matrices along the diagonal. -/
noncomputable def allW (w : World) : Matrix (Rows w) (Rows w) ℝ := blockDiagonal' fun f : {f : FRef // f ∈ w.g.factors} => (w.fh f).virt.W

/-- All covariances along the diagonal. -/
noncomputable def allV (w : World) : Matrix (Rows w) (Rows w) ℝ := blockDiagonal' fun f : {f : FRef // f ∈ w.g.factors} => ((w.fh f).virt.W)⁻¹

/-- All errors below each other. -/
def allE (w : World) (e : FRef → ℕ → ℝ) : Rows w → ℝ := fun k => e k.1 k.2

variable {w : World}

theorem allW_mulVec (x : Rows w → ℝ) (k : Rows w) : (w.allW *ᵥ x) k = ((w.fh k.1).virt.W *ᵥ fun l => x ⟨k.1, l⟩) k.2 := by
  obtain ⟨f, l⟩ := k
  rw [mulVec, dotProduct, Fintype.sum_sigma, Finset.sum_eq_single f]
  · refine Finset.sum_congr rfl fun m _ => ?_
    rw [allW, blockDiagonal'_apply_eq]
  · intro g _ hg
    refine Finset.sum_eq_zero fun m _ => ?_
    rw [allW, blockDiagonal'_apply_ne _ _ _ hg.symm, zero_mul]
  · intro h; exact absurd (Finset.mem_univ _) h

theorem allJ_mulVec (hnd : w.g.factors.Nodup) (y : Rows w → ℝ) (z : (f : FRef) → Fin (w.fh f).virt.dim → ℝ)
    (hz : ∀ k : Rows w, y k = z k.1 k.2) (c : Cols w) :
    (w.allJᵀ *ᵥ y) c = (w.g.factors.map fun f => ∑ l, (factorTerm w f).J l c * z f l).sum := by
  rw [mulVec, dotProduct, Fintype.sum_sigma, ← sum_factors hnd]
  refine Finset.sum_congr rfl fun f _ => Finset.sum_congr rfl fun l _ => ?_
  rw [hz]; rfl

theorem weight_plain {f : FRef} (h : (w.fh f).virt.robust = .quadratic) : factorWeight w f = 1 := by
  rw [factorWeight, h]; rfl

theorem infoMatrix_all (hnd : w.g.factors.Nodup) (hq : ∀ f ∈ w.g.factors, (w.fh f).virt.robust = .quadratic) :
    Spec.infoMatrix (graphTerms w) = w.allJᵀ * w.allW * w.allJ := by
  ext c d
  rw [infoMatrix_apply, graphTerms, List.map_map, Matrix.mul_assoc, Matrix.mul_apply]
  have := allJ_mulVec hnd (w.allW *ᵥ fun k => w.allJ k d) (fun f => (w.fh f).virt.W *ᵥ fun l => (factorTerm w f).J l d)
    (fun k => allW_mulVec _ _) c
  refine Eq.trans ?_ this.symm
  refine congrArg List.sum (List.map_congr_left fun f hf => ?_)
  rw [Function.comp_apply, Matrix.mul_assoc, Matrix.mul_apply]
  refine Finset.sum_congr rfl fun l _ => ?_
  have h1 := weight_plain (hq f hf)
  change (factorTerm w f).J l c * ((factorWeight w f • (w.fh f).virt.W) * (factorTerm w f).J) l d = _
  rw [h1, one_smul]; rfl

/-- Right-hand side for the errors `e`. -/
theorem infoVector_all (hnd : w.g.factors.Nodup) (e : FRef → ℕ → ℝ) (c : Cols w) :
    ((w.allJᵀ * w.allW) *ᵥ w.allE e) c =
      (w.g.factors.map fun f => ∑ l, (factorTerm w f).J l c * ((w.fh f).virt.W *ᵥ fun l => e f l) l).sum := by
  rw [← mulVec_mulVec]
  exact allJ_mulVec hnd _ (fun f => (w.fh f).virt.W *ᵥ fun l => e f l) (fun k => allW_mulVec _ _) c

theorem allW_mul_allV (hpd : ∀ f ∈ w.g.factors, (w.fh f).virt.W.PosDef) : w.allW * w.allV = 1 := by
  rw [allW, allV, ← blockDiagonal'_mul, ← blockDiagonal'_one]
  refine congrArg _ (funext fun f => ?_)
  exact mul_nonsing_inv _ ((hpd f f.2).det_pos.ne'.isUnit)

theorem allW_transpose (hpd : ∀ f ∈ w.g.factors, (w.fh f).virt.W.PosDef) : w.allWᵀ = w.allW := by
  rw [allW, blockDiagonal'_transpose]
  exact congrArg _ (funext fun f => (hpd f f.2).isHermitian)

theorem moment_all {Ω : Type} [Fintype Ω] {p : Ω → ℝ} {e : Ω → FRef → ℕ → ℝ} (h : White p e w w.g.factors) :
    moment2 p (fun ω => w.allE (e ω)) = w.allV := by
  ext ⟨f, i⟩ ⟨g, j⟩
  by_cases hfg : f = g
  · subst hfg
    rw [allV, blockDiagonal'_apply_eq]
    exact h.cov f f.2 i j
  · rw [allV, blockDiagonal'_apply_ne _ _ _ hfg]
    exact h.apart f f.2 g g.2 (fun h => hfg (Subtype.ext h)) i j

theorem card_rows (hnd : w.g.factors.Nodup) : (Fintype.card (Rows w) : ℝ) = ((w.g.factors.map fun f => (w.fh f).virt.dim).sum : ℕ) := by
  rw [Fintype.card_sigma]
  push_cast
  simp only [Fintype.card_fin]
  rw [sum_factors hnd (fun f => ((w.fh f).virt.dim : ℝ))]
  rw [List.map_map]; rfl

end World

end Mrob
