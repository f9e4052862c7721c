import Verif.Lemmas.Registration
import Mathlib.Analysis.InnerProductSpace.PiL2

/-! # Every 3×3 matrix has a singular value decomposition -/

open Matrix

namespace Mrob

theorem exists_svd_of (H : Mat3) : ∃ d : SVD3, d.Decomposes H := by
  obtain ⟨d, hm, ho, he⟩ := exists_decomposes (A := Hᵀ * H) (n := 3) (by rw [transpose_mul, transpose_transpose]) (by simp)
  let V : Mat3 := Matrix.of fun i j => d.vec i j.rev
  let h : Fin 3 → Vec3 := fun j => H *ᵥ fun i => V i j
  let σ : Fin 3 → ℝ := fun j => Real.sqrt (d.val j.rev)
  have hV : Vᵀ * V = 1 := by
    ext a b
    have := congrFun (congrFun ho a.rev) b.rev
    rw [Matrix.mul_apply, Matrix.one_apply] at this ⊢
    simpa [V, Fin.rev_inj] using this
  have hcol : ∀ a b, h a ⬝ᵥ h b = if a = b then d.val a.rev else 0 := by
    intro a b
    have e1 : h a ⬝ᵥ h b = (fun i => V i a) ⬝ᵥ ((Hᵀ * H) *ᵥ fun i => V i b) := by
      change (H *ᵥ fun i => V i a) ⬝ᵥ (H *ᵥ fun i => V i b) = _
      rw [← mulVec_mulVec, mulVec_transpose, dotProduct_comm (fun i => V i a), ← dotProduct_mulVec]
      exact dotProduct_comm _ _
    have e2 : (Hᵀ * H) *ᵥ (fun i => V i b) = d.val b.rev • fun i => V i b :=
      EigDec.Decomposes.eigen ⟨hm, ho, he⟩ b.rev
    have e3 : (fun i => V i a) ⬝ᵥ (fun i => V i b) = (Vᵀ * V) a b := by
      simp [Matrix.mul_apply, dotProduct]
    rw [e1, e2, dotProduct_smul, e3, hV, Matrix.one_apply]
    split
    · next hab => rw [hab]; simp
    · simp
  have hval : ∀ j, 0 ≤ d.val j := fun j => by
    have := hcol j.rev j.rev
    rw [if_pos rfl, Fin.rev_rev] at this
    rw [← this]
    exact Finset.sum_nonneg fun i _ => mul_self_nonneg _
  have hσ : ∀ j, σ j * σ j = d.val j.rev := fun j => Real.mul_self_sqrt (hval _)
  let w : Fin 3 → EuclideanSpace ℝ (Fin 3) := fun j => WithLp.toLp 2 ((σ j)⁻¹ • h j)
  let s : Set (Fin 3) := {j | σ j ≠ 0}
  have hw : Orthonormal ℝ (s.domRestrict w) := by
    rw [orthonormal_iff_ite]
    intro a b
    have : inner ℝ (s.domRestrict w a) (s.domRestrict w b) = (σ a)⁻¹ * (σ b)⁻¹ * (h a ⬝ᵥ h b) := by
      simp only [Set.domRestrict_apply, w, EuclideanSpace.inner_eq_star_dotProduct, star_trivial, smul_dotProduct,
        dotProduct_smul, smul_eq_mul]
      rw [dotProduct_comm (h b)]
      ring
    rw [this, hcol]
    by_cases hab : a = b
    · subst hab
      have ha : σ a ≠ 0 := a.2
      rw [if_pos rfl, if_pos rfl, ← hσ]
      field_simp
    · rw [if_neg hab, if_neg fun h => hab (Subtype.ext h), mul_zero]
  obtain ⟨b, hb⟩ := hw.exists_orthonormalBasis_extension_of_card_eq (by simp)
  let U : Mat3 := Matrix.of fun i j => b j i
  have hU : Uᵀ * U = 1 := by
    ext i j
    have := orthonormal_iff_ite.mp b.orthonormal i j
    rw [EuclideanSpace.inner_eq_star_dotProduct] at this
    rw [Matrix.mul_apply, Matrix.one_apply, ← this]
    simp [U, dotProduct, mul_comm]
  refine ⟨⟨U, σ, V⟩, hU, hV, ?_, Real.sqrt_nonneg _, ?_⟩
  · intro a b hab
    exact Real.sqrt_le_sqrt (hm (Fin.rev_le_rev.mpr hab))
  · have hHV : H * V = U * diagonal σ := by
      ext i j
      rw [mul_diagonal]
      have e1 : (H * V) i j = h j i := by simp [h, Matrix.mul_apply, mulVec, dotProduct]
      rw [e1]
      by_cases hj : σ j = 0
      · have h0 : h j ⬝ᵥ h j = 0 := by rw [hcol, if_pos rfl, ← hσ, hj, mul_zero]
        rw [dotProduct_self_eq_zero] at h0
        rw [h0, hj, mul_zero, Pi.zero_apply]
      · have : U i j = (σ j)⁻¹ * h j i := by
          change b j i = _
          rw [hb j hj]
          rfl
        rw [this]
        field_simp
    change H = U * diagonal σ * Vᵀ
    rw [← hHV, Matrix.mul_assoc, mul_eq_one_comm.mp hV, Matrix.mul_one]

/-- A decomposition which keeps the promise of the library exists. -/
theorem exists_svd : ∃ svd : Mat3 → SVD3, ∀ H, (svd H).Decomposes H :=
  ⟨fun H => (exists_svd_of H).choose, fun H => (exists_svd_of H).choose_spec⟩

end Mrob
