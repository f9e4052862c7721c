import Verif.Lemmas.GaugeSpatial
import Verif.Lemmas.BodyFrame

/-!
# Rotations of the world are orthogonal changes of coordinates
-/

open Matrix

namespace Mrob

open World Spec

theorem fnOf_orth {n : ℕ} {M : Matrix (Fin n) (Fin n) ℝ} (h : Mᵀ * M = 1) (i : ℕ) (hi : i < n) (j : ℕ) (hj : j < n) :
    ∑ k ∈ Finset.range n, fnOf M k i * fnOf M k j = if i = j then 1 else 0 := by
  have e : ∀ k, fnOf M k i = fnOf Mᵀ i k := by
    intro k
    by_cases hk : k < n
    · rw [fnOf, fnOf, dif_pos ⟨hk, hi⟩, dif_pos ⟨hi, hk⟩]; rfl
    · rw [fnOf, fnOf, dif_neg (fun h => hk h.1), dif_neg (fun h => hk h.2)]
  simp only [e]
  exact fnOf_mul h i hi j hj

variable {G : Mat4}

theorem adjoint6_orth (hG : IsRigid G) (h0 : (SE3.mk G).t = 0) : (adjoint6 G)ᵀ * adjoint6 G = 1 := by
  have hG' : IsRigid (SE3.mk G).T := hG
  have hz : hat3 (0 : Vec3) = 0 := by
    ext i j; fin_cases i <;> fin_cases j <;> simp [hat3]
  have e : (adjoint G)ᵀ * adjoint G = 1 := by
    rw [adjoint_eq, SE3.adj, h0, hz, Matrix.zero_mul, fromBlocks_transpose, fromBlocks_multiply]
    simp only [transpose_zero, Matrix.zero_mul, Matrix.mul_zero, add_zero, zero_add, mul_eq_one_comm.mp (rigid_R hG').1]
    exact fromBlocks_one
  have h2 : (adjoint6 G)ᵀ = (adjoint G)ᵀ.submatrix at6 at6 := rfl
  rw [h2, adjoint6, at6_mul, e, at6_one]

theorem plane_orth (hG : IsRigid G) (h0 : (SE3.mk G).t = 0) :
    ((SE3.mk G).inv.Tᵀ.submatrix at4 at4)ᵀ * (SE3.mk G).inv.Tᵀ.submatrix at4 at4 = 1 := by
  have hG' : IsRigid (SE3.mk G).T := hG
  have hT : G = fromBlocks (SE3.mk G).R 0 0 1 := by
    have := rigid_T hG'
    change G = _ at this
    conv_lhs => rw [this, homog, h0]
    congr 1
  have h1 : G * Gᵀ = 1 := by
    rw [hT, fromBlocks_transpose, fromBlocks_multiply]
    simp only [transpose_zero, Matrix.zero_mul, Matrix.mul_zero, add_zero, zero_add, transpose_one, Matrix.mul_one]
    rw [(rigid_R hG').1]
    exact fromBlocks_one
  have hi : (SE3.mk G).inv.T = Gᵀ := by
    have h2 : G * (SE3.mk G).inv.T = 1 := mul_inv_cancel' hG'
    have h3 : Gᵀ * G = 1 := mul_eq_one_comm.mp h1
    calc (SE3.mk G).inv.T = Gᵀ * G * (SE3.mk G).inv.T := by rw [h3, Matrix.one_mul]
      _ = Gᵀ := by rw [Matrix.mul_assoc, h2, Matrix.mul_one]
  have e : ((SE3.mk G).inv.Tᵀ.submatrix at4 at4)ᵀ = (SE3.mk G).inv.T.submatrix at4 at4 := rfl
  rw [e, at4_mul, hi, transpose_transpose, mul_eq_one_comm.mp h1, at4_one]

/-- Landmarks may be moved as well. -/
theorem spatial_orth (hG : IsRigid G) (κ : NodeKind) (hκ : κ = .pose3d ∨ κ = .landmark3d ∨ κ = .plane4d)
    (h0 : κ ≠ .landmark3d → (SE3.mk G).t = 0) : (spatialSym G).Orth κ := by
  have hG' : IsRigid (SE3.mk G).T := hG
  intro i hi j hj
  rcases hκ with rfl | rfl | rfl
  · exact fnOf_orth (adjoint6_orth hG (h0 (by simp))) i hi j hj
  · exact fnOf_orth (mul_eq_one_comm.mp (rigid_R hG').1) i hi j hj
  · exact fnOf_orth (plane_orth hG (h0 (by simp))) i hi j hj

theorem body_orth (κ : NodeKind) : (bodySym G).Orth κ := by
  intro i hi j _
  change ∑ k ∈ Finset.range κ.dim, (if k = i then (1 : ℝ) else 0) * (if k = j then 1 else 0) = _
  rw [Finset.sum_eq_single i]
  · rw [if_pos rfl, one_mul]
  · intro k _ hk
    rw [if_neg hk, zero_mul]
  · intro h; exact absurd (Finset.mem_range.mpr hi) h

end Mrob
