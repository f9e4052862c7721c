import Verif.Lemmas.SVD
import Mathlib.LinearAlgebra.Matrix.Charpoly.Basic
import Mathlib.Data.Fin.Tuple.Sort
import Mathlib.Algebra.Polynomial.Roots

/-! # Lemmas about singular values and `arun` -/

open Matrix

namespace Mrob

open Spec

theorem antitone_ext {f g : Fin 3 → ℝ} (hf : Antitone f) (hg : Antitone g)
    (h : (Finset.univ.val.map f : Multiset ℝ) = Finset.univ.val.map g) : f = g := by
  have e : ∀ k : Fin 3 → ℝ, (Finset.univ.val.map k : Multiset ℝ) = ((List.ofFn k : List ℝ) : Multiset ℝ) := fun k => by
    simp [Fin.univ_val_map]
  rw [e, e, Multiset.coe_eq_coe] at h
  have s : ∀ {k : Fin 3 → ℝ}, Antitone k → (List.ofFn k).SortedGE := fun hk => by
    exact hk.sortedGE_ofFn
  exact List.ofFn_injective (h.eq_of_sortedGE (s hf) (s hg))

theorem charpoly_conj {V : Mat3} (hV : Vᵀ * V = 1) (D : Mat3) : (V * D * Vᵀ).charpoly = D.charpoly := by
  rw [Matrix.mul_assoc, charpoly_mul_comm, Matrix.mul_assoc, hV, Matrix.mul_one]

section
variable {d : SVD3} {H : Mat3}

theorem SVD3.Decomposes.gram (h : d.Decomposes H) : Hᵀ * H = d.V * diagonal (fun i => d.sv i * d.sv i) * d.Vᵀ := by
  conv_lhs => rw [h.2.2.2.2]
  rw [transpose_mul, transpose_mul, transpose_transpose, diagonal_transpose]
  calc d.V * (diagonal d.sv * d.Uᵀ) * (d.U * diagonal d.sv * d.Vᵀ)
      = d.V * (diagonal d.sv * ((d.Uᵀ * d.U) * diagonal d.sv)) * d.Vᵀ := by simp only [Matrix.mul_assoc]
    _ = _ := by rw [h.1, Matrix.one_mul, diagonal_mul_diagonal]

theorem SVD3.Decomposes.nonneg (h : d.Decomposes H) (i : Fin 3) : 0 ≤ d.sv i :=
  h.2.2.2.1.trans (h.2.2.1 (Fin.le_last i))

/-- The singular values do not depend on the decomposition. -/
theorem sv_unique {e : SVD3} (h : d.Decomposes H) (h' : e.Decomposes H) : d.sv = e.sv := by
  have hc := (charpoly_conj h.2.1 (diagonal fun i => d.sv i * d.sv i)).symm.trans
    ((congrArg charpoly (h.gram.symm.trans h'.gram)).trans (charpoly_conj h'.2.1 _))
  rw [charpoly_diagonal, charpoly_diagonal] at hc
  have hr : ∀ f : Fin 3 → ℝ, (∏ i, (Polynomial.X - Polynomial.C (f i))).roots = Finset.univ.val.map f := fun f => by
    have := Polynomial.roots_multiset_prod_X_sub_C (Finset.univ.val.map f)
    rwa [Multiset.map_map] at this
  have hm := congrArg Polynomial.roots hc
  rw [hr, hr] at hm
  have anti : ∀ {k : SVD3} (hk : k.Decomposes H), Antitone fun i => k.sv i * k.sv i := fun hk a b hab =>
    mul_self_le_mul_self (hk.nonneg b) (hk.2.2.1 hab)
  have := antitone_ext (anti h) (anti h') hm
  funext i
  exact (mul_self_inj_of_nonneg (h.nonneg i) (h'.nonneg i)).mp (congrFun this i)

/-- Singular values of a matrix of rank one. -/
theorem sv_rank_one {u v : Vec3} (h : d.Decomposes (vecMulVec u v)) : d.sv 1 = 0 ∧ d.sv 2 = 0 := by
  have hHV : vecMulVec u v * d.V = d.U * diagonal d.sv := by
    conv_lhs => rw [h.2.2.2.2]
    rw [Matrix.mul_assoc, h.2.1, Matrix.mul_one]
  have col : ∀ j i, u i * (v ᵥ* d.V) j = d.U i j * d.sv j := fun j i => by
    have := congrFun (congrFun hHV i) j
    rwa [vecMulVec_mul, vecMulVec_apply, mul_diagonal] at this
  have uu : ∀ j k, ∑ i, d.U i j * d.U i k = if j = k then 1 else 0 := fun j k => by
    have := congrFun (congrFun h.1 j) k
    rwa [Matrix.mul_apply, Matrix.one_apply] at this
  have dots : ∀ j k, (∑ i, u i * u i) * ((v ᵥ* d.V) j * (v ᵥ* d.V) k) = (if j = k then 1 else 0) * (d.sv j * d.sv k) := fun j k => by
    rw [← uu, Finset.sum_mul, Finset.sum_mul]
    refine Finset.sum_congr rfl fun i _ => ?_
    linear_combination (u i * (v ᵥ* d.V) k) * col j i + (d.U i j * d.sv j) * col k i
  have h00 := dots 0 0
  have h11 := dots 1 1
  have h01 := dots 0 1
  simp only [if_true, one_mul, if_neg (by decide : ¬ (0 : Fin 3) = 1), zero_mul] at h00 h11 h01
  have hz : (d.sv 0 * d.sv 1) * (d.sv 0 * d.sv 1) = 0 := by
    calc (d.sv 0 * d.sv 1) * (d.sv 0 * d.sv 1) = (d.sv 0 * d.sv 0) * (d.sv 1 * d.sv 1) := by ring
      _ = ((∑ i, u i * u i) * ((v ᵥ* d.V) 0 * (v ᵥ* d.V) 1)) * ((∑ i, u i * u i) * ((v ᵥ* d.V) 0 * (v ᵥ* d.V) 1)) := by
          rw [← h00, ← h11]; ring
      _ = 0 := by rw [h01, zero_mul]
  have a01 : d.sv 1 ≤ d.sv 0 := h.2.2.1 (by decide)
  have a12 : d.sv 2 ≤ d.sv 1 := h.2.2.1 (by decide)
  have n1 := h.nonneg 1
  have n2 := h.nonneg 2
  have h1 : d.sv 1 = 0 := by
    rcases mul_eq_zero.mp (mul_self_eq_zero.mp hz) with h0 | h0 <;> linarith
  exact ⟨h1, by linarith⟩

/-- The singular values are bounded by the entries. -/
theorem sv_le (h : d.Decomposes H) (i : Fin 3) : d.sv i * d.sv i ≤ ∑ a, ∑ b, H a b * H a b := by
  have ht := congrArg trace h.gram
  rw [trace_mul_comm (d.V * _), ← Matrix.mul_assoc, h.2.1, Matrix.one_mul, trace_diagonal] at ht
  have e : (Hᵀ * H).trace = ∑ a, ∑ b, H a b * H a b := by
    rw [trace, Finset.sum_comm]
    simp [Matrix.mul_apply]
  rw [← e, ht]
  exact Finset.single_le_sum (f := fun j => d.sv j * d.sv j) (fun j _ => mul_self_nonneg _) (Finset.mem_univ i)

end

/-! ## Results of `arun` -/

theorem arun_inv {svd : Mat3 → SVD3} {X Y : List Vec3} {T T' : SE3} {b : Bool} (h : arun svd X Y T = .ok (b, T')) :
    Y.length = X.length ∧ ((b = false ∧ T' = T) ∨ (b = true ∧ X ≠ [] ∧
      1e-6 ≤ |(svd (crossMoment (centred X (rowMean X)) (centred Y (rowMean Y)))).sv 1
        - (svd (crossMoment (centred X (rowMean X)) (centred Y (rowMean Y)))).sv 0| ∧
      1e-6 ≤ |(svd (crossMoment (centred X (rowMean X)) (centred Y (rowMean Y)))).sv 2
        - (svd (crossMoment (centred X (rowMean X)) (centred Y (rowMean Y)))).sv 1| ∧
      T' = ⟨homog (arunRotation (svd (crossMoment (centred X (rowMean X)) (centred Y (rowMean Y)))))
        (rowMean Y - arunRotation (svd (crossMoment (centred X (rowMean X)) (centred Y (rowMean Y)))) *ᵥ rowMean X) 1⟩)) := by
  rw [arun] at h
  by_cases h1 : Y.length ≠ X.length
  · rw [if_pos h1] at h; simp at h
  rw [if_neg h1] at h
  refine ⟨not_not.mp h1, ?_⟩
  by_cases h2 : X.length = 0
  · rw [if_pos h2] at h
    simp only [Out.ok.injEq, Prod.mk.injEq] at h
    exact Or.inl ⟨h.1.symm, h.2.symm⟩
  rw [if_neg h2] at h
  dsimp only at h
  by_cases h3 : |(svd (crossMoment (centred X (rowMean X)) (centred Y (rowMean Y)))).sv 1
        - (svd (crossMoment (centred X (rowMean X)) (centred Y (rowMean Y)))).sv 0| < 1e-6
  · rw [if_pos h3] at h
    simp only [Out.ok.injEq, Prod.mk.injEq] at h
    exact Or.inl ⟨h.1.symm, h.2.symm⟩
  rw [if_neg h3] at h
  by_cases h4 : |(svd (crossMoment (centred X (rowMean X)) (centred Y (rowMean Y)))).sv 2
        - (svd (crossMoment (centred X (rowMean X)) (centred Y (rowMean Y)))).sv 1| < 1e-6
  · rw [if_pos h4] at h
    simp only [Out.ok.injEq, Prod.mk.injEq] at h
    exact Or.inl ⟨h.1.symm, h.2.symm⟩
  rw [if_neg h4] at h
  simp only [Out.ok.injEq, Prod.mk.injEq] at h
  exact Or.inr ⟨h.1.symm, fun hX => h2 (by rw [hX]; rfl), not_lt.mp h3, not_lt.mp h4, h.2.symm⟩

theorem arun_false {svd : Mat3 → SVD3} {X Y : List Vec3} (T : SE3) (h1 : Y.length = X.length)
    (h : |(svd (crossMoment (centred X (rowMean X)) (centred Y (rowMean Y)))).sv 1
        - (svd (crossMoment (centred X (rowMean X)) (centred Y (rowMean Y)))).sv 0| < 1e-6 ∨
      |(svd (crossMoment (centred X (rowMean X)) (centred Y (rowMean Y)))).sv 2
        - (svd (crossMoment (centred X (rowMean X)) (centred Y (rowMean Y)))).sv 1| < 1e-6) :
    arun svd X Y T = .ok (false, T) := by
  rw [arun, if_neg (not_not.mpr h1)]
  dsimp only
  split_ifs with h2 h3 h4
  · rfl
  · rfl
  · rfl
  · exact absurd h (by tauto)

theorem alignCost_eq {M : Mat4} (P : List (Vec3 × Vec3)) :
    alignCost M P = (P.map fun p => dist2 p.2 (tl3 M *ᵥ p.1 + tr3 M)).sum := by
  simp only [alignCost, movePoint_rigid]

/-- The cost of a rigid motion in terms of its rotation. -/
theorem alignCost_rigid {M : Mat4} (hM : IsRigid M) {X Y : List Vec3} (hl : Y.length = X.length) (hX : X ≠ []) :
    alignCost M (X.zip Y) = (((X.zip Y).map fun p => p.1 ⬝ᵥ p.1 + p.2 ⬝ᵥ p.2).sum
      - X.length * (rowMean X ⬝ᵥ rowMean X) - X.length * (rowMean Y ⬝ᵥ rowMean Y))
      - 2 * (tl3 M * crossMoment (centred X (rowMean X)) (centred Y (rowMean Y))).trace
      + X.length * dist2 (rowMean Y) (tl3 M *ᵥ rowMean X + tr3 M) := by
  have h1 : (X.zip Y).map Prod.fst = X := List.map_fst_zip (by omega)
  have h2 : (X.zip Y).map Prod.snd = Y := List.map_snd_zip (by omega)
  have hl' : (X.zip Y).length = X.length := by rw [List.length_zip]; omega
  have hne : X.zip Y ≠ [] := fun h => hX (List.length_eq_zero_iff.mp (by rw [← hl', h]; rfl))
  have := cost_centred (R := tl3 M) ((isRigid_iff.mp hM).1.transpose_mul) (tr3 M) (X.zip Y) hne
  rw [h1, h2, hl'] at this
  rw [alignCost_eq, this]

theorem dist2_nonneg' (p q : Vec3) : 0 ≤ dist2 p q := Finset.sum_nonneg fun i _ => sq_nonneg _

theorem dist2_self_eq (p : Vec3) : dist2 p p = 0 := by simp [dist2]

theorem eq_of_dist2 {p q : Vec3} (h : dist2 p q ≤ 0) : p = q := by
  have h0 := le_antisymm h (dist2_nonneg' p q)
  rw [dist2_eq, dotProduct_self_eq_zero] at h0
  exact sub_eq_zero.mp h0

end Mrob
