import Verif.Model.Plane
import Verif.Spec.Plane
import Verif.Lemmas.SE3
import Mathlib.Analysis.Matrix.Spectrum

/-! # Lemmas about the model of `Plane` -/

open Matrix

namespace Mrob

open Spec

/-! ## Lists and partial operations -/

theorem Out.traverse_ok {α β : Type} {f : α → Out β} {l : List α} {g : α → β} (h : ∀ a ∈ l, f a = .ok (g a)) :
    Out.traverse f l = .ok (l.map g) := by
  induction l with
  | nil => rfl
  | cons a l ih =>
    rw [Out.traverse, h a (by simp), Out.ok_bind, ih fun b hb => h b (by simp [hb]), Out.ok_bind, List.map_cons]

theorem Out.index_ok {α : Type} {l : List α} {t : ℕ} (h : t < l.length) : Out.index l t = .ok l[t] := by
  rw [Out.index, List.getElem?_eq_getElem h]

theorem Out.index_eq_ok {α : Type} {l : List α} {t : ℕ} {a : α} : Out.index l t = .ok a ↔ l[t]? = some a := by
  rw [Out.index]
  cases l[t]? <;> simp

theorem Out.atT_ok {α : Type} {l : List α} {t : ℕ} (h : t < l.length) : Out.atT l t = .ok l[t] := by
  rw [Out.atT, List.getElem?_eq_getElem h]

theorem Out.atT_eq_ok {α : Type} {l : List α} {t : ℕ} {a : α} : Out.atT l t = .ok a ↔ l[t]? = some a := by
  rw [Out.atT]
  cases l[t]? <;> simp

/-! ## Homogeneous points -/

theorem planeEval_eq (pl : Vec4) (p : Vec3) : planeEval pl p = pl ⬝ᵥ homPt p := by
  simp [planeEval, dotProduct, homPt, Fintype.sum_sum_type]

/-- The last row of a homogeneous transformation. -/
def LastRow (T : Mat4) : Prop := (∀ j, T (.inr ()) (.inl j) = 0) ∧ T (.inr ()) (.inr ()) = 1

theorem _root_.Spec.IsRigid.lastRow {T : Mat4} (h : IsRigid T) : LastRow T :=
  ⟨fun j => congrFun (congrFun h.2.1 ()) j, congrFun (congrFun h.2.2 ()) ()⟩

theorem mulVec_homPt {T : Mat4} (h : LastRow T) (p : Vec3) : T *ᵥ homPt p = homPt (movePoint T p) := by
  ext i
  rcases i with i | ⟨⟩
  · simp [mulVec, dotProduct, homPt, Fintype.sum_sum_type, movePoint]
  · simp [mulVec, dotProduct, homPt, Fintype.sum_sum_type, h.1, h.2]

theorem transform_eq_movePoint (T : SE3) (p : Vec3) : T.transform p = movePoint T.T p := by
  ext i
  simp [SE3.transform, SE3.R, SE3.t, tl3, tr3, movePoint, mulVec, dotProduct, toBlocks₁₁]

/-! ## The matrices `S` and `Q` -/

theorem foldl_add_eq_sum {α : Type*} [AddCommMonoid α] (l : List α) (a : α) : l.foldl (· + ·) a = a + l.sum := by
  induction l generalizing a with
  | nil => simp
  | cons b l ih => rw [List.foldl_cons, ih, List.sum_cons, add_assoc]

theorem sumOuter_eq (l : List Vec3) : sumOuter l = (l.map fun p => vecMulVec (homPt p) (homPt p)).sum := by
  rw [sumOuter, ← zero_add (List.sum _), ← foldl_add_eq_sum, List.foldl_map]

theorem sumOuter_cons (p : Vec3) (l : List Vec3) : sumOuter (p :: l) = vecMulVec (homPt p) (homPt p) + sumOuter l := by
  simp [sumOuter_eq]

theorem sumOuter_nil : sumOuter [] = 0 := rfl

theorem sumOuter_transpose (l : List Vec3) : (sumOuter l)ᵀ = sumOuter l := by
  induction l with
  | nil => simp [sumOuter_nil]
  | cons p l ih => rw [sumOuter_cons, transpose_add, ih, transpose_vecMulVec]

theorem quad_outer (x v : Vec4) : x ⬝ᵥ (vecMulVec v v *ᵥ x) = (x ⬝ᵥ v) ^ 2 := by
  rw [vecMulVec_mulVec, dotProduct_comm v x]
  simp [dotProduct_smul, pow_two]

theorem quad_sumOuter (x : Vec4) (l : List Vec3) :
    x ⬝ᵥ (sumOuter l *ᵥ x) = (l.map fun p => (x ⬝ᵥ homPt p) ^ 2).sum := by
  induction l with
  | nil => simp [sumOuter_nil]
  | cons p l ih => rw [sumOuter_cons, add_mulVec, dotProduct_add, ih, quad_outer, List.map_cons, List.sum_cons]

theorem quad_conj (x : Vec4) (T S : Mat4) : x ⬝ᵥ ((T * S * Tᵀ) *ᵥ x) = (Tᵀ *ᵥ x) ⬝ᵥ (S *ᵥ (Tᵀ *ᵥ x)) := by
  rw [← mulVec_mulVec, ← mulVec_mulVec, dotProduct_mulVec x T, vecMul_eq_transpose_mulVec]
where
  vecMul_eq_transpose_mulVec {x : Vec4} {T : Mat4} : x ᵥ* T = Tᵀ *ᵥ x := (mulVec_transpose T x).symm

/-- The quadratic form of the moved matrix is the sum of the squared values of the plane at the moved points. -/
theorem quad_cloud {T : Mat4} (h : LastRow T) (pl : Vec4) (l : List Vec3) :
    pl ⬝ᵥ ((T * sumOuter l * Tᵀ) *ᵥ pl) = cloudCost pl T l := by
  rw [quad_conj, quad_sumOuter, cloudCost]
  refine congrArg List.sum (List.map_congr_left fun p _ => ?_)
  rw [planeEval_eq, ← mulVec_homPt h, dotProduct_mulVec pl T, mulVec_transpose]

theorem cloudCost_nonneg (pl : Vec4) (T : Mat4) (l : List Vec3) : 0 ≤ cloudCost pl T l :=
  List.sum_nonneg fun y hy => by
    obtain ⟨p, -, rfl⟩ := List.mem_map.mp hy
    exact sq_nonneg _

theorem planeCost_nonneg (pl : Vec4) (Ts : List Mat4) (clouds : List (List Vec3)) : 0 ≤ planeCost pl Ts clouds := by
  rw [planeCost]
  induction Ts generalizing clouds with
  | nil => simp
  | cons T Ts ih =>
    cases clouds with
    | nil => simp
    | cons c clouds =>
      rw [List.zipWith_cons_cons, List.sum_cons]
      exact add_nonneg (cloudCost_nonneg _ _ _) (ih _)

theorem conj_transpose {T S : Mat4} (h : Sᵀ = S) : (T * S * Tᵀ)ᵀ = T * S * Tᵀ := by
  rw [transpose_mul, transpose_mul, transpose_transpose, h, Matrix.mul_assoc]

/-! ## The eigenvalue solver -/

variable {ι : Type} [Fintype ι] [DecidableEq ι] {n : ℕ}

theorem EigDec.Decomposes.mul_transpose {d : EigDec ι n} {A : Matrix ι ι ℝ} (h : d.Decomposes A)
    (hn : Fintype.card ι = n) : d.vec * d.vecᵀ = 1 :=
  (Matrix.mul_eq_one_comm_of_card_eq ι (Fin n) ℝ (by simp [hn])).mpr h.2.1

/-- The first eigenvalue bounds the quadratic form from below. -/
theorem EigDec.Decomposes.le_quad {d : EigDec ι (n + 1)} {A : Matrix ι ι ℝ} (h : d.Decomposes A)
    (hn : Fintype.card ι = n + 1) (x : ι → ℝ) : d.val 0 * (x ⬝ᵥ x) ≤ x ⬝ᵥ (A *ᵥ x) := by
  have hV := h.mul_transpose hn
  obtain ⟨hmono, -, hA⟩ := h
  have e1 : x = d.vec *ᵥ (d.vecᵀ *ᵥ x) := by rw [mulVec_mulVec, hV, one_mulVec]
  set y := d.vecᵀ *ᵥ x with hy
  have e2 : x ⬝ᵥ (A *ᵥ x) = ∑ i, d.val i * y i ^ 2 := by
    conv_lhs => rw [show A *ᵥ x = d.vec *ᵥ (diagonal d.val *ᵥ y) by
      rw [mulVec_mulVec, ← hA, ← mulVec_mulVec, ← e1]]
    rw [dotProduct_mulVec, ← mulVec_transpose, ← hy]
    simp only [dotProduct, mulVec_diagonal]
    exact Finset.sum_congr rfl fun i _ => by ring
  have e3 : x ⬝ᵥ x = ∑ i, y i ^ 2 := by
    conv_lhs => rw [show x ⬝ᵥ x = x ⬝ᵥ (d.vec *ᵥ y) by rw [← e1]]
    rw [dotProduct_mulVec, ← mulVec_transpose, ← hy]
    simp only [dotProduct]
    exact Finset.sum_congr rfl fun i _ => by ring
  rw [e2, e3, Finset.mul_sum]
  exact Finset.sum_le_sum fun i _ => mul_le_mul_of_nonneg_right (hmono (Fin.zero_le i)) (sq_nonneg _)

theorem EigDec.Decomposes.unit {d : EigDec ι n} {A : Matrix ι ι ℝ} (h : d.Decomposes A) (i : Fin n) :
    (fun k => d.vec k i) ⬝ᵥ (fun k => d.vec k i) = 1 := by
  have := congrFun (congrFun h.2.1 i) i
  rw [Matrix.mul_apply, Matrix.one_apply_eq] at this
  simpa [dotProduct] using this

theorem EigDec.Decomposes.eigen {d : EigDec ι n} {A : Matrix ι ι ℝ} (h : d.Decomposes A) (i : Fin n) :
    A *ᵥ (fun k => d.vec k i) = d.val i • fun k => d.vec k i := by
  ext k
  have := congrFun (congrFun h.2.2 k) i
  rw [Matrix.mul_apply, Matrix.mul_diagonal] at this
  simpa [mulVec, dotProduct, mul_comm] using this

theorem EigDec.Decomposes.attains {d : EigDec ι n} {A : Matrix ι ι ℝ} (h : d.Decomposes A) (i : Fin n) :
    (fun k => d.vec k i) ⬝ᵥ (A *ᵥ fun k => d.vec k i) = d.val i := by
  rw [h.eigen, dotProduct_smul, h.unit, smul_eq_mul, mul_one]

/-- Every symmetric matrix has a decomposition. -/
theorem exists_decomposes {A : Matrix ι ι ℝ} (hA : Aᵀ = A) (hn : Fintype.card ι = n) :
    ∃ d : EigDec ι n, d.Decomposes A := by
  subst hn
  have hH : A.IsHermitian := by rw [IsHermitian, conjTranspose_eq_transpose_of_trivial, hA]
  let eqv : Fin (Fintype.card ι) ≃ ι := Fintype.equivOfCardEq (Fintype.card_fin _)
  have hU : (hH.eigenvectorUnitary : Matrix ι ι ℝ)ᵀ * (hH.eigenvectorUnitary : Matrix ι ι ℝ) = 1 := by
    have := Unitary.coe_star_mul_self hH.eigenvectorUnitary
    rwa [star_eq_conjTranspose, conjTranspose_eq_transpose_of_trivial] at this
  refine ⟨⟨fun k => hH.eigenvalues₀ k.rev, Matrix.of fun i k => (hH.eigenvectorUnitary : Matrix ι ι ℝ) i (eqv k.rev)⟩,
    ?_, ?_, ?_⟩
  · intro a b hab
    exact hH.eigenvalues₀_antitone (Fin.rev_le_rev.mpr hab)
  · ext a b
    have := congrFun (congrFun hU (eqv a.rev)) (eqv b.rev)
    rw [Matrix.mul_apply, Matrix.one_apply] at this
    rw [Matrix.mul_apply, Matrix.one_apply]
    simpa [Fin.rev_inj] using this
  · ext a b
    have := congrFun (hH.mulVec_eigenvectorBasis (eqv b.rev)) a
    rw [IsHermitian.eigenvalues, Equiv.symm_apply_apply] at this
    rw [Matrix.mul_apply, Matrix.mul_diagonal]
    simpa [mulVec, dotProduct, mul_comm] using this

/-- A solver which keeps its promise exists. -/
theorem exists_sound : ∃ e : EigSolver, e.Sound := by
  classical
  refine ⟨⟨fun A => if h : Aᵀ = A then (exists_decomposes h (n := 4) (by simp)).choose else ⟨0, 0⟩,
    fun A => if h : Aᵀ = A then (exists_decomposes h (n := 3) (by simp)).choose else ⟨0, 0⟩⟩, fun A h => ?_, fun A h => ?_⟩
  · simp only [dif_pos h]
    exact (exists_decomposes h (n := 4) (by simp)).choose_spec
  · simp only [dif_pos h]
    exact (exists_decomposes h (n := 3) (by simp)).choose_spec

end Mrob
