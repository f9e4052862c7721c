import Verif.Spec.DampedModel
import Verif.Lemmas.Optimizer
import Verif.Lemmas.Damping
import Mathlib.Analysis.Matrix.Order

/-!
# The damped quadratic model of the dense optimizer
-/

open Matrix

namespace Mrob

open Spec

namespace OptDense

variable {σ : Type} {P : DenseProblem σ}

/-- The damped Hessian represents the damped model. -/
theorem expected_eq {N : ℕ} (method : OptMethod) (l : ℝ) (H : Matrix (Fin N) (Fin N) ℝ) (g δ : Fin N → ℝ) :
    expected method l H g δ = g ⬝ᵥ δ + (δ ⬝ᵥ (damp method l H *ᵥ δ)) / 2 := by
  have h0 : ∀ M : Matrix (Fin N) (Fin N) ℝ, δ ⬝ᵥ (M *ᵥ δ) = ∑ i, ∑ j, δ i * M i j * δ j := by
    intro M
    simp only [dotProduct, mulVec, Finset.mul_sum, mul_assoc]
  have h1 : δ ⬝ᵥ (damp method l H *ᵥ δ) = ∑ i, ∑ j, δ i * H i j * δ j + 2 * penalty method l H δ := by
    rw [h0]
    cases method with
    | newtonRaphson => simp [damp, penalty]
    | lmSpher =>
      have : ∀ i j, δ i * damp .lmSpher l H i j * δ j = δ i * H i j * δ j + if i = j then l * δ i ^ 2 else 0 := by
        intro i j
        rw [damp, Matrix.of_apply]
        split_ifs with h
        · subst h; ring
        · ring
      simp only [this, Finset.sum_add_distrib, Finset.sum_ite_eq, Finset.mem_univ, if_true, penalty, ← Finset.mul_sum]
      ring
    | lmEllip =>
      have : ∀ i j, δ i * damp .lmEllip l H i j * δ j = δ i * H i j * δ j + if i = j then l * (H i i * δ i ^ 2) else 0 := by
        intro i j
        rw [damp, Matrix.of_apply]
        split_ifs with h
        · subst h; ring
        · ring
      simp only [this, Finset.sum_add_distrib, Finset.sum_ite_eq, Finset.mem_univ, if_true, penalty, ← Finset.mul_sum]
      ring
  rw [h1, expected]
  simp only [dotProduct]
  ring

theorem damp_psd {N : ℕ} (method : OptMethod) {l : ℝ} (hl : 0 ≤ l) {H : Matrix (Fin N) (Fin N) ℝ} (hH : H.PosSemidef) :
    (damp method l H).PosSemidef := by
  have hd : ∀ d : Fin N → ℝ, (∀ i, 0 ≤ d i) → (H + Matrix.diagonal d).PosSemidef := fun d h =>
    hH.add (Matrix.PosSemidef.diagonal h)
  cases method with
  | newtonRaphson => exact hH
  | lmSpher =>
    have : damp .lmSpher l H = H + Matrix.diagonal fun _ => l := by
      ext i j
      rw [damp, Matrix.of_apply, Matrix.add_apply, Matrix.diagonal_apply]
      split_ifs <;> simp
    rw [this]
    exact hd _ fun _ => hl
  | lmEllip =>
    have : damp .lmEllip l H = H + Matrix.diagonal fun i => l * H i i := by
      ext i j
      rw [damp, Matrix.of_apply, Matrix.add_apply, Matrix.diagonal_apply]
      split_ifs with h
      · subst h; ring
      · simp
    rw [this]
    exact hd _ fun i => mul_nonneg hl hH.diag_nonneg

theorem damp_posDef {N : ℕ} (method : OptMethod) {l : ℝ} (hl : 0 ≤ l) {H : Matrix (Fin N) (Fin N) ℝ} (hH : H.PosSemidef)
    (hu : IsUnit (damp method l H).det) : (damp method l H).PosDef := by
  have h := damp_psd method hl hH
  refine Matrix.PosDef.of_dotProduct_mulVec_pos h.isHermitian fun {x} hx => ?_
  refine lt_of_le_of_ne (h.dotProduct_mulVec_nonneg x) fun h0 => hx ?_
  have h1 : damp method l H *ᵥ x = 0 := (h.dotProduct_mulVec_zero_iff x).mp h0.symm
  have h2 := congrArg ((damp method l H)⁻¹ *ᵥ ·) h1
  simpa [mulVec_mulVec, Matrix.nonsing_inv_mul _ hu] using h2

/-- The damped step completes the square. -/
theorem expected_step {N : ℕ} (method : OptMethod) {l : ℝ} (hl : 0 ≤ l) {H : Matrix (Fin N) (Fin N) ℝ} (hH : H.PosSemidef)
    (hu : IsUnit (damp method l H).det) (g δ : Fin N → ℝ) :
    expected method l H g δ = expected method l H g (-((damp method l H)⁻¹ *ᵥ g)) +
      (δ + (damp method l H)⁻¹ *ᵥ g) ⬝ᵥ (damp method l H *ᵥ (δ + (damp method l H)⁻¹ *ᵥ g)) / 2 := by
  rw [expected_eq, expected_eq]
  have hs := (damp_psd method hl hH).isHermitian
  set A := damp method l H
  set x := A⁻¹ *ᵥ g
  have hx : A *ᵥ x = g := by
    rw [mulVec_mulVec, Matrix.mul_nonsing_inv _ hu, one_mulVec]
  have hc : x ⬝ᵥ (A *ᵥ δ) = g ⬝ᵥ δ := by
    rw [dotProduct_mulVec, ← mulVec_transpose]
    have : Aᵀ = A := by have := hs.eq; rwa [conjTranspose_eq_transpose_of_trivial] at this
    rw [this, hx]
  simp only [mulVec_add, mulVec_neg, dotProduct_add, add_dotProduct, dotProduct_neg, neg_dotProduct, hx, hc]
  rw [dotProduct_comm δ g, dotProduct_comm x g]
  ring

/-- The parts of an iteration. -/
theorem lmStep_parts {s s1 : OptDense σ} {cur : ℝ} (h : s.lmStep P = .ok (cur, s1)) :
    ∃ (o1 o2 o3 : σ) (e : NormalEq), P.bookkeep s.obj = .ok o1 ∧ P.gradHess o1 = .ok (e, o2) ∧
      IsUnit (damp s.method s.lambda e.H).det ∧
      P.update e.N (-((damp s.method s.lambda e.H)⁻¹ *ᵥ e.grad)) o2 = .ok o3 ∧ P.error o3 = .ok (cur, s1.obj) ∧
      s1.lambda = s.lambda ∧ s1.tol = s.tol ∧
      s1.sys = ⟨e.N, damp s.method s.lambda e.H, e.grad, -((damp s.method s.lambda e.H)⁻¹ *ᵥ e.grad)⟩ := by
  rw [lmStep] at h
  obtain ⟨o1, h1, h⟩ := Out.bind_eq_ok.mp h
  obtain ⟨s2, h2, h⟩ := Out.bind_eq_ok.mp h
  obtain ⟨o4, h4, rfl⟩ := error_ok h
  rw [oneIteration] at h2
  obtain ⟨⟨e, o2⟩, h5, h2⟩ := Out.bind_eq_ok.mp h2
  dsimp only at h2
  rw [if_pos rfl] at h2
  by_cases hu : IsUnit (damp s.method s.lambda e.H).det
  · rw [if_pos hu] at h2
    obtain ⟨o3, h6, h2⟩ := Out.bind_eq_ok.mp h2
    simp only [Out.pure_eq, Out.ok.injEq] at h2
    subst h2
    exact ⟨o1, o2, o3, e, h1, h5, hu, h6, h4, rfl, rfl, rfl⟩
  · rw [if_neg hu] at h2
    simp at h2

end OptDense

end Mrob
