import Verif.Lemmas.SO3
import Mathlib.Analysis.SpecialFunctions.Trigonometric.Series
import Mathlib.Analysis.Normed.Algebra.MatrixExponential

open Matrix NormedSpace

namespace Mrob

variable {n : Type*} [Fintype n] [DecidableEq n]

theorem pow_even_of_quartic {M : Matrix n n ℝ} {θ : ℝ} (h : M ^ 4 = -(θ ^ 2) • M ^ 2) (k : ℕ) :
    M ^ (2 * (k + 1)) = ((-1) ^ k * θ ^ (2 * k)) • M ^ 2 := by
  induction k with
  | zero => simp
  | succ k ih =>
    have : M ^ (2 * (k + 1 + 1)) = M ^ (2 * (k + 1)) * M ^ 2 := by rw [← pow_add]; ring_nf
    rw [this, ih, smul_mul_assoc, ← pow_add, show 2 + 2 = 4 from rfl, h, smul_smul]
    congr 1; ring

theorem pow_odd_of_quartic {M : Matrix n n ℝ} {θ : ℝ} (h : M ^ 4 = -(θ ^ 2) • M ^ 2) (k : ℕ) :
    M ^ (2 * (k + 1) + 1) = ((-1) ^ k * θ ^ (2 * k)) • M ^ 3 := by
  rw [pow_succ, pow_even_of_quartic h, smul_mul_assoc, ← pow_succ]

theorem hasSum_even_of_quartic {M : Matrix n n ℝ} {θ : ℝ} (hθ : θ ≠ 0)
    (h : M ^ 4 = -(θ ^ 2) • M ^ 2) :
    HasSum (fun k : ℕ => ((2 * k).factorial⁻¹ : ℝ) • M ^ (2 * k))
      (Real.cos θ • (-(1 / θ ^ 2) • M ^ 2) + (1 + (1 / θ ^ 2) • M ^ 2)) := by
  have h1 := (Real.hasSum_cos θ).smul_const (-(1 / θ ^ 2) • M ^ 2)
  have h2 : HasSum (fun k : ℕ => if k = 0 then (1 + (1 / θ ^ 2) • M ^ 2) else 0)
      (1 + (1 / θ ^ 2) • M ^ 2) := hasSum_ite_eq 0 _
  have h3 := h1.add h2
  convert h3 using 2 with k
  rcases k with _ | k
  · simp
  · rw [pow_even_of_quartic h]
    simp only [Nat.add_eq_zero_iff, one_ne_zero, and_false, if_false, add_zero, smul_smul]
    congr 1
    field_simp
    ring

theorem hasSum_odd_of_quartic {M : Matrix n n ℝ} {θ : ℝ} (hθ : θ ≠ 0)
    (h : M ^ 4 = -(θ ^ 2) • M ^ 2) :
    HasSum (fun k : ℕ => ((2 * k + 1).factorial⁻¹ : ℝ) • M ^ (2 * k + 1))
      (Real.sin θ • (-(1 / θ ^ 3) • M ^ 3) + (M + (1 / θ ^ 2) • M ^ 3)) := by
  have h1 := (Real.hasSum_sin θ).smul_const (-(1 / θ ^ 3) • M ^ 3)
  have h2 : HasSum (fun k : ℕ => if k = 0 then (M + (1 / θ ^ 2) • M ^ 3) else 0)
      (M + (1 / θ ^ 2) • M ^ 3) := hasSum_ite_eq 0 _
  have h3 := h1.add h2
  convert h3 using 2 with k
  rcases k with _ | k
  · simp only [mul_zero, zero_add, pow_one, pow_zero, Nat.factorial_one, Nat.cast_one, inv_one,
      if_true, smul_smul, one_smul, one_mul, div_one]
    have : θ * -(1 / θ ^ 3) = -(1 / θ ^ 2) := by field_simp
    rw [this, neg_smul]; abel
  · rw [pow_odd_of_quartic h]
    simp only [Nat.add_eq_zero_iff, one_ne_zero, and_false, if_false, add_zero, smul_smul]
    congr 1
    field_simp
    ring

/-- Closed form of the exponential of a matrix with `M⁴ = -θ² M²`, `θ ≠ 0`. -/
theorem exp_of_quartic {M : Matrix n n ℝ} {θ : ℝ} (hθ : θ ≠ 0) (h : M ^ 4 = -(θ ^ 2) • M ^ 2) :
    exp M = 1 + M + ((1 - Real.cos θ) / θ ^ 2) • M ^ 2
      + ((θ - Real.sin θ) / θ ^ 3) • M ^ 3 := by
  have hs := HasSum.even_add_odd (f := fun k : ℕ => ((k.factorial)⁻¹ : ℝ) • M ^ k)
    (hasSum_even_of_quartic hθ h) (hasSum_odd_of_quartic hθ h)
  have he : exp M = ∑' k : ℕ, ((k.factorial)⁻¹ : ℝ) • M ^ k := by rw [exp_eq_tsum ℝ]
  rw [he, hs.tsum_eq]
  have a1 : (1 - Real.cos θ) / θ ^ 2 = Real.cos θ * -(1 / θ ^ 2) + 1 / θ ^ 2 := by ring
  have a2 : (θ - Real.sin θ) / θ ^ 3 = Real.sin θ * -(1 / θ ^ 3) + 1 / θ ^ 2 := by
    field_simp; ring
  rw [a1, a2]
  module

/-- Rodrigues' formula. -/
theorem exp_hat3 {w : Vec3} (h : w ≠ 0) :
    exp (hat3 w) = rod (Real.sin (vnorm w) / vnorm w) ((1 - Real.cos (vnorm w)) / vnorm w ^ 2) w := by
  have h0 : vnorm w ≠ 0 := fun hh => h (vnorm_eq_zero.mp hh)
  have h3 : hat3 w ^ 3 = -(vnorm w ^ 2) • hat3 w := by
    rw [vnorm_sq, ← hat3_cube, pow_succ, pow_two]
  have h4 : hat3 w ^ 4 = -(vnorm w ^ 2) • hat3 w ^ 2 := by
    rw [pow_succ, h3, smul_mul_assoc, ← pow_two]
  rw [exp_of_quartic h0 h4, h3, smul_smul, rod, pow_two (hat3 w)]
  have : (vnorm w - Real.sin (vnorm w)) / vnorm w ^ 3 * -(vnorm w ^ 2)
      = Real.sin (vnorm w) / vnorm w - 1 := by field_simp; ring
  rw [this]
  module

end Mrob
