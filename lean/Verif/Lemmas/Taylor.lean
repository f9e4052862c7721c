import Mathlib.Analysis.SpecialFunctions.Trigonometric.Bounds
import Mathlib.Analysis.SpecialFunctions.Trigonometric.Deriv
import Mathlib.Analysis.Calculus.Deriv.MeanValue

/-! Taylor inequalities for `sin` and `cos` on `[0,∞)`. -/

namespace Mrob

theorem nonneg_of_deriv_nonneg {f f' : ℝ → ℝ} (h0 : f 0 = 0)
    (hd : ∀ x, HasDerivAt f (f' x) x) (hn : ∀ x, 0 ≤ x → 0 ≤ f' x) {x : ℝ} (hx : 0 ≤ x) :
    0 ≤ f x := by
  have hm : MonotoneOn f (Set.Ici 0) := by
    apply monotoneOn_of_deriv_nonneg (convex_Ici 0)
    · exact fun y _ => (hd y).continuousAt.continuousWithinAt
    · exact fun y _ => (hd y).differentiableAt.differentiableWithinAt
    · intro y hy
      rw [(hd y).deriv]
      rw [interior_Ici] at hy
      exact hn y (le_of_lt hy)
  have := hm (Set.mem_Ici.mpr le_rfl) (Set.mem_Ici.mpr hx) hx
  rwa [h0] at this

theorem cos_le_taylor4 {x : ℝ} (hx : 0 ≤ x) : Real.cos x ≤ 1 - x ^ 2 / 2 + x ^ 4 / 24 := by
  have := nonneg_of_deriv_nonneg (f := fun x => 1 - x ^ 2 / 2 + x ^ 4 / 24 - Real.cos x)
    (f' := fun x => Real.sin x - (x - x ^ 3 / 6)) (by simp)
    (fun y => by
      have h := ((((hasDerivAt_const y (1:ℝ)).sub ((hasDerivAt_pow 2 y).div_const 2)).add
        ((hasDerivAt_pow 4 y).div_const 24)).sub (Real.hasDerivAt_cos y))
      exact h.congr_deriv (by norm_num; ring))
    (fun y hy => by have := Real.sin_ge_sub_cube hy; linarith) hx
  simpa using this

theorem sin_le_taylor5 {x : ℝ} (hx : 0 ≤ x) :
    Real.sin x ≤ x - x ^ 3 / 6 + x ^ 5 / 120 := by
  have := nonneg_of_deriv_nonneg (f := fun x => x - x ^ 3 / 6 + x ^ 5 / 120 - Real.sin x)
    (f' := fun x => 1 - x ^ 2 / 2 + x ^ 4 / 24 - Real.cos x) (by simp)
    (fun y => by
      have h := ((((hasDerivAt_id y).sub ((hasDerivAt_pow 3 y).div_const 6)).add
        ((hasDerivAt_pow 5 y).div_const 120)).sub (Real.hasDerivAt_sin y))
      exact h.congr_deriv (by norm_num; ring))
    (fun y hy => by have := cos_le_taylor4 hy; linarith) hx
  simpa using this

theorem cos_ge_taylor6 {x : ℝ} (hx : 0 ≤ x) :
    1 - x ^ 2 / 2 + x ^ 4 / 24 - x ^ 6 / 720 ≤ Real.cos x := by
  have := nonneg_of_deriv_nonneg
    (f := fun x => Real.cos x - (1 - x ^ 2 / 2 + x ^ 4 / 24 - x ^ 6 / 720))
    (f' := fun x => (x - x ^ 3 / 6 + x ^ 5 / 120) - Real.sin x) (by simp)
    (fun y => by
      have h := (Real.hasDerivAt_cos y).sub ((((hasDerivAt_const y (1:ℝ)).sub
        ((hasDerivAt_pow 2 y).div_const 2)).add
        ((hasDerivAt_pow 4 y).div_const 24)).sub ((hasDerivAt_pow 6 y).div_const 720))
      exact h.congr_deriv (by norm_num; ring))
    (fun y hy => by have := sin_le_taylor5 hy; linarith) hx
  simpa using this

theorem sin_ge_taylor7 {x : ℝ} (hx : 0 ≤ x) :
    x - x ^ 3 / 6 + x ^ 5 / 120 - x ^ 7 / 5040 ≤ Real.sin x := by
  have := nonneg_of_deriv_nonneg
    (f := fun x => Real.sin x - (x - x ^ 3 / 6 + x ^ 5 / 120 - x ^ 7 / 5040))
    (f' := fun x => Real.cos x - (1 - x ^ 2 / 2 + x ^ 4 / 24 - x ^ 6 / 720)) (by simp)
    (fun y => by
      have h := (Real.hasDerivAt_sin y).sub ((((hasDerivAt_id y).sub
        ((hasDerivAt_pow 3 y).div_const 6)).add
        ((hasDerivAt_pow 5 y).div_const 120)).sub ((hasDerivAt_pow 7 y).div_const 5040))
      exact h.congr_deriv (by norm_num; ring))
    (fun y hy => by have := cos_ge_taylor6 hy; linarith) hx
  simpa using this

/-- `sin o / o` against its Taylor polynomial. -/
theorem sinc_taylor {o : ℝ} (ho : 0 < o) :
    |Real.sin o / o - (1 - o ^ 2 / 6)| ≤ o ^ 4 / 120 := by
  have h1 := Real.sin_ge_sub_cube ho.le
  have h2 := sin_le_taylor5 ho.le
  have e : Real.sin o / o - (1 - o ^ 2 / 6) = (Real.sin o - (o - o ^ 3 / 6)) / o := by
    field_simp
  rw [e, abs_of_nonneg (div_nonneg (by linarith) ho.le), div_le_iff₀ ho]
  nlinarith

/-- `(1-cos o)/o²` against its Taylor polynomial. -/
theorem cosc_taylor {o : ℝ} (ho : 0 < o) :
    |(1 - Real.cos o) / o ^ 2 - (1 / 2 - o ^ 2 / 24)| ≤ o ^ 4 / 720 := by
  have h1 := cos_le_taylor4 ho.le
  have h2 := cos_ge_taylor6 ho.le
  have e : (1 - Real.cos o) / o ^ 2 - (1 / 2 - o ^ 2 / 24)
      = (1 - o ^ 2 / 2 + o ^ 4 / 24 - Real.cos o) / o ^ 2 := by
    field_simp
    ring
  have h0 : 0 < o ^ 2 := by positivity
  rw [e, abs_of_nonneg (div_nonneg (by linarith) h0.le), div_le_iff₀ h0]
  nlinarith

/-- `(o - sin o)/o³` against its Taylor polynomial. -/
theorem sinc3_taylor {o : ℝ} (ho : 0 < o) :
    |(o - Real.sin o) / o ^ 3 - (1 / 6 - o ^ 2 / 120)| ≤ o ^ 4 / 5040 := by
  have h1 := sin_le_taylor5 ho.le
  have h2 := sin_ge_taylor7 ho.le
  have e : (o - Real.sin o) / o ^ 3 - (1 / 6 - o ^ 2 / 120)
      = (o - o ^ 3 / 6 + o ^ 5 / 120 - Real.sin o) / o ^ 3 := by
    field_simp
    ring
  have h0 : 0 < o ^ 3 := by positivity
  rw [e, abs_of_nonneg (div_nonneg (by linarith) h0.le), div_le_iff₀ h0]
  nlinarith

end Mrob
