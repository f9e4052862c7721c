import Verif.Lemmas.LocalStep
import Mathlib.Analysis.InnerProductSpace.PiL2
import Mathlib.Analysis.Matrix.Order

/-!
# Damped Gauss-Newton steps near a point without residuals

The matrix at the point is symmetric with lowest eigenvalue at least `μ`.  The error contracts by almost `l / (l + μ)` in the
Euclidean norm and the cost does not increase.
-/

open Matrix Filter Topology Asymptotics

namespace Mrob

variable {C : Type} [Fintype C]

/-- Euclidean length of a vector. -/
noncomputable def len (x : C → ℝ) : ℝ := ‖WithLp.toLp 2 x‖

theorem len_nonneg (x : C → ℝ) : 0 ≤ len x := norm_nonneg _

theorem len_sq (x : C → ℝ) : len x ^ 2 = x ⬝ᵥ x := by
  rw [len, EuclideanSpace.norm_sq_eq, dotProduct]
  refine Finset.sum_congr rfl fun i _ => ?_
  rw [Real.norm_eq_abs, sq_abs, sq]

theorem len_add (x y : C → ℝ) : len (x + y) ≤ len x + len y := by
  rw [len, WithLp.toLp_add]; exact norm_add_le _ _

theorem len_sub (x y : C → ℝ) : len (x - y) ≤ len x + len y := by
  rw [len, WithLp.toLp_sub]; exact norm_sub_le _ _

theorem len_neg (x : C → ℝ) : len (-x) = len x := by
  rw [len, WithLp.toLp_neg, norm_neg]; rfl

theorem len_smul (a : ℝ) (x : C → ℝ) : len (a • x) = |a| * len x := by
  rw [len, WithLp.toLp_smul, norm_smul]; rfl

theorem dot_le (x y : C → ℝ) : x ⬝ᵥ y ≤ len x * len y := by
  have h1 : (x ⬝ᵥ y) ^ 2 ≤ (len x * len y) ^ 2 := by
    rw [mul_pow, len_sq, len_sq]
    have := Finset.sum_mul_sq_le_sq_mul_sq Finset.univ x y
    simp only [dotProduct, ← sq]
    exact this
  exact le_trans (le_abs_self _) (abs_le_of_sq_le_sq h1 (mul_nonneg (len_nonneg _) (len_nonneg _)))

theorem norm_le_len (x : C → ℝ) : ‖x‖ ≤ len x := by
  refine (pi_norm_le_iff_of_nonneg (len_nonneg _)).mpr fun i => ?_
  refine abs_le_of_sq_le_sq ?_ (len_nonneg _)
  rw [len_sq, sq]
  exact Finset.single_le_sum (f := fun i => x i * x i) (fun i _ => mul_self_nonneg _) (Finset.mem_univ i)

theorem len_le_norm (x : C → ℝ) : len x ≤ Real.sqrt (Fintype.card C) * ‖x‖ := by
  have h : len x ^ 2 ≤ (Real.sqrt (Fintype.card C) * ‖x‖) ^ 2 := by
    rw [len_sq, mul_pow, Real.sq_sqrt (by positivity), dotProduct, ← Finset.card_univ, ← nsmul_eq_mul]
    refine Finset.sum_le_card_nsmul _ _ _ fun i _ => ?_
    rw [← sq, ← sq_abs]
    exact pow_le_pow_left₀ (abs_nonneg _) (norm_le_pi_norm x i) 2
  exact abs_le_of_sq_le_sq' h (by positivity) |>.2

/-- Matrices with small entries. -/
theorem len_mulVec {M : Matrix C C ℝ} {m : ℝ} (hM : ∀ i j, |M i j| ≤ m) (x : C → ℝ) :
    len (M *ᵥ x) ≤ Real.sqrt (Fintype.card C) * (Fintype.card C * m) * len x := by
  refine (len_le_norm _).trans ?_
  rw [mul_assoc]
  refine mul_le_mul_of_nonneg_left ?_ (Real.sqrt_nonneg _)
  by_cases hC : Nonempty C
  swap
  · rw [not_nonempty_iff] at hC
    rw [Subsingleton.elim (M *ᵥ x) 0, norm_zero]
    simp
  obtain ⟨i₀⟩ := hC
  have hm : 0 ≤ m := (abs_nonneg _).trans (hM i₀ i₀)
  refine (pi_norm_le_iff_of_nonneg (by have := len_nonneg x; positivity)).mpr fun i => ?_
  rw [mulVec, dotProduct]
  refine (Finset.abs_sum_le_sum_abs _ _).trans ?_
  rw [mul_assoc, ← nsmul_eq_mul, ← Finset.card_univ]
  refine Finset.sum_le_card_nsmul _ _ _ fun j _ => ?_
  rw [abs_mul]
  exact mul_le_mul (hM i j) ((norm_le_pi_norm x j).trans (norm_le_len x)) (abs_nonneg _) hm

/-- The algebra of one step: `y` is the new error, `d` the increment, `k` collects all errors of the model. -/
theorem damped_algebra {A : Matrix C C ℝ} (hA : Aᵀ = A) {μ B Λ l η : ℝ} (hμ : 0 < μ)
    (hlow : ∀ x, μ * (x ⬝ᵥ x) ≤ x ⬝ᵥ (A *ᵥ x)) (hup : ∀ x, len (A *ᵥ x) ≤ B * len x) (hB : 0 ≤ B)
    (hl : 0 < l) (hlΛ : l ≤ Λ) (hη : 0 ≤ η) (hη2 : η ≤ μ / 4) {e z k : C → ℝ}
    (hz : A *ᵥ (e - z) = l • z + k) (hk : len k ≤ η * len e + η * len (e - z)) :
    len (e - z) ≤ (l / (l + μ) + 4 * η / μ) * len e ∧ len (e - z) ≤ len e ∧
      (μ * (μ / 2 / (B + Λ)) ^ 2 - 8 * η) * len e ^ 2 ≤ e ⬝ᵥ (A *ᵥ e) - (e - z) ⬝ᵥ (A *ᵥ (e - z)) := by
  obtain ⟨y, hy⟩ : ∃ y, y = e - z := ⟨_, rfl⟩
  rw [← hy] at hz hk ⊢
  have hzy : z = e - y := by rw [hy]; abel
  have hE := len_nonneg e
  have hY := len_nonneg y
  have hZ := len_nonneg z
  -- length of the new error
  have h1 : (l + μ) * len y ^ 2 ≤ l * (len e * len y) + len k * len y := by
    have := congrArg (y ⬝ᵥ ·) hz
    simp only [dotProduct_add, dotProduct_smul, smul_eq_mul] at this
    have h2 := hlow y
    rw [this, ← len_sq, hzy, dotProduct_sub, ← len_sq] at h2
    have h3 := dot_le y e
    have h4 := dot_le y k
    nlinarith
  have h2 : (l + μ - η) * len y ≤ (l + η) * len e := by
    rcases hY.eq_or_lt with h0 | h0
    · rw [← h0, mul_zero]; positivity
    · have : (l + μ) * len y ≤ l * len e + len k := by
        refine le_of_mul_le_mul_right ?_ h0
        nlinarith
      nlinarith
  have hpos : 0 < l + μ - η := by linarith
  have h3 : len y ≤ len e := by
    refine le_of_mul_le_mul_left (h2.trans ?_) hpos
    exact mul_le_mul_of_nonneg_right (by linarith) hE
  have h4 : len y ≤ (l / (l + μ) + 4 * η / μ) * len e := by
    refine le_of_mul_le_mul_left (h2.trans ?_) hpos
    rw [← mul_assoc]
    refine mul_le_mul_of_nonneg_right ?_ hE
    have e1 : (l + μ - η) * (l / (l + μ) + 4 * η / μ) = l + η + (2 * η * (2 * (l + μ - η) / μ - 1) + η * (1 - l / (l + μ))) := by
      field_simp
      ring
    rw [e1]
    have e2 : 0 ≤ 1 - l / (l + μ) := by
      rw [sub_nonneg, div_le_one (by linarith)]; linarith
    have e3 : 0 ≤ 2 * (l + μ - η) / μ - 1 := by
      rw [sub_nonneg, le_div_iff₀ hμ]; linarith
    have : 0 ≤ 2 * η * (2 * (l + μ - η) / μ - 1) + η * (1 - l / (l + μ)) := by positivity
    linarith
  refine ⟨h4, h3, ?_⟩
  -- the increment is long enough
  have hk2 : len k ≤ 2 * η * len e := by nlinarith
  have hBΛ : 0 < B + Λ := by linarith
  have h5 : μ / 2 * len e ≤ (B + Λ) * len z := by
    have e1 : A *ᵥ e = A *ᵥ z + l • z + k := by
      rw [add_assoc, ← hz, ← mulVec_add, hzy]; congr 1; abel
    have e2 : μ * len e ≤ len (A *ᵥ e) := by
      rcases hE.eq_or_lt with h0 | h0
      · rw [← h0, mul_zero]; exact len_nonneg _
      · refine le_of_mul_le_mul_left ?_ h0
        have := hlow e
        rw [← len_sq] at this
        have h6 := dot_le e (A *ᵥ e)
        nlinarith
    rw [e1] at e2
    have e3 := (len_add (A *ᵥ z + l • z) k)
    have e4 := (len_add (A *ᵥ z) (l • z))
    rw [len_smul, abs_of_pos hl] at e4
    have e5 := hup z
    have e6 := mul_le_mul_of_nonneg_right hlΛ hZ
    nlinarith
  have h6 : μ / 2 / (B + Λ) * len e ≤ len z := by
    rw [div_mul_eq_mul_div, div_le_iff₀ hBΛ]; linarith
  have h7 : len z ≤ 2 * len e := by
    rw [hzy]
    exact (len_sub e y).trans (by linarith)
  -- decrease of the quadratic form
  have e1 : e ⬝ᵥ (A *ᵥ e) - y ⬝ᵥ (A *ᵥ y) = 2 * l * len z ^ 2 + 2 * (z ⬝ᵥ k) + z ⬝ᵥ (A *ᵥ z) := by
    have hs : y ⬝ᵥ (A *ᵥ z) = z ⬝ᵥ (A *ᵥ y) := by
      rw [dotProduct_mulVec, ← mulVec_transpose, hA, dotProduct_comm]
    have he : e = y + z := by rw [hzy]; abel
    have h8 := congrArg (z ⬝ᵥ ·) hz
    simp only [dotProduct_add, dotProduct_smul, smul_eq_mul] at h8
    rw [len_sq, he, mulVec_add, add_dotProduct, dotProduct_add, dotProduct_add, hs]
    linarith
  rw [e1]
  have h8 := hlow z
  rw [← len_sq] at h8
  have h9 : -(len z * len k) ≤ z ⬝ᵥ k := by
    have := dot_le z (-k)
    rw [dotProduct_neg, len_neg] at this
    linarith
  have h10 : len z * len k ≤ 4 * η * len e ^ 2 := by
    calc len z * len k ≤ 2 * len e * (2 * η * len e) := mul_le_mul h7 hk2 (len_nonneg _) (by positivity)
      _ = _ := by ring
  have h11 : μ * (μ / 2 / (B + Λ)) ^ 2 * len e ^ 2 ≤ μ * len z ^ 2 := by
    rw [mul_assoc, ← mul_pow]
    exact mul_le_mul_of_nonneg_left (pow_le_pow_left₀ (by positivity) h6 2) hμ.le
  have h12 : 0 ≤ 2 * l * len z ^ 2 := by positivity
  linarith

/-- Damped steps near a point without residuals. -/
theorem damped_rate {H : (C → ℝ) → Matrix C C ℝ} {b : (C → ℝ) → C → ℝ} {f : (C → ℝ) → ℝ}
    (hH : ∀ c d, ContinuousAt (fun e => H e c d) 0) (hsym : (H 0)ᵀ = H 0) {μ : ℝ} (hμ : 0 < μ)
    (hlow : ∀ x, μ * (x ⬝ᵥ x) ≤ x ⬝ᵥ (H 0 *ᵥ x))
    (hb : ∀ c, (fun e => b e c - (H e *ᵥ e) c) =o[𝓝 0] fun e : C → ℝ => e)
    (hf : (fun e => 2 * f e - e ⬝ᵥ (H 0 *ᵥ e)) =o[𝓝 0] fun e : C → ℝ => ‖e‖ ^ 2)
    {Λ c : ℝ} (hΛ : 0 < Λ) (hc : 0 < c) : ∃ ε > 0, ∀ e : C → ℝ, len e < ε → ∀ l, 0 < l → l ≤ Λ → ∀ z,
      H e *ᵥ z + l • z = b e → len (e - z) ≤ (l / (l + μ) + c) * len e ∧ f (e - z) ≤ f e := by
  classical
  obtain ⟨N, hN⟩ : ∃ N : ℝ, N = Fintype.card C := ⟨_, rfl⟩
  have hN0 : 0 ≤ N := by rw [hN]; positivity
  obtain ⟨m, hm⟩ : ∃ m, ∀ i j, |H 0 i j| ≤ m := by
    refine ⟨∑ i, ∑ j, |H 0 i j|, fun i j => ?_⟩
    refine le_trans ?_ (Finset.single_le_sum (f := fun i => ∑ j, |H 0 i j|) (fun i _ => Finset.sum_nonneg fun j _ => abs_nonneg _)
      (Finset.mem_univ i))
    exact Finset.single_le_sum (f := fun j => |H 0 i j|) (fun j _ => abs_nonneg _) (Finset.mem_univ j)
  obtain ⟨B, hB0, hB⟩ : ∃ B, 0 ≤ B ∧ ∀ x, len (H 0 *ᵥ x) ≤ B * len x := by
    refine ⟨Real.sqrt (Fintype.card C) * (Fintype.card C * |m|), by positivity, fun x => ?_⟩
    exact len_mulVec (fun i j => (hm i j).trans (le_abs_self m)) x
  obtain ⟨σ, hσ⟩ : ∃ σ, σ = μ * (μ / 2 / (B + Λ)) ^ 2 := ⟨_, rfl⟩
  have hσ0 : 0 < σ := by rw [hσ]; positivity
  obtain ⟨η, hη0, hη1, hη2, hη3⟩ : ∃ η, 0 < η ∧ η ≤ μ / 4 ∧ 4 * η / μ ≤ c ∧ 10 * η ≤ σ := by
    refine ⟨min (μ / 4) (min (c * μ / 4) (σ / 10)), by positivity, min_le_left _ _, ?_, ?_⟩
    · rw [div_le_iff₀ hμ]
      have : min (μ / 4) (min (c * μ / 4) (σ / 10)) ≤ c * μ / 4 := (min_le_right _ _).trans (min_le_left _ _)
      linarith
    · have : min (μ / 4) (min (c * μ / 4) (σ / 10)) ≤ σ / 10 := (min_le_right _ _).trans (min_le_right _ _)
      linarith
  obtain ⟨τ, hτ0, hτ⟩ : ∃ τ, 0 < τ ∧ Real.sqrt (Fintype.card C) * (Fintype.card C * τ) ≤ η ∧ Real.sqrt (Fintype.card C) * τ ≤ η := by
    have hs : 0 ≤ Real.sqrt (Fintype.card C) := Real.sqrt_nonneg _
    have hn : (0 : ℝ) ≤ Fintype.card C := by positivity
    refine ⟨η / (Real.sqrt (Fintype.card C) * Fintype.card C + Real.sqrt (Fintype.card C) + 1), by positivity, ?_, ?_⟩
    · rw [← mul_assoc, ← mul_div_assoc, div_le_iff₀ (by positivity)]
      nlinarith [mul_nonneg hs hn]
    · rw [← mul_div_assoc, div_le_iff₀ (by positivity)]
      nlinarith [mul_nonneg hs hn]
  have k1 : ∀ᶠ e in 𝓝 (0 : C → ℝ), ∀ i j, |(H 0 - H e) i j| ≤ τ := by
    refine eventually_all.mpr fun i => eventually_all.mpr fun j => ?_
    filter_upwards [Metric.continuousAt_iff'.mp (hH i j) τ hτ0] with e he
    rw [Real.dist_eq, abs_sub_comm] at he
    exact he.le
  have k2 : ∀ᶠ e in 𝓝 (0 : C → ℝ), ∀ i, ‖b e i - (H e *ᵥ e) i‖ ≤ τ * ‖e‖ :=
    eventually_all.mpr fun i => (hb i).def hτ0
  have k3 : ∀ᶠ e in 𝓝 (0 : C → ℝ), ‖2 * f e - e ⬝ᵥ (H 0 *ᵥ e)‖ ≤ η * ‖‖e‖ ^ 2‖ := hf.def hη0
  obtain ⟨ε, hε, hball⟩ := Metric.eventually_nhds_iff.mp (k1.and (k2.and k3))
  refine ⟨ε, hε, fun e he l hl hlΛ z hz => ?_⟩
  have hne : ∀ e : C → ℝ, len e < ε → dist e 0 < ε := fun e he => by
    rw [dist_zero_right]; exact (norm_le_len e).trans_lt he
  obtain ⟨g1, g2, -⟩ := hball (hne e he)
  have hcost : ∀ e : C → ℝ, len e < ε → |2 * f e - e ⬝ᵥ (H 0 *ᵥ e)| ≤ η * len e ^ 2 := by
    intro e he
    refine (hball (hne e he)).2.2.trans ?_
    refine mul_le_mul_of_nonneg_left ?_ hη0.le
    rw [Real.norm_eq_abs, abs_of_nonneg (by positivity)]
    exact pow_le_pow_left₀ (norm_nonneg _) (norm_le_len e) 2
  obtain ⟨k, hk⟩ : ∃ k, k = (H 0 - H e) *ᵥ (e - z) - (b e - H e *ᵥ e) := ⟨_, rfl⟩
  have hk1 : H 0 *ᵥ (e - z) = l • z + k := by
    rw [hk, sub_mulVec, ← hz, mulVec_sub (H e)]; abel
  have hk2 : len k ≤ η * len e + η * len (e - z) := by
    rw [hk]
    refine (len_sub _ _).trans ?_
    rw [add_comm]
    refine add_le_add ?_ ?_
    · refine (len_le_norm _).trans ?_
      refine le_trans ?_ (mul_le_mul_of_nonneg_right hτ.2 (len_nonneg e))
      rw [mul_assoc]
      refine mul_le_mul_of_nonneg_left ?_ (Real.sqrt_nonneg _)
      have : ‖b e - H e *ᵥ e‖ ≤ τ * ‖e‖ := (pi_norm_le_iff_of_nonneg (by positivity)).mpr fun i => g2 i
      exact this.trans (mul_le_mul_of_nonneg_left (norm_le_len e) hτ0.le)
    · exact (len_mulVec g1 _).trans (mul_le_mul_of_nonneg_right hτ.1 (len_nonneg _))
  obtain ⟨r1, r2, r3⟩ := damped_algebra hsym hμ hlow hB hB0 hl hlΛ hη0.le hη1 hk1 hk2
  refine ⟨r1.trans ?_, ?_⟩
  · exact mul_le_mul_of_nonneg_right (by linarith) (len_nonneg e)
  · have c1 := abs_le.mp (hcost e he)
    have c2 := abs_le.mp (hcost (e - z) (r2.trans_lt he))
    rw [← hσ] at r3
    have c3 : len (e - z) ^ 2 ≤ len e ^ 2 := pow_le_pow_left₀ (len_nonneg _) r2 2
    have c4 : 0 ≤ (σ - 10 * η) * len e ^ 2 := by
      have := len_nonneg e
      refine mul_nonneg (by linarith) (by positivity)
    nlinarith

/-- Positive definite matrices have a positive lowest eigenvalue. -/
theorem posDef_low {A : Matrix C C ℝ} (hA : A.PosDef) : ∃ μ > 0, ∀ x, μ * (x ⬝ᵥ x) ≤ x ⬝ᵥ (A *ᵥ x) := by
  have hpos : ∀ x : C → ℝ, x ≠ 0 → 0 < x ⬝ᵥ (A *ᵥ x) := fun x hx => by simpa using hA.dotProduct_mulVec_pos hx
  have hcont : Continuous fun x : C → ℝ => x ⬝ᵥ (A *ᵥ x) := by
    simp only [dotProduct, mulVec]
    fun_prop
  rcases (Metric.sphere (0 : C → ℝ) 1).eq_empty_or_nonempty with h0 | h0
  · refine ⟨1, one_pos, fun x => ?_⟩
    have : x = 0 := by
      by_contra hx
      have : (‖x‖)⁻¹ • x ∈ Metric.sphere (0 : C → ℝ) 1 := by
        rw [mem_sphere_zero_iff_norm, norm_smul, norm_inv, norm_norm, inv_mul_cancel₀ (norm_ne_zero_iff.mpr hx)]
      rw [h0] at this
      exact this
    simp [this]
  · obtain ⟨u, hu, hmin⟩ := (isCompact_sphere (0 : C → ℝ) 1).exists_isMinOn h0 hcont.continuousOn
    have hu0 : u ≠ 0 := by rintro rfl; simp at hu
    have hm := hpos u hu0
    refine ⟨u ⬝ᵥ (A *ᵥ u) / (Fintype.card C + 1), by positivity, fun x => ?_⟩
    by_cases hx : x = 0
    · simp [hx]
    have hn : ‖x‖ ≠ 0 := norm_ne_zero_iff.mpr hx
    have h1 : u ⬝ᵥ (A *ᵥ u) ≤ ((‖x‖)⁻¹ • x) ⬝ᵥ (A *ᵥ ((‖x‖)⁻¹ • x)) := by
      refine hmin ?_
      rw [mem_sphere_zero_iff_norm, norm_smul, norm_inv, norm_norm, inv_mul_cancel₀ hn]
    rw [mulVec_smul, smul_dotProduct, dotProduct_smul, smul_eq_mul, smul_eq_mul, ← mul_assoc, ← mul_inv, ← sq, inv_mul_eq_div,
      le_div_iff₀ (by positivity)] at h1
    refine le_trans ?_ h1
    rw [div_mul_eq_mul_div, mul_div_assoc]
    refine mul_le_mul_of_nonneg_left ?_ hm.le
    rw [div_le_iff₀ (by positivity), ← len_sq]
    have h2 := pow_le_pow_left₀ (len_nonneg x) (len_le_norm x) 2
    rw [mul_pow, Real.sq_sqrt (by positivity)] at h2
    nlinarith [sq_nonneg ‖x‖]

end Mrob
