import Verif.Lemmas.DampedRate

/-!
# Damped steps along a filter
-/

open Matrix Filter Topology Asymptotics

namespace Mrob

variable {C : Type} [Fintype C] {T : Type} {F : Filter T}

/-- Vectors that are small in the largest entry are small in length. -/
theorem len_littleO {d e : T → C → ℝ} (h : d =o[F] fun t => ‖e t‖) {κ : ℝ} (hκ : 0 < κ) : ∀ᶠ t in F, len (d t) ≤ κ * len (e t) := by
  obtain ⟨N, hN⟩ : ∃ N, N = Real.sqrt (Fintype.card C) := ⟨_, rfl⟩
  have hN0 : 0 ≤ N := by rw [hN]; exact Real.sqrt_nonneg _
  filter_upwards [h.def (show 0 < κ / (N + 1) by positivity)] with t ht
  rw [norm_norm] at ht
  refine (len_le_norm _).trans ?_
  rw [← hN]
  have h1 : N * ‖d t‖ ≤ N * (κ / (N + 1) * ‖e t‖) := mul_le_mul_of_nonneg_left ht hN0
  have h2 : N * (κ / (N + 1)) ≤ κ := by
    rw [← mul_div_assoc, div_le_iff₀ (by positivity)]; nlinarith
  have h3 := norm_le_len (e t)
  have h4 : N * (κ / (N + 1)) * ‖e t‖ ≤ κ * len (e t) := mul_le_mul h2 h3 (norm_nonneg _) hκ.le
  linarith

theorem len_bigO {d e : T → C → ℝ} (h : d =O[F] fun t => ‖e t‖) : ∃ K > 0, ∀ᶠ t in F, len (d t) ≤ K * len (e t) := by
  obtain ⟨K, hK, hb⟩ := h.exists_pos
  obtain ⟨N, hN⟩ : ∃ N, N = Real.sqrt (Fintype.card C) := ⟨_, rfl⟩
  have hN0 : 0 ≤ N := by rw [hN]; exact Real.sqrt_nonneg _
  refine ⟨(N + 1) * K, by positivity, ?_⟩
  filter_upwards [hb.bound] with t ht
  rw [norm_norm] at ht
  refine (len_le_norm _).trans ?_
  rw [← hN]
  have h1 : N * ‖d t‖ ≤ N * (K * ‖e t‖) := mul_le_mul_of_nonneg_left ht hN0
  have h3 := norm_le_len (e t)
  have h4 : (N + 1) * K * ‖e t‖ ≤ (N + 1) * K * len (e t) := mul_le_mul_of_nonneg_left h3 (by positivity)
  have h5 : 0 ≤ K * ‖e t‖ := by positivity
  nlinarith

/-- Damped steps. -/
theorem damped_filter {H : T → Matrix C C ℝ} {A : Matrix C C ℝ} {b e : T → C → ℝ}
    (hH : ∀ c d, Tendsto (fun t => H t c d) F (𝓝 (A c d))) (hsym : Aᵀ = A) {μ : ℝ} (hμ : 0 < μ)
    (hlow : ∀ x, μ * (x ⬝ᵥ x) ≤ x ⬝ᵥ (A *ᵥ x)) (hb : (fun t => b t - H t *ᵥ e t) =o[F] fun t => ‖e t‖)
    {Λ : ℝ} (hΛ : 0 < Λ) : ∃ B σ, 0 ≤ B ∧ 0 < σ ∧ (∀ x, len (A *ᵥ x) ≤ B * len x) ∧ ∀ η, 0 < η → η ≤ μ / 4 →
      ∀ᶠ t in F, ∀ l, 0 < l → l ≤ Λ → ∀ z, H t *ᵥ z + l • z = b t →
        len (e t - z) ≤ (l / (l + μ) + 4 * η / μ) * len (e t) ∧ len (e t - z) ≤ len (e t) ∧
        (σ - 8 * η) * len (e t) ^ 2 ≤ e t ⬝ᵥ (A *ᵥ e t) - (e t - z) ⬝ᵥ (A *ᵥ (e t - z)) := by
  classical
  obtain ⟨m, hm⟩ : ∃ m, ∀ i j, |A i j| ≤ m := by
    refine ⟨∑ i, ∑ j, |A i j|, fun i j => ?_⟩
    refine le_trans ?_ (Finset.single_le_sum (f := fun i => ∑ j, |A i j|) (fun i _ => Finset.sum_nonneg fun j _ => abs_nonneg _)
      (Finset.mem_univ i))
    exact Finset.single_le_sum (f := fun j => |A i j|) (fun j _ => abs_nonneg _) (Finset.mem_univ j)
  obtain ⟨B, hB0, hB⟩ : ∃ B, 0 ≤ B ∧ ∀ x, len (A *ᵥ x) ≤ B * len x := by
    refine ⟨Real.sqrt (Fintype.card C) * (Fintype.card C * |m|), by positivity, fun x => ?_⟩
    exact len_mulVec (fun i j => (hm i j).trans (le_abs_self m)) x
  refine ⟨B, μ * (μ / 2 / (B + Λ)) ^ 2, hB0, by positivity, hB, fun η hη hη1 => ?_⟩
  obtain ⟨τ, hτ0, hτ⟩ : ∃ τ, 0 < τ ∧ Real.sqrt (Fintype.card C) * (Fintype.card C * τ) ≤ η := by
    have hs : 0 ≤ Real.sqrt (Fintype.card C) := Real.sqrt_nonneg _
    have hn : (0 : ℝ) ≤ Fintype.card C := by positivity
    refine ⟨η / (Real.sqrt (Fintype.card C) * Fintype.card C + 1), by positivity, ?_⟩
    rw [← mul_assoc, ← mul_div_assoc, div_le_iff₀ (by positivity)]
    nlinarith [mul_nonneg hs hn]
  have k1 : ∀ᶠ t in F, ∀ i j, |(A - H t) i j| ≤ τ := by
    refine eventually_all.mpr fun i => eventually_all.mpr fun j => ?_
    filter_upwards [Metric.tendsto_nhds.mp (hH i j) τ hτ0] with t ht
    rw [Real.dist_eq, abs_sub_comm] at ht
    exact ht.le
  filter_upwards [k1, len_littleO hb hη] with t g1 g2 l hl hlΛ z hz
  obtain ⟨k, hk⟩ : ∃ k, k = (A - H t) *ᵥ (e t - z) - (b t - H t *ᵥ e t) := ⟨_, rfl⟩
  have hk1 : A *ᵥ (e t - z) = l • z + k := by
    rw [hk, sub_mulVec, ← hz, mulVec_sub (H t)]; abel
  have hk2 : len k ≤ η * len (e t) + η * len (e t - z) := by
    rw [hk]
    refine (len_sub _ _).trans ?_
    rw [add_comm]
    exact add_le_add g2 ((len_mulVec g1 _).trans (mul_le_mul_of_nonneg_right hτ (len_nonneg _)))
  exact damped_algebra hsym hμ hlow hB hB0 hl hlΛ hη.le hη1 hk1 hk2

/-- A small change of the new error does not spoil the decrease. -/
theorem damped_close {A : Matrix C C ℝ} (hA : Aᵀ = A) {B σ η κ : ℝ} (hB : 0 ≤ B) (hup : ∀ x, len (A *ᵥ x) ≤ B * len x)
    {e y e' : C → ℝ} (hy : len y ≤ len e) (hκ : 0 ≤ κ) (hκ1 : κ ≤ 1) (hd : len (e' - y) ≤ κ * len e)
    (hdec : (σ - 8 * η) * len e ^ 2 ≤ e ⬝ᵥ (A *ᵥ e) - y ⬝ᵥ (A *ᵥ y)) {f f' : ℝ} (hη : 0 ≤ η)
    (hf : |2 * f - e ⬝ᵥ (A *ᵥ e)| ≤ η * len e ^ 2) (hf' : |2 * f' - e' ⬝ᵥ (A *ᵥ e')| ≤ η * len e' ^ 2)
    (hσ : 13 * η + 3 * B * κ ≤ σ) : f' ≤ f := by
  obtain ⟨d, hdd⟩ : ∃ d, d = e' - y := ⟨_, rfl⟩
  have he' : e' = y + d := by rw [hdd]; abel
  rw [← hdd] at hd
  have hE := len_nonneg e
  have hY := len_nonneg y
  have hD := len_nonneg d
  have h1 : e' ⬝ᵥ (A *ᵥ e') = y ⬝ᵥ (A *ᵥ y) + 2 * (d ⬝ᵥ (A *ᵥ y)) + d ⬝ᵥ (A *ᵥ d) := by
    have hs : y ⬝ᵥ (A *ᵥ d) = d ⬝ᵥ (A *ᵥ y) := by
      rw [dotProduct_mulVec, ← mulVec_transpose, hA, dotProduct_comm]
    rw [he', mulVec_add, add_dotProduct, dotProduct_add, dotProduct_add, hs]; ring
  have h2 : d ⬝ᵥ (A *ᵥ y) ≤ B * κ * len e ^ 2 := by
    refine (dot_le _ _).trans ((mul_le_mul hd (hup y) (len_nonneg _) (by positivity)).trans ?_)
    have := mul_le_mul_of_nonneg_left hy (show 0 ≤ κ * len e * B by positivity)
    nlinarith
  have h3 : d ⬝ᵥ (A *ᵥ d) ≤ B * κ * len e ^ 2 := by
    refine (dot_le _ _).trans ((mul_le_mul hd (hup d) (len_nonneg _) (by positivity)).trans ?_)
    have h4 : len d ≤ len e := hd.trans (mul_le_of_le_one_left hE hκ1)
    have := mul_le_mul_of_nonneg_left h4 (show 0 ≤ κ * len e * B by positivity)
    nlinarith
  have h4 : len e' ≤ 2 * len e := by
    rw [he']
    refine (len_add _ _).trans ?_
    have := hd.trans (mul_le_of_le_one_left hE hκ1)
    linarith
  have h5 : len e' ^ 2 ≤ 4 * len e ^ 2 := by
    have := pow_le_pow_left₀ (len_nonneg e') h4 2
    linarith [mul_pow 2 (len e) 2]
  have c1 := abs_le.mp hf
  have c2 := abs_le.mp hf'
  have c3 := mul_le_mul_of_nonneg_left h5 hη
  have c4 : 0 ≤ (σ - (13 * η + 3 * B * κ)) * len e ^ 2 := mul_nonneg (by linarith) (by positivity)
  nlinarith

end Mrob
