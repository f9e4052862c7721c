import Verif.Props.SE3

/-! Composition of exponentials of parallel twists. -/

open Matrix NormedSpace

namespace Mrob

open Spec

theorem rot_entry_le {R : Mat3} (h : IsRotation R) (i j : Fin 3) : |R i j| ≤ 1 := by
  have h1 := congrFun (congrFun h.1 i) i
  simp only [mul_apply, transpose_apply, one_apply_eq, Fin.sum_univ_three] at h1
  rw [← sq_le_one_iff_abs_le_one]
  have a := sq_nonneg (R i 0)
  have b := sq_nonneg (R i 1)
  have c := sq_nonneg (R i 2)
  rcases (by decide +revert : j = 0 ∨ j = 1 ∨ j = 2) with rfl | rfl | rfl <;> nlinarith

theorem exp_crossMat_isRotation (w : Vec3) : IsRotation (exp (crossMat w)) := by
  rw [crossMat_eq_hat3]
  by_cases hw : w = 0
  · rw [hw, hat3_zero, exp_zero]; exact isRotation_one
  have hpos : vnorm w ≠ 0 := fun h => hw (vnorm_eq_zero.mp h)
  rw [exp_hat3 hw]
  apply rod_isRotation
  rw [← vnorm_sq]
  exact rodrigues_coeff hpos

/-- The exact exponential of a twist and how far the code's exponential is from it. -/
theorem exp_twist_data (w v : Vec3) : ∃ tx : Vec3,
    exp (twist w v) = homog (exp (crossMat w)) tx 1 ∧ (∀ i, |tx i| ≤ 12 * vnorm v) ∧
    (∀ i j, |(SO3.ofVec w).R i j - exp (crossMat w) i j| ≤ 1e-26) ∧
    (∀ i, |(vMat w *ᵥ v) i - tx i| ≤ 5e-18 * vnorm v) := by
  have hv := vnorm_nonneg v
  have hR : ∀ i j, |(SO3.ofVec w).R i j - exp (crossMat w) i j| ≤ 1e-26 := by
    intro i j
    by_cases h5 : 1e-5 ≤ len w
    · rw [C02_exp_exact w (Or.inl h5), sub_self, abs_zero]; norm_num
    · exact C02_exp_small w (not_le.mp h5) i j
  by_cases hw : w = 0
  · subst hw
    refine ⟨v, ?_, fun i => ?_, hR, fun i => ?_⟩
    · rw [twist_eq_hat6, exp_hat6_zero (by rw [head3_vec6]), tail3_vec6, crossMat_eq_hat3, hat3_zero,
        exp_zero]
    · linarith [abs_le_vnorm v i]
    · rw [vMat_zero, one_mulVec, sub_self, abs_zero]; positivity
  have hpos : 0 < vnorm w := lt_of_le_of_ne (vnorm_nonneg w) fun h' => hw (vnorm_eq_zero.mp h'.symm)
  refine ⟨rod ((1 - Real.cos (vnorm w)) / vnorm w ^ 2) ((vnorm w - Real.sin (vnorm w)) / vnorm w ^ 3) w *ᵥ v,
    ?_, fun i => ?_, hR, fun i => ?_⟩
  · rw [twist_eq_hat6, exp_hat6 (by rwa [head3_vec6]), head3_vec6, tail3_vec6, crossMat_eq_hat3]
  · have h := rod_sub_mulVec_le (a := (1 - Real.cos (vnorm w)) / vnorm w ^ 2)
      (b := (vnorm w - Real.sin (vnorm w)) / vnorm w ^ 3) (a' := 0) (b' := 0) (c := 3) w v i (by
        set o := vnorm w
        have s1 := Real.abs_sin_le_one o
        have c1 : 1 - Real.cos o ≤ o := by
          by_cases h2 : 2 ≤ o
          · linarith [Real.neg_one_le_cos o]
          · have := Real.one_sub_sq_div_two_le_cos (x := o)
            nlinarith
        have s2 : |Real.sin o| ≤ o := by
          have := Real.abs_sin_le_abs (x := o); rwa [abs_of_pos hpos] at this
        have e1 : |(1 - Real.cos o) / o ^ 2 - 0| * o = (1 - Real.cos o) / o := by
          rw [sub_zero, abs_of_nonneg (div_nonneg (by linarith [Real.cos_le_one o]) (by positivity))]
          field_simp
        have e2 : |(o - Real.sin o) / o ^ 3 - 0| * o ^ 2 = (o - Real.sin o) / o := by
          rw [sub_zero, abs_of_nonneg (div_nonneg (by linarith [le_abs_self (Real.sin o)]) (by positivity))]
          field_simp
        rw [e1, e2]
        have h1 : (1 - Real.cos o) / o ≤ 1 := by rw [div_le_one hpos]; exact c1
        have h2 : (o - Real.sin o) / o ≤ 2 := by
          rw [div_le_iff₀ hpos]; linarith [neg_abs_le (Real.sin o)]
        linarith)
    rw [rod_zero, one_mulVec] at h
    have := abs_le_vnorm v i
    have h3 : |(rod ((1 - Real.cos (vnorm w)) / vnorm w ^ 2)
      ((vnorm w - Real.sin (vnorm w)) / vnorm w ^ 3) w *ᵥ v) i| ≤ |v i| + 3 * 3 * vnorm v := by
      have := abs_sub_abs_le_abs_sub ((rod ((1 - Real.cos (vnorm w)) / vnorm w ^ 2)
        ((vnorm w - Real.sin (vnorm w)) / vnorm w ^ 3) w *ᵥ v) i) (v i)
      linarith
    linarith
  · by_cases h : 1e-3 < len w
    · have e := C08_exp_exact w v (Or.inl h)
      rw [twist_eq_hat6, se3_ofVec_T, head3_vec6, tail3_vec6,
        exp_hat6 (by rwa [head3_vec6]), head3_vec6, tail3_vec6] at e
      rw [(homog_inj e).2, sub_self, abs_zero]; positivity
    · have e := (C08_exp_small w v (not_lt.mp h)).2.1 i
      rw [twist_eq_hat6, se3_ofVec_T, head3_vec6, tail3_vec6,
        exp_hat6 (by rwa [head3_vec6]), head3_vec6, tail3_vec6] at e
      exact e

theorem twist_smul (s : ℝ) (w v : Vec3) : twist (s • w) (s • v) = s • twist w v := by
  rw [twist_eq_hat6, twist_eq_hat6, hat6_eq, hat6_eq, homog_smul, head3_vec6, tail3_vec6, head3_vec6,
    tail3_vec6, hat3_smul, mul_zero]

theorem exp_twist_add (s t : ℝ) (w v : Vec3) :
    exp (twist (s • w) (s • v)) * exp (twist (t • w) (t • v)) = exp (twist ((s + t) • w) ((s + t) • v)) := by
  rw [twist_smul, twist_smul, twist_smul, add_smul, Matrix.exp_add_of_commute]
  exact ((Commute.refl _).smul_left _).smul_right _

theorem crossMat_smul (s : ℝ) (w : Vec3) : crossMat (s • w) = s • crossMat w := by
  rw [crossMat_eq_hat3, crossMat_eq_hat3, hat3_smul]

theorem exp_crossMat_add (s t : ℝ) (w : Vec3) :
    exp (crossMat (s • w)) * exp (crossMat (t • w)) = exp (crossMat ((s + t) • w)) := by
  rw [crossMat_smul, crossMat_smul, crossMat_smul, add_smul, Matrix.exp_add_of_commute]
  exact ((Commute.refl _).smul_left _).smul_right _

/-- Error of a product of near-rotations. -/
theorem near_rot_mul {Q P Y X : Mat3} (hY : IsRotation Y) (hX : IsRotation X)
    (hq : ∀ i j, |Q i j - Y i j| ≤ 1e-26) (hp : ∀ i j, |P i j - X i j| ≤ 1e-26) (i j : Fin 3) :
    |(Q * P) i j - (Y * X) i j| ≤ 7e-26 := by
  have k : ∀ l, |Q i l * P l j - Y i l * X l j| ≤ 2.3e-26 := by
    intro l
    have h1 := rot_entry_le hY i l
    have h2 := rot_entry_le hX l j
    have h3 : |P l j| ≤ 1.1 := by
      have := abs_sub_abs_le_abs_sub (P l j) (X l j)
      have := hp l j
      norm_num at *; linarith
    have e : Q i l * P l j - Y i l * X l j = (Q i l - Y i l) * P l j + Y i l * (P l j - X l j) := by ring
    rw [e]
    refine (abs_add_le _ _).trans ?_
    rw [abs_mul, abs_mul]
    have a := mul_le_mul (hq i l) h3 (abs_nonneg _) (by norm_num)
    have b := mul_le_mul h1 (hp l j) (abs_nonneg _) (by norm_num)
    norm_num at *; linarith
  simp only [mul_apply, Fin.sum_univ_three]
  have e : Q i 0 * P 0 j + Q i 1 * P 1 j + Q i 2 * P 2 j - (Y i 0 * X 0 j + Y i 1 * X 1 j + Y i 2 * X 2 j)
    = (Q i 0 * P 0 j - Y i 0 * X 0 j) + (Q i 1 * P 1 j - Y i 1 * X 1 j)
      + (Q i 2 * P 2 j - Y i 2 * X 2 j) := by ring
  rw [e]
  refine (abs_add_three _ _ _).trans ?_
  have := k 0; have := k 1; have := k 2
  norm_num at *; linarith

/-- Error of a matrix-vector product, in terms of entry bounds. -/
theorem near_mulVec {Q Y : Mat3} {p x : Vec3} {eQ ep B : ℝ} (hY : ∀ i j, |Y i j| ≤ 1)
    (hq : ∀ i j, |Q i j - Y i j| ≤ eQ) (hp : ∀ i, |p i - x i| ≤ ep) (hB : ∀ i, |p i| ≤ B) (i : Fin 3) :
    |(Q *ᵥ p) i - (Y *ᵥ x) i| ≤ 3 * (eQ * B + ep) := by
  have e0 : 0 ≤ eQ := (abs_nonneg _).trans (hq 0 0)
  have k : ∀ l, |Q i l * p l - Y i l * x l| ≤ eQ * B + ep := by
    intro l
    have e : Q i l * p l - Y i l * x l = (Q i l - Y i l) * p l + Y i l * (p l - x l) := by ring
    rw [e]
    refine (abs_add_le _ _).trans ?_
    rw [abs_mul, abs_mul]
    have a := mul_le_mul (hq i l) (hB l) (abs_nonneg _) e0
    have b := mul_le_mul (hY i l) (hp l) (abs_nonneg _) (by norm_num)
    linarith
  simp only [mulVec, dotProduct, Fin.sum_univ_three]
  have e : Q i 0 * p 0 + Q i 1 * p 1 + Q i 2 * p 2 - (Y i 0 * x 0 + Y i 1 * x 1 + Y i 2 * x 2)
    = (Q i 0 * p 0 - Y i 0 * x 0) + (Q i 1 * p 1 - Y i 1 * x 1) + (Q i 2 * p 2 - Y i 2 * x 2) := by ring
  rw [e]
  refine (abs_add_three _ _ _).trans ?_
  have := k 0; have := k 1; have := k 2
  linarith

end Mrob
