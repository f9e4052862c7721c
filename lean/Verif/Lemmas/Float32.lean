import Verif.Model.CreatePoints
import Mathlib.Tactic.Positivity
import Mathlib.Tactic.Linarith
import Mathlib.Tactic.NormNum
import Mathlib.Tactic.Ring
import Mathlib.Tactic.FieldSimp

/-! # Rounding to single precision -/

namespace Mrob

theorem floor_le_roundEven (x : ℝ) : ⌊x⌋ ≤ roundEven x := by
  rw [roundEven]; split_ifs <;> omega

theorem roundEven_err (x : ℝ) : |(roundEven x : ℝ) - x| ≤ 1 / 2 := by
  have h0 := Int.fract_nonneg x
  have h1 := Int.fract_lt_one x
  have h2 : (⌊x⌋ : ℝ) - x = - Int.fract x := by rw [Int.fract]; ring
  rw [roundEven, abs_le]
  split_ifs <;> push_cast <;> constructor <;> linarith

theorem roundEven_int (k : ℤ) : roundEven (k : ℝ) = k := by
  rw [roundEven, if_pos (by rw [Int.fract_intCast]; norm_num), Int.floor_intCast]

/-- Relative error of the rounding. -/
theorem fl32_err (x : ℝ) : |fl32 x - x| ≤ (2 : ℝ) ^ (-24 : ℤ) * |x| := by
  by_cases hx : x = 0
  · subst hx
    simp [fl32, roundEven]
  set u : ℝ := 2 ^ (Int.log 2 |x| - 23) with hu
  have hu0 : 0 < u := by positivity
  have h1 : fl32 x - x = ((roundEven (x / u) : ℝ) - x / u) * u := by
    rw [sub_mul, div_mul_cancel₀ _ hu0.ne']
    rfl
  rw [h1, abs_mul, abs_of_pos hu0]
  have h2 : (2 : ℝ) ^ Int.log 2 |x| ≤ |x| := by
    have := Int.zpow_log_le_self (b := 2) (by norm_num) (abs_pos.mpr hx)
    simpa using this
  calc _ ≤ 1 / 2 * u := mul_le_mul_of_nonneg_right (roundEven_err _) hu0.le
    _ = (2 : ℝ) ^ (-24 : ℤ) * 2 ^ Int.log 2 |x| := by
      rw [hu, sub_eq_add_neg, zpow_add₀ (by norm_num)]
      norm_num
      ring
    _ ≤ _ := mul_le_mul_of_nonneg_left h2 (by positivity)

/-- Multiples of the unit in the last place are exact. -/
theorem fl32_exact {x : ℝ} (k : ℤ) (h : x = k * 2 ^ (Int.log 2 |x| - 23)) : fl32 x = x := by
  have hu0 : (0 : ℝ) < 2 ^ (Int.log 2 |x| - 23) := by positivity
  have : x / 2 ^ (Int.log 2 |x| - 23) = k := by rw [div_eq_iff hu0.ne']; exact h
  rw [fl32]
  rw [this, roundEven_int]
  exact h.symm

theorem log_natCast (n : ℕ) : Int.log 2 |(n : ℝ)| = Nat.log 2 n := by
  rw [abs_of_nonneg (Nat.cast_nonneg n), Int.log_natCast]

/-- Integers up to `2^24` are exact. -/
theorem fl32_nat {n : ℕ} (h : n ≤ 2 ^ 24) : fl32 n = n := by
  by_cases h1 : n = 2 ^ 24
  · subst h1
    refine fl32_exact (2 ^ 23) ?_
    rw [log_natCast, Nat.log_pow (by norm_num)]
    norm_num
  · have hlog : Nat.log 2 n ≤ 23 := by
      have := Nat.log_lt_of_lt_pow (b := 2) (x := 24) (y := n)
      by_cases h0 : n = 0
      · subst h0; simp
      · have := this h0 (by omega); omega
    refine fl32_exact (n * 2 ^ (23 - Nat.log 2 n)) ?_
    rw [log_natCast]
    have : ((Nat.log 2 n : ℤ) - 23) = -((23 - Nat.log 2 n : ℕ) : ℤ) := by omega
    rw [this, zpow_neg, zpow_natCast]
    push_cast
    field_simp

/-- Rounding does not pass below an integer. -/
theorem le_fl32 {x : ℝ} {m : ℕ} (hm : (m : ℝ) ≤ x) (hx : x < 2 ^ 24) : (m : ℝ) ≤ fl32 x := by
  by_cases h0 : m = 0
  · subst h0
    have h := fl32_err x
    have h2 : 0 ≤ x := by simpa using hm
    rw [abs_of_nonneg h2, abs_le] at h
    have : (2 : ℝ) ^ (-24 : ℤ) * x ≤ x := by
      have : (2 : ℝ) ^ (-24 : ℤ) ≤ 1 := by norm_num
      nlinarith
    push_cast
    linarith [h.1]
  have hx0 : 0 < x := lt_of_lt_of_le (by exact_mod_cast Nat.pos_of_ne_zero h0) hm
  have hlog : Int.log 2 |x| < 24 := by
    rw [abs_of_pos hx0]
    have := (Int.lt_zpow_iff_log_lt (b := 2) (by norm_num) (x := 24) hx0).mp (by push_cast; exact_mod_cast hx)
    exact this
  have hlog0 : 0 ≤ Int.log 2 |x| := by
    rw [abs_of_pos hx0]
    have h1 : (1 : ℝ) ≤ x := le_trans (by exact_mod_cast Nat.pos_of_ne_zero h0) hm
    exact (Int.zpow_le_iff_le_log (b := 2) (by norm_num) (x := 0) hx0).mp (by simpa using h1)
  obtain ⟨j, hj⟩ := Int.eq_ofNat_of_zero_le (show 0 ≤ 23 - Int.log 2 |x| by omega)
  have hu : Int.log 2 |x| - 23 = -(j : ℤ) := by omega
  rw [fl32]
  rw [hu, zpow_neg, zpow_natCast]
  have hp : (0 : ℝ) < 2 ^ j := by positivity
  have h1 : ((m : ℤ) * 2 ^ j) ≤ roundEven (x / (2 ^ j)⁻¹) := by
    refine le_trans (Int.le_floor.mpr ?_) (floor_le_roundEven _)
    push_cast
    rw [div_inv_eq_mul]
    exact mul_le_mul_of_nonneg_right hm hp.le
  have h2 : ((m : ℝ) * 2 ^ j) ≤ roundEven (x / (2 ^ j)⁻¹) := by exact_mod_cast h1
  rw [← div_eq_mul_inv, le_div_iff₀ hp]
  exact h2

theorem fl32_nonneg {x : ℝ} (hx : 0 ≤ x) : 0 ≤ fl32 x := by
  have h := fl32_err x
  rw [abs_of_nonneg hx, abs_le] at h
  have : (2 : ℝ) ^ (-24 : ℤ) * x ≤ x := by
    have : (2 : ℝ) ^ (-24 : ℤ) ≤ 1 := by norm_num
    nlinarith
  linarith [h.1]

theorem fl32_le {x : ℝ} (hx : 0 ≤ x) : fl32 x ≤ (1 + (2 : ℝ) ^ (-24 : ℤ)) * x := by
  have h := fl32_err x
  rw [abs_of_nonneg hx, abs_le] at h
  linarith [h.2]

/-- The plane index is valid up to four million points. -/
theorem planeId_lt {N P i : ℕ} (hP : 1 ≤ P) (hi : i < N) (hN : N ≤ 2 ^ 22) : planeId N P i < P := by
  have hN0 : (0 : ℝ) < N := by exact_mod_cast (by omega : 0 < N)
  have hi' : (i : ℝ) + 1 ≤ N := by exact_mod_cast hi
  have hN' : (N : ℝ) ≤ 2 ^ 22 := by exact_mod_cast hN
  have hP0 : (0 : ℝ) < P := by exact_mod_cast hP
  rw [planeId, fl32_nat (n := i) (le_trans (by omega) (le_trans hN (by norm_num))), fl32_nat (n := N) (le_trans hN (by norm_num))]
  set ε : ℝ := (2 : ℝ) ^ (-24 : ℤ) with hε
  have hε0 : 0 < ε := by positivity
  have e1 := fl32_le hP0.le
  have p1 := fl32_nonneg hP0.le
  have e2 := fl32_le (mul_nonneg (Nat.cast_nonneg i) p1)
  have p2 := fl32_nonneg (mul_nonneg (Nat.cast_nonneg i) p1)
  have e3 := fl32_le (div_nonneg p2 hN0.le)
  have p3 := fl32_nonneg (div_nonneg p2 hN0.le)
  rw [Nat.floor_lt p3]
  refine lt_of_le_of_lt e3 ?_
  rw [mul_div_assoc', div_lt_iff₀ hN0]
  have c1 : (1 + ε) * fl32 (i * fl32 P) ≤ (1 + ε) ^ 3 * (i * P) := by
    have : (i : ℝ) * fl32 P ≤ i * ((1 + ε) * P) := mul_le_mul_of_nonneg_left e1 (Nat.cast_nonneg i)
    calc (1 + ε) * fl32 (i * fl32 P) ≤ (1 + ε) * ((1 + ε) * (i * fl32 P)) := mul_le_mul_of_nonneg_left e2 (by positivity)
      _ ≤ (1 + ε) * ((1 + ε) * (i * ((1 + ε) * P))) := by gcongr
      _ = _ := by ring
  refine lt_of_le_of_lt c1 ?_
  have c2 : (1 + ε) ^ 3 * (i : ℝ) < N := by
    have h4 : (1 + ε) ^ 3 ≤ 1 + 7 / 2 * ε := by rw [hε]; norm_num
    have h5 : (1 + 7 / 2 * ε) * (N - 1 : ℝ) < N := by
      have : 7 / 2 * ε * (N : ℝ) < 1 := by
        calc 7 / 2 * ε * (N : ℝ) ≤ 7 / 2 * ε * 2 ^ 22 := by gcongr
          _ < 1 := by rw [hε]; norm_num
      nlinarith
    calc (1 + ε) ^ 3 * (i : ℝ) ≤ (1 + 7 / 2 * ε) * (N - 1) :=
          mul_le_mul h4 (by linarith) (Nat.cast_nonneg i) (by positivity)
      _ < N := h5
  nlinarith

/-- For small scenes the plane index is the exact quotient. -/
theorem planeId_eq {N P i : ℕ} (hP : 1 ≤ P) (hi : i < N) (h : N * P ≤ 2 ^ 24) : planeId N P i = i * P / N := by
  have hN0 : (0 : ℝ) < N := by exact_mod_cast (by omega : 0 < N)
  have hNP : N ≤ 2 ^ 24 := le_trans (Nat.le_mul_of_pos_right N hP) h
  have hPN : P ≤ 2 ^ 24 := le_trans (Nat.le_mul_of_pos_left P (by omega)) h
  have hiP : i * P < N * P := Nat.mul_lt_mul_of_pos_right hi (by omega)
  rw [planeId, fl32_nat (n := i) (by omega), fl32_nat (n := N) hNP, fl32_nat (n := P) hPN,
    ← Nat.cast_mul, fl32_nat (n := i * P) (by omega)]
  set m := i * P / N with hm
  have hm1 : m * N ≤ i * P := Nat.div_mul_le_self _ _
  have hm2 : i * P < (m + 1) * N := by
    rw [hm]; exact Nat.lt_mul_of_div_lt (Nat.lt_succ_self _) (by omega)
  have hx1 : (m : ℝ) ≤ (i * P : ℕ) / (N : ℝ) := by
    rw [le_div_iff₀ hN0]; exact_mod_cast hm1
  have hx0 : (0 : ℝ) ≤ (i * P : ℕ) / (N : ℝ) := by positivity
  have hxP : ((i * P : ℕ) : ℝ) / (N : ℝ) < P := by
    rw [div_lt_iff₀ hN0]
    have : ((i * P : ℕ) : ℝ) < (N * P : ℕ) := by exact_mod_cast hiP
    push_cast at this ⊢
    linarith
  have hPr : (P : ℝ) ≤ 2 ^ 24 := by exact_mod_cast hPN
  rw [Nat.floor_eq_iff (fl32_nonneg hx0)]
  refine ⟨le_fl32 hx1 (lt_of_lt_of_le hxP hPr), ?_⟩
  refine lt_of_le_of_lt (fl32_le hx0) ?_
  have h3 : ((i * P : ℕ) : ℝ) / N ≤ m + 1 - 1 / N := by
    rw [le_sub_iff_add_le, ← add_div, div_le_iff₀ hN0]
    exact_mod_cast hm2
  have h4 : (2 : ℝ) ^ (-24 : ℤ) * ((i * P : ℕ) / (N : ℝ)) < 1 / N := by
    have hq : (2 : ℝ) ^ (-24 : ℤ) * P ≤ 1 / N := by
      rw [le_div_iff₀ hN0]
      have : ((N * P : ℕ) : ℝ) ≤ 2 ^ 24 := by exact_mod_cast h
      push_cast at this
      calc (2 : ℝ) ^ (-24 : ℤ) * P * N = 2 ^ (-24 : ℤ) * (N * P) := by ring
        _ ≤ 2 ^ (-24 : ℤ) * 2 ^ 24 := by gcongr
        _ = 1 := by norm_num
    exact lt_of_lt_of_le (mul_lt_mul_of_pos_left hxP (by positivity)) hq
  rw [add_mul, one_mul]
  linarith

/-- The last of `2^25` points. -/
theorem fl32_last : fl32 ((2 ^ 25 - 1 : ℕ) : ℝ) = 2 ^ 25 := by
  have hlog : Nat.log 2 (2 ^ 25 - 1) = 24 := by
    rw [Nat.log_eq_iff (Or.inl (by norm_num))]; norm_num
  rw [fl32]
  rw [log_natCast, hlog]
  have hf : ⌊((2 ^ 25 - 1 : ℕ) : ℝ) / 2 ^ ((24 : ℕ) - 23 : ℤ)⌋ = 2 ^ 24 - 1 := by
    rw [Int.floor_eq_iff]; norm_num
  have hfr : Int.fract (((2 ^ 25 - 1 : ℕ) : ℝ) / 2 ^ ((24 : ℕ) - 23 : ℤ)) = 1 / 2 := by
    rw [Int.fract, hf]; norm_num
  rw [roundEven, hfr, if_neg (by norm_num), if_neg (by norm_num), hf, if_neg (by decide)]
  norm_num

theorem fl32_pow25 : fl32 ((2 ^ 25 : ℕ) : ℝ) = 2 ^ 25 := by
  rw [fl32_exact (2 ^ 23)]
  · norm_num
  · rw [log_natCast, Nat.log_pow (by norm_num)]
    norm_num

theorem planeId_last : planeId (2 ^ 25) 1 (2 ^ 25 - 1) = 1 := by
  have h1 : fl32 (1 : ℝ) = 1 := by simpa using fl32_nat (n := 1) (by norm_num)
  have h2 := fl32_pow25
  have h3 : fl32 (2 ^ 25 : ℝ) = 2 ^ 25 := by
    rw [← h2]; norm_num at h2 ⊢; rw [h2, h2]
  rw [planeId, fl32_last, h2, Nat.cast_one, h1, mul_one, h3, div_self (by norm_num), h1, Nat.floor_one]

end Mrob
