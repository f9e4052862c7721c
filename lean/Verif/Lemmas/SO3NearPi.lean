import Verif.Lemmas.SO3LnBand

/-! `SO3::ln` just below a half turn. -/

open Matrix

namespace Mrob

open Spec

set_option maxHeartbeats 1000000 in
/-- What the second branch computes within `6e-8` of a half turn when the pivot is a maximal diagonal
entry. -/
theorem near_pi_data {R : Mat3} (h : IsRotation R) (hlo : Real.pi - 6e-8 < Real.arccos (cosOf R))
    (hhi : Real.arccos (cosOf R) < Real.pi) (htie : ¬ (R 0 0 = R 1 1 ∧ R 2 2 < R 0 0)) :
    ∃ (n v : Vec3) (k : Fin 3) (δ a q s : ℝ), δ = 1 + cosOf R ∧ 0 < δ ∧ δ ≤ 1.8e-15 ∧
      sqNorm n = 1 ∧ (∀ i, |n i| ≤ 1) ∧
      (∀ i, skewVec R i = Real.sin (Real.arccos (cosOf R)) * n i) ∧
      (∀ i j, symS R i j = (2 - δ) * (n i * n j)) ∧
      0 < Real.sin (Real.arccos (cosOf R)) ∧ Real.sin (Real.arccos (cosOf R)) ≤ 6e-8 ∧
      a = (2 - δ) * n k ∧ 1 ≤ |a| ∧ (∀ i, v i = a * n i + δ * (if i = k then 1 else 0)) ∧
      q = sqNorm v ∧ q = a ^ 2 + 2 * (a * δ * n k) + δ ^ 2 ∧ a ^ 2 ≤ q ∧ 1 ≤ q ∧
      s ^ 2 = 1 ∧ 0 ≤ s * a ∧
      (SO3.mk R).lnVee = (s * (Real.pi / vnorm v)) • v := by
  classical
  have hcos := cos_arccos_cosOf h
  have hp := Real.two_le_pi
  have small : (6e-8 : ℝ) < 1 := by norm_num
  have hc0 : cosOf R ≤ 0 := by
    by_contra hcon
    push Not at hcon
    have := (cosOf_pos_iff h).mp hcon
    linarith
  have hsv := vnorm_skewVec h
  have hskew := skew_mul_skew h
  set o := Real.arccos (cosOf R) with ho
  have hs : 0 < Real.sin o := Real.sin_pos_of_pos_of_lt_pi (by linarith) hhi
  have hang : lnLargeAngle (some o) = Real.pi := by rw [lnLargeAngle]; exact if_pos (by linarith)
  -- size of the defect
  set δ := 1 + cosOf R with hδ
  have hcospi : Real.cos (Real.pi - o) = -cosOf R := by rw [Real.cos_pi_sub, hcos]
  have hδ1 : δ ≤ 1.8e-15 := by
    have := Real.one_sub_sq_div_two_le_cos (x := Real.pi - o)
    rw [hcospi] at this
    have p2 : (Real.pi - o) ^ 2 ≤ (6e-8) ^ 2 := by
      apply pow_le_pow_left₀ <;> linarith
    rw [hδ]; norm_num at p2 ⊢; linarith
  have hsin1 : Real.sin o ≤ 6e-8 := by
    rw [← Real.sin_pi_sub]
    exact (Real.sin_le (by linarith)).trans (by linarith)
  have hsq : Real.sin o ^ 2 = (2 - δ) * δ := by rw [Real.sin_sq, hcos, hδ]; ring
  have hδ0 : 0 < δ := by
    have : 0 ≤ δ := by have := neg_one_le_cosOf h; rw [hδ]; linarith
    rcases eq_or_lt_of_le this with h' | h'
    · rw [← h', mul_zero] at hsq; have := pow_pos hs 2; linarith
    · exact h'
  -- the unit axis
  set n : Vec3 := (1 / Real.sin o) • skewVec R with hn
  have hnS : ∀ i j, symS R i j = (2 - δ) * (n i * n j) := by
    intro i j
    have e := hskew i j
    simp only [hn, Pi.smul_apply, smul_eq_mul]
    have e2 : (2 - δ) * (1 / Real.sin o * skewVec R i * (1 / Real.sin o * skewVec R j))
        = (2 - δ) * (skewVec R i * skewVec R j) / Real.sin o ^ 2 := by field_simp
    rw [e2, e, hsq]
    have : 2 - δ ≠ 0 := by norm_num at hδ1; intro h'; linarith
    field_simp
  have hnu : sqNorm n = 1 := by
    rw [hn, sqNorm_smul, ← vnorm_sq, hsv]; field_simp
  have hnle : ∀ i, |n i| ≤ 1 := by
    intro i
    rw [← sq_le_one_iff_abs_le_one]
    rw [sqNorm3] at hnu
    have hsplit : ∀ l : Fin 3, l = 0 ∨ l = 1 ∨ l = 2 := by decide
    rcases hsplit i with hi | hi | hi <;> rw [hi] <;>
      nlinarith [sq_nonneg (n 0), sq_nonneg (n 1), sq_nonneg (n 2)]
  have hsk : ∀ i, skewVec R i = Real.sin o * n i := by
    intro i; simp only [hn, Pi.smul_apply, smul_eq_mul]; field_simp
  -- the selected entry is at least a third of the trace of `S`
  set k := pivot R with hk
  have hthird : (2 - δ) / 3 ≤ symS R k k := by
    have ht := symS_trace R
    have ord : ∀ l, symS R l l ≤ symS R k k := by
      have dd : ∀ l, symS R l l = R l l - cosOf R := by intro l; simp [symS]
      intro l
      rw [dd, dd, hk, pivot]
      split_ifs with c1 c2
      · fin_cases l <;> simp <;> linarith [c1.1, c1.2]
      · fin_cases l <;> simp <;> linarith [c2.1, c2.2]
      · have : R 0 0 ≤ R 2 2 ∧ R 1 1 ≤ R 2 2 := by
          push Not at c1 c2 htie
          rcases lt_trichotomy (R 0 0) (R 1 1) with hl | hl | hl
          · have := c2 hl; constructor <;> linarith
          · have := htie hl; constructor <;> linarith
          · have := c1 hl; constructor <;> linarith
        fin_cases l <;> simp <;> linarith [this.1, this.2]
    have a0 := ord 0
    have a1 := ord 1
    have a2 := ord 2
    rw [show 2 - δ = 1 - cosOf R by rw [hδ]; ring, ← ht]
    linarith
  set a := (2 - δ) * n k with ha
  have haa : 1 ≤ |a| := by
    have e : a ^ 2 = (2 - δ) * symS R k k := by rw [ha, hnS]; ring
    have : 1 ≤ a ^ 2 := by rw [e]; norm_num at hδ1; nlinarith
    rw [← sq_abs] at this
    nlinarith [abs_nonneg a]
  -- the column
  set v : Vec3 := lnColumn R (Real.cos Real.pi) with hv
  have hvi : ∀ i, v i = a * n i + δ * (if i = k then 1 else 0) := by
    intro i
    rw [hv, lnColumn_apply, ← hk, hnS, ha, Real.cos_pi]
    split_ifs with hik
    · rw [hik, hδ]; ring
    · ring
  set q := sqNorm v with hq
  have hqe : q = a ^ 2 + 2 * (a * δ * n k) + δ ^ 2 := by
    rw [hq, sqNorm3, hvi, hvi, hvi]
    rw [sqNorm3] at hnu
    have : ∀ e : ℝ, (a * n 0) ^ 2 + (a * n 1) ^ 2 + (a * n 2) ^ 2 = a ^ 2 := by
      intro e; linear_combination a ^ 2 * hnu
    have hsplit : ∀ l : Fin 3, l = 0 ∨ l = 1 ∨ l = 2 := by decide
    rcases hsplit k with hk' | hk' | hk' <;> rw [hk'] <;> simp <;> linear_combination this 0
  have hank : 0 ≤ a * δ * n k := by
    have : a * δ * n k = (2 - δ) * δ * (n k) ^ 2 := by rw [ha]; ring
    rw [this, ← hsq]; positivity
  have hqa : a ^ 2 ≤ q := by rw [hqe]; nlinarith [sq_nonneg δ]
  have hq1 : 1 ≤ q := by
    have : 1 ≤ a ^ 2 := by rw [← sq_abs]; nlinarith
    linarith
  have hv0 : v ≠ 0 := by
    intro h'
    rw [hq, h', sqNorm_eq_zero.mpr rfl] at hq1
    linarith
  have hvn : vnorm v ^ 2 = q := by rw [vnorm_sq]
  have hvpos : 0 < vnorm v := lt_of_le_of_ne (vnorm_nonneg v) fun h' => hv0 (vnorm_eq_zero.mp h'.symm)
  -- the code's result: plus or minus `π v / |v|`
  have hdot : ((Real.pi / vnorm v) • v) ⬝ᵥ skewVec R
      = Real.pi / vnorm v * Real.sin o * (a + δ * n k) := by
    rw [smul_dotProduct, smul_eq_mul, mul_assoc]
    congr 1
    simp only [dotProduct, Fin.sum_univ_three, hvi, hsk]
    rw [sqNorm3] at hnu
    have hsplit : ∀ l : Fin 3, l = 0 ∨ l = 1 ∨ l = 2 := by decide
    rcases hsplit k with hk' | hk' | hk' <;> rw [hk'] <;> simp <;>
      linear_combination (Real.sin o * a) * hnu
  have hfac : 0 < Real.pi / vnorm v * Real.sin o := by positivity
  have hank2 : 0 ≤ a * (δ * n k) := by linarith [hank]
  have hres : ∃ s : ℝ, s ^ 2 = 1 ∧ 0 ≤ s * a ∧
      (SO3.mk R).lnVee = (s * (Real.pi / vnorm v)) • v := by
    rw [SO3.lnVee, SO3.ln, so3Ln_large h hc0]
    unfold lnLarge
    simp only [← ho, hang, ← hv]
    rw [lnNormalize_of_ne hv0, lnSign_hat3]
    split_ifs with hd
    · refine ⟨-1, by norm_num, ?_, by rw [vee3_hat3, ← neg_smul]; congr 1; ring⟩
      rw [hdot] at hd
      have : a + δ * n k < 0 := by
        by_contra hcon
        push Not at hcon
        have := mul_nonneg hfac.le hcon
        linarith
      by_contra hcon
      have ha' : 0 < a := by linarith
      have := mul_neg_of_pos_of_neg ha' (by linarith : δ * n k < 0)
      linarith
    · refine ⟨1, by norm_num, ?_, by rw [vee3_hat3, one_mul]⟩
      rw [hdot] at hd
      have : 0 ≤ a + δ * n k := by
        by_contra hcon
        push Not at hcon
        have := mul_neg_of_pos_of_neg hfac hcon
        exact hd this
      by_contra hcon
      have ha' : a < 0 := by linarith
      have := mul_neg_of_neg_of_pos ha' (by linarith : 0 < δ * n k)
      linarith
  obtain ⟨s, hs1, hsa, hres⟩ := hres
  exact ⟨n, v, k, δ, a, q, s, hδ, hδ0, hδ1, hnu, hnle, hsk, hnS, hs, hsin1, ha, haa, hvi, hq, hqe, hqa,
    hq1, hs1, hsa, hres⟩

/-- Component error of the vector returned just below a half turn. -/
theorem near_pi_entry {V a δ nk x e s o : ℝ} (hV : 1 ≤ V)
    (hq : V ^ 2 = a ^ 2 + 2 * (a * δ * nk) + δ ^ 2) (ha : 1 ≤ |a|) (hδ0 : 0 ≤ δ)
    (hδ : δ ≤ 1.8e-15) (hx : |x| ≤ 1) (hk : |nk| ≤ 1) (he : |e| ≤ 1) (hs : s ^ 2 = 1)
    (hsa : 0 ≤ s * a) (h1 : Real.pi - 6e-8 ≤ o) (h2 : o ≤ Real.pi) :
    |s * (Real.pi / V) * (a * x + δ * e) - o * x| ≤ 1e-7 := by
  have hp := Real.pi_le_four
  have hp0 := Real.pi_pos
  have hsabs : |s| = 1 := by rw [← sq_eq_sq₀ (abs_nonneg s) zero_le_one, sq_abs, hs, one_pow]
  have hsa' : s * a = |a| := by rw [← abs_of_nonneg hsa, abs_mul, hsabs, one_mul]
  -- |V - |a|| ≤ 2δ
  have hVa : |(|a|) - V| ≤ 2 * δ := by
    have e1 : (|a| - V) * (|a| + V) = -(2 * (a * δ * nk) + δ ^ 2) := by
      have := sq_abs a
      nlinarith
    have b : |2 * (a * δ * nk) + δ ^ 2| ≤ 2 * (|a| * δ) + δ ^ 2 := by
      calc _ ≤ |2 * (a * δ * nk)| + |δ ^ 2| := abs_add_le _ _
        _ = 2 * (|a| * δ * |nk|) + δ ^ 2 := by
            rw [abs_mul, abs_mul, abs_mul, abs_two, abs_of_nonneg hδ0, abs_of_nonneg (sq_nonneg δ)]
        _ ≤ 2 * (|a| * δ * 1) + δ ^ 2 := by gcongr
        _ = _ := by ring
    have hpos : 0 < |a| + V := by linarith
    have e2 : |(|a|) - V| * (|a| + V) = |2 * (a * δ * nk) + δ ^ 2| := by
      rw [← abs_of_pos hpos, ← abs_mul, e1, abs_neg]
    have hd1 : δ ≤ 1 := hδ.trans (by norm_num)
    by_contra hcon
    push Not at hcon
    have c1 : 2 * δ * (|a| + V) < |(|a|) - V| * (|a| + V) := mul_lt_mul_of_pos_right hcon hpos
    have c2 : δ ^ 2 ≤ 2 * δ * V := by nlinarith
    nlinarith
  have hV0 : 0 < V := by linarith
  have e3 : s * (Real.pi / V) * (a * x + δ * e) - o * x
      = Real.pi * ((|a| - V) * x + δ * (s * e)) / V + (Real.pi - o) * x := by
    rw [← hsa']; field_simp; ring
  rw [e3]
  have t1 : |(|a| - V) * x + δ * (s * e)| ≤ 3 * δ := by
    calc _ ≤ |(|a| - V) * x| + |δ * (s * e)| := abs_add_le _ _
      _ ≤ 2 * δ * 1 + δ * 1 := by
          rw [abs_mul, abs_mul, abs_mul, hsabs, abs_of_nonneg hδ0, one_mul]
          gcongr
      _ = _ := by ring
  calc _ ≤ |Real.pi * ((|a| - V) * x + δ * (s * e)) / V| + |(Real.pi - o) * x| := abs_add_le _ _
    _ ≤ 4 * (3 * δ) + 6e-8 * 1 := by
        gcongr
        · rw [abs_div, abs_mul, abs_of_pos hp0, abs_of_pos hV0, div_le_iff₀ hV0]
          calc _ ≤ 4 * (3 * δ) := by gcongr
            _ ≤ _ := by nlinarith
        · rw [abs_mul]
          have : |Real.pi - o| ≤ 6e-8 := by rw [_root_.abs_le]; norm_num at *; constructor <;> linarith
          gcongr
    _ ≤ _ := by norm_num at *; linarith

end Mrob
