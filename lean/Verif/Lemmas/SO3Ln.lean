import Verif.Lemmas.Rotation

/-! Analysis of `SO3::ln` on rotations. -/

open Matrix

namespace Mrob

open Spec

theorem rod_smul (a b t : ℝ) (w : Vec3) : rod a b (t • w) = rod (a * t) (b * t ^ 2) w := by
  simp only [rod, hat3_smul, smul_mul_assoc, mul_smul_comm, smul_smul]
  congr 2
  ring

/-- A rotation that is not a half turn, in terms of its skew vector. -/
theorem rot_eq_rod {R : Mat3} (h : IsRotation R) (hc : cosOf R ≠ -1) :
    R = rod 1 (1 / (1 + cosOf R)) (skewVec R) := by
  have hne : 1 + cosOf R ≠ 0 := fun h' => hc (by linarith)
  have hu : ∀ i j, skewVec R i * skewVec R j / (1 + cosOf R) = symS R i j := by
    intro i j
    rw [skew_mul_skew h]; field_simp
  have hsq : hat3 (skewVec R) * hat3 (skewVec R)
      = (1 + cosOf R) • (symS R - (1 - cosOf R) • (1 : Mat3)) := by
    rw [hat3_sq, sqNorm_skewVec h]
    ext i j
    simp only [Matrix.sub_apply, vecMulVec_apply, skew_mul_skew h, Matrix.smul_apply, smul_eq_mul]
    ring
  rw [rod, hsq, smul_smul, one_div, inv_mul_cancel₀ hne, one_smul, one_smul]
  ext i j
  fin_cases i <;> fin_cases j <;> simp [hat3, skewVec, symS, cosOf_eq] <;> ring

theorem so3Ln_unfold (R : Mat3) : so3Ln R = if cosOf R > -1 + 1 then
    lnSmall R (cacos (cosOf R)) else lnLarge R (cacos (cosOf R)) := rfl

/-- The arc cosine used by the code is defined on rotations. -/
theorem cacos_cosOf {R : Mat3} (h : IsRotation R) :
    cacos (cosOf R) = some (Real.arccos (cosOf R)) := by
  rw [cacos, if_pos ⟨neg_one_le_cosOf h, cosOf_le_one h⟩]

theorem cos_arccos_cosOf {R : Mat3} (h : IsRotation R) :
    Real.cos (Real.arccos (cosOf R)) = cosOf R :=
  Real.cos_arccos (neg_one_le_cosOf h) (cosOf_le_one h)

theorem sin_arccos_cosOf (R : Mat3) :
    Real.sin (Real.arccos (cosOf R)) = Real.sqrt (1 - cosOf R ^ 2) := Real.sin_arccos _

theorem vnorm_skewVec {R : Mat3} (h : IsRotation R) :
    vnorm (skewVec R) = Real.sin (Real.arccos (cosOf R)) := by
  rw [sin_arccos_cosOf, vnorm, sqNorm_skewVec h]

theorem sub_transpose_eq (R : Mat3) : R - Rᵀ = (2 : ℝ) • hat3 (skewVec R) := by
  ext i j
  fin_cases i <;> fin_cases j <;> simp [hat3, skewVec] <;> ring

/-- Sign recovery on a skew matrix. -/
theorem lnSign_hat3 (R : Mat3) (w : Vec3) :
    lnSign R (hat3 w) = if w ⬝ᵥ skewVec R < 0 then hat3 (-w) else hat3 w := by
  have key : (∑ i, ∑ j, (1 + hat3 w - R) i j * (1 + hat3 w - R) i j)
      - (∑ i, ∑ j, (1 - hat3 w - R) i j * (1 - hat3 w - R) i j) = -8 * (w ⬝ᵥ skewVec R) := by
    simp [Fin.sum_univ_three, hat3, skewVec, dotProduct]
    ring
  have hn : 0 ≤ ∑ i, ∑ j, (1 - hat3 w - R) i j * (1 - hat3 w - R) i j :=
    Finset.sum_nonneg fun i _ => Finset.sum_nonneg fun j _ => mul_self_nonneg _
  have hiff : mnorm (1 + hat3 w - R) > mnorm (1 - hat3 w - R) ↔ w ⬝ᵥ skewVec R < 0 := by
    rw [gt_iff_lt, mnorm, mnorm, Real.sqrt_lt_sqrt_iff hn]
    constructor <;> intro h <;> linarith
  rw [lnSign]
  by_cases h : w ⬝ᵥ skewVec R < 0
  · rw [if_pos (hiff.mpr h), if_pos h, hat3_neg, neg_smul, one_smul]
  · rw [if_neg (fun h' => h (hiff.mp h')), if_neg h]

/-- The index of the column chosen by the second branch of `SO3::ln`. -/
noncomputable def pivot (R : Mat3) : Fin 3 :=
  open Classical in
  if R 0 0 > R 1 1 ∧ R 0 0 > R 2 2 then 0
  else if R 1 1 > R 0 0 ∧ R 1 1 > R 2 2 then 1
  else 2

open Classical in
theorem lnColumn_eq (R : Mat3) : lnColumn R (cosOf R) = fun i => symS R i (pivot R) := by
  rw [lnColumn, pivot]
  split_ifs <;> funext i <;> fin_cases i <;> simp [symS] <;> ring

/-- The matrices on which the second branch selects a zero column: rotations about `(1,±1,0)`. -/
def BadAxis (R : Mat3) : Prop := R 0 0 = R 1 1 ∧ R 2 2 = 2 * R 0 0 - 1

theorem symS_pivot {R : Mat3} (h : IsRotation R) :
    symS R (pivot R) (pivot R) = 0 ↔ BadAxis R := by
  have h0 := symS_diag_nonneg h 0
  have h1 := symS_diag_nonneg h 1
  have h2 := symS_diag_nonneg h 2
  have ht := symS_trace R
  simp only [symS, of_apply, if_true, cosOf_eq] at h0 h1 h2 ht
  rw [pivot, BadAxis]
  split_ifs with c1 c2
  · obtain ⟨a, b⟩ := c1
    simp only [symS, of_apply, if_true, cosOf_eq]
    constructor
    · intro h'; exfalso; linarith
    · rintro ⟨h', -⟩; exfalso; linarith
  · obtain ⟨a, b⟩ := c2
    simp only [symS, of_apply, if_true, cosOf_eq]
    constructor
    · intro h'; exfalso; linarith
    · rintro ⟨h', -⟩; exfalso; linarith
  · simp only [symS, of_apply, if_true, cosOf_eq]
    push Not at c1 c2
    constructor
    · intro h'
      have e : R 0 0 = R 1 1 := by
        rcases lt_trichotomy (R 0 0) (R 1 1) with hl | hl | hl
        · have := c2 hl; linarith
        · exact hl
        · have := c1 hl; linarith
      exact ⟨e, by linarith⟩
    · rintro ⟨h', h''⟩; linarith

theorem sqNorm_column {R : Mat3} (h : IsRotation R) (k : Fin 3) :
    sqNorm (fun i => symS R i k) = (1 - cosOf R) * symS R k k := by
  rw [sqNorm3]
  rw [symS_minor h, symS_minor h, symS_minor h]
  rw [← symS_trace R]; ring

theorem lnNormalize_of_ne {w : Vec3} (hw : w ≠ 0) (o : ℝ) : lnNormalize w o = (o / vnorm w) • w := by
  have : 0 < vnorm w := lt_of_le_of_ne (vnorm_nonneg w) fun h => hw (vnorm_eq_zero.mp h.symm)
  rw [lnNormalize, if_pos this]

/-- Result of `SO3::ln` on rotations outside the approximated bands and the zero-column case. -/
theorem so3Ln_eq {R : Mat3} (h : IsRotation R) (h1 : 1e-5 ≤ Real.arccos (cosOf R))
    (h2 : 6e-8 ≤ Real.pi - Real.arccos (cosOf R)) (hb : 0 < cosOf R ∨ ¬ BadAxis R) :
    so3Ln R = (hat3 ((Real.arccos (cosOf R) / Real.sin (Real.arccos (cosOf R))) • skewVec R),
      Real.arccos (cosOf R)) := by
  set o := Real.arccos (cosOf R) with ho
  have hopos : 0 < o := lt_of_lt_of_le (by norm_num) h1
  have hopi : o < Real.pi := by
    have : (0:ℝ) < 6e-8 := by norm_num
    linarith
  have hs : 0 < Real.sin o := Real.sin_pos_of_pos_of_lt_pi hopos hopi
  have hcos : Real.cos o = cosOf R := cos_arccos_cosOf h
  rw [so3Ln_unfold, cacos_cosOf h, ← ho]
  by_cases hc : 0 < cosOf R
  · have hc' : cosOf R > -1 + 1 := by linarith
    simp only [hc', if_true]
    rw [lnSmall, if_neg (not_lt.mpr h1), sub_transpose_eq, smul_smul, hat3_smul]
    congr 2
    ring
  · have hc' : ¬ cosOf R > -1 + 1 := by linarith
    have hbad : ¬ BadAxis R := hb.resolve_left hc
    simp only [hc', if_false]
    have hang : lnLargeAngle (some o) = o := by
      rw [lnLargeAngle]; exact if_neg (not_lt.mpr h2)
    unfold lnLarge
    simp only [hang, hcos, lnColumn_eq]
    set k := pivot R with hk
    have hlt : cosOf R < 1 := by linarith
    have hgt : -1 < cosOf R := by
      have := neg_one_le_cosOf h
      rcases eq_or_lt_of_le this with h' | h'
      · exfalso
        rw [← h', Real.arccos_neg_one] at ho
        linarith
      · exact h'
    have hSk : symS R k k ≠ 0 := fun h' => hbad ((symS_pivot h).mp h')
    set β := skewVec R k / (1 + cosOf R) with hβ
    have hcol : (fun i => symS R i k) = β • skewVec R := by
      funext i
      have := skew_mul_skew h i k
      simp only [Pi.smul_apply, smul_eq_mul, hβ]
      have hne : 1 + cosOf R ≠ 0 := by linarith
      field_simp
      linarith
    have hβne : β ≠ 0 := by
      intro h'
      apply hSk
      have := congrFun hcol k
      simpa [h'] using this
    have hun : vnorm (skewVec R) = Real.sin o := vnorm_skewVec h
    have hune : skewVec R ≠ 0 := fun h' => by
      rw [h', vnorm_eq_zero.mpr rfl] at hun; linarith
    have hw : β • skewVec R ≠ 0 := smul_ne_zero hβne hune
    rw [hcol, lnNormalize_of_ne hw, vnorm_smul, hun, smul_smul, lnSign_hat3]
    have hdot : ((o / (|β| * Real.sin o) * β) • skewVec R) ⬝ᵥ skewVec R
        = o / (|β| * Real.sin o) * β * Real.sin o ^ 2 := by
      rw [smul_dotProduct, ← sqNorm_eq_dot, ← vnorm_sq, hun, smul_eq_mul]
    rw [hdot]
    rcases lt_or_gt_of_ne hβne with hneg | hpos
    · have e1 : o / (|β| * Real.sin o) * β = -(o / Real.sin o) := by
        rw [abs_of_neg hneg]; field_simp
      rw [e1, if_pos (by
        have : 0 < o / Real.sin o * Real.sin o ^ 2 := by positivity
        linarith), neg_smul, neg_neg]
    · have e1 : o / (|β| * Real.sin o) * β = o / Real.sin o := by
        rw [abs_of_pos hpos]; field_simp
      rw [e1, if_neg (by
        have : 0 < o / Real.sin o * Real.sin o ^ 2 := by positivity
        linarith)]

/-- On the zero-column rotations the code returns the zero matrix. -/
theorem so3Ln_bad {R : Mat3} (h : IsRotation R) (hc : cosOf R ≤ 0) (hb : BadAxis R)
    (h2 : 6e-8 ≤ Real.pi - Real.arccos (cosOf R) ∨ cosOf R = -1) : (so3Ln R).1 = 0 := by
  rw [so3Ln_unfold, cacos_cosOf h]
  have hc' : ¬ cosOf R > -1 + 1 := by linarith
  simp only [hc', if_false]
  have hang : lnLargeAngle (some (Real.arccos (cosOf R))) = Real.arccos (cosOf R) := by
    rw [lnLargeAngle]
    rcases h2 with h2 | h2
    · exact if_neg (not_lt.mpr h2)
    · rw [h2, Real.arccos_neg_one]; simp
  unfold lnLarge
  simp only [hang, cos_arccos_cosOf h, lnColumn_eq]
  have hz : symS R (pivot R) (pivot R) = 0 := (symS_pivot h).mpr hb
  have hcol : (fun i => symS R i (pivot R)) = 0 := by
    rw [← sqNorm_eq_zero, sqNorm_column h, hz, mul_zero]
  rw [hcol]
  have : lnNormalize 0 (Real.arccos (cosOf R)) = 0 := by
    rw [lnNormalize]; split_ifs <;> simp
  rw [this, hat3_zero, lnSign]
  simp

/-- Half turns. -/
theorem so3Ln_pi {R : Mat3} (h : IsRotation R) (hc : cosOf R = -1) (hb : ¬ BadAxis R) :
    ∃ n : Vec3, sqNorm n = 1 ∧ (∀ i j, 2 * (n i * n j) = symS R i j) ∧
      so3Ln R = (hat3 (Real.pi • n), Real.pi) := by
  set k := pivot R with hk
  have hSk : symS R k k ≠ 0 := fun h' => hb ((symS_pivot h).mp h')
  have hSpos : 0 < symS R k k := lt_of_le_of_ne (symS_diag_nonneg h k) (Ne.symm hSk)
  set w : Vec3 := fun i => symS R i k with hw
  have hsq : sqNorm w = 2 * symS R k k := by rw [sqNorm_column h, hc]; ring
  have hwne : w ≠ 0 := fun h' => by rw [h', sqNorm_eq_zero.mpr rfl] at hsq; linarith
  have hv : vnorm w ^ 2 = 2 * symS R k k := by rw [vnorm_sq, hsq]
  have hvne : vnorm w ≠ 0 := fun h' => hwne (vnorm_eq_zero.mp h')
  refine ⟨(1 / vnorm w) • w, ?_, ?_, ?_⟩
  · rw [sqNorm_smul, ← vnorm_sq]; field_simp
  · intro i j
    have := symS_minor h i j k
    simp only [Pi.smul_apply, smul_eq_mul, hw]
    have e : 2 * (1 / vnorm w * symS R i k * (1 / vnorm w * symS R j k))
        = 2 * (symS R i k * symS R j k) / vnorm w ^ 2 := by field_simp
    rw [e, hv, this]; field_simp
  · rw [so3Ln_unfold, cacos_cosOf h, hc, Real.arccos_neg_one]
    have hc' : ¬ (-1 : ℝ) > -1 + 1 := by norm_num
    simp only [hc', if_false]
    have hang : lnLargeAngle (some Real.pi) = Real.pi := by
      rw [lnLargeAngle]; simp
    unfold lnLarge
    simp only [hang, Real.cos_pi]
    rw [show lnColumn R (-1) = lnColumn R (cosOf R) by rw [hc], lnColumn_eq, ← hk, ← hw,
      lnNormalize_of_ne hwne, lnSign_hat3]
    have hu : skewVec R = 0 := by
      rw [← sqNorm_eq_zero, sqNorm_skewVec h, hc]; norm_num
    rw [hu, dotProduct_zero, if_neg (lt_irrefl _), smul_smul]
    congr 3
    ring

end Mrob
