import Verif.Lemmas.Deriv

/-!
# Derivative of the logarithm at the identity, and of angles
-/

open Matrix Filter Topology

namespace Mrob

open Spec

theorem MDeriv.continuousAt {m n : Type*} {M : ℝ → Matrix m n ℝ} {M' : Matrix m n ℝ} {t : ℝ} (h : MDeriv M M' t)
    (i : m) (j : n) : ContinuousAt (fun s => M s i j) t := (h i j).continuousAt

theorem skewVec_deriv {R : ℝ → Mat3} {w : Vec3} (hR : MDeriv R (hat3 w) 0) :
    VDeriv (fun s => skewVec (R s)) w 0 := by
  intro i
  fin_cases i
  · exact (((hR 2 1).sub (hR 1 2)).div_const 2).congr_deriv (by simp [hat3])
  · exact (((hR 0 2).sub (hR 2 0)).div_const 2).congr_deriv (by simp [hat3])
  · exact (((hR 1 0).sub (hR 0 1)).div_const 2).congr_deriv (by simp [hat3])

theorem cosOf_one : cosOf 1 = 1 := by rw [cosOf_eq]; norm_num

theorem skewVec_one : skewVec 1 = 0 := by funext i; fin_cases i <;> simp [skewVec]

/-- Near the identity the code takes the Taylor branch of the logarithm. -/
theorem lnVee_eventually {R : ℝ → Mat3} {R' : Mat3} (hR : MDeriv R R' 0) (h0 : R 0 = 1)
    (hc : ∀ᶠ s in 𝓝 (0 : ℝ), cosOf (R s) ≤ 1 ∨ skewVec (R s) = 0) (τ : ℝ → Vec3) :
    ∀ᶠ s in 𝓝 (0 : ℝ), (SE3.mk (homog (R s) (τ s) 1)).lnVee =
      vec6 ((1 + Real.arccos (cosOf (R s)) * Real.arccos (cosOf (R s)) / 6) • skewVec (R s))
        (rod (-0.5) (1 / 12 + Real.arccos (cosOf (R s)) * Real.arccos (cosOf (R s)) / 720)
          ((1 + Real.arccos (cosOf (R s)) * Real.arccos (cosOf (R s)) / 6) • skewVec (R s)) *ᵥ τ s) := by
  have hcc : ContinuousAt (fun s => cosOf (R s)) 0 := by
    simp only [cosOf_eq]
    exact (((((hR 0 0).add (hR 1 1)).add (hR 2 2)).sub_const 1).div_const 2).continuousAt
  have hpos : ∀ᶠ s in 𝓝 (0 : ℝ), 0 < cosOf (R s) :=
    continuousAt_const.eventually_lt hcc (by rw [h0, cosOf_one]; norm_num)
  have hac : ContinuousAt (fun s => Real.arccos (cosOf (R s))) 0 :=
    Real.continuous_arccos.continuousAt.comp hcc
  have hsm : ∀ᶠ s in 𝓝 (0 : ℝ), Real.arccos (cosOf (R s)) < 1e-5 :=
    hac.eventually_lt continuousAt_const (by rw [h0, cosOf_one, Real.arccos_one]; norm_num)
  filter_upwards [hc, hpos, hsm] with s h1 h2 h3
  set o := Real.arccos (cosOf (R s)) with ho
  have hln : so3Ln (R s) = (hat3 ((1 + o * o / 6) • skewVec (R s)), o) := by
    rw [so3Ln_unfold, if_pos (by linarith)]
    by_cases hle : cosOf (R s) ≤ 1
    · rw [cacos, if_pos ⟨by linarith, hle⟩, ← ho, lnSmall, if_pos h3, sub_transpose_eq, smul_smul, hat3_smul]
      congr 2; ring
    · have hz : skewVec (R s) = 0 := h1.resolve_left hle
      have ho0 : o = 0 := by rw [ho]; exact Real.arccos_of_one_le (le_of_not_ge hle)
      rw [cacos, if_neg (fun h => hle h.2), lnSmall, hz, smul_zero, hat3_zero, zero_smul, ho0]
  have hl : (SO3.mk (R s)).lnVee = (1 + o * o / 6) • skewVec (R s) := by
    rw [SO3.lnVee, SO3.ln, hln, vee3_hat3]
  have hk : lnK1 o = 1 / 12 + o * o / 720 := by
    rw [lnK1, if_neg]; intro h; linarith [show (1e-5 : ℝ) < 5e-3 by norm_num]
  rw [SE3.lnVee, SE3.ln, se3Ln_homog, vee6_homog, vee3_hat3, hl, hln, vInv, hk]

/-- The logarithm of the code has the identity as derivative at the identity. -/
theorem lnVee_deriv {R : ℝ → Mat3} {τ : ℝ → Vec3} {w v : Vec3} (hR : MDeriv R (hat3 w) 0) (h0 : R 0 = 1)
    (hτ : VDeriv τ v 0) (hτ0 : τ 0 = 0)
    (hc : ∀ᶠ s in 𝓝 (0 : ℝ), cosOf (R s) ≤ 1 ∨ skewVec (R s) = 0) :
    VDeriv (fun s => (SE3.mk (homog (R s) (τ s) 1)).lnVee) (vec6 w v) 0 := by
  have hcc : ContinuousAt (fun s => cosOf (R s)) 0 := by
    simp only [cosOf_eq]
    exact (((((hR 0 0).add (hR 1 1)).add (hR 2 2)).sub_const 1).div_const 2).continuousAt
  have hac : ContinuousAt (fun s => Real.arccos (cosOf (R s))) 0 :=
    Real.continuous_arccos.continuousAt.comp hcc
  have ha0 : Real.arccos (cosOf (R 0)) = 0 := by rw [h0, cosOf_one, Real.arccos_one]
  have hs := skewVec_deriv hR
  have hs0 : skewVec (R 0) = 0 := by rw [h0, skewVec_one]
  have hw : VDeriv (fun s => (1 + Real.arccos (cosOf (R s)) * Real.arccos (cosOf (R s)) / 6) • skewVec (R s)) w 0 := by
    intro i
    have := hasDerivAt_mul_of_zero (k := fun s => 1 + Real.arccos (cosOf (R s)) * Real.arccos (cosOf (R s)) / 6)
      (hs i) (congrFun hs0 i) (by fun_prop)
    exact this.congr_deriv (by simp [ha0])
  refine VDeriv.congr_of_eventuallyEq ?_ (lnVee_eventually hR h0 hc τ)
  have hW : ∀ i, ContinuousAt (fun s => ((1 + Real.arccos (cosOf (R s)) * Real.arccos (cosOf (R s)) / 6)
      • skewVec (R s)) i) 0 := fun i => (hw i).continuousAt
  have hv := mulVec_deriv_of_zero (M := fun s =>
      rod (-0.5) (1 / 12 + Real.arccos (cosOf (R s)) * Real.arccos (cosOf (R s)) / 720)
          ((1 + Real.arccos (cosOf (R s)) * Real.arccos (cosOf (R s)) / 6) • skewVec (R s))) hτ hτ0 (by
    have w0 := hW 0
    have w1 := hW 1
    have w2 := hW 2
    have hh : ∀ i j, ContinuousAt (fun s => hat3 ((1 + Real.arccos (cosOf (R s)) * Real.arccos (cosOf (R s)) / 6)
        • skewVec (R s)) i j) 0 := by
      intro i j
      fin_cases i <;> fin_cases j
      · exact continuousAt_const
      · exact w2.neg
      · exact w1
      · exact w2
      · exact continuousAt_const
      · exact w0.neg
      · exact w1.neg
      · exact w0
      · exact continuousAt_const
    intro i j
    simp only [rod, Matrix.add_apply, Matrix.smul_apply, smul_eq_mul, Matrix.mul_apply, Fin.sum_univ_three]
    have c00 := hh i j
    have a0 := hh i 0
    have a1 := hh i 1
    have a2 := hh i 2
    have b0 := hh 0 j
    have b1 := hh 1 j
    have b2 := hh 2 j
    exact (continuousAt_const.add (continuousAt_const.mul c00)).add
      ((by fun_prop : ContinuousAt (fun s => 1 / 12 + Real.arccos (cosOf (R s)) * Real.arccos (cosOf (R s)) / 720) 0).mul
        (((a0.mul b0).add (a1.mul b1)).add (a2.mul b2))))
  intro i
  rcases i with i | i
  · exact hw i
  · exact (hv i).congr_deriv (by simp [hs0, rod_at_zero, vec6])

/-- Derivative of the logarithm of the code along a curve starting at a pure translation. -/
theorem lnVee_deriv_trans {R : ℝ → Mat3} {τ : ℝ → Vec3} {w v : Vec3} (hR : MDeriv R (hat3 w) 0) (h0 : R 0 = 1)
    (hτ : VDeriv τ v 0) (hc : ∀ᶠ s in 𝓝 (0 : ℝ), cosOf (R s) ≤ 1 ∨ skewVec (R s) = 0) :
    VDeriv (fun s => (SE3.mk (homog (R s) (τ s) 1)).lnVee) (vec6 w (v - (0.5 : ℝ) • (hat3 w *ᵥ τ 0))) 0 := by
  have hcc : ContinuousAt (fun s => cosOf (R s)) 0 := by
    simp only [cosOf_eq]
    exact (((((hR 0 0).add (hR 1 1)).add (hR 2 2)).sub_const 1).div_const 2).continuousAt
  have hac : ContinuousAt (fun s => Real.arccos (cosOf (R s))) 0 :=
    Real.continuous_arccos.continuousAt.comp hcc
  have ha0 : Real.arccos (cosOf (R 0)) = 0 := by rw [h0, cosOf_one, Real.arccos_one]
  have hs := skewVec_deriv hR
  have hs0 : skewVec (R 0) = 0 := by rw [h0, skewVec_one]
  set W : ℝ → Vec3 := fun s => (1 + Real.arccos (cosOf (R s)) * Real.arccos (cosOf (R s)) / 6) • skewVec (R s) with hWdef
  have hw : VDeriv W w 0 := by
    intro i
    have := hasDerivAt_mul_of_zero (k := fun s => 1 + Real.arccos (cosOf (R s)) * Real.arccos (cosOf (R s)) / 6)
      (hs i) (congrFun hs0 i) (by fun_prop)
    exact this.congr_deriv (by simp [ha0])
  have hW0 : W 0 = 0 := by rw [hWdef]; simp [hs0]
  have hH : MDeriv (fun s => hat3 (W s)) (hat3 w) 0 := by
    have w0 := hw 0
    have w1 := hw 1
    have w2 := hw 2
    intro i j
    fin_cases i <;> fin_cases j
    · exact hasDerivAt_const _ _
    · exact w2.neg
    · exact w1
    · exact w2
    · exact hasDerivAt_const _ _
    · exact w0.neg
    · exact w1.neg
    · exact w0
    · exact hasDerivAt_const _ _
  have hHH : MDeriv (fun s => hat3 (W s) * hat3 (W s)) 0 0 := (hH.mul hH).congr (by simp [hW0, hat3_zero])
  have hM : MDeriv (fun s => rod (-0.5) (1 / 12 + Real.arccos (cosOf (R s)) * Real.arccos (cosOf (R s)) / 720) (W s))
      ((-0.5 : ℝ) • hat3 w) 0 := by
    intro i j
    simp only [rod, Matrix.add_apply, Matrix.smul_apply, smul_eq_mul]
    have h1 := hasDerivAt_mul_of_zero
      (k := fun s => 1 / 12 + Real.arccos (cosOf (R s)) * Real.arccos (cosOf (R s)) / 720) (hHH i j)
      (by simp [hW0, hat3_zero]) (by fun_prop)
    exact ((((hH i j).const_mul (-0.5)).const_add _).add h1).congr_deriv (by simp)
  have hv := hM.mulVec hτ
  refine VDeriv.congr_of_eventuallyEq ?_ (lnVee_eventually hR h0 hc τ)
  intro i
  rcases i with i | i
  · exact hw i
  · refine (hv i).congr_deriv ?_
    simp only [hW0, rod_at_zero, one_mulVec, smul_mulVec, Pi.add_apply, Pi.smul_apply, Pi.sub_apply, vec6,
      Sum.elim_inr, smul_eq_mul]
    ring

/-! ### Wrapped angles -/

/-- A wrapped angle has the derivative of the angle, except on the cut. -/
theorem wrapAngle_deriv {f : ℝ → ℝ} {f' t : ℝ} (hf : HasDerivAt f f' t) (hcut : wrapAngle (f t) ≠ -Real.pi) :
    HasDerivAt (fun s => wrapAngle (f s)) f' t := by
  obtain ⟨h1, h2, k, hk⟩ := wrapAngle_spec (f t)
  have hg : HasDerivAt (fun s => f s + k * (2 * Real.pi)) f' t := hf.add_const _
  have hlo : -Real.pi < f t + k * (2 * Real.pi) := by rw [← hk]; exact lt_of_le_of_ne h1 (Ne.symm hcut)
  have hhi : f t + k * (2 * Real.pi) < Real.pi := by rw [← hk]; exact h2
  refine hg.congr_of_eventuallyEq ?_
  filter_upwards [continuousAt_const.eventually_lt hg.continuousAt hlo,
    hg.continuousAt.eventually_lt continuousAt_const hhi] with s ha hb
  exact wrapAngle_eq_of ⟨ha.le, hb⟩ ⟨-k, by push_cast; ring⟩

theorem wrap2_deriv {f : ℝ → Vec3} {f' : Vec3} {t : ℝ} (hf : VDeriv f f' t) (hcut : wrap2 (f t) 2 ≠ -Real.pi) :
    VDeriv (fun s => wrap2 (f s)) f' t := by
  intro i
  fin_cases i
  · exact hf 0
  · exact hf 1
  · exact wrapAngle_deriv (hf 2) hcut

end Mrob
