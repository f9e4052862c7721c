import Verif.Lemmas.LnDeriv
import Verif.Lemmas.SE3Ln
import Verif.Lemmas.Local

/-!
# First order expansions of rotations and poses along a filter
-/

open Matrix Filter Topology Asymptotics

namespace Mrob

open Spec

attribute [local instance] Matrix.linftyOpNormedAddCommGroup Matrix.linftyOpNormedSpace Matrix.linftyOpNormedRing

theorem entry_le (A : Mat3) (i j : Fin 3) : ‖A i j‖ ≤ ‖A‖ := by
  have h1 : ‖A *ᵥ Pi.single j 1‖ ≤ ‖A‖ * ‖(Pi.single j 1 : Vec3)‖ := Matrix.linfty_opNorm_mulVec _ _
  have h2 : ‖(A *ᵥ Pi.single j 1) i‖ ≤ ‖A *ᵥ Pi.single j 1‖ := norm_le_pi_norm _ i
  have h3 : ‖(Pi.single j 1 : Vec3)‖ ≤ 1 := by
    rw [pi_norm_le_iff_of_nonneg zero_le_one]
    intro k
    by_cases h : k = j
    · subst h; simp
    · simp [h]
  rw [mulVec_single_one] at h2
  exact h2.trans ((mulVec_single_one A j ▸ h1).trans (mul_le_of_le_one_right (norm_nonneg _) h3))

theorem norm_le_entries {A : Mat3} {c : ℝ} (h : ∀ i j, ‖A i j‖ ≤ c) : ‖A‖ ≤ 3 * c := by
  have hc : 0 ≤ c := (norm_nonneg _).trans (h 0 0)
  rw [Matrix.linfty_opNorm_eq_opNorm]
  refine ContinuousLinearMap.opNorm_le_bound _ (by positivity) fun v => ?_
  rw [pi_norm_le_iff_of_nonneg (by positivity)]
  intro i
  change ‖∑ j, A i j * v j‖ ≤ _
  refine (norm_sum_le _ _).trans ?_
  have : ∀ j ∈ Finset.univ, ‖A i j * v j‖ ≤ c * ‖v‖ := fun j _ => by
    rw [norm_mul]; exact mul_le_mul (h i j) (norm_le_pi_norm _ j) (norm_nonneg _) hc
  refine (Finset.sum_le_sum this).trans ?_
  simp; linarith

variable {T : Type} {F : Filter T} {g : T → ℝ}

theorem mat_bigO {A : T → Mat3} : A =O[F] g ↔ ∀ i j, (fun t => A t i j) =O[F] g := by
  constructor
  · intro h i j
    exact (IsBigO.of_bound 1 (Eventually.of_forall fun t => by rw [one_mul]; exact entry_le _ i j)).trans h
  · intro h
    have : A =O[F] fun t => (fun i j => A t i j : Fin 3 → Fin 3 → ℝ) := by
      refine IsBigO.of_bound 3 (Eventually.of_forall fun t => norm_le_entries fun i j => ?_)
      exact (norm_le_pi_norm (A t i) j).trans (norm_le_pi_norm (fun i j => A t i j : Fin 3 → Fin 3 → ℝ) i)
    exact this.trans (isBigO_pi.mpr fun i => isBigO_pi.mpr fun j => h i j)

theorem mat_littleO {A : T → Mat3} : A =o[F] g ↔ ∀ i j, (fun t => A t i j) =o[F] g := by
  constructor
  · intro h i j
    exact (IsBigO.of_bound 1 (Eventually.of_forall fun t => by rw [one_mul]; exact entry_le _ i j)).trans_isLittleO h
  · intro h
    have : A =O[F] fun t => (fun i j => A t i j : Fin 3 → Fin 3 → ℝ) := by
      refine IsBigO.of_bound 3 (Eventually.of_forall fun t => norm_le_entries fun i j => ?_)
      exact (norm_le_pi_norm (A t i) j).trans (norm_le_pi_norm (fun i j => A t i j : Fin 3 → Fin 3 → ℝ) i)
    exact this.trans_isLittleO (isLittleO_pi.mpr fun i => isLittleO_pi.mpr fun j => h i j)

theorem transpose_bigO {A : T → Mat3} (h : A =O[F] g) : (fun t => (A t)ᵀ) =O[F] g :=
  mat_bigO.mpr fun i j => mat_bigO.mp h j i

theorem transpose_littleO {A : T → Mat3} (h : A =o[F] g) : (fun t => (A t)ᵀ) =o[F] g :=
  mat_littleO.mpr fun i j => mat_littleO.mp h j i

theorem hat3_bigO {v : T → Vec3} (h : v =O[F] g) : (fun t => hat3 (v t)) =O[F] g := by
  have h' := isBigO_pi.mp h
  refine mat_bigO.mpr fun i j => ?_
  fin_cases i <;> fin_cases j <;>
    first
    | exact (isBigO_zero g F : (fun _ => (0 : ℝ)) =O[F] g)
    | exact h' _
    | exact (h' _).neg_left

theorem hat3_littleO {v : T → Vec3} (h : v =o[F] g) : (fun t => hat3 (v t)) =o[F] g := by
  have h' := isLittleO_pi.mp h
  refine mat_littleO.mpr fun i j => ?_
  fin_cases i <;> fin_cases j <;>
    first
    | exact (isLittleO_zero g F : (fun _ => (0 : ℝ)) =o[F] g)
    | exact h' _
    | exact (h' _).neg_left

theorem skewVec_bigO {A : T → Mat3} (h : A =O[F] g) : (fun t => skewVec (A t)) =O[F] g := by
  have h' := mat_bigO.mp h
  refine isBigO_pi.mpr fun i => ?_
  simp only [skewVec, div_eq_inv_mul]
  fin_cases i <;> exact ((h' _ _).sub (h' _ _)).const_mul_left _

theorem skewVec_littleO {A : T → Mat3} (h : A =o[F] g) : (fun t => skewVec (A t)) =o[F] g := by
  have h' := mat_littleO.mp h
  refine isLittleO_pi.mpr fun i => ?_
  simp only [skewVec, div_eq_inv_mul]
  fin_cases i <;> exact ((h' _ _).sub (h' _ _)).const_mul_left _

theorem mulVec_bigO {A : T → Mat3} {v : T → Vec3} {g' : T → ℝ} (h : A =O[F] g) (hv : v =O[F] g') :
    (fun t => A t *ᵥ v t) =O[F] fun t => g t * g' t := by
  refine (IsBigO.of_bound 1 (Eventually.of_forall fun t => ?_)).trans (h.norm_left.mul hv.norm_left)
  rw [one_mul, Real.norm_of_nonneg (by positivity)]
  exact Matrix.linfty_opNorm_mulVec _ _

theorem mulVec_littleO {A : T → Mat3} {v : T → Vec3} {g' : T → ℝ} (h : A =o[F] g) (hv : v =O[F] g') :
    (fun t => A t *ᵥ v t) =o[F] fun t => g t * g' t := by
  refine (IsBigO.of_bound 1 (Eventually.of_forall fun t => ?_)).trans_isLittleO (h.norm_left.mul_isBigO hv.norm_left)
  rw [one_mul, Real.norm_of_nonneg (by positivity)]
  exact Matrix.linfty_opNorm_mulVec _ _

theorem mulVec_littleO' {A : T → Mat3} {v : T → Vec3} {g' : T → ℝ} (h : A =O[F] g) (hv : v =o[F] g') :
    (fun t => A t *ᵥ v t) =o[F] fun t => g t * g' t := by
  refine (IsBigO.of_bound 1 (Eventually.of_forall fun t => ?_)).trans_isLittleO (h.norm_left.mul_isLittleO hv.norm_left)
  rw [one_mul, Real.norm_of_nonneg (by positivity)]
  exact Matrix.linfty_opNorm_mulVec _ _

/-- Almost rotations close to the identity. -/
structure Turned (F : Filter T) (g : T → ℝ) (Q : T → Mat3) : Prop where
  lim : Tendsto Q F (𝓝 1)
  skew : (fun t => skewVec (Q t)) =O[F] g
  left : (fun t => Q t * (Q t)ᵀ - 1) =o[F] fun t => g t ^ 2
  right : (fun t => (Q t)ᵀ * Q t - 1) =o[F] fun t => g t ^ 2

theorem sq_littleO (hg : Tendsto g F (𝓝 0)) : (fun t => g t ^ 2) =o[F] g := by
  have h : (fun t => g t) =o[F] fun _ => (1 : ℝ) := (isLittleO_one_iff ℝ).mpr hg
  have := h.mul_isBigO (isBigO_refl g F)
  simpa [sq] using this

theorem hat3_skewVec (R : Mat3) : hat3 (skewVec R) = (1 / 2 : ℝ) • (R - Rᵀ) := by
  rw [sub_transpose_eq, smul_smul]; norm_num

namespace Turned

variable {Q : T → Mat3} (h : Turned F g Q) (hg : Tendsto g F (𝓝 0))
include h hg

/-- The symmetric part. -/
theorem first : (fun t => Q t - 1 - hat3 (skewVec (Q t))) =o[F] g := by
  set A : T → Mat3 := fun t => hat3 (skewVec (Q t)) with hA
  set S : T → Mat3 := fun t => Q t - 1 - A t with hS
  set N : T → Mat3 := fun t => Q t * (Q t)ᵀ - 1 with hN
  have hAO : A =O[F] g := hat3_bigO h.skew
  have hA0 : Tendsto A F (𝓝 0) := hAO.trans_tendsto hg
  have hS0 : Tendsto S F (𝓝 0) := by
    have := (h.lim.sub_const 1).sub hA0
    simpa using this
  have key : ∀ t, (2 : ℝ) • S t = N t - S t * S t + A t * A t + (S t * A t - A t * S t) := by
    intro t
    have e1 : A t = (1 / 2 : ℝ) • (Q t - (Q t)ᵀ) := hat3_skewVec _
    have e2 : Q t = 1 + S t + A t := by rw [hS]; dsimp only; abel
    have e3 : (Q t)ᵀ = 1 + S t - A t := by
      have : (Q t)ᵀ = Q t - (2 : ℝ) • A t := by rw [e1, smul_smul]; norm_num
      rw [this, two_smul]
      nth_rw 1 [e2]
      abel
    have e4 : N t = (1 + S t + A t) * (1 + S t - A t) - 1 := by
      rw [hN]; dsimp only; rw [e3]; nth_rw 1 [e2]
    rw [e4, two_smul]
    noncomm_ring
  have hb : ∀ᶠ t in F, ‖S t‖ ≤ ‖N t‖ + ‖A t‖ ^ 2 := by
    have h1 : ∀ᶠ t in F, ‖S t‖ < 1 / 4 := by
      have := hS0.norm
      rw [norm_zero] at this
      exact this.eventually_lt_const (by norm_num)
    have h2 : ∀ᶠ t in F, ‖A t‖ < 1 / 8 := by
      have := hA0.norm
      rw [norm_zero] at this
      exact this.eventually_lt_const (by norm_num)
    filter_upwards [h1, h2] with t h1 h2
    have e := congrArg norm (key t)
    rw [norm_smul, Real.norm_of_nonneg (by norm_num : (0 : ℝ) ≤ 2)] at e
    have b1 : ‖N t - S t * S t + A t * A t + (S t * A t - A t * S t)‖ ≤
        ‖N t‖ + ‖S t‖ * ‖S t‖ + ‖A t‖ * ‖A t‖ + (‖S t‖ * ‖A t‖ + ‖A t‖ * ‖S t‖) := by
      refine (norm_add_le _ _).trans (add_le_add ((norm_add_le _ _).trans (add_le_add ((norm_sub_le _ _).trans
        (add_le_add (le_refl _) (norm_mul_le _ _))) (norm_mul_le _ _))) ((norm_sub_le _ _).trans
        (add_le_add (norm_mul_le _ _) (norm_mul_le _ _))))
    have n1 := norm_nonneg (S t)
    have n2 := norm_nonneg (A t)
    nlinarith
  have h2 : (fun t => ‖N t‖ + ‖A t‖ ^ 2) =o[F] g := by
    refine ((h.left.trans (sq_littleO hg)).norm_left).add ?_
    exact (hAO.norm_left.pow 2).trans_isLittleO (sq_littleO hg)
  refine IsBigO.trans_isLittleO (IsBigO.of_bound 1 ?_) h2
  filter_upwards [hb] with t ht
  rw [one_mul]
  exact ht.trans (le_abs_self _)

theorem sub_one : (fun t => Q t - 1) =O[F] g := by
  have := (h.first hg).isBigO.add (hat3_bigO h.skew)
  simpa using this

omit h hg in
theorem bounded_of_lim {A : T → Mat3} {B : Mat3} (h : Tendsto A F (𝓝 B)) : A =O[F] fun _ => (1 : ℝ) := h.isBigO_one ℝ

omit h hg in
theorem cosOf_lim {Q : T → Mat3} {B : Mat3} (h : Tendsto Q F (𝓝 B)) : Tendsto (fun t => cosOf (Q t)) F (𝓝 (cosOf B)) := by
  simp only [cosOf]
  exact ((Continuous.matrix_trace continuous_id).continuousAt.tendsto.comp h |>.sub_const 1).mul_const _

/-- Where the argument of the arc cosine exceeds one, the skew part does not matter. -/
theorem skew_of_nan : ∃ r : T → Vec3, r =o[F] g ∧ ∀ᶠ t in F, 1 < cosOf (Q t) → r t = skewVec (Q t) := by
  classical
  refine ⟨fun t => if 1 < cosOf (Q t) then skewVec (Q t) else 0, ?_, Eventually.of_forall fun t ht => if_pos ht⟩
  have hN := h.left
  -- the square of the skew part is bounded by the trace of the error
  have key : ∀ t, 1 < cosOf (Q t) → ‖skewVec (Q t)‖ ^ 2 ≤ 9 * ‖Q t * (Q t)ᵀ - 1‖ := by
    intro t ht
    set R := Q t with hR
    have e0 := entry_le (R * Rᵀ - 1) 0 0
    have e1 := entry_le (R * Rᵀ - 1) 1 1
    have e2 := entry_le (R * Rᵀ - 1) 2 2
    have b0 := (le_abs_self _).trans e0
    have b1 := (le_abs_self _).trans e1
    have b2 := (le_abs_self _).trans e2
    simp only [Matrix.sub_apply, Matrix.mul_apply, transpose_apply, Fin.sum_univ_three, Matrix.one_apply_eq] at b0 b1 b2
    rw [cosOf_eq] at ht
    have hs : ∀ i, ‖skewVec R i‖ ^ 2 ≤ 9 * ‖R * Rᵀ - 1‖ := by
      intro i
      rw [Real.norm_eq_abs, sq_abs]
      fin_cases i
      · change ((R 2 1 - R 1 2) / 2) ^ 2 ≤ _
        nlinarith [sq_nonneg (R 0 0 - 1), sq_nonneg (R 1 1 - 1), sq_nonneg (R 2 2 - 1), sq_nonneg (R 2 1 + R 1 2),
          sq_nonneg (R 0 1), sq_nonneg (R 1 0), sq_nonneg (R 0 2), sq_nonneg (R 2 0), norm_nonneg (R * Rᵀ - 1)]
      · change ((R 0 2 - R 2 0) / 2) ^ 2 ≤ _
        nlinarith [sq_nonneg (R 0 0 - 1), sq_nonneg (R 1 1 - 1), sq_nonneg (R 2 2 - 1), sq_nonneg (R 0 2 + R 2 0),
          sq_nonneg (R 0 1), sq_nonneg (R 1 0), sq_nonneg (R 1 2), sq_nonneg (R 2 1), norm_nonneg (R * Rᵀ - 1)]
      · change ((R 1 0 - R 0 1) / 2) ^ 2 ≤ _
        nlinarith [sq_nonneg (R 0 0 - 1), sq_nonneg (R 1 1 - 1), sq_nonneg (R 2 2 - 1), sq_nonneg (R 1 0 + R 0 1),
          sq_nonneg (R 2 1), sq_nonneg (R 1 2), sq_nonneg (R 0 2), sq_nonneg (R 2 0), norm_nonneg (R * Rᵀ - 1)]
    have : ‖skewVec R‖ ≤ Real.sqrt (9 * ‖R * Rᵀ - 1‖) := by
      rw [pi_norm_le_iff_of_nonneg (Real.sqrt_nonneg _)]
      intro i
      exact Real.le_sqrt_of_sq_le (hs i)
    calc ‖skewVec R‖ ^ 2 ≤ Real.sqrt (9 * ‖R * Rᵀ - 1‖) ^ 2 := by gcongr
      _ = _ := Real.sq_sqrt (by positivity)
  rw [isLittleO_iff]
  intro c hc
  filter_upwards [(isLittleO_iff.mp hN) (show 0 < c ^ 2 / 9 by positivity)] with t ht
  split_ifs with h1
  · have h2 := key t h1
    rw [norm_pow] at ht
    have h3 : ‖skewVec (Q t)‖ ^ 2 ≤ (c * ‖g t‖) ^ 2 := by
      rw [mul_pow]; linarith
    exact le_of_sq_le_sq h3 (by positivity)
  · rw [norm_zero]; positivity

/-- The logarithm of the code. -/
theorem ln : (fun t => vee3 (so3Ln (Q t)).1 - skewVec (Q t)) =o[F] g ∧ Tendsto (fun t => (so3Ln (Q t)).2) F (𝓝 0) := by
  have hc := cosOf_lim h.lim
  rw [cosOf_one] at hc
  have ha : Tendsto (fun t => Real.arccos (cosOf (Q t))) F (𝓝 0) := by
    have := Real.continuous_arccos.continuousAt.tendsto.comp hc
    rw [Real.arccos_one] at this
    exact this
  obtain ⟨r, hr, hre⟩ := h.skew_of_nan hg
  have hpos : ∀ᶠ t in F, 0 < cosOf (Q t) := hc.eventually_const_lt (by norm_num)
  have hsm : ∀ᶠ t in F, Real.arccos (cosOf (Q t)) < 1e-5 := ha.eventually_lt_const (by norm_num)
  have hform : ∀ᶠ t in F, (cosOf (Q t) ≤ 1 ∧ so3Ln (Q t) = (hat3 ((1 + Real.arccos (cosOf (Q t)) * Real.arccos (cosOf (Q t)) / 6) •
      skewVec (Q t)), Real.arccos (cosOf (Q t)))) ∨ (skewVec (Q t) = r t ∧ so3Ln (Q t) = (0, 0)) := by
    filter_upwards [hpos, hsm, hre] with t h1 h2 h3
    rw [so3Ln_unfold, if_pos (by linarith)]
    by_cases hle : cosOf (Q t) ≤ 1
    · refine Or.inl ⟨hle, ?_⟩
      rw [cacos, if_pos ⟨by linarith, hle⟩, lnSmall, if_pos h2, sub_transpose_eq, smul_smul, hat3_smul]
      congr 2; ring
    · refine Or.inr ⟨(h3 (lt_of_not_ge hle)).symm, ?_⟩
      rw [cacos, if_neg fun h => hle h.2, lnSmall, zero_smul]
  constructor
  · have hb : (fun t => (Real.arccos (cosOf (Q t)) * Real.arccos (cosOf (Q t)) / 6) • skewVec (Q t)) =o[F] g := by
      have h1 : (fun t => Real.arccos (cosOf (Q t)) * Real.arccos (cosOf (Q t)) / 6) =o[F] fun _ => (1 : ℝ) := by
        rw [isLittleO_one_iff]
        have := (ha.mul ha).div_const 6
        simpa using this
      have := h1.smul_isBigO h.skew
      simpa using this
    rw [isLittleO_iff] at hb hr ⊢
    intro c hc
    filter_upwards [hform, hb hc, hr hc] with t h1 h2 h3
    rcases h1 with ⟨-, h1⟩ | ⟨h4, h1⟩
    · rw [h1, vee3_hat3]
      have : (1 + Real.arccos (cosOf (Q t)) * Real.arccos (cosOf (Q t)) / 6) • skewVec (Q t) - skewVec (Q t) =
          (Real.arccos (cosOf (Q t)) * Real.arccos (cosOf (Q t)) / 6) • skewVec (Q t) := by module
      rw [this]; exact h2
    · rw [h1, h4, vee3_zero, zero_sub, norm_neg]; exact h3
  · rw [Metric.tendsto_nhds] at ha ⊢
    intro ε hε
    filter_upwards [hform, ha ε hε] with t h1 h2
    rcases h1 with ⟨-, h1⟩ | ⟨-, h1⟩
    · rw [h1]; exact h2
    · rw [h1]; simpa using hε

end Turned

theorem rod_lim {a b : T → ℝ} {w : T → Vec3} {a0 b0 : ℝ} {w0 : Vec3} (ha : Tendsto a F (𝓝 a0)) (hb : Tendsto b F (𝓝 b0))
    (hw : Tendsto w F (𝓝 w0)) : Tendsto (fun t => rod (a t) (b t) (w t)) F (𝓝 (rod a0 b0 w0)) := by
  have hh : Tendsto (fun t => hat3 (w t)) F (𝓝 (hat3 w0)) := by
    have hc : Continuous fun v : Vec3 => hat3 v := by
      refine continuous_matrix fun i j => ?_
      fin_cases i <;> fin_cases j <;> simp [hat3] <;> fun_prop
    exact hc.continuousAt.tendsto.comp hw
  exact (tendsto_const_nhds.add (ha.smul hh)).add (hb.smul (hh.mul hh))

/-- The logarithm of an almost rigid matrix close to the identity. -/
theorem Turned.lnVee {Q : T → Mat3} (h : Turned F g Q) (hg : Tendsto g F (𝓝 0)) {τ : T → Vec3} (hτ : τ =O[F] g) (i : I6) :
    (fun t => (SE3.mk (homog (Q t) (τ t) 1)).lnVee i - vec6 (skewVec (Q t)) (τ t) i) =o[F] g := by
  obtain ⟨h1, h2⟩ := h.ln hg
  have hw : (fun t => vee3 (so3Ln (Q t)).1) =O[F] g := by
    have := h1.isBigO.add h.skew
    simpa using this
  have hw0 : Tendsto (fun t => vee3 (so3Ln (Q t)).1) F (𝓝 0) := hw.trans_tendsto hg
  have hk : Tendsto (fun t => lnK1 (so3Ln (Q t)).2) F (𝓝 (1 / 12)) := by
    have e : ∀ᶠ t in F, lnK1 (so3Ln (Q t)).2 = 1 / 12 + (so3Ln (Q t)).2 * (so3Ln (Q t)).2 / 720 := by
      filter_upwards [h2.eventually_lt_const (show (0 : ℝ) < 5e-3 by norm_num)] with t ht
      rw [lnK1, if_neg (not_lt.mpr ht.le)]
    have := (tendsto_const_nhds (x := (1 / 12 : ℝ))).add ((h2.mul h2).div_const 720)
    rw [mul_zero, zero_div, add_zero] at this
    exact this.congr' (e.mono fun t ht => ht.symm)
  have hV : Tendsto (fun t => vInv (so3Ln (Q t)).2 (vee3 (so3Ln (Q t)).1)) F (𝓝 1) := by
    have := rod_lim (F := F) (tendsto_const_nhds (x := (-0.5 : ℝ))) hk hw0
    rw [rod_at_zero] at this
    exact this
  have hform : ∀ t, (SE3.mk (homog (Q t) (τ t) 1)).lnVee = vec6 (vee3 (so3Ln (Q t)).1)
      (vInv (so3Ln (Q t)).2 (vee3 (so3Ln (Q t)).1) *ᵥ τ t) := by
    intro t
    rw [SE3.lnVee, SE3.ln, se3Ln_homog, vee6_homog, vee3_hat3]
    rfl
  simp only [hform]
  rcases i with i | i
  · exact isLittleO_pi.mp h1 i
  · have hz : (fun t => vInv (so3Ln (Q t)).2 (vee3 (so3Ln (Q t)).1) - 1) =o[F] fun _ => (1 : ℝ) := by
      rw [isLittleO_one_iff]
      have := hV.sub_const 1
      rw [sub_self] at this
      exact this
    have h3 := mulVec_littleO hz hτ
    simp only [one_mul] at h3
    refine (isLittleO_pi.mp h3 i).congr_left fun t => ?_
    rw [sub_mulVec, one_mulVec]; rfl

end Mrob
