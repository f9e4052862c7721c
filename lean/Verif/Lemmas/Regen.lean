import Verif.Lemmas.Calm
import Verif.Props.SO3Ln
import Verif.Spec.ConvergenceSpatial

/-!
# `regenerate` near a pose
-/

open Matrix Filter Topology Asymptotics

namespace Mrob

open Spec

attribute [local instance] Matrix.linftyOpNormedAddCommGroup Matrix.linftyOpNormedSpace Matrix.linftyOpNormedRing

variable {T : Type} {F : Filter T} {δ : T → ℝ}

/-- Matrices `regenerate` can leave behind near `A`: rotations, or close to the identity the result of the Taylor branch of `exp`. -/
def Fine (A R : Mat3) : Prop :=
  IsRotation R ∨ (A = 1 ∧ ‖R * Rᵀ - 1‖ ≤ ‖skewVec R‖ ^ 3 ∧ ‖Rᵀ * R - 1‖ ≤ ‖skewVec R‖ ^ 3)

/-- What `regenerate` makes of rotation matrices close to `R₀`. -/
structure Kept (F : Filter T) (δ : T → ℝ) (R : T → Mat3) (R₀ : Mat3) : Prop where
  rot : Calm F δ (fun t => (SO3.ofVec (SO3.mk (R t)).lnVee).R) R₀
  trans : Calm F δ (fun t => vMat (SO3.mk (R t)).lnVee * vInv (so3Ln (R t)).2 (SO3.mk (R t)).lnVee) 1
  fine : ∀ᶠ t in F, Fine R₀ (SO3.ofVec (SO3.mk (R t)).lnVee).R

theorem Kept.bot (R : T → Mat3) (R₀ : Mat3) : Kept ⊥ δ R R₀ := ⟨isBigO_bot _ _, isBigO_bot _ _, eventually_bot⟩

theorem Kept.split {R : T → Mat3} {R₀ : Mat3} (s : Set T) (h1 : Kept (F ⊓ 𝓟 s) δ R R₀) (h2 : Kept (F ⊓ 𝓟 sᶜ) δ R R₀) : Kept F δ R R₀ := by
  have e : F ⊓ 𝓟 s ⊔ F ⊓ 𝓟 sᶜ = F := by
    rw [← inf_sup_left, sup_principal, Set.union_compl_self, principal_univ, inf_top_eq]
  have k1 := IsBigO.sup h1.rot h2.rot
  have k2 := IsBigO.sup h1.trans h2.trans
  have k3 := eventually_sup.mpr ⟨h1.fine, h2.fine⟩
  rw [e] at k1 k2 k3
  exact ⟨k1, k2, k3⟩

theorem Kept.of_ln {R : T → Mat3} {R₀ : Mat3} {w0 : Vec3} (hw : Calm F δ (fun t => (SO3.mk (R t)).lnVee) w0)
    (ho : Calm F δ (fun t => (so3Ln (R t)).2) (vnorm w0)) (h0 : 5e-3 < vnorm w0) (hpi : vnorm w0 ≤ Real.pi)
    (he : (SO3.ofVec w0).R = R₀) (hδ : Tendsto δ F (𝓝 0)) : Kept F δ R R₀ := by
  constructor
  · rw [← he]; exact calm_exp hw h0 hδ
  · rw [← (vMat_mul_vInv h0 hpi).1]
    exact (calm_vMat hw h0 hδ).mul (calm_vInv hw ho h0 hpi hδ) hδ
  · have : ∀ᶠ t in F, 5e-3 < vnorm (SO3.mk (R t)).lnVee := (vnorm_lim (hw.lim hδ)).eventually_const_lt h0
    filter_upwards [this] with t ht
    exact Or.inl (ofVec_isRotation_of_ge (by linarith))

/-- Column `k` of the symmetric part less `d`. -/
noncomputable def symCol (k : Fin 3) (d : ℝ) (R : Mat3) : Vec3 := fun i => if i = k then R k k - d else (R i k + R k i) / 2

theorem symCol_eq (k : Fin 3) (R : Mat3) : symCol k (cosOf R) R = fun i => symS R i k := by
  funext i
  simp only [symCol, symS, of_apply]
  split_ifs with h
  · subst h; ring
  · ring

open Classical in
theorem lnColumn_symCol (R : Mat3) (d : ℝ) : lnColumn R d = symCol (pivot R) d R := by
  rw [lnColumn, pivot]
  split_ifs <;> funext i <;> fin_cases i <;> simp [symCol] <;> ring

theorem Calm.symCol {R : T → Mat3} {R₀ : Mat3} (h : Calm F δ R R₀) (k : Fin 3) {d : T → ℝ} {d0 : ℝ} (hd : Calm F δ d d0) :
    Calm F δ (fun t => symCol k (d t) (R t)) (Mrob.symCol k d0 R₀) := by
  refine Calm.vec fun i => ?_
  simp only [Mrob.symCol]
  split_ifs
  · exact (h.entry k k).sub hd
  · have := IsBigO.const_mul_left ((h.entry i k).add (h.entry k i)) (1 / 2)
    refine this.congr_left fun t => ?_
    dsimp only; ring

variable {R : T → Mat3} {R₀ : Mat3} (h : Calm F δ R R₀) (h0 : IsRotation R₀) (hδ : Tendsto δ F (𝓝 0))

include h hδ in
theorem arccos_calm (hlo : -1 < cosOf R₀) (hhi : cosOf R₀ < 1) :
    Calm F δ (fun t => Real.arccos (cosOf (R t))) (Real.arccos (cosOf R₀)) :=
  h.cosOf.comp (φ := Real.arccos) (Real.differentiableAt_arccos.mpr ⟨hlo.ne', hhi.ne⟩) hδ

include h hδ in
theorem cacos_near (hlo : -1 < cosOf R₀) (hhi : cosOf R₀ < 1) : ∀ᶠ t in F, cacos (cosOf (R t)) = some (Real.arccos (cosOf (R t))) := by
  filter_upwards [(h.cosOf.lim hδ).eventually_const_lt hlo, (h.cosOf.lim hδ).eventually_lt_const hhi] with t h1 h2
  rw [cacos, if_pos ⟨h1.le, h2.le⟩]

theorem angle_data {R₀ : Mat3} (h0 : IsRotation R₀) (hlo : 5e-3 < angle R₀) (hpi : angle R₀ < Real.pi) :
    -1 < cosOf R₀ ∧ cosOf R₀ < 1 ∧ 0 < Real.sin (angle R₀) ∧ vnorm ((angle R₀ / Real.sin (angle R₀)) • skewVec R₀) = angle R₀ := by
  have hpos : 0 < angle R₀ := lt_trans (by norm_num) hlo
  have hs : 0 < Real.sin (angle R₀) := Real.sin_pos_of_pos_of_lt_pi hpos hpi
  refine ⟨?_, ?_, hs, ?_⟩
  · rcases eq_or_lt_of_le (neg_one_le_cosOf h0) with h | h
    · rw [angle_eq, ← h, Real.arccos_neg_one] at hpi; exact absurd hpi (lt_irrefl _)
    · exact h
  · rcases eq_or_lt_of_le (cosOf_le_one h0) with h | h
    · rw [angle_eq, h, Real.arccos_one] at hpos; exact absurd hpos (lt_irrefl _)
    · exact h
  · rw [vnorm_smul, vnorm_skewVec h0, ← angle_eq, abs_of_pos (div_pos hpos hs), div_mul_cancel₀ _ hs.ne']

theorem exp_of_axis {R₀ : Mat3} (h0 : IsRotation R₀) (hlo : 5e-3 < angle R₀) (hpi : angle R₀ < Real.pi) :
    (SO3.ofVec ((angle R₀ / Real.sin (angle R₀)) • skewVec R₀)).R = R₀ := by
  obtain ⟨h1, h2, h3, h4⟩ := angle_data h0 hlo hpi
  have hpos : 0 < angle R₀ := lt_trans (by norm_num) hlo
  have e : cosOf R₀ = Real.cos (angle R₀) := by rw [angle_eq, cos_arccos_cosOf h0]
  rw [ofVec_R, expC1_of_ge (by rw [h4]; linarith), expC2_of_ge (by rw [h4]; linarith), ← vnorm_sq, h4]
  conv_rhs => rw [rot_eq_rod h0 h1.ne']
  have hs := Real.sin_sq_add_cos_sq (angle R₀)
  have hne : 1 + Real.cos (angle R₀) ≠ 0 := by rw [← e]; linarith
  have e1 : Real.sin (angle R₀) / angle R₀ * (angle R₀ / Real.sin (angle R₀)) = 1 := by field_simp
  have e2 : (1 - Real.cos (angle R₀)) / angle R₀ ^ 2 * (angle R₀ / Real.sin (angle R₀) * (angle R₀ / Real.sin (angle R₀))) =
      1 / (1 + Real.cos (angle R₀)) := by
    field_simp
    linear_combination -hs
  rw [rod, rod, hat3_smul, smul_smul, smul_mul_smul_comm, smul_smul, e, e1, e2]

include h h0 hδ in
/-- The first branch of the logarithm. -/
theorem kept_small (hlo : 5e-3 < angle R₀) (hpi : angle R₀ < Real.pi) (hc : ∀ᶠ t in F, 0 < cosOf (R t)) : Kept F δ R R₀ := by
  obtain ⟨h1, h2, h3, h4⟩ := angle_data h0 hlo hpi
  have ha := arccos_calm h hδ h1 h2
  rw [← angle_eq] at ha
  have hform : ∀ᶠ t in F, so3Ln (R t) = (hat3 ((Real.arccos (cosOf (R t)) / Real.sin (Real.arccos (cosOf (R t)))) • skewVec (R t)),
      Real.arccos (cosOf (R t))) := by
    filter_upwards [hc, cacos_near h hδ h1 h2, (ha.lim hδ).eventually_const_lt hlo] with t k1 k2 k3
    rw [so3Ln_unfold, if_pos (by linarith), k2, lnSmall, if_neg (by rw [not_lt]; linarith), sub_transpose_eq, smul_smul, hat3_smul]
    congr 2; ring
  have hw := ((ha.div (ha.comp (φ := Real.sin) Real.differentiable_sin.differentiableAt hδ) h3.ne' hδ).smul h.skew hδ)
  refine Kept.of_ln (w0 := (angle R₀ / Real.sin (angle R₀)) • skewVec R₀) ?_ ?_ (by rw [h4]; exact hlo) (by rw [h4]; exact hpi.le)
    (exp_of_axis h0 hlo hpi) hδ
  · refine hw.congr ?_
    filter_upwards [hform] with t ht
    rw [SO3.lnVee, SO3.ln, ht, vee3_hat3]
  · rw [h4]
    refine ha.congr ?_
    filter_upwards [hform] with t ht
    rw [ht]

/-- The angle of the second branch. -/
theorem largeAngle_calm (h : Calm F δ R R₀) (h0 : IsRotation R₀) (hδ : Tendsto δ F (𝓝 0)) (hlo : 5e-3 < angle R₀)
    (hhi : angle R₀ < Real.pi - 6e-8 ∨ angle R₀ = Real.pi) :
    Calm F δ (fun t => lnLargeAngle (cacos (cosOf (R t)))) (angle R₀) := by
  rcases hhi with hhi | hhi
  · have hpi : angle R₀ < Real.pi := by linarith
    obtain ⟨h1, h2, h3, h4⟩ := angle_data h0 hlo hpi
    have ha := arccos_calm h hδ h1 h2
    rw [← angle_eq] at ha
    refine ha.congr ?_
    filter_upwards [cacos_near h hδ h1 h2, (ha.lim hδ).eventually_lt_const hhi] with t k1 k2
    rw [k1, lnLargeAngle, if_neg (by linarith)]
  · have hc : cosOf R₀ = -1 := by
      rw [← cos_arccos_cosOf h0, ← angle_eq, hhi, Real.cos_pi]
    have hcl := h.cosOf.lim hδ
    have hal : Tendsto (fun t => Real.arccos (cosOf (R t))) F (𝓝 Real.pi) := by
      have := Real.continuous_arccos.continuousAt.tendsto.comp hcl
      rw [hc, Real.arccos_neg_one] at this
      exact this
    rw [hhi]
    refine (Calm.const Real.pi).congr ?_
    filter_upwards [hal.eventually_const_lt (show Real.pi - 6e-8 < Real.pi by norm_num)] with t k1
    rw [cacos]
    split_ifs
    · rw [lnLargeAngle, if_pos (by linarith)]
    · rfl

/-- The columns the second branch may choose near `R₀`. -/
theorem column_ne (h : Calm F δ R R₀) (h0 : IsRotation R₀) (hδ : Tendsto δ F (𝓝 0)) (hlo : cosOf R₀ ≠ 1) (hb : ¬ BadAxis R₀) :
    ∀ᶠ t in F, symS R₀ (pivot (R t)) (pivot (R t)) ≠ 0 := by
  have hlt : cosOf R₀ < 1 := lt_of_le_of_ne (cosOf_le_one h0) hlo
  have d0 := symS_diag_nonneg h0 0
  have d1 := symS_diag_nonneg h0 1
  have d2 := symS_diag_nonneg h0 2
  have ht := symS_trace R₀
  have e : ∀ i, symS R₀ i i = R₀ i i - cosOf R₀ := by intro i; simp [symS]
  rw [e] at d0 d1 d2
  simp only [e] at ht ⊢
  have hl : ∀ i, Tendsto (fun t => R t i i) F (𝓝 (R₀ i i)) := fun i => (h.entry i i).lim hδ
  -- a small entry on the diagonal stays below a large one
  have key : ∀ i j, ∀ᶠ t in F, R₀ i i < R₀ j j → R t i i < R t j j := by
    intro i j
    by_cases hij : R₀ i i < R₀ j j
    · filter_upwards [(hl i).eventually_lt (hl j) hij] with t ht _ using ht
    · exact Eventually.of_forall fun t ht => absurd ht hij
  rw [BadAxis] at hb
  rw [cosOf_eq] at *
  filter_upwards [key 0 1, key 0 2, key 1 0, key 1 2, key 2 0, key 2 1] with t k01 k02 k10 k12 k20 k21
  rw [pivot]
  split_ifs with c1 c2
  · intro hz
    by_cases h1 : R₀ 0 0 < R₀ 1 1
    · linarith [k01 h1, c1.1]
    · by_cases h2 : R₀ 0 0 < R₀ 2 2
      · linarith [k02 h2, c1.2]
      · linarith
  · intro hz
    by_cases h1 : R₀ 1 1 < R₀ 0 0
    · linarith [k10 h1, c2.1]
    · by_cases h2 : R₀ 1 1 < R₀ 2 2
      · linarith [k12 h2, c2.2]
      · linarith
  · intro hz
    by_cases h1 : R₀ 0 0 = R₀ 1 1
    · exact hb ⟨h1, by linarith⟩
    · rcases lt_or_gt_of_ne h1 with h1 | h1
      · by_cases h2 : R₀ 2 2 < R₀ 1 1
        · exact c2 ⟨k01 h1, k21 h2⟩
        · linarith
      · by_cases h2 : R₀ 2 2 < R₀ 0 0
        · exact c1 ⟨k10 h1, k20 h2⟩
        · linarith

/-- Half turns from a column. -/
theorem exp_of_column {R₀ : Mat3} (h0 : IsRotation R₀) (hc : cosOf R₀ = -1) {k : Fin 3} {w0 : Vec3} {c : ℝ}
    (hw : w0 = c • fun i => symS R₀ i k) (hn : vnorm w0 = Real.pi) : (SO3.ofVec w0).R = R₀ := by
  have hpi := Real.two_le_pi
  have hq : sqNorm w0 = Real.pi ^ 2 := by rw [← vnorm_sq, hn]
  have hq' : c ^ 2 * (2 * symS R₀ k k) = Real.pi ^ 2 := by
    rw [← hq, hw, sqNorm_smul, sqNorm_column h0, hc]; ring
  have hu : skewVec R₀ = 0 := by rw [← sqNorm_eq_zero, sqNorm_skewVec h0, hc]; norm_num
  have hsym : ∀ i j, R₀ i j = R₀ j i := by
    have h1 := congrFun hu 0
    have h2 := congrFun hu 1
    have h3 := congrFun hu 2
    simp [skewVec] at h1 h2 h3
    intro i j
    fin_cases i <;> fin_cases j <;> simp <;> linarith
  rw [ofVec_R, expC1_of_ge (by rw [hn]; linarith), expC2_of_ge (by rw [hn]; linarith), hn, hq, Real.sin_pi, Real.cos_pi, zero_div, rod,
    zero_smul, add_zero, hat3_sq, hq]
  ext i j
  have e1 : w0 i * w0 j = Real.pi ^ 2 / 2 * symS R₀ i j := by
    have := symS_minor h0 i j k
    rw [hw]
    simp only [Pi.smul_apply, smul_eq_mul]
    have e2 : c * symS R₀ i k * (c * symS R₀ j k) = c ^ 2 * (symS R₀ i k * symS R₀ j k) := by ring
    rw [e2, this]
    linear_combination (symS R₀ i j / 2) * hq'
  simp only [Matrix.add_apply, Matrix.smul_apply, Matrix.sub_apply, vecMulVec_apply, smul_eq_mul, e1]
  have e3 : symS R₀ i j = R₀ i j + if i = j then 1 else 0 := by
    simp only [symS, of_apply, hc]
    rw [hsym j i]
    split_ifs <;> ring
  rw [e3, Matrix.one_apply]
  field_simp
  split_ifs <;> ring

/-- The second branch with a given column and sign. -/
theorem kept_column (h : Calm F δ R R₀) (h0 : IsRotation R₀) (hδ : Tendsto δ F (𝓝 0)) (hlo : 5e-3 < angle R₀)
    (hhi : angle R₀ < Real.pi - 6e-8 ∨ angle R₀ = Real.pi) (hb : ¬ BadAxis R₀) (hc : ∀ᶠ t in F, ¬ 0 < cosOf (R t)) {k : Fin 3}
    (hk : ∀ᶠ t in F, pivot (R t) = k) (σ : ℝ) (hσ : σ = 1 ∨ σ = -1)
    (hs : ∀ᶠ t in F, SO3.lnVee (SO3.mk (R t)) = σ • lnNormalize (symCol k (Real.cos (lnLargeAngle (cacos (cosOf (R t))))) (R t))
      (lnLargeAngle (cacos (cosOf (R t)))) ∧ 0 ≤ SO3.lnVee (SO3.mk (R t)) ⬝ᵥ skewVec (R t)) : Kept F δ R R₀ := by
  rcases F.eq_or_neBot with rfl | hne
  · exact Kept.bot _ _
  have hpos : 0 < angle R₀ := lt_trans (by norm_num) hlo
  have hc1 : cosOf R₀ ≠ 1 := by intro h1; rw [angle_eq, h1, Real.arccos_one] at hpos; exact lt_irrefl _ hpos
  have hSk : symS R₀ k k ≠ 0 := by
    obtain ⟨t, k1, k2⟩ := ((column_ne h h0 hδ hc1 hb).and hk).exists
    rwa [k2] at k1
  have ho := largeAngle_calm h h0 hδ hlo hhi
  have hcos := ho.comp (φ := Real.cos) Real.differentiable_cos.differentiableAt hδ
  have he : Real.cos (angle R₀) = cosOf R₀ := by rw [angle_eq, cos_arccos_cosOf h0]
  rw [he] at hcos
  have hu := h.symCol k hcos
  rw [symCol_eq] at hu
  set u0 : Vec3 := fun i => symS R₀ i k with hu0
  have hune : u0 ≠ 0 := fun h' => hSk (congrFun h' k)
  have hvne : vnorm u0 ≠ 0 := fun h' => hune (vnorm_eq_zero.mp h')
  have hvpos : 0 < vnorm u0 := lt_of_le_of_ne (vnorm_nonneg _) hvne.symm
  have hw := (Calm.const σ).smul ((ho.div (hu.vnorm hune hδ) hvne hδ).smul hu hδ) hδ
  set w0 : Vec3 := σ • ((angle R₀ / vnorm u0) • u0) with hw0
  have hwc : Calm F δ (fun t => (SO3.mk (R t)).lnVee) w0 := by
    refine hw.congr ?_
    filter_upwards [hs, ((hu.vnorm hune hδ).lim hδ).eventually_const_lt hvpos] with t k1 k2
    rw [k1.1, lnNormalize, if_pos k2]
  have hn : vnorm w0 = angle R₀ := by
    have hσ' : |σ| = 1 := by rcases hσ with rfl | rfl <;> simp
    rw [hw0, vnorm_smul, vnorm_smul, hσ', one_mul, abs_of_pos (div_pos hpos hvpos), div_mul_cancel₀ _ hvne]
  have hpi : angle R₀ ≤ Real.pi := by
    rcases hhi with h' | h'
    · linarith
    · exact h'.le
  refine Kept.of_ln hwc ?_ (by rw [hn]; exact hlo) (by rw [hn]; exact hpi) ?_ hδ
  · rw [hn]
    refine ho.congr ?_
    filter_upwards [hc] with t k1
    rw [so3Ln_unfold, if_neg (by linarith)]
    rfl
  · rcases hhi with hhi | hhi
    · have hpi' : angle R₀ < Real.pi := by linarith
      obtain ⟨h1, h2, h3, h4⟩ := angle_data h0 hlo hpi'
      set β := skewVec R₀ k / (1 + cosOf R₀) with hβ
      have hcol : u0 = β • skewVec R₀ := by
        funext i
        have := skew_mul_skew h0 i k
        simp only [hu0, Pi.smul_apply, smul_eq_mul, hβ]
        have hne : 1 + cosOf R₀ ≠ 0 := by linarith
        field_simp
        linarith
      have hdot : 0 ≤ w0 ⬝ᵥ skewVec R₀ := by
        have hl : Tendsto (fun t => (SO3.mk (R t)).lnVee ⬝ᵥ skewVec (R t)) F (𝓝 (w0 ⬝ᵥ skewVec R₀)) := by
          simp only [dotProduct]
          exact tendsto_finsetSum _ fun i _ => ((hwc.apply i).lim hδ).mul ((h.skew.apply i).lim hδ)
        exact ge_of_tendsto hl (hs.mono fun t ht => ht.2)
      set γ := σ * (angle R₀ / vnorm u0 * β) with hγ
      have e1 : w0 = γ • skewVec R₀ := by
        rw [hw0]
        conv_lhs => rw [show (angle R₀ / vnorm u0) • u0 = (angle R₀ / vnorm u0) • (β • skewVec R₀) from congrArg _ hcol]
        rw [smul_smul, smul_smul, hγ, mul_assoc]
      have hsk : vnorm (skewVec R₀) = Real.sin (angle R₀) := by rw [vnorm_skewVec h0, angle_eq]
      have hγ0 : 0 ≤ γ := by
        rw [e1, smul_dotProduct, ← sqNorm_eq_dot, ← vnorm_sq, hsk, smul_eq_mul] at hdot
        exact nonneg_of_mul_nonneg_left hdot (by positivity)
      have e2 : γ = angle R₀ / Real.sin (angle R₀) := by
        have := hn
        rw [e1, vnorm_smul, hsk, abs_of_nonneg hγ0] at this
        rw [eq_div_iff h3.ne']; exact this
      rw [e1, e2]
      exact exp_of_axis h0 hlo hpi'
    · have hc2 : cosOf R₀ = -1 := by rw [← he, hhi, Real.cos_pi]
      refine exp_of_column h0 hc2 (k := k) (c := σ * (angle R₀ / vnorm u0)) ?_ (hn.trans hhi)
      rw [hw0, smul_smul]

/-- Rotations away from the identity. -/
theorem kept_turned (h : Calm F δ R R₀) (h0 : IsRotation R₀) (hδ : Tendsto δ F (𝓝 0)) (hlo : 5e-3 < angle R₀)
    (hhi : angle R₀ < Real.pi - 6e-8 ∨ angle R₀ = Real.pi) (hax : angle R₀ < Real.pi / 2 ∨ ¬ FixesDiagonal R₀) : Kept F δ R R₀ := by
  have he : Real.cos (angle R₀) = cosOf R₀ := by rw [angle_eq, cos_arccos_cosOf h0]
  have hpos : 0 < angle R₀ := lt_trans (by norm_num) hlo
  have hc1 : cosOf R₀ ≠ 1 := by intro h1; rw [angle_eq, h1, Real.arccos_one] at hpos; exact lt_irrefl _ hpos
  refine Kept.split {t | 0 < cosOf (R t)} ?_ ?_
  · rcases hhi with hhi | hhi
    · exact kept_small (h.mono inf_le_left) h0 (hδ.mono_left inf_le_left) hlo (by linarith) (mem_inf_of_right (mem_principal_self _))
    · have hc2 : cosOf R₀ < 0 := by rw [← he, hhi, Real.cos_pi]; norm_num
      have : F ⊓ 𝓟 {t | 0 < cosOf (R t)} = ⊥ := by
        rw [← empty_mem_iff_bot]
        have h1 : ∀ᶠ t in F ⊓ 𝓟 {t | 0 < cosOf (R t)}, cosOf (R t) < 0 :=
          ((h.cosOf.lim hδ).mono_left inf_le_left).eventually_lt_const hc2
        filter_upwards [h1, mem_inf_of_right (mem_principal_self _)] with t k1 k2
        exact absurd k2 (not_lt.mpr k1.le)
      rw [this]; exact Kept.bot _ _
  · set G := F ⊓ 𝓟 {t | 0 < cosOf (R t)}ᶜ with hG
    have hc : ∀ᶠ t in G, ¬ 0 < cosOf (R t) := mem_inf_of_right (mem_principal_self _)
    have hGF : G ≤ F := inf_le_left
    rcases G.eq_or_neBot with hbot | hne
    · rw [hbot]; exact Kept.bot _ _
    have hle : cosOf R₀ ≤ 0 :=
      le_of_tendsto ((h.cosOf.lim hδ).mono_left hGF) (hc.mono fun t ht => not_lt.mp ht)
    have hb : ¬ BadAxis R₀ := by
      rw [badAxis_iff' h0 hle]
      rcases hax with h' | h'
      · have := Real.cos_pos_of_mem_Ioo ⟨by linarith, h'⟩
        rw [he] at this; linarith
      · exact h'
    -- the chosen column and the sign
    have hpiv : ∀ k : Fin 3, ∀ {G' : Filter T}, G' ≤ G → (∀ᶠ t in G', pivot (R t) = k) → Kept G' δ R R₀ := by
      intro k G' hG' hk
      have hln : ∀ᶠ t in G', (SO3.mk (R t)).lnVee = vee3 (lnSign (R t) (hat3 (lnNormalize
          (symCol k (Real.cos (lnLargeAngle (cacos (cosOf (R t))))) (R t)) (lnLargeAngle (cacos (cosOf (R t))))))) := by
        filter_upwards [hk, hc.filter_mono hG'] with t k1 k2
        rw [SO3.lnVee, SO3.ln, so3Ln_unfold, if_neg (by linarith), ← k1, ← lnColumn_symCol]
        rfl
      refine Kept.split {t | lnNormalize (symCol k (Real.cos (lnLargeAngle (cacos (cosOf (R t))))) (R t))
          (lnLargeAngle (cacos (cosOf (R t)))) ⬝ᵥ skewVec (R t) < 0} ?_ ?_
      · have hl : G' ⊓ 𝓟 {t | lnNormalize (symCol k (Real.cos (lnLargeAngle (cacos (cosOf (R t))))) (R t))
          (lnLargeAngle (cacos (cosOf (R t)))) ⬝ᵥ skewVec (R t) < 0} ≤ G' := inf_le_left
        have hF := (hl.trans hG').trans hGF
        refine kept_column (h.mono hF) h0 (hδ.mono_left hF) hlo hhi hb (hc.filter_mono (hl.trans hG')) (hk.filter_mono hl) (-1)
          (Or.inr rfl) ?_
        filter_upwards [hln.filter_mono hl, mem_inf_of_right (mem_principal_self _)] with t k1 k2
        have e : (SO3.mk (R t)).lnVee = (-1 : ℝ) • lnNormalize (symCol k (Real.cos (lnLargeAngle (cacos (cosOf (R t))))) (R t))
            (lnLargeAngle (cacos (cosOf (R t)))) := by
          rw [k1, lnSign_hat3, if_pos (show _ < (0 : ℝ) from k2), vee3_hat3, neg_smul, one_smul]
        refine ⟨e, ?_⟩
        rw [e, smul_dotProduct, smul_eq_mul]
        have : _ < (0 : ℝ) := k2
        linarith
      · have hl : G' ⊓ 𝓟 {t | lnNormalize (symCol k (Real.cos (lnLargeAngle (cacos (cosOf (R t))))) (R t))
          (lnLargeAngle (cacos (cosOf (R t)))) ⬝ᵥ skewVec (R t) < 0}ᶜ ≤ G' := inf_le_left
        have hF := (hl.trans hG').trans hGF
        refine kept_column (h.mono hF) h0 (hδ.mono_left hF) hlo hhi hb (hc.filter_mono (hl.trans hG')) (hk.filter_mono hl) 1
          (Or.inl rfl) ?_
        filter_upwards [hln.filter_mono hl, mem_inf_of_right (mem_principal_self _)] with t k1 k2
        have e : (SO3.mk (R t)).lnVee = (1 : ℝ) • lnNormalize (symCol k (Real.cos (lnLargeAngle (cacos (cosOf (R t))))) (R t))
            (lnLargeAngle (cacos (cosOf (R t)))) := by
          rw [k1, lnSign_hat3, if_neg (show ¬ _ < (0 : ℝ) from k2), vee3_hat3, one_smul]
        refine ⟨e, ?_⟩
        rw [e, one_smul]
        exact not_lt.mp k2
    refine Kept.split {t | pivot (R t) = 0} (hpiv 0 inf_le_left (mem_inf_of_right (mem_principal_self _))) ?_
    refine Kept.split {t | pivot (R t) = 1} (hpiv 1 (inf_le_left.trans inf_le_left) (mem_inf_of_right (mem_principal_self _))) ?_
    refine hpiv 2 (inf_le_left.trans inf_le_left) ?_
    have k1 : ∀ᶠ t in G ⊓ 𝓟 {t | pivot (R t) = 0}ᶜ ⊓ 𝓟 {t | pivot (R t) = 1}ᶜ, pivot (R t) ≠ 1 :=
      mem_inf_of_right (mem_principal_self _)
    have k2 : ∀ᶠ t in G ⊓ 𝓟 {t | pivot (R t) = 0}ᶜ ⊓ 𝓟 {t | pivot (R t) = 1}ᶜ, pivot (R t) ≠ 0 :=
      mem_inf_of_left (mem_inf_of_right (mem_principal_self _))
    filter_upwards [k1, k2] with t k1 k2
    generalize pivot (R t) = p at *
    fin_cases p
    · exact absurd rfl k2
    · exact absurd rfl k1
    · rfl

theorem taylor_fine {w : Vec3} (h : vnorm w < 1e-5) : Fine 1 (SO3.ofVec w).R := by
  have hx : ∀ i, |w i| ≤ ‖w‖ := fun i => norm_le_pi_norm w i
  set x := ‖w‖ with hxd
  have hx0 : 0 ≤ x := norm_nonneg _
  have hn : sqNorm w ≤ 3 * x ^ 2 := by
    rw [sqNorm3]
    have : ∀ i, w i * w i ≤ x ^ 2 := fun i => by
      have := mul_self_le_mul_self (abs_nonneg _) (hx i)
      rw [abs_mul_abs_self] at this
      linarith [sq x]
    linarith [this 0, this 1, this 2]
  have hn0 : 0 ≤ sqNorm w := sqNorm_nonneg w
  have hnv : sqNorm w < 1e-10 := by
    rw [← vnorm_sq]
    have := vnorm_nonneg w
    nlinarith
  have hxs : x ≤ 1e-5 := by
    rw [hxd]
    refine (pi_norm_le_iff_of_nonneg (by norm_num)).mpr fun i => ?_
    refine le_trans ?_ h.le
    rw [Real.norm_eq_abs, ← Real.sqrt_sq_eq_abs, vnorm]
    refine Real.sqrt_le_sqrt ?_
    rw [sqNorm3]
    fin_cases i <;> simp only [Fin.zero_eta, Fin.mk_one, Fin.reduceFinMk] <;>
      nlinarith [mul_self_nonneg (w 0), mul_self_nonneg (w 1), mul_self_nonneg (w 2)]
  have hW : ‖hat3 w * hat3 w‖ ≤ 6 * x ^ 2 := by
    have : ∀ i j, |(hat3 w * hat3 w) i j| ≤ 2 * x ^ 2 := by
      have hp : ∀ i j, |w i * w j| ≤ x ^ 2 := fun i j => by
        rw [abs_mul, sq]; exact mul_le_mul (hx i) (hx j) (abs_nonneg _) hx0
      intro i j
      rw [hat3_sq]
      have h00 := abs_le.mp (hp 0 0)
      have h11 := abs_le.mp (hp 1 1)
      have h22 := abs_le.mp (hp 2 2)
      have h01 := abs_le.mp (hp 0 1)
      have h02 := abs_le.mp (hp 0 2)
      have h12 := abs_le.mp (hp 1 2)
      have hx2 := sq_nonneg x
      rw [abs_le]
      fin_cases i <;> fin_cases j <;> simp [vecMulVec_apply, sqNorm3] <;> constructor <;> linarith
    have := norm_le_entries this
    linarith
  set n := sqNorm w with hnd
  have hform : (SO3.ofVec w).R = rod (1 - n / 6) (0.5 - n / 24) w := by
    rw [ofVec_R, expC1_of_lt h, expC2_of_lt h]
  have e1 : rod (1 - n / 6) (0.5 - n / 24) w * (rod (1 - n / 6) (0.5 - n / 24) w)ᵀ - 1 = (n ^ 2 / 72 - n ^ 3 / 576) • (hat3 w * hat3 w) := by
    rw [rod_transpose, rod_mul_rod, rod, ← hnd]
    rw [show (1 - n / 6 + -(1 - n / 6) - n * ((1 - n / 6) * (0.5 - n / 24) + (0.5 - n / 24) * -(1 - n / 6))) = 0 by ring,
      show (0.5 - n / 24 + (0.5 - n / 24) + (1 - n / 6) * -(1 - n / 6) - n * (0.5 - n / 24) * (0.5 - n / 24)) = n ^ 2 / 72 - n ^ 3 / 576 by ring]
    rw [zero_smul, add_zero, add_sub_cancel_left]
  have e2 : (rod (1 - n / 6) (0.5 - n / 24) w)ᵀ * rod (1 - n / 6) (0.5 - n / 24) w - 1 = (n ^ 2 / 72 - n ^ 3 / 576) • (hat3 w * hat3 w) := by
    rw [rod_transpose, rod_mul_rod, rod, ← hnd]
    rw [show (-(1 - n / 6) + (1 - n / 6) - n * (-(1 - n / 6) * (0.5 - n / 24) + (0.5 - n / 24) * (1 - n / 6))) = 0 by ring,
      show (0.5 - n / 24 + (0.5 - n / 24) + -(1 - n / 6) * (1 - n / 6) - n * (0.5 - n / 24) * (0.5 - n / 24)) = n ^ 2 / 72 - n ^ 3 / 576 by ring]
    rw [zero_smul, add_zero, add_sub_cancel_left]
  have hb : ‖(n ^ 2 / 72 - n ^ 3 / 576) • (hat3 w * hat3 w)‖ ≤ x ^ 6 := by
    have h1 : 0 ≤ n ^ 2 / 72 - n ^ 3 / 576 := by nlinarith [sq_nonneg n]
    have h2 : n ^ 2 / 72 - n ^ 3 / 576 ≤ x ^ 4 / 8 := by
      have h3 : n ^ 2 ≤ (3 * x ^ 2) ^ 2 := pow_le_pow_left₀ hn0 hn 2
      have h4 : 0 ≤ n ^ 3 := by positivity
      nlinarith
    rw [norm_smul, Real.norm_eq_abs, abs_of_nonneg h1]
    calc _ ≤ x ^ 4 / 8 * (6 * x ^ 2) := mul_le_mul h2 hW (norm_nonneg _) (by positivity)
      _ ≤ x ^ 6 := by nlinarith [pow_nonneg hx0 6]
  have hsk : skewVec (rod (1 - n / 6) (0.5 - n / 24) w) = (1 - n / 6) • w := by
    rw [rod, hat3_sq]
    funext i
    fin_cases i <;> simp [skewVec, hat3, vecMulVec_apply] <;> ring
  have hs : x ^ 6 ≤ ‖skewVec (rod (1 - n / 6) (0.5 - n / 24) w)‖ ^ 3 := by
    rw [hsk, norm_smul, Real.norm_eq_abs, abs_of_nonneg (by linarith), ← hxd]
    have h1 : x / 2 ≤ (1 - n / 6) * x := by nlinarith
    have h2 : (x / 2) ^ 3 ≤ ((1 - n / 6) * x) ^ 3 := pow_le_pow_left₀ (by positivity) h1 3
    refine le_trans ?_ h2
    have h3 : x ^ 3 ≤ 1 / 8 := by
      have := pow_le_pow_left₀ hx0 hxs 3
      norm_num at this ⊢
      linarith
    have h4 : 0 ≤ x ^ 3 := by positivity
    nlinarith
  right
  rw [hform]
  exact ⟨rfl, by rw [e1]; exact hb.trans hs, by rw [e2]; exact hb.trans hs⟩

/-- Rotations near the identity. -/
theorem kept_one (h : Calm F δ R 1) (hδ : Tendsto δ F (𝓝 0)) : Kept F δ R 1 := by
  have hc1 : cosOf (1 : Mat3) = 1 := by rw [cosOf_eq]; norm_num
  have hs1 : skewVec (1 : Mat3) = 0 := by funext i; fin_cases i <;> simp [skewVec]
  have hcl := h.cosOf.lim hδ
  rw [hc1] at hcl
  have hal : Tendsto (fun t => Real.arccos (cosOf (R t))) F (𝓝 0) := by
    have := Real.continuous_arccos.continuousAt.tendsto.comp hcl
    rw [Real.arccos_one] at this
    exact this
  have hform : ∀ᶠ t in F, (so3Ln (R t) = (0, 0)) ∨ (so3Ln (R t) = (hat3 ((1 + Real.arccos (cosOf (R t)) ^ 2 / 6) • skewVec (R t)),
      Real.arccos (cosOf (R t))) ∧ Real.arccos (cosOf (R t)) < 1e-5) := by
    filter_upwards [hcl.eventually_const_lt one_pos, hal.eventually_lt_const (show (0 : ℝ) < 1e-5 by norm_num)] with t k1 k2
    rw [so3Ln_unfold, if_pos (by linarith), cacos]
    split_ifs
    · right
      refine ⟨?_, k2⟩
      rw [lnSmall, if_pos k2, sub_transpose_eq, smul_smul, hat3_smul]
      congr 2; ring
    · left
      rw [lnSmall, zero_smul]
  have hw : (fun t => (SO3.mk (R t)).lnVee) =O[F] δ := by
    have hk := h.skew
    rw [hs1] at hk
    refine IsBigO.trans (IsBigO.of_bound 2 ?_) hk
    filter_upwards [hform] with t ht
    rw [sub_zero, SO3.lnVee, SO3.ln]
    rcases ht with ht | ⟨ht, h2⟩
    · rw [ht]
      have : vee3 (0 : Mat3) = 0 := by funext i; fin_cases i <;> simp [vee3]
      rw [this, norm_zero]; positivity
    · rw [ht, vee3_hat3, norm_smul, Real.norm_eq_abs]
      refine mul_le_mul_of_nonneg_right ?_ (norm_nonneg _)
      have := Real.arccos_nonneg (cosOf (R t))
      rw [abs_of_nonneg (by positivity)]
      nlinarith
  have ho : Tendsto (fun t => (so3Ln (R t)).2) F (𝓝 0) := by
    refine squeeze_zero_norm' ?_ hal
    filter_upwards [hform] with t ht
    have := Real.arccos_nonneg (cosOf (R t))
    rcases ht with ht | ⟨ht, -⟩
    · rw [ht]; simpa using this
    · rw [ht, Real.norm_eq_abs, abs_of_nonneg this]
  have hw0 := hw.trans_tendsto hδ
  have hk : Tendsto (fun t => lnK1 (so3Ln (R t)).2) F (𝓝 (1 / 12)) := by
    have e : ∀ᶠ t in F, lnK1 (so3Ln (R t)).2 = 1 / 12 + (so3Ln (R t)).2 * (so3Ln (R t)).2 / 720 := by
      filter_upwards [ho.eventually_lt_const (show (0 : ℝ) < 5e-3 by norm_num)] with t ht
      rw [lnK1, if_neg (not_lt.mpr ht.le)]
    have := (tendsto_const_nhds (x := (1 / 12 : ℝ))).add ((ho.mul ho).div_const 720)
    rw [mul_zero, zero_div, add_zero] at this
    exact this.congr' (e.mono fun t ht => ht.symm)
  refine ⟨exp_bigO hw hδ, ?_, ?_⟩
  · have h1 : Calm F δ (fun t => vMat (SO3.mk (R t)).lnVee) 1 := vMat_bigO hw hδ
    have h2 : Calm F δ (fun t => vInv (so3Ln (R t)).2 (SO3.mk (R t)).lnVee) 1 := rod_bigO tendsto_const_nhds hk hw hδ
    have := h1.mul h2 hδ
    rwa [one_mul] at this
  · filter_upwards [coeff_small hw0 (ε := 1e-5) (by norm_num)] with t ht
    exact taylor_fine ht

theorem kept_regular (h : Calm F δ R R₀) (h0 : SafeTurn R₀) (hδ : Tendsto δ F (𝓝 0)) : Kept F δ R R₀ := by
  obtain ⟨h1, rfl | ⟨h2, h3, h4⟩⟩ := h0
  · exact kept_one h hδ
  · exact kept_turned h h1 hδ h2 h3 h4

/-- `regenerate` near `A`. -/
theorem regenerate_calm {M : T → SE3} {A : SE3} (hR : Calm F δ (fun t => (M t).R) A.R) (ht : Calm F δ (fun t => (M t).t) A.t)
    (hM : ∀ᶠ t in F, LastRow (M t).T) (hA : SafeTurn A.R) (hδ : Tendsto δ F (𝓝 0)) :
    Calm F δ (fun t => (M t).regenerate.R) A.R ∧ Calm F δ (fun t => (M t).regenerate.t) A.t ∧
      ∀ᶠ t in F, LastRow (M t).regenerate.T ∧ Fine A.R (M t).regenerate.R := by
  have hk := kept_regular hR hA hδ
  refine ⟨?_, ?_, ?_⟩
  · refine hk.rot.congr ?_
    filter_upwards [hM] with t h
    rw [(regenerate_eq h).1]
  · have := hk.trans.mulVec ht hδ
    rw [one_mulVec] at this
    refine this.congr ?_
    filter_upwards [hM] with t h
    rw [(regenerate_eq h).2.1]
  · filter_upwards [hM, hk.fine] with t h1 h2
    refine ⟨(regenerate_eq h1).2.2, ?_⟩
    rw [(regenerate_eq h1).1]; exact h2

end Mrob
