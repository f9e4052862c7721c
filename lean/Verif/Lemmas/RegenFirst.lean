import Verif.Lemmas.Pair

/-!
# `regenerate` is the identity to first order
-/

open Matrix Filter Topology Asymptotics

namespace Mrob

open Spec

attribute [local instance] Matrix.linftyOpNormedAddCommGroup Matrix.linftyOpNormedSpace Matrix.linftyOpNormedRing

variable {T : Type} {F : Filter T} {η g : T → ℝ}

theorem Pair.split {E : Type} [NormedAddCommGroup E] {f g : T → E} {a : E} (s : Set T) (h1 : Pair (F ⊓ 𝓟 s) η f g a)
    (h2 : Pair (F ⊓ 𝓟 sᶜ) η f g a) : Pair F η f g a := by
  have e : F ⊓ 𝓟 s ⊔ F ⊓ 𝓟 sᶜ = F := by
    rw [← inf_sup_left, sup_principal, Set.union_compl_self, principal_univ, inf_top_eq]
  have k1 := IsBigO.sup h1.diff h2.diff
  have k2 := Tendsto.sup h1.left h2.left
  have k3 := Tendsto.sup h1.right h2.right
  rw [e] at k1 k2 k3
  exact ⟨k1, k2, k3⟩

theorem Pair.bot {E : Type} [NormedAddCommGroup E] {f g : T → E} {a : E} : Pair ⊥ η f g a := ⟨isBigO_bot _ _, tendsto_bot, tendsto_bot⟩

theorem Pair.calm {R S : T → Mat3} {R₀ : Mat3} (h : Pair F η R S R₀) : Calm F (fun t => ‖R t - R₀‖) R R₀ :=
  IsBigO.of_bound 1 (Eventually.of_forall fun t => by rw [one_mul, norm_norm])

theorem Pair.calm_lim {R S : T → Mat3} {R₀ : Mat3} (h : Pair F η R S R₀) : Tendsto (fun t => ‖R t - R₀‖) F (𝓝 0) := by
  have := (h.left.sub_const R₀).norm
  rwa [sub_self, norm_zero] at this

/-- Axis times angle of a rotation. -/
noncomputable def axisOf (S : Mat3) : Vec3 := (Real.arccos (cosOf S) / Real.sin (Real.arccos (cosOf S))) • skewVec S

variable {R S : T → Mat3} {R₀ : Mat3} (h : Pair F η R S R₀) (h0 : IsRotation R₀)

include h in
theorem arccos_pair (hlo : -1 < cosOf R₀) (hhi : cosOf R₀ < 1) :
    Pair F η (fun t => Real.arccos (cosOf (R t))) (fun t => Real.arccos (cosOf (S t))) (Real.arccos (cosOf R₀)) :=
  h.cosOf.comp (φ := Real.arccos) (Real.hasStrictDerivAt_arccos hlo.ne' hhi.ne)

include h h0 in
/-- The first branch of the logarithm. -/
theorem ln_pair_small (hlo : 5e-3 < angle R₀) (hpi : angle R₀ < Real.pi) (hc : ∀ᶠ t in F, 0 < cosOf (R t)) :
    Pair F η (fun t => (SO3.mk (R t)).lnVee) (fun t => axisOf (S t)) (axisOf R₀) ∧
    Pair F η (fun t => (so3Ln (R t)).2) (fun t => Real.arccos (cosOf (S t))) (angle R₀) := by
  obtain ⟨h1, h2, h3, h4⟩ := angle_data h0 hlo hpi
  have ha := arccos_pair h h1 h2
  rw [angle_eq] at hlo h3 ⊢
  have hform : ∀ᶠ t in F, so3Ln (R t) = (hat3 (axisOf (R t)), Real.arccos (cosOf (R t))) := by
    filter_upwards [hc, cacos_near h.calm h.calm_lim h1 h2, ha.left.eventually_const_lt hlo] with t k1 k2 k3
    rw [so3Ln_unfold, if_pos (by linarith), k2, lnSmall, if_neg (by rw [not_lt]; linarith), sub_transpose_eq, smul_smul, axisOf, hat3_smul]
    congr 2; ring
  have hw : Pair F η (fun t => axisOf (R t)) (fun t => axisOf (S t)) (axisOf R₀) :=
    (ha.div (ha.comp (φ := Real.sin) (Real.hasStrictDerivAt_sin _)) h3.ne').smul h.skew
  constructor
  · refine hw.congr ?_ (Eventually.of_forall fun _ => rfl)
    filter_upwards [hform] with t ht
    rw [SO3.lnVee, SO3.ln, ht, vee3_hat3]
  · refine ha.congr ?_ (Eventually.of_forall fun _ => rfl)
    filter_upwards [hform] with t ht
    rw [ht]

theorem Pair.symCol {R S : T → Mat3} {R₀ : Mat3} (h : Pair F η R S R₀) (k : Fin 3) {d e : T → ℝ} {d0 : ℝ} (hd : Pair F η d e d0) :
    Pair F η (fun t => symCol k (d t) (R t)) (fun t => symCol k (e t) (S t)) (Mrob.symCol k d0 R₀) := by
  refine Pair.vec fun i => ?_
  simp only [Mrob.symCol]
  split_ifs
  · exact (h.entry k k).sub hd
  · exact ((h.entry i k).add (h.entry k i)).div (Pair.const 2) two_ne_zero

include h h0 in
/-- The second branch with a given column and sign. -/
theorem ln_pair_column (hS : ∀ᶠ t in F, IsRotation (S t)) (hlo : 5e-3 < angle R₀)
    (hhi : angle R₀ < Real.pi - 6e-8) (hb : ¬ BadAxis R₀) (hc : ∀ᶠ t in F, ¬ 0 < cosOf (R t)) {k : Fin 3}
    (hk : ∀ᶠ t in F, pivot (R t) = k) (σ : ℝ) (hσ : σ = 1 ∨ σ = -1)
    (hs : ∀ᶠ t in F, SO3.lnVee (SO3.mk (R t)) = σ • lnNormalize (symCol k (Real.cos (lnLargeAngle (cacos (cosOf (R t))))) (R t))
      (lnLargeAngle (cacos (cosOf (R t)))) ∧ 0 ≤ SO3.lnVee (SO3.mk (R t)) ⬝ᵥ skewVec (R t)) :
    Pair F η (fun t => (SO3.mk (R t)).lnVee) (fun t => axisOf (S t)) (axisOf R₀) ∧
    Pair F η (fun t => (so3Ln (R t)).2) (fun t => Real.arccos (cosOf (S t))) (angle R₀) := by
  rcases F.eq_or_neBot with rfl | hne
  · exact ⟨Pair.bot, Pair.bot⟩
  have hpi : angle R₀ < Real.pi := by linarith
  have hpos : 0 < angle R₀ := lt_trans (by norm_num) hlo
  have hc1 : cosOf R₀ ≠ 1 := by intro h1; rw [angle_eq, h1, Real.arccos_one] at hpos; exact lt_irrefl _ hpos
  have hSk : symS R₀ k k ≠ 0 := by
    obtain ⟨t, k1, k2⟩ := ((column_ne h.calm h0 h.calm_lim hc1 hb).and hk).exists
    rwa [k2] at k1
  obtain ⟨h1, h2, h3, h4⟩ := angle_data h0 hlo hpi
  have ha := arccos_pair h h1 h2
  rw [angle_eq] at hlo hhi hpi hpos h3 h4 ⊢
  have hang : ∀ᶠ t in F, lnLargeAngle (cacos (cosOf (R t))) = Real.arccos (cosOf (R t)) := by
    filter_upwards [cacos_near h.calm h.calm_lim h1 h2, ha.left.eventually_lt_const hhi] with t k1 k2
    rw [k1, lnLargeAngle, if_neg (by linarith)]
  have hcos := ha.comp (φ := Real.cos) (Real.hasStrictDerivAt_cos _)
  rw [cos_arccos_cosOf h0] at hcos
  have hu := h.symCol k hcos
  rw [symCol_eq] at hu
  obtain ⟨u0, hu0⟩ : ∃ u0 : Vec3, u0 = fun i => symS R₀ i k := ⟨_, rfl⟩
  rw [← hu0] at hu
  have hune : u0 ≠ 0 := fun h' => hSk (by have := congrFun h' k; rwa [hu0] at this)
  have hvne : vnorm u0 ≠ 0 := fun h' => hune (vnorm_eq_zero.mp h')
  have hvpos : 0 < vnorm u0 := lt_of_le_of_ne (vnorm_nonneg _) hvne.symm
  have hw := (Pair.const σ).smul ((ha.div (hu.vnorm hune) hvne).smul hu)
  -- columns of rotations
  have hcol : ∀ {Q : Mat3}, IsRotation Q → 1 + cosOf Q ≠ 0 →
      symCol k (Real.cos (Real.arccos (cosOf Q))) Q = (skewVec Q k / (1 + cosOf Q)) • skewVec Q := by
    intro Q hQ hn
    rw [cos_arccos_cosOf hQ, symCol_eq]
    funext i
    have := skew_mul_skew hQ i k
    simp only [Pi.smul_apply, smul_eq_mul]
    field_simp
    linarith
  have hcol0 : u0 = (skewVec R₀ k / (1 + cosOf R₀)) • skewVec R₀ := by
    rw [← hcol h0 (by linarith), cos_arccos_cosOf h0, symCol_eq, hu0]
  obtain ⟨β, hβ⟩ : ∃ β, β = skewVec R₀ k / (1 + cosOf R₀) := ⟨_, rfl⟩
  have hsk : vnorm (skewVec R₀) = Real.sin (Real.arccos (cosOf R₀)) := vnorm_skewVec h0
  have hln : ∀ᶠ t in F, σ • ((Real.arccos (cosOf (R t)) / vnorm (symCol k (Real.cos (Real.arccos (cosOf (R t)))) (R t))) •
      symCol k (Real.cos (Real.arccos (cosOf (R t)))) (R t)) = (SO3.mk (R t)).lnVee := by
    filter_upwards [hs, hang, (hu.vnorm hune).left.eventually_const_lt hvpos] with t k1 k2 k3
    rw [k1.1, k2, lnNormalize, if_pos k3]
  have hσβ : 0 < σ * β := by
    have hl : Tendsto (fun t => (SO3.mk (R t)).lnVee ⬝ᵥ skewVec (R t)) F
        (𝓝 ((σ • ((Real.arccos (cosOf R₀) / vnorm u0) • u0)) ⬝ᵥ skewVec R₀)) := by
      have hl' := hw.left.congr' hln
      simp only [dotProduct]
      exact tendsto_finsetSum _ fun i _ => (tendsto_pi_nhds.mp hl' i).mul (h.skew.apply i).left
    have hdot := ge_of_tendsto hl (hs.mono fun t ht => ht.2)
    have e1 : (σ • ((Real.arccos (cosOf R₀) / vnorm u0) • u0)) ⬝ᵥ skewVec R₀ =
        σ * β * (Real.arccos (cosOf R₀) / vnorm u0 * vnorm (skewVec R₀) ^ 2) := by
      conv_lhs => rw [show (Real.arccos (cosOf R₀) / vnorm u0) • u0 = (Real.arccos (cosOf R₀) / vnorm u0) • (β • skewVec R₀) from
        congrArg _ (hβ ▸ hcol0)]
      rw [smul_dotProduct, smul_dotProduct, smul_dotProduct, ← sqNorm_eq_dot, ← vnorm_sq]
      simp only [smul_eq_mul]
      ring
    rw [e1, hsk] at hdot
    have hnn : 0 ≤ σ * β := by
      refine nonneg_of_mul_nonneg_left hdot ?_
      have := div_pos hpos hvpos
      positivity
    refine lt_of_le_of_ne hnn fun h' => ?_
    rcases mul_eq_zero.mp h'.symm with h' | h'
    · rcases hσ with rfl | rfl <;> norm_num at h'
    · refine hune ?_
      rw [hcol0, ← hβ, h', zero_smul]
  -- the same column of the rotations `S`
  have hβl : Tendsto (fun t => σ * (skewVec (S t) k / (1 + cosOf (S t)))) F (𝓝 (σ * β)) := by
    rw [hβ]
    exact ((h.skew.apply k).right.div (h.cosOf.right.const_add 1) (by linarith)).const_mul σ
  have hSw : ∀ᶠ t in F, σ • ((Real.arccos (cosOf (S t)) / vnorm (symCol k (Real.cos (Real.arccos (cosOf (S t)))) (S t))) •
      symCol k (Real.cos (Real.arccos (cosOf (S t)))) (S t)) = axisOf (S t) := by
    filter_upwards [hS, hβl.eventually_const_lt hσβ, h.cosOf.right.eventually_const_lt h1] with t k1 k2 k3
    rw [hcol k1 (by linarith)]
    obtain ⟨b, hb⟩ : ∃ b, b = skewVec (S t) k / (1 + cosOf (S t)) := ⟨_, rfl⟩
    rw [← hb] at k2 ⊢
    have hb' : |b| = σ * b := by
      rcases hσ with rfl | rfl
      · rw [one_mul] at k2 ⊢; exact abs_of_pos k2
      · rw [neg_one_mul] at k2 ⊢; exact abs_of_neg (by linarith)
    have hbn : b ≠ 0 := by rintro rfl; rw [mul_zero] at k2; exact lt_irrefl _ k2
    have hσn : σ ≠ 0 := by rintro rfl; rw [zero_mul] at k2; exact lt_irrefl _ k2
    rw [vnorm_smul, vnorm_skewVec k1, hb', axisOf, smul_smul, smul_smul]
    congr 1
    by_cases hs0 : Real.sin (Real.arccos (cosOf (S t))) = 0
    · rw [hs0]; simp
    · field_simp
  have e0 : σ • ((Real.arccos (cosOf R₀) / vnorm u0) • u0) = axisOf R₀ := by
    have k3 : (0 : ℝ) < σ * β := hσβ
    have hb' : |β| = σ * β := by
      rcases hσ with rfl | rfl
      · rw [one_mul] at k3 ⊢; exact abs_of_pos k3
      · rw [neg_one_mul] at k3 ⊢; exact abs_of_neg (by linarith)
    have hbn : β ≠ 0 := by rintro h'; rw [h', mul_zero] at k3; exact lt_irrefl _ k3
    have hσn : σ ≠ 0 := by rintro rfl; rw [zero_mul] at k3; exact lt_irrefl _ k3
    have hs0 := h3.ne'
    rw [hcol0, ← hβ, vnorm_smul, hsk, hb', axisOf, smul_smul, smul_smul]
    congr 1
    field_simp
  constructor
  · rw [← e0]
    exact hw.congr hln hSw
  · refine ha.congr ?_ (Eventually.of_forall fun _ => rfl)
    filter_upwards [hc, hang] with t k1 k2
    rw [so3Ln_unfold, if_neg (by linarith)]
    exact k2.symm

include h h0 in
/-- The logarithm next to rotations. -/
theorem ln_pair (hS : ∀ᶠ t in F, IsRotation (S t)) (hlo : 5e-3 < angle R₀) (hhi : angle R₀ < Real.pi - 6e-8)
    (hax : angle R₀ < Real.pi / 2 ∨ ¬ FixesDiagonal R₀) :
    Pair F η (fun t => (SO3.mk (R t)).lnVee) (fun t => axisOf (S t)) (axisOf R₀) ∧
    Pair F η (fun t => (so3Ln (R t)).2) (fun t => Real.arccos (cosOf (S t))) (angle R₀) := by
  have he : Real.cos (angle R₀) = cosOf R₀ := by rw [angle_eq, cos_arccos_cosOf h0]
  have hpos : 0 < angle R₀ := lt_trans (by norm_num) hlo
  have spl : ∀ {F' : Filter T} (s : Set T),
      (Pair (F' ⊓ 𝓟 s) η (fun t => (SO3.mk (R t)).lnVee) (fun t => axisOf (S t)) (axisOf R₀) ∧
        Pair (F' ⊓ 𝓟 s) η (fun t => (so3Ln (R t)).2) (fun t => Real.arccos (cosOf (S t))) (angle R₀)) →
      (Pair (F' ⊓ 𝓟 sᶜ) η (fun t => (SO3.mk (R t)).lnVee) (fun t => axisOf (S t)) (axisOf R₀) ∧
        Pair (F' ⊓ 𝓟 sᶜ) η (fun t => (so3Ln (R t)).2) (fun t => Real.arccos (cosOf (S t))) (angle R₀)) →
      Pair F' η (fun t => (SO3.mk (R t)).lnVee) (fun t => axisOf (S t)) (axisOf R₀) ∧
        Pair F' η (fun t => (so3Ln (R t)).2) (fun t => Real.arccos (cosOf (S t))) (angle R₀) :=
    fun s k1 k2 => ⟨Pair.split s k1.1 k2.1, Pair.split s k1.2 k2.2⟩
  refine spl {t | 0 < cosOf (R t)} ?_ ?_
  · exact ln_pair_small (h.mono inf_le_left) h0 hlo (by linarith) (mem_inf_of_right (mem_principal_self _))
  · set G := F ⊓ 𝓟 {t | 0 < cosOf (R t)}ᶜ with hG
    have hc : ∀ᶠ t in G, ¬ 0 < cosOf (R t) := mem_inf_of_right (mem_principal_self _)
    have hGF : G ≤ F := inf_le_left
    rcases G.eq_or_neBot with hbot | hne
    · rw [hbot]; exact ⟨Pair.bot, Pair.bot⟩
    have hle : cosOf R₀ ≤ 0 :=
      le_of_tendsto (h.cosOf.left.mono_left hGF) (hc.mono fun t ht => not_lt.mp ht)
    have hb : ¬ BadAxis R₀ := by
      rw [badAxis_iff' h0 hle]
      rcases hax with h' | h'
      · have := Real.cos_pos_of_mem_Ioo ⟨by linarith, h'⟩
        rw [he] at this; linarith
      · exact h'
    have hpiv : ∀ k : Fin 3, ∀ {G' : Filter T}, G' ≤ G → (∀ᶠ t in G', pivot (R t) = k) →
        Pair G' η (fun t => (SO3.mk (R t)).lnVee) (fun t => axisOf (S t)) (axisOf R₀) ∧
        Pair G' η (fun t => (so3Ln (R t)).2) (fun t => Real.arccos (cosOf (S t))) (angle R₀) := by
      intro k G' hG' hk
      have hln : ∀ᶠ t in G', (SO3.mk (R t)).lnVee = vee3 (lnSign (R t) (hat3 (lnNormalize
          (symCol k (Real.cos (lnLargeAngle (cacos (cosOf (R t))))) (R t)) (lnLargeAngle (cacos (cosOf (R t))))))) := by
        filter_upwards [hk, hc.filter_mono hG'] with t k1 k2
        rw [SO3.lnVee, SO3.ln, so3Ln_unfold, if_neg (by linarith), ← k1, ← lnColumn_symCol]
        rfl
      refine spl {t | lnNormalize (symCol k (Real.cos (lnLargeAngle (cacos (cosOf (R t))))) (R t))
          (lnLargeAngle (cacos (cosOf (R t)))) ⬝ᵥ skewVec (R t) < 0} ?_ ?_
      · have hl : G' ⊓ 𝓟 {t | lnNormalize (symCol k (Real.cos (lnLargeAngle (cacos (cosOf (R t))))) (R t))
          (lnLargeAngle (cacos (cosOf (R t)))) ⬝ᵥ skewVec (R t) < 0} ≤ G' := inf_le_left
        have hF := (hl.trans hG').trans hGF
        refine ln_pair_column (h.mono hF) h0 (hS.filter_mono hF) hlo hhi hb (hc.filter_mono (hl.trans hG')) (hk.filter_mono hl) (-1)
          (Or.inr rfl) ?_
        filter_upwards [hln.filter_mono hl, mem_inf_of_right (mem_principal_self _)] with t k1 k2
        have e : (SO3.mk (R t)).lnVee = (-1 : ℝ) • lnNormalize (symCol k (Real.cos (lnLargeAngle (cacos (cosOf (R t))))) (R t))
            (lnLargeAngle (cacos (cosOf (R t)))) := by
          rw [k1, lnSign_hat3, if_pos (show _ < (0 : ℝ) from k2), vee3_hat3, neg_smul, one_smul]
        refine ⟨e, ?_⟩
        rw [e, smul_dotProduct, smul_eq_mul]
        have : _ < (0 : ℝ) := k2
        linarith
      · have hl : G' ⊓ 𝓟 {t | lnNormalize (symCol k (Real.cos (lnLargeAngle (cacos (cosOf (R t))))) (R t))
          (lnLargeAngle (cacos (cosOf (R t)))) ⬝ᵥ skewVec (R t) < 0}ᶜ ≤ G' := inf_le_left
        have hF := (hl.trans hG').trans hGF
        refine ln_pair_column (h.mono hF) h0 (hS.filter_mono hF) hlo hhi hb (hc.filter_mono (hl.trans hG')) (hk.filter_mono hl) 1
          (Or.inl rfl) ?_
        filter_upwards [hln.filter_mono hl, mem_inf_of_right (mem_principal_self _)] with t k1 k2
        have e : (SO3.mk (R t)).lnVee = (1 : ℝ) • lnNormalize (symCol k (Real.cos (lnLargeAngle (cacos (cosOf (R t))))) (R t))
            (lnLargeAngle (cacos (cosOf (R t)))) := by
          rw [k1, lnSign_hat3, if_neg (show ¬ _ < (0 : ℝ) from k2), vee3_hat3, one_smul]
        refine ⟨e, ?_⟩
        rw [e, one_smul]
        exact not_lt.mp k2
    refine spl {t | pivot (R t) = 0} (hpiv 0 inf_le_left (mem_inf_of_right (mem_principal_self _))) ?_
    refine spl {t | pivot (R t) = 1} (hpiv 1 (inf_le_left.trans inf_le_left) (mem_inf_of_right (mem_principal_self _))) ?_
    refine hpiv 2 (inf_le_left.trans inf_le_left) ?_
    have k1 : ∀ᶠ t in G ⊓ 𝓟 {t | pivot (R t) = 0}ᶜ ⊓ 𝓟 {t | pivot (R t) = 1}ᶜ, pivot (R t) ≠ 1 :=
      mem_inf_of_right (mem_principal_self _)
    have k2 : ∀ᶠ t in G ⊓ 𝓟 {t | pivot (R t) = 0}ᶜ ⊓ 𝓟 {t | pivot (R t) = 1}ᶜ, pivot (R t) ≠ 0 :=
      mem_inf_of_left (mem_inf_of_right (mem_principal_self _))
    filter_upwards [k1, k2] with t k1 k2
    generalize pivot (R t) = p at *
    fin_cases p
    · exact absurd rfl k2
    · exact absurd rfl k1
    · rfl

include h h0 in
/-- `regenerate` next to rotations. -/
theorem exp_ln_pair (hS : ∀ᶠ t in F, IsRotation (S t)) (hlo : 5e-3 < angle R₀) (hhi : angle R₀ < Real.pi - 6e-8)
    (hax : angle R₀ < Real.pi / 2 ∨ ¬ FixesDiagonal R₀) :
    (fun t => (SO3.ofVec (SO3.mk (R t)).lnVee).R - S t) =O[F] η ∧
    (fun t => vMat (SO3.mk (R t)).lnVee * vInv (so3Ln (R t)).2 (SO3.mk (R t)).lnVee - 1) =O[F] η := by
  have hpi : angle R₀ < Real.pi := by linarith
  obtain ⟨h1, h2, h3, h4⟩ := angle_data h0 hlo hpi
  obtain ⟨kw, ko⟩ := ln_pair h h0 hS hlo hhi hax
  have hn0 : vnorm (axisOf R₀) = angle R₀ := by rw [angle_eq] at h4 ⊢; exact h4
  have hal : Tendsto (fun t => angle (S t)) F (𝓝 (angle R₀)) := by simp only [angle_eq] at ko ⊢; exact ko.right
  rw [← hn0] at ko
  have hnlo : 5e-3 < vnorm (axisOf R₀) := by rw [hn0]; exact hlo
  have hnhi : vnorm (axisOf R₀) ≤ Real.pi := by rw [hn0]; exact hpi.le
  constructor
  · refine (kw.exp hnlo).diff.congr' ?_ EventuallyEq.rfl
    filter_upwards [hS, hal.eventually_const_lt hlo, hal.eventually_lt_const hpi] with t k1 k2 k3
    have := exp_of_axis k1 k2 k3
    rw [angle_eq] at this
    rw [show (SO3.ofVec (axisOf (S t))).R = S t from this]
  · refine ((kw.vMat hnlo).mul (kw.vInv ko hnlo hnhi)).diff.congr' ?_ EventuallyEq.rfl
    filter_upwards [hS, hal.eventually_const_lt hlo, hal.eventually_lt_const hpi] with t k1 k2 k3
    have k4 := (angle_data k1 k2 k3).2.2.2
    rw [angle_eq] at k4 k2 k3
    have k5 : vnorm (axisOf (S t)) = Real.arccos (cosOf (S t)) := k4
    have k6 := (vMat_mul_vInv (w := axisOf (S t)) (by rw [k5]; exact k2) (by rw [k5]; exact k3.le)).1
    rw [k5] at k6
    rw [k6]

end Mrob
