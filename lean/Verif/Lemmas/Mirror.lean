import Verif.Lemmas.Turns
import Verif.Spec.Mirror

/-!
# Mirror images
-/

open Matrix

namespace Mrob

open World Spec

/-- The sign of an increment. -/
noncomputable def flipSign (k : ℕ) : ℝ := if k = 0 then 1 else -1

theorem flipSign_sq (k : ℕ) : flipSign k * flipSign k = 1 := by
  rw [flipSign]; split_ifs <;> norm_num

/-- Mirror images as a change of coordinates. -/
noncomputable def mirrorSym : Sym where
  rel := Mirrored
  A _ k j := if k = j then flipSign k else 0
  Ai _ k j := if k = j then flipSign k else 0
  ok := NotOpposite
  kind := by
    rintro ⟨k, x⟩ ⟨k', x'⟩ h
    cases k <;> cases k' <;> first | rfl | exact absurd h id

theorem mirror_lin {κ : NodeKind} {δ : ℕ → ℝ} {k : ℕ} (hk : k < κ.dim) : mirrorSym.lin κ δ k = flipSign k * δ k := by
  rw [Sym.lin, Finset.sum_eq_single k]
  · change (if k = k then flipSign k else 0) * _ = _
    rw [if_pos rfl]
  · intro j _ hj
    change (if k = j then flipSign k else 0) * _ = _
    rw [if_neg (Ne.symm hj), zero_mul]
  · intro h; exact absurd (Finset.mem_range.mpr hk) h

theorem _root_.Spec.SameAngle.neg {a b : ℝ} (h : SameAngle a b) : SameAngle (-a) (-b) := by
  obtain ⟨k, hk⟩ := h
  exact ⟨-k, by rw [hk]; push_cast; ring⟩

theorem mirrored_stored {v v' : NodeVal} (h : Mirrored v v') : Mirrored v.stored v'.stored := by
  obtain ⟨k, x⟩ := v
  obtain ⟨k', x'⟩ := v'
  cases k <;> cases k' <;> first | exact absurd h id | skip
  · obtain ⟨h0, h1, h2⟩ : x' 0 = x 0 ∧ x' 1 = -x 1 ∧ SameAngle (x' 2) (-x 2) := h
    exact ⟨h0, h1, (sameAngle_wrap _).trans (h2.trans (sameAngle_wrap _).symm.neg)⟩
  · exact h

theorem mirror_moves (κ : NodeKind) : mirrorSym.Moves κ := by
  constructor
  · intro v v' _ h
    exact mirrored_stored h
  · intro i hi j _
    change ∑ k ∈ Finset.range κ.dim, (if i = k then flipSign i else 0) * (if k = j then flipSign k else 0) = _
    rw [Finset.sum_eq_single i]
    · rw [if_pos rfl, mul_ite, flipSign_sq, mul_zero]
    · intro k _ hk
      rw [if_neg (Ne.symm hk), zero_mul]
    · intro h; exact absurd (Finset.mem_range.mpr hi) h

theorem mirror_follows (κ : NodeKind) (δ : ℕ → ℝ) : mirrorSym.Follows κ δ := by
  rintro ⟨k, x⟩ ⟨k', x'⟩ rfl h
  cases k <;> cases k' <;> first | exact absurd h id | skip
  · obtain ⟨h0, h1, h2⟩ : x' 0 = x 0 ∧ x' 1 = -x 1 ∧ SameAngle (x' 2) (-x 2) := h
    have l0 : mirrorSym.lin .pose2d δ 0 = δ 0 := by
      rw [mirror_lin (by change 0 < 3; omega)]; simp [flipSign]
    have l1 : mirrorSym.lin .pose2d δ 1 = -δ 1 := by
      rw [mirror_lin (by change 1 < 3; omega)]; simp [flipSign]
    have l2 : mirrorSym.lin .pose2d δ 2 = -δ 2 := by
      rw [mirror_lin (by change 2 < 3; omega)]; simp [flipSign]
    refine ⟨?_, ?_, ?_⟩
    · change x' 0 + mirrorSym.lin .pose2d δ 0 = x 0 + δ 0
      rw [h0, l0]
    · change x' 1 + mirrorSym.lin .pose2d δ 1 = -(x 1 + δ 1)
      rw [h1, l1]; ring
    · change SameAngle (wrapAngle (x' 2 + mirrorSym.lin .pose2d δ 2)) (-wrapAngle (x 2 + δ 2))
      rw [l2]
      have := h2.add (.refl (-δ 2))
      rw [← neg_add] at this
      exact (sameAngle_wrap _).trans (this.trans (sameAngle_wrap _).symm.neg)
  · obtain ⟨h0, h1⟩ : x' 0 = x 0 ∧ x' 1 = -x 1 := h
    have l0 : mirrorSym.lin .landmark2d δ 0 = δ 0 := by
      rw [mirror_lin (by change 0 < 2; omega)]; simp [flipSign]
    have l1 : mirrorSym.lin .landmark2d δ 1 = -δ 1 := by
      rw [mirror_lin (by change 1 < 2; omega)]; simp [flipSign]
    refine ⟨?_, ?_⟩
    · change x' 0 + mirrorSym.lin .landmark2d δ 0 = x 0 + δ 0
      rw [h0, l0]
    · change x' 1 + mirrorSym.lin .landmark2d δ 1 = -(x 1 + δ 1)
      rw [h1, l1]; ring

theorem mirA3 : (Matrix.of fun i j : Fin 3 => mirrorSym.A .pose2d i j) = flip3 := by
  ext i j
  fin_cases i <;> fin_cases j <;> simp [mirrorSym, flipSign, flip3]

theorem mirA2 : (Matrix.of fun i j : Fin 2 => mirrorSym.A .landmark2d i j) = flip2 := by
  ext i j
  fin_cases i <;> fin_cases j <;> simp [mirrorSym, flipSign, flip2]

/-- Wrapping is odd except at a half turn. -/
theorem wrap_mirrored {a b : ℝ} (h : SameAngle a (-b)) (hne : wrapAngle b ≠ -Real.pi) : wrapAngle a = -wrapAngle b := by
  rw [wrapAngle_congr h]
  obtain ⟨h1, h2, h3⟩ := wrapAngle_spec b
  have hlt : -Real.pi < wrapAngle b := lt_of_le_of_ne h1 (Ne.symm hne)
  rw [wrapAngle_congr (sameAngle_wrap b).symm.neg]
  exact wrapAngle_of_mem (by linarith) (by linarith)

theorem flip3_mulVec (v : Vec3) : flip3 *ᵥ v = ![v 0, -v 1, -v 2] := by
  funext i; fin_cases i <;> simp [flip3, mulVec_diagonal]

theorem flip2_mulVec (v : Vec2) : flip2 *ᵥ v = ![v 0, -v 1] := by
  funext i; fin_cases i <;> simp [flip2, mulVec_diagonal]

theorem wrap2_mirrored {a b : Vec3} (h0 : a 0 = b 0) (h1 : a 1 = -b 1) (h2 : SameAngle (a 2) (-b 2)) (hb : wrapAngle (b 2) ≠ -Real.pi) :
    wrap2 a = flip3 *ᵥ wrap2 b := by
  rw [flip3_mulVec]
  funext i
  fin_cases i
  · exact h0
  · exact h1
  · exact wrap_mirrored h2 hb

theorem catan2_mirrored (dy dx : ℝ) : SameAngle (catan2 (-dy) dx) (-catan2 dy dx) := by
  rw [sameAngle_iff_angle]
  exact Complex.arg_conj_coe_angle ⟨dx, dy⟩

section

variable {obs obs' x x' y y' : Vec3}

theorem rel2d_mirrored (o0 : obs' 0 = obs 0) (o1 : obs' 1 = -obs 1) (o2 : SameAngle (obs' 2) (-obs 2))
    (h : Mirrored ⟨.pose2d, x⟩ ⟨.pose2d, x'⟩) (k : Mirrored ⟨.pose2d, y⟩ ⟨.pose2d, y'⟩) (hok : rel2dRes obs x y 2 ≠ -Real.pi) :
    rel2dRes obs' x' y' = flip3 *ᵥ rel2dRes obs x y ∧ (rel2dJac x' y').1 * flip3 = flip3 * (rel2dJac x y).1 ∧
      (rel2dJac x' y').2 * flip3 = flip3 * (rel2dJac x y).2 := by
  obtain ⟨h0, h1, h2⟩ : x' 0 = x 0 ∧ x' 1 = -x 1 ∧ SameAngle (x' 2) (-x 2) := h
  obtain ⟨k0, k1, k2⟩ : y' 0 = y 0 ∧ y' 1 = -y 1 ∧ SameAngle (y' 2) (-y 2) := k
  have hc := h2.cos
  have hs := h2.sin
  rw [Real.cos_neg] at hc
  rw [Real.sin_neg] at hs
  refine ⟨wrap2_mirrored ?_ ?_ ?_ hok, ?_, ?_⟩
  · simp [h0, h1, k0, k1, o0, hc, hs]; ring
  · simp [h0, h1, k0, k1, o1, hc, hs]; ring
  · have := (k2.sub h2).sub o2
    have e : -y 2 - -x 2 - -obs 2 = -(y 2 - x 2 - obs 2) := by ring
    rw [e] at this
    exact this
  · simp only [rel2dJac, h0, h1, k0, k1, hc, hs]
    ext i j
    fin_cases i <;> fin_cases j <;> simp [flip3] <;> ring
  · simp only [rel2dJac, hc, hs]
    ext i j
    fin_cases i <;> fin_cases j <;> simp [flip3]

theorem odom_mirrored (o0 : SameAngle (obs' 0) (-obs 0)) (o1 : obs' 1 = obs 1) (o2 : SameAngle (obs' 2) (-obs 2))
    (h : Mirrored ⟨.pose2d, x⟩ ⟨.pose2d, x'⟩) (k : Mirrored ⟨.pose2d, y⟩ ⟨.pose2d, y'⟩)
    (hok : odomRes obs x y 2 ≠ -Real.pi) :
    odomRes obs' x' y' = flip3 *ᵥ odomRes obs x y ∧ (odomJac obs' x').1 * flip3 = flip3 * (odomJac obs x).1 ∧
      (odomJac obs' x').2 * flip3 = flip3 * (odomJac obs x).2 := by
  obtain ⟨h0, h1, h2⟩ : x' 0 = x 0 ∧ x' 1 = -x 1 ∧ SameAngle (x' 2) (-x 2) := h
  obtain ⟨k0, k1, k2⟩ : y' 0 = y 0 ∧ y' 1 = -y 1 ∧ SameAngle (y' 2) (-y 2) := k
  have hc := h2.cos
  have hs := h2.sin
  rw [Real.cos_neg] at hc
  rw [Real.sin_neg] at hs
  have ht := h2.add o0
  rw [← neg_add] at ht
  have tc := ht.cos
  have ts := ht.sin
  rw [Real.cos_neg] at tc
  rw [Real.sin_neg] at ts
  refine ⟨wrap2_mirrored ?_ ?_ ?_ hok, ?_, ?_⟩
  · simp [odomPredict, h0, k0, o1, tc]
  · simp [odomPredict, h1, k1, o1, ts]; ring
  · have := (ht.add o2).sub k2
    have e : -(x 2 + obs 0) + -obs 2 - -y 2 = -(x 2 + obs 0 + obs 2 - y 2) := by ring
    rw [e] at this
    exact this
  · simp only [odomJac, o1, hc, hs]
    ext i j
    fin_cases i <;> fin_cases j <;> simp [flip3]
  · simp only [odomJac]
    ext i j
    fin_cases i <;> fin_cases j <;> simp [flip3]

theorem land2d_mirrored {obs obs' l l' : Vec2} (o0 : obs' 0 = obs 0) (o1 : SameAngle (obs' 1) (-obs 1))
    (h : Mirrored ⟨.pose2d, x⟩ ⟨.pose2d, x'⟩) (k : Mirrored ⟨.landmark2d, l⟩ ⟨.landmark2d, l'⟩)
    (hok : land2dRes obs x l 1 ≠ -Real.pi) :
    land2dRes obs' x' l' = flip2 *ᵥ land2dRes obs x l ∧ (land2dJac x' l').1 * flip3 = flip2 * (land2dJac x l).1 ∧
      (land2dJac x' l').2 * flip2 = flip2 * (land2dJac x l).2 := by
  obtain ⟨h0, h1, h2⟩ : x' 0 = x 0 ∧ x' 1 = -x 1 ∧ SameAngle (x' 2) (-x 2) := h
  obtain ⟨k0, k1⟩ : l' 0 = l 0 ∧ l' 1 = -l 1 := k
  have d0 : l' 0 - x' 0 = l 0 - x 0 := by rw [h0, k0]
  have d1 : l' 1 - x' 1 = -(l 1 - x 1) := by rw [h1, k1]; ring
  simp only [land2dRes] at hok
  simp only [land2dRes, land2dJac, d0, d1, neg_mul_neg, o0]
  by_cases hq : (l 0 - x 0) * (l 0 - x 0) + (l 1 - x 1) * (l 1 - x 1) < 1e-6
  · simp only [if_pos hq]
    refine ⟨(mulVec_zero _).symm, ?_, ?_⟩ <;> ext i j <;> fin_cases i <;> fin_cases j <;> simp [flip2, flip3]
  · rw [if_neg hq] at hok
    simp only [if_neg hq]
    refine ⟨?_, ?_, ?_⟩
    · rw [flip2_mulVec]
      have ha := ((catan2_mirrored (l 1 - x 1) (l 0 - x 0)).sub h2).sub o1
      have e : -catan2 (l 1 - x 1) (l 0 - x 0) - -x 2 - -obs 1 = -(catan2 (l 1 - x 1) (l 0 - x 0) - x 2 - obs 1) := by ring
      rw [e] at ha
      rw [wrap_mirrored ha hok]
      rfl
    · ext i j
      fin_cases i <;> fin_cases j <;> simp [flip2, flip3] <;> ring
    · ext i j
      fin_cases i <;> fin_cases j <;> simp [flip2] <;> ring

end

theorem factor_mirrored {v v' : FactorVirt} (h : FactorMirrored v v') : mirrorSym.Factors v v' := by
  cases h with
  | prior2d obs obs' W W' ty o0 o1 o2 hW =>
    refine ⟨rfl, flip3, hW, fun vals vals' hk hr hok => ?_⟩
    obtain ⟨x, x', rfl, rfl, hx⟩ := rel_one (κ := .pose2d) hk hr
    obtain ⟨h0, h1, h2⟩ : x' 0 = x 0 ∧ x' 1 = -x 1 ∧ SameAngle (x' 2) (-x 2) := hx
    refine ⟨wrap2_mirrored ?_ ?_ ?_ (hok (2 : Fin 3) rfl), jacRel_blk (κ := .pose2d) rfl ?_⟩
    · rw [Pi.sub_apply, Pi.sub_apply, h0, o0]
    · rw [Pi.sub_apply, Pi.sub_apply, h1, o1]; ring
    · have := h2.sub o2
      have e : -x 2 - -obs 2 = -(x 2 - obs 2) := by ring
      rw [e] at this
      exact this
    · rw [mirA3]; exact (Matrix.one_mul flip3).trans (Matrix.mul_one flip3).symm
  | rel2d obs obs' W W' ty o0 o1 o2 hW =>
    refine ⟨rfl, flip3, hW, fun vals vals' hk hr hok => ?_⟩
    obtain ⟨x, x', y, y', rfl, rfl, hx, hy⟩ := rel_two (κ := .pose2d) (μ := .pose2d) hk hr
    obtain ⟨e1, e2, e3⟩ := rel2d_mirrored o0 o1 o2 hx hy (hok (2 : Fin 3) rfl)
    refine ⟨e1, jacRel_blk2 (κ := .pose2d) (μ := .pose2d) rfl rfl ?_ ?_⟩
    · rw [mirA3]; exact e2
    · rw [mirA3]; exact e3
  | odom obs obs' W W' ty o0 o1 o2 hW =>
    refine ⟨rfl, flip3, hW, fun vals vals' hk hr hok => ?_⟩
    obtain ⟨x, x', y, y', rfl, rfl, hx, hy⟩ := rel_two (κ := .pose2d) (μ := .pose2d) hk hr
    obtain ⟨e1, e2, e3⟩ := odom_mirrored o0 o1 o2 hx hy (hok (2 : Fin 3) rfl)
    refine ⟨e1, jacRel_blk2 (κ := .pose2d) (μ := .pose2d) rfl rfl ?_ ?_⟩
    · rw [mirA3]; exact e2
    · rw [mirA3]; exact e3
  | land2d obs obs' W W' rev ty o0 o1 hW =>
    refine ⟨rfl, flip2, hW, fun vals vals' hk hr hok => ?_⟩
    cases rev
    · obtain ⟨x, x', l, l', rfl, rfl, hx, hl⟩ := rel_two (κ := .pose2d) (μ := .landmark2d) hk hr
      obtain ⟨e1, e2, e3⟩ := land2d_mirrored o0 o1 hx hl (hok (1 : Fin 2) rfl)
      refine ⟨e1, jacRel_blk2 (κ := .pose2d) (μ := .landmark2d) rfl rfl ?_ ?_⟩
      · rw [mirA3]; exact e2
      · rw [mirA2]; exact e3
    · obtain ⟨l, l', x, x', rfl, rfl, hl, hx⟩ := rel_two (κ := .landmark2d) (μ := .pose2d) hk hr
      obtain ⟨e1, e2, e3⟩ := land2d_mirrored o0 o1 hx hl (hok (1 : Fin 2) rfl)
      refine ⟨e1, jacRel_blk2 (κ := .landmark2d) (μ := .pose2d) rfl rfl ?_ ?_⟩
      · rw [mirA2]; exact e3
      · rw [mirA3]; exact e2

end Mrob
