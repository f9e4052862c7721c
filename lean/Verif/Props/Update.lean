import Verif.Lemmas.Update
import Verif.Lemmas.SO3LnInv

/-! # Property C20: increments cancel and parallel increments add -/

open Matrix NormedSpace

namespace Mrob

open Spec

/-! ## Rotations -/

/-- Rotation vectors along one axis compose additively, exactly when none of the three vectors is in
the Taylor band of `SO3::exp`, and up to `1e-25` per entry always. -/
theorem C20_so3_additive (w : Vec3) (s t : ℝ) :
    ((∀ u ∈ ({s, t, s + t} : Set ℝ), 1e-5 ≤ len (u • w) ∨ u • w = 0) →
      (SO3.ofVec (s • w)).mul (SO3.ofVec (t • w)) = SO3.ofVec ((s + t) • w)) ∧
    ∀ i j, |((SO3.ofVec (s • w)).mul (SO3.ofVec (t • w))).R i j - (SO3.ofVec ((s + t) • w)).R i j|
      ≤ 1e-25 := by
  constructor
  · intro h
    ext1
    change (SO3.ofVec (s • w)).R * (SO3.ofVec (t • w)).R = _
    rw [C02_exp_exact _ (h s (by simp)), C02_exp_exact _ (h t (by simp)),
      C02_exp_exact _ (h (s + t) (by simp)), exp_crossMat_add]
  · intro i j
    obtain ⟨_, -, -, h1, -⟩ := exp_twist_data (s • w) 0
    obtain ⟨_, -, -, h2, -⟩ := exp_twist_data (t • w) 0
    obtain ⟨_, -, -, h3, -⟩ := exp_twist_data ((s + t) • w) 0
    have h := near_rot_mul (exp_crossMat_isRotation _) (exp_crossMat_isRotation _) h1 h2 i j
    rw [exp_crossMat_add] at h
    have h' := h3 i j
    rw [abs_sub_comm] at h'
    refine (abs_sub_le _ (exp (crossMat ((s + t) • w)) i j) _).trans ?_
    refine (add_le_add h h').trans ?_
    norm_num

/-- Three vectors along one axis, none in the band. -/
example : ∀ u ∈ ({1, 2, 1 + 2} : Set ℝ), 1e-5 ≤ len (u • ![(1 : ℝ), 0, 0]) ∨ u • ![(1 : ℝ), 0, 0] = 0 := by
  intro u hu
  left
  have h1 : len ![(1 : ℝ), 0, 0] = 1 := by rw [len_vec3]; norm_num
  rw [len_eq_vnorm, vnorm_smul, ← len_eq_vnorm, h1]
  simp only [Set.mem_insert_iff, Set.mem_singleton_iff] at hu
  rcases hu with rfl | rfl | rfl <;> norm_num

/-- Applying `w` and then `-w` restores the object whatever matrix it holds, on either side, when `w` is
outside the Taylor band. -/
theorem C20_so3_cancel (a : SO3) (w : Vec3) (h : 1e-5 ≤ len w ∨ w = 0) :
    (a.updateLhs w).updateLhs (-w) = a ∧ (a.updateRhs w).updateRhs (-w) = a := by
  have h' : 1e-5 ≤ len (-w) ∨ -w = 0 := by
    rcases h with h | h
    · left; rwa [len_eq_vnorm, vnorm_neg, ← len_eq_vnorm]
    · right; rw [h, neg_zero]
  have e1 : (SO3.ofVec (-w)).R * (SO3.ofVec w).R = 1 := by
    rw [C02_exp_exact _ h, C02_exp_exact _ h']
    have := exp_crossMat_add (-1) 1 w
    simpa [crossMat_eq_hat3, hat3_zero] using this
  have e2 : (SO3.ofVec w).R * (SO3.ofVec (-w)).R = 1 := by
    rw [C02_exp_exact _ h, C02_exp_exact _ h']
    have := exp_crossMat_add 1 (-1) w
    simpa [crossMat_eq_hat3, hat3_zero] using this
  constructor <;> ext1
  · change (SO3.ofVec (-w)).R * ((SO3.ofVec w).R * a.R) = a.R
    rw [← Matrix.mul_assoc, e1, Matrix.one_mul]
  · change (a.R * (SO3.ofVec w).R) * (SO3.ofVec (-w)).R = a.R
    rw [Matrix.mul_assoc, e2, Matrix.mul_one]

example : 1e-5 ≤ len ![(1 : ℝ), -2, 2] ∨ ![(1 : ℝ), -2, 2] = 0 := by
  left
  rw [len_vec3, show (1:ℝ) * 1 + -2 * -2 + 2 * 2 = 3 ^ 2 by norm_num, Real.sqrt_sq] <;> norm_num

/-- For every increment, including those in the band, a rotation comes back up to `3e-25` per entry. -/
theorem C20_so3_cancel_small {a : SO3} (ha : IsRotation a.R) (w : Vec3) (i j : Fin 3) :
    |((a.updateLhs w).updateLhs (-w)).R i j - a.R i j| ≤ 3e-25 ∧
      |((a.updateRhs w).updateRhs (-w)).R i j - a.R i j| ≤ 3e-25 := by
  have h1 := (C20_so3_additive w (-1) 1).2
  have h2 := (C20_so3_additive w 1 (-1)).2
  simp only [neg_smul, one_smul, neg_add_cancel, add_neg_cancel, zero_smul, ofVec_zero] at h1 h2
  constructor
  · change |((SO3.ofVec (-w)).R * ((SO3.ofVec w).R * a.R)) i j - a.R i j| ≤ _
    rw [← Matrix.mul_assoc]
    have h3 := near_mulVec (Q := ((SO3.ofVec (-w)).mul (SO3.ofVec w)).R) (Y := 1)
      (p := fun l => a.R l j) (x := fun l => a.R l j) (ep := 0) (B := 1)
      (fun i j => by by_cases h : i = j <;> simp [one_apply, h]) h1 (fun l => by simp) (fun l => rot_entry_le ha l j) i
    rw [one_mulVec] at h3
    refine h3.trans ?_
    norm_num
  · change |((a.R * (SO3.ofVec w).R) * (SO3.ofVec (-w)).R) i j - a.R i j| ≤ _
    rw [Matrix.mul_assoc]
    have h3 := near_mulVec (Q := (((SO3.ofVec w).mul (SO3.ofVec (-w))).R)ᵀ) (Y := 1)
      (p := fun l => a.R i l) (x := fun l => a.R i l) (ep := 0) (B := 1)
      (fun i j => by by_cases h : i = j <;> simp [one_apply, h])
      (fun k l => by have := h2 l k; rwa [transpose_apply, ← transpose_apply 1 k l, transpose_one] at *)
      (fun l => by simp) (fun l => rot_entry_le ha i l) j
    rw [one_mulVec, mulVec_transpose] at h3
    refine le_trans (le_of_eq ?_) (h3.trans (by norm_num))
    rfl

/-- A rotation and an increment inside the band. -/
example : IsRotation (rotX 1) ∧ len ![(3e-6 : ℝ), 0, 4e-6] < 1e-5 := by
  refine ⟨rotX_isRotation 1, ?_⟩
  rw [len_vec3, show (3e-6:ℝ) * 3e-6 + 0 * 0 + 4e-6 * 4e-6 = 5e-6 ^ 2 by norm_num, Real.sqrt_sq] <;>
    norm_num

/-! ## Rigid transformations -/

/-- Parallel twists compose additively: exactly when none of the three angular parts lies in `(0, 1e-3]`, and
in general up to `1e-25` in the rotation and `1e-16·(|s|+|t|)·|v|` in the translation. -/
theorem C20_se3_additive (w v : Vec3) (s t : ℝ) :
    ((∀ u ∈ ({s, t, s + t} : Set ℝ), 1e-3 < len (u • w) ∨ u • w = 0) →
      (SE3.ofVec (vec6 (s • w) (s • v))).mul (SE3.ofVec (vec6 (t • w) (t • v)))
        = SE3.ofVec (vec6 ((s + t) • w) ((s + t) • v))) ∧
    (∀ i j, |((SE3.ofVec (vec6 (s • w) (s • v))).mul (SE3.ofVec (vec6 (t • w) (t • v)))).R i j
        - (SE3.ofVec (vec6 ((s + t) • w) ((s + t) • v))).R i j| ≤ 1e-25) ∧
    (∀ i, |((SE3.ofVec (vec6 (s • w) (s • v))).mul (SE3.ofVec (vec6 (t • w) (t • v)))).t i
        - (SE3.ofVec (vec6 ((s + t) • w) ((s + t) • v))).t i| ≤ 1e-16 * (|s| + |t|) * len v) ∧
    ((SE3.ofVec (vec6 (s • w) (s • v))).mul (SE3.ofVec (vec6 (t • w) (t • v)))).T.toBlocks₂₁ = 0 ∧
    ((SE3.ofVec (vec6 (s • w) (s • v))).mul (SE3.ofVec (vec6 (t • w) (t • v)))).T.toBlocks₂₂ = 1 := by
  have eT : ((SE3.ofVec (vec6 (s • w) (s • v))).mul (SE3.ofVec (vec6 (t • w) (t • v)))).T
      = homog ((SO3.ofVec (s • w)).R * (SO3.ofVec (t • w)).R)
        ((SO3.ofVec (s • w)).R *ᵥ (vMat (t • w) *ᵥ (t • v)) + vMat (s • w) *ᵥ (s • v)) 1 := by
    change (SE3.ofVec _).T * (SE3.ofVec _).T = _
    rw [se3_ofVec_T, se3_ofVec_T, homog_mul]
    simp
  have eR : ((SE3.ofVec (vec6 (s • w) (s • v))).mul (SE3.ofVec (vec6 (t • w) (t • v)))).R
      = (SO3.ofVec (s • w)).R * (SO3.ofVec (t • w)).R := by rw [SE3.R, eT, tl3_homog]
  have et : ((SE3.ofVec (vec6 (s • w) (s • v))).mul (SE3.ofVec (vec6 (t • w) (t • v)))).t
      = (SO3.ofVec (s • w)).R *ᵥ (vMat (t • w) *ᵥ (t • v)) + vMat (s • w) *ᵥ (s • v) := by
    rw [SE3.t, eT, tr3_homog]
  refine ⟨fun h => ?_, fun i j => ?_, fun i => ?_, ?_, ?_⟩
  · ext1
    change (SE3.ofVec _).T * (SE3.ofVec _).T = _
    rw [C08_exp_exact _ _ (h s (by simp)), C08_exp_exact _ _ (h t (by simp)),
      C08_exp_exact _ _ (h (s + t) (by simp)), exp_twist_add]
  · rw [eR, SE3.R, se3_ofVec_T, tl3_homog, head3_vec6]
    exact (C20_so3_additive w s t).2 i j
  · rw [et, SE3.t, se3_ofVec_T, tr3_homog, head3_vec6, tail3_vec6, len_eq_vnorm]
    obtain ⟨xs, a1, b1, c1, d1⟩ := exp_twist_data (s • w) (s • v)
    obtain ⟨xt, a2, b2, c2, d2⟩ := exp_twist_data (t • w) (t • v)
    obtain ⟨xu, a3, b3, c3, d3⟩ := exp_twist_data ((s + t) • w) ((s + t) • v)
    have hadd := exp_twist_add s t w v
    rw [a1, a2, a3, homog_mul] at hadd
    have e := congrFun (homog_inj hadd).2 i
    simp only [vnorm_smul] at d1 d2 d3 b1 b2 b3
    have n := vnorm_nonneg v
    have hB : ∀ l, |(vMat (t • w) *ᵥ (t • v)) l| ≤ 13 * (|t| * vnorm v) := by
      intro l
      have := abs_sub_abs_le_abs_sub ((vMat (t • w) *ᵥ (t • v)) l) (xt l)
      have h1 := d2 l
      have h2 := b2 l
      have n' : 0 ≤ |t| * vnorm v := by positivity
      norm_num at *
      linarith
    have k := near_mulVec (fun i j => rot_entry_le (exp_crossMat_isRotation (s • w)) i j) c1 d2 hB i
    have k1 := d1 i
    have k3 := d3 i
    rw [abs_sub_comm] at k3
    simp only [Pi.add_apply, one_smul] at e ⊢
    have e' : ((SO3.ofVec (s • w)).R *ᵥ (vMat (t • w) *ᵥ (t • v))) i + (vMat (s • w) *ᵥ (s • v)) i
        - (vMat ((s + t) • w) *ᵥ ((s + t) • v)) i
      = (((SO3.ofVec (s • w)).R *ᵥ (vMat (t • w) *ᵥ (t • v))) i - (exp (crossMat (s • w)) *ᵥ xt) i)
        + ((vMat (s • w) *ᵥ (s • v)) i - xs i) + (xu i - (vMat ((s + t) • w) *ᵥ ((s + t) • v)) i) := by
      linarith
    rw [e']
    refine (abs_add_three _ _ _).trans ?_
    have hst : |s + t| * vnorm v ≤ |s| * vnorm v + |t| * vnorm v := by
      rw [← add_mul]; exact mul_le_mul_of_nonneg_right (abs_add_le s t) n
    have ns : 0 ≤ |s| * vnorm v := by positivity
    have nt : 0 ≤ |t| * vnorm v := by positivity
    have := add_le_add (add_le_add k k1) k3
    refine this.trans ?_
    rw [show 1e-16 * (|s| + |t|) * vnorm v = 1e-16 * (|s| * vnorm v + |t| * vnorm v) by ring]
    generalize |s| * vnorm v = S at *
    generalize |t| * vnorm v = U at *
    generalize |s + t| * vnorm v = W at *
    norm_num
    linarith
  · rw [eT]; rfl
  · rw [eT]; rfl

/-- A genuine screw, all three multiples outside the band. -/
example : ∀ u ∈ ({1, 2, 1 + 2} : Set ℝ), 1e-3 < len (u • ![(1 : ℝ), 0, 0]) ∨ u • ![(1 : ℝ), 0, 0] = 0 := by
  intro u hu
  left
  have h1 : len ![(1 : ℝ), 0, 0] = 1 := by rw [len_vec3]; norm_num
  rw [len_eq_vnorm, vnorm_smul, ← len_eq_vnorm, h1]
  simp only [Set.mem_insert_iff, Set.mem_singleton_iff] at hu
  rcases hu with rfl | rfl | rfl <;> norm_num

theorem se3_cancel_exact (w v : Vec3) (h : 1e-3 < len w ∨ w = 0) :
    (SE3.ofVec (-vec6 w v)).T * (SE3.ofVec (vec6 w v)).T = 1 ∧
      (SE3.ofVec (vec6 w v)).T * (SE3.ofVec (-vec6 w v)).T = 1 := by
  have en : -vec6 w v = vec6 ((-1 : ℝ) • w) ((-1 : ℝ) • v) := by
    funext i; rcases i with i | i <;> simp [vec6]
  have e1 : vec6 w v = vec6 ((1 : ℝ) • w) ((1 : ℝ) • v) := by rw [one_smul, one_smul]
  have h' : 1e-3 < len ((-1 : ℝ) • w) ∨ (-1 : ℝ) • w = 0 := by
    rcases h with h | h
    · left; rwa [neg_one_smul, len_eq_vnorm, vnorm_neg, ← len_eq_vnorm]
    · right; rw [h, smul_zero]
  have h1 : 1e-3 < len ((1 : ℝ) • w) ∨ (1 : ℝ) • w = 0 := by rwa [one_smul]
  have z : exp (twist ((0 : ℝ) • w) ((0 : ℝ) • v)) = 1 := by
    rw [twist_smul, zero_smul, exp_zero]
  rw [en, e1, C08_exp_exact _ _ h1, C08_exp_exact _ _ h', exp_twist_add, exp_twist_add]
  rw [neg_add_cancel, add_neg_cancel]
  exact ⟨z, z⟩

/-- Applying `xi` and then `-xi` restores the pose whatever matrix it holds, on either side, when the
angular part is zero or longer than `1e-3`. -/
theorem C20_se3_cancel (a : SE3) (xi : Vec6) (h : 1e-3 < len (head3 xi) ∨ head3 xi = 0) :
    (a.updateLhs xi).updateLhs (-xi) = a ∧ (a.updateRhs xi).updateRhs (-xi) = a := by
  obtain ⟨e1, e2⟩ := se3_cancel_exact (head3 xi) (tail3 xi) h
  rw [vec6_eta] at e1 e2
  constructor <;> ext1
  · change (SE3.ofVec (-xi)).T * ((SE3.ofVec xi).T * a.T) = a.T
    rw [← Matrix.mul_assoc, e1, Matrix.one_mul]
  · change (a.T * (SE3.ofVec xi).T) * (SE3.ofVec (-xi)).T = a.T
    rw [Matrix.mul_assoc, e2, Matrix.mul_one]

example : 1e-3 < len (head3 (vec6 ![1, -2, 2] ![4, 5, 6])) ∨ head3 (vec6 ![1, -2, 2] ![4, 5, 6]) = 0 := by
  left
  rw [head3_vec6, len_vec3, show (1:ℝ) * 1 + -2 * -2 + 2 * 2 = 3 ^ 2 by norm_num, Real.sqrt_sq] <;> norm_num

/-- For every increment, including those in the band, a rigid pose comes back up to `3e-25` in the
rotation entries and `3e-25·|t| + 1e-15·|v|` in the translation. -/
theorem C20_se3_cancel_small {a : SE3} (ha : IsRigid a.T) (xi : Vec6) :
    (∀ i j, |((a.updateLhs xi).updateLhs (-xi)).R i j - a.R i j| ≤ 3e-25 ∧
      |((a.updateRhs xi).updateRhs (-xi)).R i j - a.R i j| ≤ 3e-25) ∧
    ∀ i, |((a.updateLhs xi).updateLhs (-xi)).t i - a.t i| ≤ 3e-25 * len a.t + 1e-15 * len (tail3 xi) ∧
      |((a.updateRhs xi).updateRhs (-xi)).t i - a.t i| ≤ 3e-25 * len a.t + 1e-15 * len (tail3 xi) := by
  obtain ⟨w, v, rfl⟩ : ∃ w v, xi = vec6 w v := ⟨_, _, (vec6_eta xi).symm⟩
  have en : -vec6 w v = vec6 (-w) (-v) := by funext i; rcases i with i | i <;> simp [vec6]
  have haR := rigid_R ha
  have haT := rigid_T ha
  have n := vnorm_nonneg v
  have na := vnorm_nonneg a.t
  rw [tail3_vec6, len_eq_vnorm, len_eq_vnorm]
  -- translation of the product of the two increments
  have A := C20_se3_additive w v (-1) 1
  have B := C20_se3_additive w v 1 (-1)
  simp only [neg_smul, one_smul, neg_add_cancel, add_neg_cancel, zero_smul] at A B
  have z : SE3.ofVec (vec6 0 0) = ⟨homog 1 0 1⟩ := by
    ext1
    rw [se3_ofVec_T, head3_vec6, tail3_vec6, ofVec_zero, mulVec_zero]
  have pT : ∀ x y : Vec6, (SE3.ofVec x).T * (SE3.ofVec y).T
      = homog ((SE3.ofVec x).mul (SE3.ofVec y)).R ((SE3.ofVec x).mul (SE3.ofVec y)).t 1 := by
    intro x y
    simp only [SE3.R, SE3.t, SE3.mul, se3_ofVec_T, homog_mul, tl3_homog, tr3_homog]
    simp
  have LT : ((a.updateLhs (vec6 w v)).updateLhs (-vec6 w v)).T
      = homog (((SE3.ofVec (vec6 (-w) (-v))).mul (SE3.ofVec (vec6 w v))).R * a.R)
        (((SE3.ofVec (vec6 (-w) (-v))).mul (SE3.ofVec (vec6 w v))).R *ᵥ a.t
          + ((SE3.ofVec (vec6 (-w) (-v))).mul (SE3.ofVec (vec6 w v))).t) 1 := by
    change (SE3.ofVec (-vec6 w v)).T * ((SE3.ofVec (vec6 w v)).T * a.T) = _
    rw [← Matrix.mul_assoc, en, pT]
    conv_lhs => rw [haT]
    rw [homog_mul]; simp
  have RT : ((a.updateRhs (vec6 w v)).updateRhs (-vec6 w v)).T
      = homog (a.R * ((SE3.ofVec (vec6 w v)).mul (SE3.ofVec (vec6 (-w) (-v)))).R)
        (a.R *ᵥ ((SE3.ofVec (vec6 w v)).mul (SE3.ofVec (vec6 (-w) (-v)))).t + a.t) 1 := by
    change (a.T * (SE3.ofVec (vec6 w v)).T) * (SE3.ofVec (-vec6 w v)).T = _
    rw [Matrix.mul_assoc, en, pT]
    conv_lhs => rw [haT]
    rw [homog_mul]; simp
  have mR : ∀ x y : Vec6, ((SE3.ofVec x).mul (SE3.ofVec y)).R = (SO3.ofVec (head3 x)).R * (SO3.ofVec (head3 y)).R := by
    intro x y
    rw [SE3.R, SE3.mul, se3_ofVec_T, se3_ofVec_T, homog_mul, tl3_homog]
  have zR : (SE3.ofVec (vec6 0 0)).R = 1 := by rw [z]; exact tl3_homog _ _ _
  have zt : (SE3.ofVec (vec6 0 0)).t = 0 := by rw [z]; exact tr3_homog _ _ _
  rw [zR, zt] at A B
  have one_le : ∀ i j : Fin 3, |(1 : Mat3) i j| ≤ 1 := fun i j => by
    by_cases h : i = j <;> simp [one_apply, h]
  refine ⟨fun i j => ⟨?_, ?_⟩, fun i => ⟨?_, ?_⟩⟩
  · have h := (C20_so3_cancel_small (a := ⟨a.R⟩) haR w i j).1
    refine le_trans (le_of_eq ?_) h
    rw [SE3.R, LT, tl3_homog]
    change _ = |((SO3.ofVec (-w)).R * ((SO3.ofVec w).R * a.R)) i j - a.R i j|
    rw [← Matrix.mul_assoc, mR, head3_vec6, head3_vec6]
  · have h := (C20_so3_cancel_small (a := ⟨a.R⟩) haR w i j).2
    refine le_trans (le_of_eq ?_) h
    rw [SE3.R, RT, tl3_homog]
    change _ = |((a.R * (SO3.ofVec w).R) * (SO3.ofVec (-w)).R) i j - a.R i j|
    rw [Matrix.mul_assoc, mR, head3_vec6, head3_vec6]
  · rw [SE3.t, LT, tr3_homog, Pi.add_apply]
    have k := near_mulVec (p := a.t) (x := a.t) (ep := 0) one_le A.2.1 (fun l => by simp)
      (fun l => abs_le_vnorm a.t l) i
    have k2 := A.2.2.1 i
    rw [one_mulVec] at k
    rw [Pi.zero_apply, sub_zero, len_eq_vnorm] at k2
    rw [add_sub_right_comm]
    refine (abs_add_le _ _).trans ((add_le_add k k2).trans ?_)
    norm_num
    linarith
  · rw [SE3.t, RT, tr3_homog, Pi.add_apply, add_sub_cancel_right]
    have k2 : ∀ l, |((SE3.ofVec (vec6 w v)).mul (SE3.ofVec (vec6 (-w) (-v)))).t l| ≤ 2e-16 * vnorm v := by
      intro l
      have := B.2.2.1 l
      rw [Pi.zero_apply, sub_zero, len_eq_vnorm] at this
      refine this.trans (le_of_eq ?_)
      norm_num
    have k := near_mulVec (Q := a.R) (Y := a.R) (x := 0) (eQ := 0) (fun i j => rot_entry_le haR i j)
      (fun i j => by simp) (fun l => by rw [Pi.zero_apply, sub_zero]; exact k2 l) k2 i
    rw [mulVec_zero, Pi.zero_apply, sub_zero] at k
    refine k.trans ?_
    norm_num at *
    linarith

/-- A rigid pose and an increment inside the band. -/
example : IsRigid (homog (rotX 1) ![1, 2, 3] 1) ∧
    len (head3 (vec6 ![3e-4, 0, 4e-4] ![4, 5, 6])) ≤ 1e-3 := by
  refine ⟨isRigid_homog (rotX_isRotation 1) _, ?_⟩
  rw [head3_vec6, len_vec3, show (3e-4:ℝ) * 3e-4 + 0 * 0 + 4e-4 * 4e-4 = 5e-4 ^ 2 by norm_num,
    Real.sqrt_sq] <;> norm_num

end Mrob
