import Verif.Lemmas.SE3More
import Verif.Lemmas.SO3Hist
import Verif.Props.SO3

/-! # Properties C01 (6-vectors), C08–C12: rigid transformations -/

open Matrix NormedSpace

namespace Mrob

open Spec

/-! ## C01, twists -/

/-- `hat6` is the generator of the screw motion, `vee6` inverts it, and `hat6` inverts `vee6` on
matrices of the Lie algebra. -/
theorem C01_hat6_vee6 (xi : Vec6) (M : Mat4) :
    hat6 xi = twist (head3 xi) (tail3 xi) ∧ vee6 (hat6 xi) = xi ∧
      (M.toBlocks₁₁ᵀ = -M.toBlocks₁₁ → M.toBlocks₂₁ = 0 → M.toBlocks₂₂ = 0 → hat6 (vee6 M) = M) := by
  refine ⟨by rw [twist_eq_hat6, vec6_eta], vee6_hat6 xi, fun h1 h2 h3 => ?_⟩
  have e : M = homog M.toBlocks₁₁ (tr3 M) 0 := by
    ext i j
    rcases i with i | i <;> rcases j with j | j
    · rfl
    · rfl
    · exact congrFun (congrFun h2 i) j
    · exact congrFun (congrFun h3 i) j
  rw [e, vee6_homog, hat6_eq, head3_vec6, tail3_vec6, hat3_vee3 h1]

/-- A Lie-algebra element with rotation and translation parts. -/
example : (twist ![1, 2, 3] ![4, 5, 6]).toBlocks₁₁ᵀ = -(twist ![1, 2, 3] ![4, 5, 6]).toBlocks₁₁ ∧
    (twist ![1, 2, 3] ![4, 5, 6]).toBlocks₂₁ = 0 ∧ (twist ![1, 2, 3] ![4, 5, 6]).toBlocks₂₂ = 0 := by
  refine ⟨?_, rfl, rfl⟩
  change (crossMat _)ᵀ = -crossMat _
  rw [crossMat_eq_hat3, hat3_transpose]

/-! ## C08 -/

/-- For twists whose angular part is zero or longer than `1e-3`, `SE3(xi)` is the exponential of the
screw generator. -/
theorem C08_exp_exact (w v : Vec3) (h : 1e-3 < len w ∨ w = 0) :
    (SE3.ofVec (vec6 w v)).T = exp (twist w v) := by
  rw [twist_eq_hat6, se3_ofVec_T, head3_vec6, tail3_vec6]
  rcases h with h | rfl
  · rw [len_eq_vnorm] at h
    have hw : w ≠ 0 := by
      rintro rfl
      rw [vnorm_eq_zero.mpr rfl] at h
      norm_num at h
    have h5 : 1e-5 ≤ vnorm w := le_trans (by norm_num) h.le
    rw [exp_hat6 (by rwa [head3_vec6]), head3_vec6, tail3_vec6,
      C02_exp_exact w (Or.inl (by rwa [len_eq_vnorm])), C01_hat3_cross, vMat, vC2_of_gt h,
      vC3_of_gt h, ← vnorm_sq, div_div, show vnorm w ^ 2 * vnorm w = vnorm w ^ 3 by ring]
  · rw [exp_hat6_zero (by rw [head3_vec6]), tail3_vec6, ofVec_zero, vMat_zero, one_mulVec]

/-- For angular parts up to `1e-3` long the rotation block is within `1e-26` of the exponential, the
translation within `5e-18 · |v|`, and the last row is exact. -/
theorem C08_exp_small (w v : Vec3) (h : len w ≤ 1e-3) :
    (∀ i j, |(SE3.ofVec (vec6 w v)).T.toBlocks₁₁ i j - (exp (twist w v)).toBlocks₁₁ i j| ≤ 1e-26) ∧
    (∀ i, |(SE3.ofVec (vec6 w v)).T (Sum.inl i) (Sum.inr ()) - exp (twist w v) (Sum.inl i) (Sum.inr ())|
      ≤ 5e-18 * len v) ∧
    (∀ j, (SE3.ofVec (vec6 w v)).T (Sum.inr ()) j = exp (twist w v) (Sum.inr ()) j) := by
  by_cases hw : w = 0
  · rw [C08_exp_exact w v (Or.inr hw)]
    refine ⟨fun i j => ?_, fun i => ?_, fun j => rfl⟩
    · rw [sub_self, abs_zero]; norm_num
    · rw [sub_self, abs_zero]
      have : 0 ≤ len v := Real.sqrt_nonneg _
      positivity
  rw [len_eq_vnorm] at h
  have hpos : 0 < vnorm w := lt_of_le_of_ne (vnorm_nonneg w) fun h' => hw (vnorm_eq_zero.mp h'.symm)
  rw [twist_eq_hat6, se3_ofVec_T, exp_hat6 (by rwa [head3_vec6]), head3_vec6, tail3_vec6]
  refine ⟨fun i j => ?_, fun i => ?_, fun j => by rcases j with j | j <;> rfl⟩
  · change |(SO3.ofVec w).R i j - exp (hat3 w) i j| ≤ _
    by_cases h5 : 1e-5 ≤ len w
    · rw [C02_exp_exact w (Or.inl h5), C01_hat3_cross, sub_self, abs_zero]; norm_num
    · rw [C01_hat3_cross]
      exact C02_exp_small w (not_le.mp h5) i j
  · change |(vMat w *ᵥ v) i - (rod _ _ w *ᵥ v) i| ≤ _
    rw [vMat, vC2_of_le h, vC3_of_le h, ← vnorm_sq, len_eq_vnorm]
    have h2 := cosc_taylor hpos
    have h3 := sinc3_taylor hpos
    rw [abs_sub_comm] at h2 h3
    have e2 : (0.5 : ℝ) - vnorm w ^ 2 / 24 = 1 / 2 - vnorm w ^ 2 / 24 := by norm_num
    rw [e2]
    refine (rod_sub_mulVec_le (c := 1.5e-18) w v i ?_).trans ?_
    · set o := vnorm w
      have p4 : o ^ 4 ≤ (1e-3) ^ 4 := by gcongr
      have p2 : o ^ 2 ≤ (1e-3) ^ 2 := by gcongr
      calc _ ≤ o ^ 4 / 720 * o + o ^ 4 / 5040 * o ^ 2 := by gcongr
        _ ≤ (1e-3) ^ 4 / 720 * 1e-3 + (1e-3) ^ 4 / 5040 * (1e-3) ^ 2 := by gcongr
        _ ≤ _ := by norm_num
    · have := vnorm_nonneg v
      norm_num; linarith

/-- Twists in both regimes of the code exist. -/
example : 1e-3 < len ![(1 : ℝ), -2, 2] ∧ len ![(3e-4 : ℝ), 0, 4e-4] ≤ 1e-3 := by
  constructor
  · rw [len_vec3, show (1:ℝ) * 1 + -2 * -2 + 2 * 2 = 3 ^ 2 by norm_num, Real.sqrt_sq] <;> norm_num
  · rw [len_vec3, show (3e-4:ℝ) * 3e-4 + 0 * 0 + 4e-4 * 4e-4 = 5e-4 ^ 2 by norm_num, Real.sqrt_sq] <;>
      norm_num

/-! ## C09 -/

/-- `SE3Reach U n a`: the object `a` can be produced from rigid transformations by a finite sequence of
`mul`/`*`, `inv`, `update_lhs`, `update_rhs`, with `n` updates in total, all with arguments in `U`. -/
inductive SE3Reach (U : Vec6 → Prop) : ℕ → SE3 → Prop
  | start (a : SE3) : IsRigid a.T → SE3Reach U 0 a
  | default : SE3Reach U 0 SE3.default
  | ofVec (xi : Vec6) : U xi → SE3Reach U 1 (SE3.ofVec xi)
  | mul {m n : ℕ} {a b : SE3} : SE3Reach U m a → SE3Reach U n b → SE3Reach U (m + n) (a.mul b)
  | inv {n : ℕ} {a : SE3} : SE3Reach U n a → SE3Reach U n a.inv
  | updateLhs {n : ℕ} {a : SE3} (xi : Vec6) : U xi → SE3Reach U n a →
      SE3Reach U (n + 1) (a.updateLhs xi)
  | updateRhs {n : ℕ} {a : SE3} (xi : Vec6) : U xi → SE3Reach U n a →
      SE3Reach U (n + 1) (a.updateRhs xi)

/-- Whatever the history, if the angular part of every update is zero or at least `1e-5` long the result
is exactly a rigid transformation. -/
theorem C09_group_exact {n : ℕ} {a : SE3}
    (h : SE3Reach (fun xi => 1e-5 ≤ len (head3 xi) ∨ head3 xi = 0) n a) : IsRigid a.T := by
  have hv : ∀ xi : Vec6, 1e-5 ≤ len (head3 xi) ∨ head3 xi = 0 → IsRigid (SE3.ofVec xi).T := by
    intro xi hx
    rw [se3_ofVec_T]
    refine isRigid_homog ?_ _
    rcases hx with hx | hx
    · exact ofVec_isRotation_of_ge hx
    · rw [hx, ofVec_zero]; exact isRotation_one
  induction h with
  | start a ha => exact ha
  | default =>
    change IsRigid (1 : Mat4)
    rw [← homog_one]; exact isRigid_homog isRotation_one _
  | ofVec xi hx => exact hv xi hx
  | mul _ _ iha ihb => exact mul_isRigid iha ihb
  | inv _ ih => exact inv_isRigid ih
  | updateLhs xi hx _ ih => exact mul_isRigid (a := SE3.ofVec xi) (hv xi hx) ih
  | updateRhs xi hx _ ih => exact mul_isRigid (b := SE3.ofVec xi) ih (hv xi hx)

/-- For arbitrary updates the last row stays exactly `(0,0,0,1)` and the deviation of the 3x3 block from
the rotation group after a history with `n` updates is at most `(1+1e-31)^n - 1`. -/
theorem C09_group_drift {n : ℕ} {a : SE3} (h : SE3Reach (fun _ => True) n a) :
    a.T.toBlocks₂₁ = 0 ∧ a.T.toBlocks₂₂ = 1 ∧
      NearOrthogonal ((1 + 1e-31) ^ n - 1) a.T.toBlocks₁₁ ∧
      |a.T.toBlocks₁₁.det - 1| ≤ (1 + 1e-31) ^ n - 1 := by
  suffices H : (∃ t, a.T = homog a.R t 1) ∧ NearOrthogonal ((1 + 1e-31) ^ n - 1) a.R ∧
      |a.R.det - 1| ≤ (1 + 1e-31) ^ n - 1 by
    obtain ⟨⟨t, ht⟩, h2⟩ := H
    refine ⟨?_, ?_, h2⟩
    · rw [ht]; rfl
    · rw [ht]; ext i j; simp [homog, toBlocks₂₂]
  have pos : ∀ k : ℕ, (0 : ℝ) ≤ (1 + 1e-31) ^ k - 1 := fun k => by
    have : (1 : ℝ) ≤ (1 + 1e-31) ^ k := one_le_pow₀ (by norm_num)
    linarith
  have m : ∀ k l : ℕ, ((1:ℝ) + ((1 + 1e-31) ^ k - 1)) * (1 + ((1 + 1e-31) ^ l - 1)) - 1
      = (1 + 1e-31) ^ (k + l) - 1 := fun k l => by rw [pow_add]; ring
  have one : ((1:ℝ) + 1e-31) ^ 1 - 1 = 1e-31 := by ring
  have hv : ∀ xi : Vec6, (∃ t, (SE3.ofVec xi).T = homog (SE3.ofVec xi).R t 1) ∧
      NearOrthogonal ((1 + 1e-31) ^ 1 - 1) (SE3.ofVec xi).R ∧
      |(SE3.ofVec xi).R.det - 1| ≤ (1 + 1e-31) ^ 1 - 1 := fun xi => by
    have e : (SE3.ofVec xi).R = (SO3.ofVec (head3 xi)).R := by rw [SE3.R, se3_ofVec_T, tl3_homog]
    rw [one, e]
    exact ⟨⟨_, se3_ofVec_T xi⟩, nearOrthogonal_ofVec _, det_ofVec _⟩
  have prod : ∀ {k l : ℕ} {a b : SE3},
      ((∃ t, a.T = homog a.R t 1) ∧ NearOrthogonal ((1 + 1e-31) ^ k - 1) a.R ∧
        |a.R.det - 1| ≤ (1 + 1e-31) ^ k - 1) →
      ((∃ t, b.T = homog b.R t 1) ∧ NearOrthogonal ((1 + 1e-31) ^ l - 1) b.R ∧
        |b.R.det - 1| ≤ (1 + 1e-31) ^ l - 1) →
      ((∃ t, (a.mul b).T = homog (a.mul b).R t 1) ∧
        NearOrthogonal ((1 + 1e-31) ^ (k + l) - 1) (a.mul b).R ∧
        |(a.mul b).R.det - 1| ≤ (1 + 1e-31) ^ (k + l) - 1) := by
    rintro k l a b ⟨⟨t, ht⟩, hA⟩ ⟨⟨s, hs⟩, hB⟩
    have e : (a.mul b).T = homog (a.R * b.R) (a.R *ᵥ s + (1 : ℝ) • t) 1 := by
      rw [SE3.mul, ht, hs, homog_mul, mul_one]
    have eR : (a.mul b).R = a.R * b.R := by rw [SE3.R, e, tl3_homog]
    rw [eR, det_mul, ← m k l]
    exact ⟨⟨_, e⟩, nearOrthogonal_mul (pos k) (pos l) hA.1 hB.1,
      abs_mul_sub_one_le (pos k) (pos l) hA.2 hB.2⟩
  induction h with
  | start a ha =>
    rw [pow_zero, sub_self]
    exact ⟨⟨_, rigid_T ha⟩, nearOrthogonal_of_isRotation (rigid_R ha), by rw [(rigid_R ha).2]; simp⟩
  | default =>
    rw [pow_zero, sub_self]
    have e : SE3.default.R = 1 := by rw [SE3.R, SE3.default, ← homog_one, tl3_homog]
    rw [e]
    exact ⟨⟨0, by rw [homog_one]; rfl⟩, nearOrthogonal_of_isRotation isRotation_one, by simp⟩
  | ofVec xi _ => exact hv xi
  | mul _ _ iha ihb => exact prod iha ihb
  | @inv k a _ ih =>
    have e : a.inv.R = a.Rᵀ := by rw [SE3.R, inv_T, tl3_homog]
    rw [e]
    exact ⟨⟨_, rfl⟩, nearOrthogonal_transpose ih.2.1, by rw [det_transpose]; exact ih.2.2⟩
  | @updateLhs k a xi _ _ ih => rw [add_comm k 1]; exact prod (hv xi) ih
  | updateRhs xi _ _ ih => exact prod ih (hv xi)

/-- `mul` is associative with unit `SE3()`; updates are multiplications by `SE3(xi)`. -/
theorem C09_group_laws (a b c : SE3) (xi : Vec6) :
    (a.mul b).mul c = a.mul (b.mul c) ∧ SE3.default.mul a = a ∧ a.mul SE3.default = a ∧
      a.updateLhs xi = (SE3.ofVec xi).mul a ∧ a.updateRhs xi = a.mul (SE3.ofVec xi) := by
  refine ⟨?_, ?_, ?_, rfl, rfl⟩
  · simp [SE3.mul, mul_assoc]
  · simp [SE3.mul, SE3.default]
  · simp [SE3.mul, SE3.default]

/-- A history with every kind of operation. -/
example : SE3Reach (fun xi => 1e-5 ≤ len (head3 xi) ∨ head3 xi = 0) 3
    (((SE3.ofVec (vec6 ![1, -2, 2] ![1, 2, 3])).updateLhs (vec6 ![0, 3, 4] ![1, 0, 0])).mul
      ((SE3.default.updateRhs (vec6 0 ![1, 1, 1])).inv)) := by
  refine .mul (m := 2) (n := 1) (.updateLhs _ ?_ (.ofVec _ ?_)) (.inv (.updateRhs (n := 0) _ ?_ .default))
  · left; rw [head3_vec6, len_vec3, show (0:ℝ) * 0 + 3 * 3 + 4 * 4 = 5 ^ 2 by norm_num, Real.sqrt_sq] <;>
      norm_num
  · left; rw [head3_vec6, len_vec3, show (1:ℝ) * 1 + -2 * -2 + 2 * 2 = 3 ^ 2 by norm_num, Real.sqrt_sq] <;>
      norm_num
  · right; rw [head3_vec6]

/-! ## C10 -/

/-- `inv` is a two-sided inverse, an involution and an anti-homomorphism on rigid transformations. -/
theorem C10_inverse {a b : SE3} (ha : IsRigid a.T) (hb : IsRigid b.T) :
    a.inv.mul a = SE3.default ∧ a.mul a.inv = SE3.default ∧ a.inv.inv = a ∧
      (a.mul b).inv = b.inv.mul a.inv := by
  refine ⟨SE3.ext (inv_mul_cancel' ha), SE3.ext (mul_inv_cancel' ha), SE3.ext ?_, SE3.ext ?_⟩
  · have h1 := inv_mul_cancel' (inv_isRigid ha)
    have h2 := inv_mul_cancel' ha
    calc a.inv.inv.T = a.inv.inv.T * (a.inv.T * a.T) := by rw [h2, mul_one]
      _ = a.T := by rw [← mul_assoc, h1, one_mul]
  · have h1 := inv_mul_cancel' (mul_isRigid ha hb)
    have h2 : (a.mul b).T * (b.inv.mul a.inv).T = 1 := by
      change a.T * b.T * (b.inv.T * a.inv.T) = 1
      rw [mul_assoc, ← mul_assoc b.T, mul_inv_cancel' hb, one_mul, mul_inv_cancel' ha]
    calc (a.mul b).inv.T = (a.mul b).inv.T * ((a.mul b).T * (b.inv.mul a.inv).T) := by
          rw [h2, mul_one]
      _ = _ := by rw [← mul_assoc, h1, one_mul]

/-- A rigid transformation that is neither a pure rotation nor a pure translation. -/
example : IsRigid (SE3.ofVec (vec6 ![0, 3, 4] ![1, 2, 3])).T :=
  C09_group_exact (n := 1) (.ofVec _ (Or.inl (by
    rw [head3_vec6, len_vec3, show (0:ℝ) * 0 + 3 * 3 + 4 * 4 = 5 ^ 2 by norm_num, Real.sqrt_sq] <;>
      norm_num)))

/-! ## C11 -/

/-- `transform` is a group action by isometries. -/
theorem C11_action {a b : SE3} (ha : IsRigid a.T) (hb : IsRigid b.T) (p q : Vec3) :
    (a.mul b).transform p = a.transform (b.transform p) ∧ SE3.default.transform p = p ∧
      a.inv.transform (a.transform p) = p ∧ a.transform (a.inv.transform p) = p ∧
      dist2 (a.transform p) (a.transform q) = dist2 p q := by
  have hmul : ∀ {c d : SE3}, IsRigid c.T → IsRigid d.T → ∀ p,
      (c.mul d).transform p = c.transform (d.transform p) := by
    intro c d hc hd p
    have ht : (c.mul d).t = c.R *ᵥ d.t + c.t := by
      rw [SE3.t, SE3.mul, rigid_T hc, rigid_T hd, homog_mul]; simp
    simp only [SE3.transform, mul_R hc hd, ht, mulVec_add, mulVec_mulVec, add_assoc]
  have hone : ∀ p, SE3.default.transform p = p := by
    intro p
    have h1 : SE3.default.R = 1 := by rw [SE3.R, SE3.default, ← homog_one, tl3_homog]
    have h2 : SE3.default.t = 0 := by rw [SE3.t, SE3.default, ← homog_one, tr3_homog]
    rw [SE3.transform, h1, h2, one_mulVec, add_zero]
  refine ⟨hmul ha hb p, hone p, ?_, ?_, ?_⟩
  · rw [← hmul (inv_isRigid ha) ha, (C10_inverse ha ha).1, hone]
  · rw [← hmul ha (inv_isRigid ha), (C10_inverse ha ha).2.1, hone]
  · have e : ∀ x y : Vec3, dist2 x y = sqNorm (x - y) := by
      intro x y
      simp only [dist2, sqNorm, Pi.sub_apply, sq]
    rw [e, e, SE3.transform, SE3.transform, add_sub_add_right_eq_sub, ← mulVec_sub,
      sqNorm_rot (rigid_R ha)]

/-- `transform_array` keeps the number of rows and transforms row `k` on its own. -/
theorem C11_array (a : SE3) (P Q : List Vec3) (k : ℕ) :
    (a.transformArray P).length = P.length ∧ (a.transformArray P)[k]? = P[k]?.map a.transform ∧
      a.transformArray (P ++ Q) = a.transformArray P ++ a.transformArray Q := by
  simp [SE3.transformArray]

/-! ## C12 -/

/-- Updating on the right by `xi` is updating on the left by `adj * xi`, exactly, whenever the angular
part is zero or longer than `1e-3`. -/
theorem C12_adjoint_exact {a : SE3} (ha : IsRigid a.T) (xi : Vec6)
    (h : 1e-3 < len (head3 xi) ∨ head3 xi = 0) :
    a.updateRhs xi = a.updateLhs (a.adj *ᵥ xi) := by
  obtain ⟨d, h1, h2, h3⟩ := adj_defect ha xi
  have hr := rigid_R ha
  have hd : d = 0 := by
    rw [h3]
    rcases h with h | h
    · rw [len_eq_vnorm] at h
      have h5 : 1e-5 ≤ vnorm (head3 xi) := le_trans (by norm_num) h.le
      have hpos : vnorm (head3 xi) ≠ 0 := by
        intro h'; rw [h'] at h; norm_num at h
      have : (SO3.ofVec (a.R *ᵥ head3 xi)).R - 1
          - vMat (a.R *ᵥ head3 xi) * hat3 (a.R *ᵥ head3 xi) = 0 := by
        rw [vMat, rod_mul_hat3, ofVec_R, sqNorm_rot hr, vnorm_rot hr, expC1_of_ge h5, expC2_of_ge h5,
          vC2_of_gt h, vC3_of_gt h, ← vnorm_sq]
        have : 1 - vnorm (head3 xi) ^ 2 * ((vnorm (head3 xi) - Real.sin (vnorm (head3 xi)))
            / vnorm (head3 xi) ^ 2 / vnorm (head3 xi)) = Real.sin (vnorm (head3 xi)) / vnorm (head3 xi) := by
          field_simp; ring
        rw [this, sub_self]
      rw [this, zero_mulVec]
    · rw [h, mulVec_zero, ofVec_zero, hat3_zero, mul_zero, sub_self, sub_self, zero_mulVec]
  apply SE3.ext
  rw [h1, h2, hd, add_zero]

/-- For shorter angular parts the rotation blocks still agree exactly and the translations differ by at
most `1e-20 · |t|`. -/
theorem C12_adjoint_small {a : SE3} (ha : IsRigid a.T) (xi : Vec6) (h : len (head3 xi) ≤ 1e-3) :
    (a.updateRhs xi).T.toBlocks₁₁ = (a.updateLhs (a.adj *ᵥ xi)).T.toBlocks₁₁ ∧
      ∀ i, |(a.updateLhs (a.adj *ᵥ xi)).t i - (a.updateRhs xi).t i| ≤ 1e-20 * len a.t := by
  by_cases hw : head3 xi = 0
  · rw [C12_adjoint_exact ha xi (Or.inr hw)]
    refine ⟨rfl, fun i => ?_⟩
    rw [sub_self, abs_zero]
    have : 0 ≤ len a.t := Real.sqrt_nonneg _
    positivity
  obtain ⟨d, h1, h2, h3⟩ := adj_defect ha xi
  have hr := rigid_R ha
  refine ⟨by rw [h1, h2]; rfl, fun i => ?_⟩
  rw [SE3.t, SE3.t, h1, h2, tr3_homog, tr3_homog, Pi.add_apply _ d, add_sub_cancel_left, h3,
    len_eq_vnorm]
  rw [len_eq_vnorm] at h
  have hpos : 0 < vnorm (head3 xi) :=
    lt_of_le_of_ne (vnorm_nonneg _) fun h' => hw (vnorm_eq_zero.mp h'.symm)
  rw [vMat, rod_mul_hat3, ofVec_R, sqNorm_rot hr, vnorm_rot hr, vC2_of_le h, vC3_of_le h, ← vnorm_sq]
  have e : ∀ A B : Mat3, A - 1 - (B - 1) = A - B := fun A B => by abel
  rw [e, sub_mulVec, Pi.sub_apply]
  refine (rod_sub_mulVec_le (c := 3e-21) _ _ i ?_).trans ?_
  · rw [vnorm_rot hr]
    set o := vnorm (head3 xi) with ho
    have p2 : o ^ 2 ≤ (1e-3) ^ 2 := by gcongr
    have p4 : o ^ 4 ≤ (1e-3) ^ 4 := by gcongr
    have p6 : o ^ 6 ≤ (1e-3) ^ 6 := by gcongr
    by_cases h5 : o < 1e-5
    · rw [expC1_of_lt h5, expC2_of_lt h5]
      have e1 : 1 - o ^ 2 / 6 - (1 - o ^ 2 * (1 / 6 - o ^ 2 / 120)) = -(o ^ 4 / 120) := by ring
      rw [e1, abs_neg, abs_of_nonneg (by positivity), sub_self, abs_zero, zero_mul, add_zero]
      have q4 : o ^ 4 ≤ (1e-5) ^ 4 := by gcongr
      calc o ^ 4 / 120 * o ≤ (1e-5) ^ 4 / 120 * 1e-5 := by gcongr
        _ ≤ 3e-21 := by norm_num
    · rw [expC1_of_ge (not_lt.mp h5), expC2_of_ge (not_lt.mp h5)]
      have h2 := cosc_taylor hpos
      have e2 : (0.5 : ℝ) - o ^ 2 / 24 = 1 / 2 - o ^ 2 / 24 := by norm_num
      rw [e2]
      have hs3 := sinc3_taylor hpos
      have e1 : Real.sin o / o - (1 - o ^ 2 * (1 / 6 - o ^ 2 / 120))
          = -(o ^ 2 * ((o - Real.sin o) / o ^ 3 - (1 / 6 - o ^ 2 / 120))) := by
        field_simp; ring
      rw [e1, abs_neg, abs_mul, abs_of_nonneg (sq_nonneg o)]
      calc _ ≤ o ^ 2 * (o ^ 4 / 5040) * o + o ^ 4 / 720 * o ^ 2 := by gcongr
        _ ≤ (1e-3) ^ 2 * ((1e-3) ^ 4 / 5040) * 1e-3 + (1e-3) ^ 4 / 720 * (1e-3) ^ 2 := by gcongr
        _ ≤ _ := by norm_num
  · have := vnorm_nonneg a.t
    norm_num; linarith

/-- The adjoint is multiplicative and `inv` gives its inverse. -/
theorem C12_adj_hom {a b : SE3} (ha : IsRigid a.T) (hb : IsRigid b.T) :
    (a.mul b).adj = a.adj * b.adj ∧ a.inv.adj * a.adj = 1 ∧ a.adj * a.inv.adj = 1 := by
  refine ⟨adj_mul ha hb, ?_, ?_⟩
  · rw [← adj_mul (inv_isRigid ha) ha, (C10_inverse ha ha).1, adj_one]
  · rw [← adj_mul ha (inv_isRigid ha), (C10_inverse ha ha).2.1, adj_one]

end Mrob
