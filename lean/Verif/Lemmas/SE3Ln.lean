import Verif.Lemmas.SE3More
import Verif.Lemmas.SO3NearPi

/-! `SE3::ln` against `SE3::exp`. -/

open Matrix

namespace Mrob

open Spec

theorem vee3_zero : vee3 (0 : Mat3) = 0 := by funext i; fin_cases i <;> simp [vee3]

/-- The logarithm is always a skew matrix, even of a non-rotation. -/
theorem so3Ln_skew (R : Mat3) : hat3 (vee3 (so3Ln R).1) = (so3Ln R).1 := by
  have hs : ∀ (c : ℝ), hat3 (vee3 (c • (R - Rᵀ))) = c • (R - Rᵀ) := fun c => by
    rw [sub_transpose_eq, smul_smul, ← hat3_smul, vee3_hat3]
  have hh : ∀ (w : Vec3), hat3 (vee3 (lnSign R (hat3 w))) = lnSign R (hat3 w) := fun w => by
    rw [lnSign]; split_ifs
    · rw [← hat3_smul, vee3_hat3]
    · rw [vee3_hat3]
  rw [so3Ln_unfold]
  split_ifs
  · rcases cacos (cosOf R) with _ | o
    · exact hs 0
    · rw [lnSmall]; split_ifs <;> exact hs _
  · exact hh _

/-- The matrix `Vinv` of `SE3::ln`. -/
noncomputable def vInv (o : ℝ) (w : Vec3) : Mat3 := rod (-0.5) (lnK1 o) w

theorem se3Ln_homog (R : Mat3) (t : Vec3) (c : ℝ) :
    se3Ln (homog R t c) = homog (hat3 (SO3.mk R).lnVee) (vInv (so3Ln R).2 (SO3.mk R).lnVee *ᵥ t) 0 := by
  have h := so3Ln_skew R
  simp only [se3Ln, tl3_homog, tr3_homog, SO3.lnVee, SO3.ln, vInv, rod, h, smul_mul_assoc, neg_smul,
    add_assoc]

theorem se3_lnVee {a : SE3} (ha : IsRigid a.T) :
    a.lnVee = vec6 (SO3.mk a.R).lnVee (vInv (so3Ln a.R).2 (SO3.mk a.R).lnVee *ᵥ a.t) := by
  rw [SE3.lnVee, SE3.ln, rigid_T ha, se3Ln_homog, vee6_homog, vee3_hat3]

theorem hat6_lnVee {a : SE3} (ha : IsRigid a.T) : hat6 a.lnVee = a.ln := by
  rw [SE3.lnVee, SE3.ln, rigid_T ha, se3Ln_homog, vee6_homog, hat6_eq, head3_vec6, tail3_vec6,
    vee3_hat3]

/-- Exponential of the logarithm of a rigid transformation. -/
theorem ofVec_lnVee {a : SE3} (ha : IsRigid a.T) :
    (SE3.ofVec a.lnVee).T = homog (SO3.ofVec (SO3.mk a.R).lnVee).R
      ((vMat (SO3.mk a.R).lnVee * vInv (so3Ln a.R).2 (SO3.mk a.R).lnVee) *ᵥ a.t) 1 := by
  rw [se3_ofVec_T, se3_lnVee ha, head3_vec6, tail3_vec6, mulVec_mulVec]

theorem vInv_zero (o : ℝ) : vInv o 0 = 1 := rod_at_zero _ _

theorem cos_lt_one {o : ℝ} (h0 : 0 < o) (hpi : o ≤ Real.pi) : Real.cos o < 1 := by
  rw [← Real.cos_zero]
  exact Real.cos_lt_cos_of_nonneg_of_le_pi (le_refl _) hpi h0

/-- `V · Vinv = I` in the exact branches. -/
theorem vMat_mul_vInv {w : Vec3} (h : 5e-3 < vnorm w) (hpi : vnorm w ≤ Real.pi) :
    vMat w * vInv (vnorm w) w = 1 ∧ vInv (vnorm w) w * vMat w = 1 := by
  have h3 : 1e-3 < vnorm w := lt_trans (by norm_num) h
  have hpos : 0 < vnorm w := lt_trans (by norm_num) h
  have hc : 1 - Real.cos (vnorm w) ≠ 0 := by
    have := cos_lt_one hpos hpi
    intro h'; linarith
  have hsc := Real.sin_sq_add_cos_sq (vnorm w)
  have hk : lnK1 (vnorm w) = 1 / vnorm w / vnorm w *
      (1 - 0.5 * Real.sin (vnorm w) / ((1 - Real.cos (vnorm w)) / vnorm w)) := by
    rw [lnK1, if_pos h]
  have h05 : (0.5 : ℝ) = 1 / 2 := by norm_num
  rw [vMat, vInv, rod_mul_rod, rod_mul_rod, vC2_of_gt h3, vC3_of_gt h3, hk, ← vnorm_sq, h05]
  set o := vnorm w
  have hs2 : Real.sin o ^ 2 = (1 - Real.cos o) * (1 + Real.cos o) := by rw [Real.sin_sq]; ring
  have e1 : (1 - Real.cos o) / o ^ 2 + -(1 / 2) - o ^ 2 * ((1 - Real.cos o) / o ^ 2 *
      (1 / o / o * (1 - 1 / 2 * Real.sin o / ((1 - Real.cos o) / o)))
      + (o - Real.sin o) / o ^ 2 / o * -(1 / 2)) = 0 := by
    field_simp
    ring
  have e2 : (o - Real.sin o) / o ^ 2 / o + 1 / o / o * (1 - 1 / 2 * Real.sin o / ((1 - Real.cos o) / o))
      + (1 - Real.cos o) / o ^ 2 * -(1 / 2) - o ^ 2 * ((o - Real.sin o) / o ^ 2 / o) *
      (1 / o / o * (1 - 1 / 2 * Real.sin o / ((1 - Real.cos o) / o))) = 0 := by
    field_simp
    ring_nf
    have hs2' : Real.sin o ^ 2 = 1 - Real.cos o ^ 2 := by linarith
    try rw [hs2']
    ring
  constructor
  · rw [show ∀ a b a' b' : ℝ, a = a' → b = b' → rod a b w = rod a' b' w from
      fun a b a' b' h1 h2 => by rw [h1, h2]]
    exact rod_zero w
    · exact e1
    · exact e2
  · rw [show ∀ a b a' b' : ℝ, a = a' → b = b' → rod a b w = rod a' b' w from
      fun a b a' b' h1 h2 => by rw [h1, h2]]
    exact rod_zero w
    · rw [← e1]; ring
    · rw [← e2]; ring

/-- Coefficients of `V · Vinv` below `5e-3`: the regular case. -/
theorem band_coeffs {o c2 c3 k : ℝ} (h0 : 0 < o) (h1 : o ≤ 5e-3) (hk : k = 1 / 12 + o * o / 720)
    (h2 : |c2 - (1 / 2 - o ^ 2 / 24)| ≤ o ^ 4 / 720) (h3 : |c3 - (1 / 6 - o ^ 2 / 120)| ≤ o ^ 4 / 5040) :
    |c2 + -0.5 - o ^ 2 * (c2 * k + c3 * -0.5)| * o + |c3 + k + c2 * -0.5 - o ^ 2 * c3 * k| * o ^ 2
      ≤ 6e-14 := by
  set e2 := c2 - (1 / 2 - o ^ 2 / 24) with he2
  set e3 := c3 - (1 / 6 - o ^ 2 / 120) with he3
  have hc2 : c2 = 1 / 2 - o ^ 2 / 24 + e2 := by rw [he2]; ring
  have hc3 : c3 = 1 / 6 - o ^ 2 / 120 + e3 := by rw [he3]; ring
  have p2 : o ^ 2 ≤ (5e-3) ^ 2 := by gcongr
  have p4 : o ^ 4 ≤ (5e-3) ^ 4 := by gcongr
  have n2 : 0 ≤ o ^ 2 := by positivity
  have n4 : 0 ≤ o ^ 4 := by positivity
  have n6 : 0 ≤ o ^ 6 := by positivity
  have p6 : o ^ 6 ≤ o ^ 4 * (5e-3) ^ 2 := by
    have : o ^ 6 = o ^ 4 * o ^ 2 := by ring
    rw [this]; gcongr
  have hok : |1 - o ^ 2 * k| ≤ 1 := by
    rw [_root_.abs_le, hk]; norm_num at p2; constructor <;> nlinarith
  have b1 : |c2 + -0.5 - o ^ 2 * (c2 * k + c3 * -0.5)| ≤ o ^ 4 / 100 := by
    have e : c2 + -0.5 - o ^ 2 * (c2 * k + c3 * -0.5)
        = e2 * (1 - o ^ 2 * k) + (o ^ 2 * e3 / 2 + (-(o ^ 4 / 720) + o ^ 6 / 17280)) := by
      rw [hk, hc2, hc3]; ring
    rw [e]
    have t1 : |e2 * (1 - o ^ 2 * k)| ≤ o ^ 4 / 720 := by
      rw [abs_mul]
      calc _ ≤ o ^ 4 / 720 * 1 := by gcongr
        _ = _ := by ring
    have t2 : |o ^ 2 * e3 / 2| ≤ o ^ 6 / 10080 := by
      rw [abs_div, abs_mul, abs_of_nonneg n2, abs_two]
      calc _ ≤ o ^ 2 * (o ^ 4 / 5040) / 2 := by gcongr
        _ = _ := by ring
    norm_num at p6
    rw [_root_.abs_le] at *
    constructor <;> linarith [t1.1, t1.2, t2.1, t2.2]
  have b2 : |c3 + k + c2 * -0.5 - o ^ 2 * c3 * k| ≤ o ^ 4 / 100 := by
    have e : c3 + k + c2 * -0.5 - o ^ 2 * c3 * k
        = e3 * (1 - o ^ 2 * k) + (-(e2 / 2) + (o ^ 4 / 2160 + o ^ 6 / 86400)) := by
      rw [hk, hc2, hc3]; ring
    rw [e]
    have t1 : |e3 * (1 - o ^ 2 * k)| ≤ o ^ 4 / 5040 := by
      rw [abs_mul]
      calc _ ≤ o ^ 4 / 5040 * 1 := by gcongr
        _ = _ := by ring
    norm_num at p6
    rw [_root_.abs_le] at *
    constructor <;> linarith [t1.1, t1.2, h2.1, h2.2]
  calc _ ≤ o ^ 4 / 100 * o + o ^ 4 / 100 * o ^ 2 := by gcongr
    _ ≤ (5e-3) ^ 4 / 100 * 5e-3 + (5e-3) ^ 4 / 100 * (5e-3) ^ 2 := by gcongr
    _ ≤ _ := by norm_num

theorem near_mul {a b x y ea eb : ℝ} (ha : |a - x| ≤ ea) (hb : |b - y| ≤ eb) :
    |a * b - x * y| ≤ ea * eb + ea * |y| + |x| * eb := by
  have e : a * b - x * y = (a - x) * (b - y) + (a - x) * y + x * (b - y) := by ring
  rw [e]
  refine (abs_add_le _ _).trans (add_le_add ((abs_add_le _ _).trans (add_le_add ?_ ?_)) ?_)
  · rw [abs_mul]; exact mul_le_mul ha hb (abs_nonneg _) ((abs_nonneg _).trans ha)
  · rw [abs_mul]; exact mul_le_mul_of_nonneg_right ha (abs_nonneg _)
  · rw [abs_mul]; exact mul_le_mul_of_nonneg_left hb (abs_nonneg _)

theorem abs_le_of_near {a x e c : ℝ} (h : |a - x| ≤ e) (hc : |x| + e ≤ c) : |a| ≤ c := by
  have : |a| ≤ |a - x| + |x| := by simpa using abs_add_le (a - x) x
  linarith

/-- The same when the length `m` seen by `V` and the angle `o` seen by `Vinv` differ slightly, below
`1e-5`. -/
theorem band_coeffs_tiny {o m c2 c3 k s : ℝ} (h0 : 0 < m) (hm : m < 1e-5) (ho0 : 0 ≤ o) (h1 : o < 1e-5)
    (hk : k = 1 / 12 + o * o / 720) (hs : |s - 1| ≤ 1e-10)
    (h2 : |c2 - (1 / 2 - m ^ 2 / 24)| ≤ m ^ 4 / 720) (h3 : |c3 - (1 / 6 - m ^ 2 / 120)| ≤ m ^ 4 / 5040) :
    |c2 + -0.5 * s - m ^ 2 * (c2 * (k * s ^ 2) + c3 * (-0.5 * s))| * m
      + |c3 + k * s ^ 2 + c2 * (-0.5 * s) - m ^ 2 * c3 * (k * s ^ 2)| * m ^ 2 ≤ 6e-14 := by
  have p2 : m ^ 2 ≤ (1e-5) ^ 2 := by gcongr
  have p4 : m ^ 4 ≤ (1e-5) ^ 4 := by gcongr
  have q2 : o * o ≤ 1e-5 * 1e-5 := by gcongr
  have n2 : 0 ≤ m ^ 2 := by positivity
  have n4 : 0 ≤ m ^ 4 := by positivity
  have qn : 0 ≤ o * o := by positivity
  norm_num at p2 p4 q2
  have hk1 : |k - 1 / 12| ≤ 1e-10 := by rw [_root_.abs_le, hk]; norm_num; constructor <;> linarith
  have hc2 : |c2 - 1 / 2| ≤ 1e-10 := by
    rw [_root_.abs_le] at h2 ⊢; norm_num; constructor <;> linarith [h2.1, h2.2]
  have hc3 : |c3 - 1 / 6| ≤ 1e-10 := by
    rw [_root_.abs_le] at h3 ⊢; norm_num; constructor <;> linarith [h3.1, h3.2]
  have hs2 : |s ^ 2 - 1| ≤ 3e-10 := by
    have := near_mul hs hs
    rw [pow_two]
    norm_num at this ⊢; linarith
  have hks : |k * s ^ 2 - 1 / 12| ≤ 5e-10 := by
    have := near_mul hk1 hs2
    rw [mul_one] at this
    refine this.trans ?_
    rw [abs_of_pos (by norm_num : (0 : ℝ) < 1 / 12), abs_one]; norm_num
  have hcs : |c2 * s - 1 / 2| ≤ 5e-10 := by
    have := near_mul hc2 hs
    rw [mul_one] at this
    refine this.trans ?_
    rw [abs_of_pos (by norm_num : (0 : ℝ) < 1 / 2), abs_one]; norm_num
  have a1 : |c2| ≤ 1 := abs_le_of_near hc2 (by rw [abs_of_pos (by norm_num)]; norm_num)
  have a2 : |k * s ^ 2| ≤ 1 := abs_le_of_near hks (by rw [abs_of_pos (by norm_num)]; norm_num)
  have a3 : |c3| ≤ 1 := abs_le_of_near hc3 (by rw [abs_of_pos (by norm_num)]; norm_num)
  have a4 : |-0.5 * s| ≤ 1 := by
    have : |s| ≤ 2 := abs_le_of_near hs (by rw [abs_one]; norm_num)
    rw [abs_mul, abs_of_neg (by norm_num : (-0.5 : ℝ) < 0)]; norm_num; linarith
  have hx1 : |c2 * (k * s ^ 2) + c3 * (-0.5 * s)| ≤ 2 := by
    have u1 : |c2 * (k * s ^ 2)| ≤ 1 := by rw [abs_mul]; exact mul_le_one₀ a1 (abs_nonneg _) a2
    have u2 : |c3 * (-0.5 * s)| ≤ 1 := by rw [abs_mul]; exact mul_le_one₀ a3 (abs_nonneg _) a4
    have := abs_add_le (c2 * (k * s ^ 2)) (c3 * (-0.5 * s))
    linarith
  have hx2 : |c3 * (k * s ^ 2)| ≤ 1 := by
    rw [abs_mul]; exact mul_le_one₀ a3 (abs_nonneg _) a2
  have b1 : |c2 + -0.5 * s - m ^ 2 * (c2 * (k * s ^ 2) + c3 * (-0.5 * s))| ≤ 1e-9 := by
    have t : |m ^ 2 * (c2 * (k * s ^ 2) + c3 * (-0.5 * s))| ≤ 1 / 10000000000 * 2 := by
      rw [abs_mul, abs_of_nonneg n2]
      exact mul_le_mul p2 hx1 (abs_nonneg _) (by norm_num)
    generalize m ^ 2 * (c2 * (k * s ^ 2) + c3 * (-0.5 * s)) = X at t ⊢
    rw [_root_.abs_le] at t hc2 hs ⊢; norm_num at t hc2 hs ⊢
    constructor <;> linarith [t.1, t.2, hc2.1, hc2.2, hs.1, hs.2]
  have b2 : |c3 + k * s ^ 2 + c2 * (-0.5 * s) - m ^ 2 * c3 * (k * s ^ 2)| ≤ 1e-9 := by
    have t : |m ^ 2 * (c3 * (k * s ^ 2))| ≤ 1 / 10000000000 * 1 := by
      rw [abs_mul, abs_of_nonneg n2]
      exact mul_le_mul p2 hx2 (abs_nonneg _) (by norm_num)
    have e : c3 + k * s ^ 2 + c2 * (-0.5 * s) - m ^ 2 * c3 * (k * s ^ 2)
        = (c3 - 1 / 6) + (k * s ^ 2 - 1 / 12) - (c2 * s - 1 / 2) / 2 - m ^ 2 * (c3 * (k * s ^ 2)) := by
      ring
    rw [e]
    generalize m ^ 2 * (c3 * (k * s ^ 2)) = X at t ⊢
    generalize k * s ^ 2 = Y at hks ⊢
    generalize c2 * s = Z at hcs ⊢
    rw [_root_.abs_le] at t hc3 hks hcs ⊢; norm_num at t hc3 hks hcs ⊢
    constructor <;> linarith [t.1, t.2, hc3.1, hc3.2, hks.1, hks.2, hcs.1, hcs.2]
  calc _ ≤ (1e-9 : ℝ) * 1e-5 + 1e-9 * (1e-5) ^ 2 := by
        refine add_le_add (mul_le_mul b1 hm.le h0.le (by norm_num)) (mul_le_mul b2 ?_ n2 (by norm_num))
        norm_num; exact p2
    _ ≤ _ := by norm_num

theorem lnK1_of_le {o : ℝ} (h : o ≤ 5e-3) : lnK1 o = 1 / 12 + o * o / 720 := by
  rw [lnK1, if_neg (not_lt.mpr h)]

theorem vMat_eq_err {w : Vec3} : vMat w = rod (vC2 (vnorm w) (vnorm w ^ 2)) (vC3 (vnorm w) (vnorm w ^ 2)) w := by
  rw [vMat, vnorm_sq]

/-- `V(w) · Vinv(o, s w)` applied to a vector, below `5e-3`. -/
theorem vMat_vInv_band {w : Vec3} {o s : ℝ} (hw : w ≠ 0) (hs : |s - 1| ≤ 1e-10)
    (h : (s = 1 ∧ o = vnorm w ∧ o ≤ 5e-3) ∨ (vnorm w < 1e-5 ∧ 0 ≤ o ∧ o < 1e-5)) (x : Vec3) (i : Fin 3) :
    |((vMat w * vInv o (s • w)) *ᵥ x) i - x i| ≤ 2e-13 * vnorm x ∧
      |((vInv o (s • w) * vMat w) *ᵥ x) i - x i| ≤ 2e-13 * vnorm x := by
  have hpos : 0 < vnorm w := lt_of_le_of_ne (vnorm_nonneg w) fun h' => hw (vnorm_eq_zero.mp h'.symm)
  have key : |vC2 (vnorm w) (vnorm w ^ 2) + -0.5 * s - vnorm w ^ 2 *
        (vC2 (vnorm w) (vnorm w ^ 2) * (lnK1 o * s ^ 2) + vC3 (vnorm w) (vnorm w ^ 2) * (-0.5 * s)) - 0| * vnorm w
      + |vC3 (vnorm w) (vnorm w ^ 2) + lnK1 o * s ^ 2 + vC2 (vnorm w) (vnorm w ^ 2) * (-0.5 * s)
        - vnorm w ^ 2 * vC3 (vnorm w) (vnorm w ^ 2) * (lnK1 o * s ^ 2) - 0| * vnorm w ^ 2 ≤ 6e-14 := by
    rw [sub_zero, sub_zero]
    rcases h with ⟨rfl, rfl, h5⟩ | ⟨h1, h2, h3⟩
    · have := band_coeffs hpos h5 (lnK1_of_le h5) (vC2_err hpos) (vC3_err hpos)
      simpa using this
    · exact band_coeffs_tiny hpos h1 h2 h3 (lnK1_of_le (h3.le.trans (by norm_num))) hs (vC2_err hpos)
        (vC3_err hpos)
  have fin : 3 * 6e-14 * vnorm x ≤ 2e-13 * vnorm x := by
    have := vnorm_nonneg x
    norm_num; linarith
  have hx : x i = (rod 0 0 w *ᵥ x) i := by rw [rod_zero, one_mulVec]
  rw [vMat_eq_err, vInv, rod_smul, rod_mul_rod, rod_mul_rod, ← vnorm_sq]
  constructor
  · rw [hx]
    exact (rod_sub_mulVec_le w x i key).trans fin
  · rw [hx]
    refine (rod_sub_mulVec_le w x i (le_of_eq_of_le ?_ key)).trans fin
    congr 3 <;> ring

end Mrob
