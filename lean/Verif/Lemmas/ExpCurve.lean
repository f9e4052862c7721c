import Verif.Lemmas.LnDeriv
import Verif.Lemmas.Rel3d
import Verif.Lemmas.PlaneGrad

/-! # The exponential along curves, and interpolated poses -/

open Matrix Filter Topology

namespace Mrob

open Spec

section
variable {l n : Type*}

theorem MDeriv.add {A B : ℝ → Matrix l n ℝ} {A' B' : Matrix l n ℝ} {t : ℝ} (hA : MDeriv A A' t) (hB : MDeriv B B' t) :
    MDeriv (fun s => A s + B s) (A' + B') t := fun i j => (hA i j).add (hB i j)

theorem MDeriv.smul {c : ℝ → ℝ} {c' : ℝ} {A : ℝ → Matrix l n ℝ} {A' : Matrix l n ℝ} {t : ℝ} (hc : HasDerivAt c c' t)
    (hA : MDeriv A A' t) : MDeriv (fun s => c s • A s) (c' • A t + c t • A') t := fun i j => hc.mul (hA i j)

theorem VDeriv.smul_const {v : ℝ → l → ℝ} {v' : l → ℝ} {t : ℝ} (hv : VDeriv v v' t) (k : ℝ) :
    VDeriv (fun s => k • v s) (k • v') t := fun i => (hv i).const_mul k

end

theorem hat3_deriv {w : ℝ → Vec3} {w' : Vec3} {t : ℝ} (hw : VDeriv w w' t) : MDeriv (fun s => hat3 (w s)) (hat3 w') t := by
  intro i j
  fin_cases i <;> fin_cases j <;> simp [hat3] <;>
    first | exact hasDerivAt_const _ _ | exact (hw _).neg | exact hw _

theorem sqNorm_deriv_zero {w : ℝ → Vec3} {w' : Vec3} (hw : VDeriv w w' 0) (h0 : w 0 = 0) :
    HasDerivAt (fun s => sqNorm (w s)) 0 0 := by
  have h := hw.dot hw
  have e : (fun s => sqNorm (w s)) = fun s => w s ⬝ᵥ w s := by funext s; rw [sqNorm3]; simp [dotProduct, Fin.sum_univ_three]
  rw [e]
  exact h.congr_deriv (by simp [h0])

theorem eventually_vnorm_lt {w : ℝ → Vec3} {w' : Vec3} (hw : VDeriv w w' 0) (h0 : w 0 = 0) {e : ℝ} (he : 0 < e) :
    ∀ᶠ s in 𝓝 (0 : ℝ), vnorm (w s) < e := by
  have h : ContinuousAt (fun s => Real.sqrt (sqNorm (w s))) 0 :=
    Real.continuous_sqrt.continuousAt.comp (sqNorm_deriv_zero hw h0).continuousAt
  have hz : Real.sqrt (sqNorm (w 0)) < e := by rw [h0]; simpa [sqNorm3] using he
  exact h.eventually_lt continuousAt_const hz

theorem rod_curve_deriv {a b : ℝ → ℝ} {a' b' : ℝ} {w : ℝ → Vec3} {w' : Vec3} (ha : HasDerivAt a a' 0)
    (hb : HasDerivAt b b' 0) (hw : VDeriv w w' 0) (h0 : w 0 = 0) :
    MDeriv (fun s => rod (a s) (b s) (w s)) (a 0 • hat3 w') 0 := by
  have hh := hat3_deriv hw
  have h := ((MDeriv.const (1 : Mat3) 0).add (MDeriv.smul ha hh)).add (MDeriv.smul hb (hh.mul hh))
  exact h.congr (by simp [h0, hat3_at_zero])

/-- The exponential along a curve which starts at a pure translation. -/
theorem se3_ofVec_curve {w v : ℝ → Vec3} {w' v' : Vec3} (hw : VDeriv w w' 0) (h0 : w 0 = 0) (hv : VDeriv v v' 0) :
    MDeriv (fun s => (SE3.ofVec (vec6 (w s) (v s))).T) (homog (hat3 w') ((0.5 : ℝ) • (hat3 w' *ᵥ v 0) + v') 0) 0 := by
  have hq := sqNorm_deriv_zero hw h0
  have hR : MDeriv (fun s => (SO3.ofVec (w s)).R) (hat3 w') 0 := by
    have h1 := rod_curve_deriv (((hq.div_const 6).const_sub 1)) (((hq.div_const 24).const_sub 0.5)) hw h0
    refine (h1.congr (by simp [h0, sqNorm3])).congr_of_eventuallyEq ?_
    filter_upwards [eventually_vnorm_lt hw h0 (e := 1e-5) (by norm_num)] with s hs
    rw [ofVec_R, expC1_of_lt hs, expC2_of_lt hs]
  have hV : MDeriv (fun s => vMat (w s)) ((0.5 : ℝ) • hat3 w') 0 := by
    have h1 := rod_curve_deriv (((hq.div_const 24).const_sub 0.5)) (((hq.div_const 120).const_sub (1 / 6))) hw h0
    refine (h1.congr (by simp [h0, sqNorm3])).congr_of_eventuallyEq ?_
    filter_upwards [eventually_vnorm_lt hw h0 (e := 1e-3) (by norm_num)] with s hs
    rw [vMat, vC2_of_le hs.le, vC3_of_le hs.le]
  have ht := hV.mulVec hv
  have hv0 : vMat (w 0) = 1 := by rw [h0, vMat, rod_at_zero]
  have ht : VDeriv (fun s => vMat (w s) *ᵥ v s) ((0.5 : ℝ) • (hat3 w' *ᵥ v 0) + v') 0 :=
    ht.congr (by rw [hv0, one_mulVec, smul_mulVec])
  intro i j
  simp only [se3_ofVec_T, head3_vec6, tail3_vec6]
  rcases i with i | i <;> rcases j with j | j
  · exact hR i j
  · exact ht i
  · exact hasDerivAt_const _ _
  · exact hasDerivAt_const _ _

theorem cos_ofVec_smul (w : Vec3) : ∀ᶠ s in 𝓝 (0 : ℝ), cosOf (SO3.ofVec (s • w)).R ≤ 1 ∨ skewVec (SO3.ofVec (s • w)).R = 0 := by
  have h := rel_cos_le w 0
  simpa [ofVec_zero] using h

/-- The logarithm of a pure translation. -/
theorem lnVee_translation (v : Vec3) : (SE3.mk (homog 1 v 1)).lnVee = vec6 0 v := by
  have h := (lnVee_eventually (R := fun _ => (1 : Mat3)) (MDeriv.const _ _) rfl
    (Eventually.of_forall fun _ => Or.inl cosOf_one.le) (fun _ => v)).self_of_nhds
  rw [h, skewVec_one, smul_zero, rod_at_zero, one_mulVec]

/-- The logarithm of a pose which starts at a pure translation and is perturbed on the left. -/
theorem lnVee_updateLhs_deriv (v : Vec3) (xi : Vec6) :
    VDeriv (fun h : ℝ => ((SE3.mk (homog 1 v 1)).updateLhs (h • xi)).lnVee)
      (vec6 (head3 xi) ((0.5 : ℝ) • (hat3 (head3 xi) *ᵥ v) + tail3 xi)) 0 := by
  have hX : IsRigid (SE3.mk (homog 1 v 1)).T := isRigid_homog isRotation_one v
  have hXR : (SE3.mk (homog 1 v 1)).R = 1 := by rw [SE3.R, tl3_homog]
  have hXt : (SE3.mk (homog 1 v 1)).t = v := by rw [SE3.t, tr3_homog]
  have hR := updateLhs_R_deriv hX xi
  have ht := updateLhs_t_deriv hX xi
  rw [hXR, Matrix.mul_one] at hR
  rw [hXt] at ht
  have e : ∀ h : ℝ, (SE3.mk (homog 1 v 1)).updateLhs (h • xi) =
      ⟨homog ((SE3.mk (homog 1 v 1)).updateLhs (h • xi)).R ((SE3.mk (homog 1 v 1)).updateLhs (h • xi)).t 1⟩ := by
    intro h
    ext1
    rw [updateLhs_R hX, updateLhs_t hX, updateLhs_homog hX]
  have h0 : (SE3.mk (homog 1 v 1)).updateLhs ((0 : ℝ) • xi) = SE3.mk (homog 1 v 1) := updateLhs_zero_smul _ _
  have key := lnVee_deriv_trans hR (by rw [h0, hXR]) ht (by
    filter_upwards [cos_ofVec_smul (head3 xi)] with s hs
    rwa [updateLhs_R hX, hXR, Matrix.mul_one])
  rw [h0, hXt] at key
  refine (key.congr ?_).congr_of_eventuallyEq (Eventually.of_forall fun s => congrArg SE3.lnVee (e s))
  congr 1
  funext i
  simp only [Pi.sub_apply, Pi.add_apply, Pi.smul_apply, smul_eq_mul]
  ring

/-- A pose interpolated between the identity and a pure translation which is perturbed on the left. -/
theorem interp_deriv (v : Vec3) (xi : Vec6) (k : ℝ) :
    MDeriv (fun h : ℝ => (SE3.ofVec (k • ((SE3.mk (homog 1 v 1)).updateLhs (h • xi)).lnVee)).T)
      (homog (k • hat3 (head3 xi)) (((k ^ 2 + k) / 2) • (hat3 (head3 xi) *ᵥ v) + k • tail3 xi) 0) 0 := by
  have hl := (lnVee_updateLhs_deriv v xi).smul_const k
  have hz : ((SE3.mk (homog 1 v 1)).updateLhs ((0 : ℝ) • xi)).lnVee = vec6 0 v := by
    rw [updateLhs_zero_smul, lnVee_translation]
  have key := se3_ofVec_curve (w := fun h : ℝ => head3 (k • ((SE3.mk (homog 1 v 1)).updateLhs (h • xi)).lnVee))
    (v := fun h : ℝ => tail3 (k • ((SE3.mk (homog 1 v 1)).updateLhs (h • xi)).lnVee))
    (w' := k • head3 xi) (v' := k • ((0.5 : ℝ) • (hat3 (head3 xi) *ᵥ v) + tail3 xi))
    (fun i => hl (.inl i)) (by rw [hz]; funext i; simp [head3, vec6]) (fun i => hl (.inr i))
  have e : ∀ x : Vec6, vec6 (head3 x) (tail3 x) = x := by
    intro x; funext i; rcases i with i | i <;> rfl
  simp only [e] at key
  refine key.congr ?_
  have h1 : hat3 (k • head3 xi) = k • hat3 (head3 xi) := by
    ext i j; fin_cases i <;> fin_cases j <;> simp [hat3]
  have h2 : tail3 (k • vec6 0 v) = k • v := by funext i; simp [tail3, vec6]
  rw [hz, h1, h2]
  congr 1
  funext i
  simp only [Pi.add_apply, Pi.smul_apply, smul_eq_mul, smul_mulVec, mulVec_smul]
  ring

/-- An interpolated pose at a pure translation. -/
theorem interp_at (v : Vec3) (k : ℝ) : SE3.ofVec (k • (SE3.mk (homog 1 v 1)).lnVee) = ⟨homog 1 (k • v) 1⟩ := by
  ext1
  rw [lnVee_translation, ofVec_translation, hat6_eq, head3_vec6, tail3_vec6, hat3_at_zero, ← homog_one, homog_smul, homog_add]
  simp

end Mrob
