import Verif.Model.Factor
import Verif.Lemmas.SE3Ln
import Verif.Lemmas.Node
import Mathlib.Analysis.Calculus.Deriv.Mul
import Mathlib.Analysis.Calculus.Deriv.Prod
import Mathlib.Analysis.Calculus.Deriv.Pi
import Mathlib.Analysis.Calculus.Deriv.Add
import Mathlib.Analysis.SpecialFunctions.Trigonometric.Deriv

/-!
# Derivatives of matrix expressions along curves
-/

open Matrix Filter Topology

namespace Mrob

open Spec

/-- Entrywise derivative of a matrix-valued curve. -/
def MDeriv {m n : Type*} (M : ℝ → Matrix m n ℝ) (M' : Matrix m n ℝ) (t : ℝ) : Prop :=
  ∀ i j, HasDerivAt (fun s => M s i j) (M' i j) t

/-- Entrywise derivative of a vector-valued curve. -/
def VDeriv {m : Type*} (v : ℝ → m → ℝ) (v' : m → ℝ) (t : ℝ) : Prop :=
  ∀ i, HasDerivAt (fun s => v s i) (v' i) t

section
variable {l m n : Type*} [Fintype m]

theorem MDeriv.mul {A : ℝ → Matrix l m ℝ} {B : ℝ → Matrix m n ℝ} {A' : Matrix l m ℝ} {B' : Matrix m n ℝ}
    {t : ℝ} (hA : MDeriv A A' t) (hB : MDeriv B B' t) :
    MDeriv (fun s => A s * B s) (A' * B t + A t * B') t := by
  intro i j
  simp only [Matrix.mul_apply, Matrix.add_apply]
  rw [← Finset.sum_add_distrib]
  exact HasDerivAt.fun_sum fun k _ => (hA i k).mul (hB k j)

theorem MDeriv.mulVec {A : ℝ → Matrix l m ℝ} {v : ℝ → m → ℝ} {A' : Matrix l m ℝ} {v' : m → ℝ}
    {t : ℝ} (hA : MDeriv A A' t) (hv : VDeriv v v' t) :
    VDeriv (fun s => A s *ᵥ v s) (A' *ᵥ v t + A t *ᵥ v') t := by
  intro i
  simp only [Matrix.mulVec, dotProduct, Pi.add_apply]
  rw [← Finset.sum_add_distrib]
  exact HasDerivAt.fun_sum fun k _ => (hA i k).mul (hv k)

theorem VDeriv.dot {v w : ℝ → m → ℝ} {v' w' : m → ℝ} {t : ℝ} (hv : VDeriv v v' t) (hw : VDeriv w w' t) :
    HasDerivAt (fun s => v s ⬝ᵥ w s) (v' ⬝ᵥ w t + v t ⬝ᵥ w') t := by
  simp only [dotProduct]
  rw [← Finset.sum_add_distrib]
  exact HasDerivAt.fun_sum fun k _ => (hv k).mul (hw k)

theorem MDeriv.congr {A : ℝ → Matrix l n ℝ} {A' B' : Matrix l n ℝ} {t : ℝ} (hA : MDeriv A A' t) (h : A' = B') :
    MDeriv A B' t := h ▸ hA

theorem VDeriv.congr {A : ℝ → l → ℝ} {A' B' : l → ℝ} {t : ℝ} (hA : VDeriv A A' t) (h : A' = B') :
    VDeriv A B' t := h ▸ hA

theorem MDeriv.const (A : Matrix l n ℝ) (t : ℝ) : MDeriv (fun _ => A) 0 t := fun _ _ => hasDerivAt_const _ _

theorem VDeriv.const (v : l → ℝ) (t : ℝ) : VDeriv (fun _ => v) 0 t := fun _ => hasDerivAt_const _ _

theorem MDeriv.transpose {A : ℝ → Matrix l n ℝ} {A' : Matrix l n ℝ} {t : ℝ} (hA : MDeriv A A' t) :
    MDeriv (fun s => (A s)ᵀ) A'ᵀ t := fun i j => hA j i

theorem MDeriv.neg {A : ℝ → Matrix l n ℝ} {A' : Matrix l n ℝ} {t : ℝ} (hA : MDeriv A A' t) :
    MDeriv (fun s => -A s) (-A') t := fun i j => (hA i j).neg

theorem VDeriv.add {v w : ℝ → l → ℝ} {v' w' : l → ℝ} {t : ℝ} (hv : VDeriv v v' t) (hw : VDeriv w w' t) :
    VDeriv (fun s => v s + w s) (v' + w') t := fun i => (hv i).add (hw i)

theorem VDeriv.sub {v w : ℝ → l → ℝ} {v' w' : l → ℝ} {t : ℝ} (hv : VDeriv v v' t) (hw : VDeriv w w' t) :
    VDeriv (fun s => v s - w s) (v' - w') t := fun i => (hv i).sub (hw i)

theorem VDeriv.sub_const {v : ℝ → l → ℝ} {v' : l → ℝ} {t : ℝ} (hv : VDeriv v v' t) (c : l → ℝ) :
    VDeriv (fun s => v s - c) v' t := fun i => (hv i).sub_const (c i)

theorem VDeriv.add_const {v : ℝ → l → ℝ} {v' : l → ℝ} {t : ℝ} (hv : VDeriv v v' t) (c : l → ℝ) :
    VDeriv (fun s => v s + c) v' t := fun i => (hv i).add_const (c i)

theorem VDeriv.line (x v : l → ℝ) : VDeriv (fun s : ℝ => x + s • v) v 0 := fun i => by
  simpa using ((hasDerivAt_id (0 : ℝ)).mul_const (v i)).const_add (x i)

theorem VDeriv.hasDerivAt [Fintype l] {v : ℝ → l → ℝ} {v' : l → ℝ} {t : ℝ} (h : VDeriv v v' t) :
    HasDerivAt v v' t := hasDerivAt_pi.mpr h

theorem MDeriv.congr_of_eventuallyEq {A B : ℝ → Matrix l n ℝ} {A' : Matrix l n ℝ} {t : ℝ} (h : MDeriv A A' t)
    (e : ∀ᶠ s in 𝓝 t, B s = A s) : MDeriv B A' t := fun i j =>
  (h i j).congr_of_eventuallyEq (e.mono fun s hs => by simp only [hs])

theorem VDeriv.congr_of_eventuallyEq {A B : ℝ → l → ℝ} {A' : l → ℝ} {t : ℝ} (h : VDeriv A A' t)
    (e : ∀ᶠ s in 𝓝 t, B s = A s) : VDeriv B A' t := fun i =>
  (h i).congr_of_eventuallyEq (e.mono fun s hs => by simp only [hs])

end

/-- A continuous factor times a curve through zero. -/
theorem hasDerivAt_mul_of_zero {k s : ℝ → ℝ} {s' t : ℝ} (hs : HasDerivAt s s' t) (h0 : s t = 0)
    (hk : ContinuousAt k t) : HasDerivAt (fun x => k x * s x) (k t * s') t := by
  rw [hasDerivAt_iff_tendsto_slope] at hs ⊢
  have : Tendsto (fun x => k x * slope s t x) (𝓝[≠] t) (𝓝 (k t * s')) :=
    (hk.tendsto.mono_left nhdsWithin_le_nhds).mul hs
  refine this.congr fun x => ?_
  simp only [slope_def_field, h0, mul_zero, sub_zero]
  ring

theorem mulVec_deriv_of_zero {M : ℝ → Mat3} {s : ℝ → Vec3} {s' : Vec3} {t : ℝ} (hs : VDeriv s s' t)
    (h0 : s t = 0) (hM : ∀ i j, ContinuousAt (fun x => M x i j) t) :
    VDeriv (fun x => M x *ᵥ s x) (M t *ᵥ s') t := by
  intro i
  simp only [Matrix.mulVec, dotProduct]
  exact HasDerivAt.fun_sum fun k _ => hasDerivAt_mul_of_zero (hs k) (congrFun h0 k) (hM i k)

/-! ### The exponential near zero -/

theorem eventually_vnorm_smul_lt (w : Vec3) {e : ℝ} (he : 0 < e) : ∀ᶠ s : ℝ in 𝓝 0, vnorm (s • w) < e := by
  have h : Continuous fun s : ℝ => |s| * vnorm w := by fun_prop
  have h0 : (fun s : ℝ => |s| * vnorm w) 0 < e := by simpa using he
  filter_upwards [h.continuousAt.eventually_lt continuousAt_const h0] with s hs
  rwa [vnorm_smul]

/-- Near zero the code uses the Taylor branch. -/
theorem ofVec_smul_eventually (w : Vec3) : ∀ᶠ s : ℝ in 𝓝 0, (SO3.ofVec (s • w)).R =
    rod ((1 - s ^ 2 * sqNorm w / 6) * s) ((0.5 - s ^ 2 * sqNorm w / 24) * s ^ 2) w := by
  filter_upwards [eventually_vnorm_smul_lt w (e := 1e-5) (by norm_num)] with s hs
  rw [ofVec_R, expC1_of_lt hs, expC2_of_lt hs, rod_smul, sqNorm_smul]

theorem rod_deriv {a b : ℝ → ℝ} {a' b' : ℝ} (w : Vec3) {t : ℝ} (ha : HasDerivAt a a' t) (hb : HasDerivAt b b' t) :
    MDeriv (fun s => rod (a s) (b s) w) (a' • hat3 w + b' • (hat3 w * hat3 w)) t := by
  intro i j
  simp only [rod, Matrix.add_apply, Matrix.smul_apply, smul_eq_mul]
  exact ((ha.mul_const _).const_add _).add (hb.mul_const _)

theorem ofVec_deriv (w : Vec3) : MDeriv (fun s => (SO3.ofVec (s • w)).R) (hat3 w) 0 := by
  refine MDeriv.congr_of_eventuallyEq ?_ (ofVec_smul_eventually w)
  have h1 : HasDerivAt (fun s : ℝ => (1 - s ^ 2 * sqNorm w / 6) * s) 1 0 := by
    have := (((((hasDerivAt_pow 2 (0 : ℝ)).mul_const (sqNorm w)).div_const 6).const_sub 1).mul (hasDerivAt_id (0 : ℝ)))
    exact this.congr_deriv (by simp)
  have h2 : HasDerivAt (fun s : ℝ => (0.5 - s ^ 2 * sqNorm w / 24) * s ^ 2) 0 0 := by
    have := (((((hasDerivAt_pow 2 (0 : ℝ)).mul_const (sqNorm w)).div_const 24).const_sub 0.5).mul (hasDerivAt_pow 2 (0 : ℝ)))
    exact this.congr_deriv (by simp)
  exact (rod_deriv w h1 h2).congr (by simp)

theorem vMat_smul_eventually (w : Vec3) : ∀ᶠ s : ℝ in 𝓝 0, vMat (s • w) =
    rod ((0.5 - s ^ 2 * sqNorm w / 24) * s) ((1 / 6 - s ^ 2 * sqNorm w / 120) * s ^ 2) w := by
  filter_upwards [eventually_vnorm_smul_lt w (e := 1e-3) (by norm_num)] with s hs
  rw [vMat, vC2_of_le hs.le, vC3_of_le hs.le, rod_smul, sqNorm_smul]

theorem vMat_deriv (w v : Vec3) : VDeriv (fun s => vMat (s • w) *ᵥ (s • v)) v 0 := by
  have hs : VDeriv (fun s : ℝ => s • v) v 0 := by simpa using VDeriv.line 0 v
  have key := mulVec_deriv_of_zero
    (M := fun s => rod ((0.5 - s ^ 2 * sqNorm w / 24) * s) ((1 / 6 - s ^ 2 * sqNorm w / 120) * s ^ 2) w)
    hs (zero_smul _ _) (fun i j => by
      simp only [rod, Matrix.add_apply, Matrix.smul_apply, smul_eq_mul]
      fun_prop)
  refine (key.congr ?_).congr_of_eventuallyEq ?_
  · simp [rod]
  · filter_upwards [vMat_smul_eventually w] with s hs
    rw [hs]

theorem smul_vec6 (s : ℝ) (w v : Vec3) : s • vec6 w v = vec6 (s • w) (s • v) := by
  funext i; rcases i with i | i <;> rfl

/-- The exponential of the code has derivative `hat6 xi` at zero along `xi`. -/
theorem se3_ofVec_deriv (xi : Vec6) : MDeriv (fun s => (SE3.ofVec (s • xi)).T) (hat6 xi) 0 := by
  have e : ∀ s : ℝ, (SE3.ofVec (s • xi)).T =
      homog (SO3.ofVec (s • head3 xi)).R (vMat (s • head3 xi) *ᵥ (s • tail3 xi)) 1 := by
    intro s
    rw [se3_ofVec_T]; rfl
  rw [hat6_eq]
  intro i j
  simp only [e]
  rcases i with i | i <;> rcases j with j | j
  · exact ofVec_deriv _ i j
  · exact vMat_deriv _ _ i
  · exact hasDerivAt_const _ _
  · exact hasDerivAt_const _ _

theorem se3_ofVec_zero : (SE3.ofVec 0).T = 1 := by
  have h0 : head3 (0 : Vec6) = 0 := rfl
  have h1 : tail3 (0 : Vec6) = 0 := rfl
  rw [se3_ofVec_T, h0, h1, ofVec_zero, mulVec_zero, homog_one]

/-- Derivative of a pose under the left update. -/
theorem updateLhs_deriv (X : SE3) (xi : Vec6) : MDeriv (fun s => (X.updateLhs (s • xi)).T) (hat6 xi * X.T) 0 :=
  ((se3_ofVec_deriv xi).mul (MDeriv.const X.T 0)).congr (by simp)

theorem updateLhs_zero (X : SE3) : X.updateLhs ((0 : ℝ) • (0 : Vec6)) = X := by
  ext1
  change (SE3.ofVec _).T * X.T = X.T
  rw [zero_smul, se3_ofVec_zero, Matrix.one_mul]

theorem updateLhs_zero_smul (X : SE3) (xi : Vec6) : X.updateLhs ((0 : ℝ) • xi) = X := by
  ext1
  change (SE3.ofVec _).T * X.T = X.T
  rw [zero_smul, se3_ofVec_zero, Matrix.one_mul]

theorem tl3_mul_homog (A : Mat3) (b : Vec3) (X : Mat4) (hX : X = homog (tl3 X) (tr3 X) 1) :
    homog A b 0 * X = homog (A * tl3 X) (A *ᵥ tr3 X + b) 0 := by
  rw [hX, homog_mul, tl3_homog, tr3_homog]; simp

/-- Rotation part. -/
theorem updateLhs_R_deriv {X : SE3} (hX : IsRigid X.T) (xi : Vec6) :
    MDeriv (fun s => (X.updateLhs (s • xi)).R) (hat3 (head3 xi) * X.R) 0 := by
  have h := updateLhs_deriv X xi
  rw [hat6_eq, tl3_mul_homog _ _ _ (rigid_T hX)] at h
  intro i j
  exact h (Sum.inl i) (Sum.inl j)

/-- Translation part. -/
theorem updateLhs_t_deriv {X : SE3} (hX : IsRigid X.T) (xi : Vec6) :
    VDeriv (fun s => (X.updateLhs (s • xi)).t) (hat3 (head3 xi) *ᵥ X.t + tail3 xi) 0 := by
  have h := updateLhs_deriv X xi
  rw [hat6_eq, tl3_mul_homog _ _ _ (rigid_T hX)] at h
  intro i
  exact h (Sum.inl i) (Sum.inr ())

end Mrob
