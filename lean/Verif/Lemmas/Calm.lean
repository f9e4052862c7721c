import Verif.Lemmas.FirstOrderStep
import Mathlib.Analysis.SpecialFunctions.Trigonometric.InverseDeriv
import Mathlib.Analysis.SpecialFunctions.Sqrt
import Mathlib.Analysis.SpecialFunctions.Trigonometric.Deriv

/-!
# Functions that stay close
-/

open Matrix Filter Topology Asymptotics

namespace Mrob

open Spec

attribute [local instance] Matrix.linftyOpNormedAddCommGroup Matrix.linftyOpNormedSpace Matrix.linftyOpNormedRing

variable {T : Type} {F : Filter T} {δ : T → ℝ}

/-- `f` is as close to `a` as `δ` to zero. -/
def Calm (F : Filter T) (δ : T → ℝ) {E : Type} [NormedAddCommGroup E] (f : T → E) (a : E) : Prop := (fun t => f t - a) =O[F] δ

namespace Calm

section group

variable {E : Type} [NormedAddCommGroup E] {f g : T → E} {a b : E}

theorem lim (h : Calm F δ f a) (hδ : Tendsto δ F (𝓝 0)) : Tendsto f F (𝓝 a) := by
  have := (IsBigO.trans_tendsto h hδ).add_const a
  simpa using this

theorem bounded (h : Calm F δ f a) (hδ : Tendsto δ F (𝓝 0)) : f =O[F] fun _ => (1 : ℝ) := (h.lim hδ).isBigO_one ℝ

theorem const (a : E) : Calm F δ (fun _ => a) a := by
  unfold Calm
  simpa using isBigO_zero δ F

theorem add (h : Calm F δ f a) (h' : Calm F δ g b) : Calm F δ (fun t => f t + g t) (a + b) := by
  refine (IsBigO.add h h').congr_left fun t => ?_
  dsimp only
  abel

theorem sub (h : Calm F δ f a) (h' : Calm F δ g b) : Calm F δ (fun t => f t - g t) (a - b) := by
  refine (IsBigO.sub h h').congr_left fun t => ?_
  dsimp only
  abel

theorem neg (h : Calm F δ f a) : Calm F δ (fun t => -f t) (-a) := by
  refine (IsBigO.neg_left h).congr_left fun t => ?_
  dsimp only
  abel

theorem smul [NormedSpace ℝ E] {c : T → ℝ} {k : ℝ} (hc : Calm F δ c k) (h : Calm F δ f a) (hδ : Tendsto δ F (𝓝 0)) :
    Calm F δ (fun t => c t • f t) (k • a) := by
  have h1 := IsBigO.smul (hc.bounded hδ) h
  have h2 := IsBigO.smul hc (isBigO_const_const a (one_ne_zero (α := ℝ)) F)
  simp only [smul_eq_mul, one_mul, mul_one] at h1 h2
  refine (h1.add h2).congr_left fun t => ?_
  rw [smul_sub, sub_smul]; abel

theorem mono {l : Filter T} (h : Calm F δ f a) (hl : l ≤ F) : Calm l δ f a := IsBigO.mono h hl

theorem congr (h : Calm F δ f a) (e : ∀ᶠ t in F, f t = g t) : Calm F δ g a := by
  refine IsBigO.congr' h ?_ EventuallyEq.rfl
  filter_upwards [e] with t ht
  rw [ht]

end group

theorem mul {E : Type} [NormedRing E] {f g : T → E} {a b : E} (h : Calm F δ f a) (h' : Calm F δ g b) (hδ : Tendsto δ F (𝓝 0)) :
    Calm F δ (fun t => f t * g t) (a * b) := by
  have h1 := IsBigO.mul (h.bounded hδ) h'
  have h2 := IsBigO.mul h (isBigO_const_const b (one_ne_zero (α := ℝ)) F)
  simp only [one_mul, mul_one] at h1 h2
  refine (h1.add h2).congr_left fun t => ?_
  noncomm_ring

theorem comp {f : T → ℝ} {a : ℝ} (h : Calm F δ f a) {φ : ℝ → ℝ} (hφ : DifferentiableAt ℝ φ a) (hδ : Tendsto δ F (𝓝 0)) :
    Calm F δ (fun t => φ (f t)) (φ a) := by
  have := hφ.isBigO_sub.comp_tendsto (h.lim hδ)
  exact this.trans h

theorem div {f g : T → ℝ} {a b : ℝ} (h : Calm F δ f a) (h' : Calm F δ g b) (hb : b ≠ 0) (hδ : Tendsto δ F (𝓝 0)) :
    Calm F δ (fun t => f t / g t) (a / b) := by
  have := h.mul (h'.comp (φ := fun x => x⁻¹) (differentiableAt_inv hb) hδ) hδ
  simpa only [div_eq_mul_inv] using this

theorem mulVec {M : T → Mat3} {A : Mat3} {v : T → Vec3} {u : Vec3} (h : Calm F δ M A) (h' : Calm F δ v u)
    (hδ : Tendsto δ F (𝓝 0)) : Calm F δ (fun t => M t *ᵥ v t) (A *ᵥ u) := by
  have h1 := mulVec_bigO (h.bounded hδ) h'
  have h2 := mulVec_bigO h (isBigO_const_const u (one_ne_zero (α := ℝ)) F)
  simp only [one_mul, mul_one] at h1 h2
  refine (h1.add h2).congr_left fun t => ?_
  rw [mulVec_sub, sub_mulVec]; abel

theorem apply {v : T → Vec3} {u : Vec3} (h : Calm F δ v u) (i : Fin 3) : Calm F δ (fun t => v t i) (u i) := isBigO_pi.mp h i

theorem vec {v : T → Vec3} {u : Vec3} (h : ∀ i, Calm F δ (fun t => v t i) (u i)) : Calm F δ v u := isBigO_pi.mpr h

theorem entry {M : T → Mat3} {A : Mat3} (h : Calm F δ M A) (i j : Fin 3) : Calm F δ (fun t => M t i j) (A i j) := mat_bigO.mp h i j

theorem hat {v : T → Vec3} {u : Vec3} (h : Calm F δ v u) : Calm F δ (fun t => hat3 (v t)) (hat3 u) := by
  refine (hat3_bigO h).congr_left fun t => ?_
  rw [sub_eq_add_neg, hat3_add, hat3_neg, ← sub_eq_add_neg]

theorem skew {M : T → Mat3} {A : Mat3} (h : Calm F δ M A) : Calm F δ (fun t => skewVec (M t)) (skewVec A) := by
  refine (skewVec_bigO h).congr_left fun t => ?_
  funext i
  fin_cases i <;> simp [skewVec] <;> ring

theorem cosOf {M : T → Mat3} {A : Mat3} (h : Calm F δ M A) : Calm F δ (fun t => cosOf (M t)) (Mrob.cosOf A) := by
  have := (((h.entry 0 0).add (h.entry 1 1)).add (h.entry 2 2)).sub (const (1 : ℝ))
  have := (IsBigO.const_mul_left this (1 / 2))
  refine this.congr_left fun t => ?_
  dsimp only
  rw [cosOf_eq, cosOf_eq]; ring

theorem sqNorm {v : T → Vec3} {u : Vec3} (h : Calm F δ v u) (hδ : Tendsto δ F (𝓝 0)) :
    Calm F δ (fun t => sqNorm (v t)) (Mrob.sqNorm u) := by
  have := (((h.apply 0).mul (h.apply 0) hδ).add ((h.apply 1).mul (h.apply 1) hδ)).add ((h.apply 2).mul (h.apply 2) hδ)
  refine IsBigO.congr_left this fun t => ?_
  dsimp only
  rw [sqNorm3, sqNorm3]

theorem vnorm {v : T → Vec3} {u : Vec3} (h : Calm F δ v u) (hu : u ≠ 0) (hδ : Tendsto δ F (𝓝 0)) :
    Calm F δ (fun t => vnorm (v t)) (Mrob.vnorm u) := by
  have hne : Mrob.sqNorm u ≠ 0 := by
    intro h0
    exact hu (vnorm_eq_zero.mp (by rw [Mrob.vnorm, h0, Real.sqrt_zero]))
  exact (h.sqNorm hδ).comp (φ := Real.sqrt) (Real.hasDerivAt_sqrt hne).differentiableAt hδ

theorem rod {a b : T → ℝ} {v : T → Vec3} {a0 b0 : ℝ} {u : Vec3} (ha : Calm F δ a a0) (hb : Calm F δ b b0) (h : Calm F δ v u)
    (hδ : Tendsto δ F (𝓝 0)) : Calm F δ (fun t => rod (a t) (b t) (v t)) (Mrob.rod a0 b0 u) :=
  ((const (1 : Mat3)).add (ha.smul h.hat hδ)).add (hb.smul (h.hat.mul h.hat hδ) hδ)

end Calm

/-- The pose written by `regenerate`. -/
theorem regenerate_eq {M : SE3} (h : LastRow M.T) : M.regenerate.R = (SO3.ofVec (SO3.mk M.R).lnVee).R ∧
    M.regenerate.t = (vMat (SO3.mk M.R).lnVee * vInv (so3Ln M.R).2 (SO3.mk M.R).lnVee) *ᵥ M.t ∧ LastRow M.regenerate.T := by
  have e : M.T = homog M.R M.t 1 := by
    ext i j
    rcases i with i | i <;> rcases j with j | j
    · rfl
    · rfl
    · exact h.1 j
    · exact h.2
  have e2 : M.regenerate.T = homog (SO3.ofVec (SO3.mk M.R).lnVee).R
      (vMat (SO3.mk M.R).lnVee *ᵥ (vInv (so3Ln M.R).2 (SO3.mk M.R).lnVee *ᵥ M.t)) 1 := by
    change se3ExpHat (se3Ln M.T) = _
    rw [e, se3Ln_homog, se3ExpHat_homog]
  refine ⟨?_, ?_, ?_⟩
  · rw [SE3.R, e2, tl3_homog]
  · rw [SE3.t, e2, tr3_homog, mulVec_mulVec]
  · rw [e2]; exact lastRow_homog _ _

section large

variable {w : T → Vec3} {w0 : Vec3} {o : T → ℝ} (hw : Calm F δ w w0) (ho : Calm F δ o (vnorm w0)) (h0 : 5e-3 < vnorm w0)
  (hpi : vnorm w0 ≤ Real.pi) (hδ : Tendsto δ F (𝓝 0))

include hw h0 hδ in
theorem calm_exp : Calm F δ (fun t => (SO3.ofVec (w t)).R) (SO3.ofVec w0).R := by
  have hne : w0 ≠ 0 := by rintro rfl; rw [vnorm_zero3] at h0; norm_num at h0
  have hn := hw.vnorm hne hδ
  have hq := hw.sqNorm hδ
  have hn0 : vnorm w0 ≠ 0 := by intro h; rw [h] at h0; norm_num at h0
  have hq0 : sqNorm w0 ≠ 0 := by rw [← vnorm_sq]; exact pow_ne_zero 2 hn0
  have c1 := (hn.comp (φ := Real.sin) Real.differentiable_sin.differentiableAt hδ).div hn hn0 hδ
  have c2 := ((Calm.const (1 : ℝ)).sub (hn.comp (φ := Real.cos) Real.differentiable_cos.differentiableAt hδ)).div hq hq0 hδ
  have key := Calm.rod c1 c2 hw hδ
  have e0 : (SO3.ofVec w0).R = rod (Real.sin (vnorm w0) / vnorm w0) ((1 - Real.cos (vnorm w0)) / sqNorm w0) w0 := by
    rw [ofVec_R, expC1_of_ge, expC2_of_ge] <;> linarith
  rw [e0]
  refine key.congr ?_
  filter_upwards [(hn.lim hδ).eventually_const_lt h0] with t ht
  rw [ofVec_R, expC1_of_ge, expC2_of_ge] <;> linarith

include hw h0 hδ in
theorem calm_vMat : Calm F δ (fun t => vMat (w t)) (vMat w0) := by
  have hne : w0 ≠ 0 := by rintro rfl; rw [vnorm_zero3] at h0; norm_num at h0
  have hn := hw.vnorm hne hδ
  have hq := hw.sqNorm hδ
  have hn0 : vnorm w0 ≠ 0 := by intro h; rw [h] at h0; norm_num at h0
  have hq0 : sqNorm w0 ≠ 0 := by rw [← vnorm_sq]; exact pow_ne_zero 2 hn0
  have c2 := ((Calm.const (1 : ℝ)).sub (hn.comp (φ := Real.cos) Real.differentiable_cos.differentiableAt hδ)).div hq hq0 hδ
  have c3 := ((hn.sub (hn.comp (φ := Real.sin) Real.differentiable_sin.differentiableAt hδ)).div hq hq0 hδ).div hn hn0 hδ
  have key := Calm.rod c2 c3 hw hδ
  have e : ∀ v : Vec3, 5e-3 < vnorm v → vMat v = rod ((1 - Real.cos (vnorm v)) / sqNorm v) ((vnorm v - Real.sin (vnorm v)) / sqNorm v / vnorm v) v := by
    intro v hv
    rw [vMat, vC2, vC3, if_pos (by linarith), if_pos (by linarith)]
  rw [e _ h0]
  refine key.congr ?_
  filter_upwards [(hn.lim hδ).eventually_const_lt h0] with t ht
  rw [e _ ht]

include hw ho h0 hpi hδ in
theorem calm_vInv : Calm F δ (fun t => vInv (o t) (w t)) (vInv (vnorm w0) w0) := by
  have hn0 : vnorm w0 ≠ 0 := by intro h; rw [h] at h0; norm_num at h0
  have hc : 1 - Real.cos (vnorm w0) ≠ 0 := by
    intro h
    have h2 := Real.pi_pos
    have := (Real.cos_eq_one_iff_of_lt_of_lt (x := vnorm w0) (by linarith) (by linarith)).mp (by linarith)
    exact hn0 this
  have k := (((Calm.const (F := F) (δ := δ) (1 : ℝ)).div ho hn0 hδ).div ho hn0 hδ).mul ((Calm.const (1 : ℝ)).sub
    (((Calm.const (0.5 : ℝ)).mul (ho.comp (φ := Real.sin) Real.differentiable_sin.differentiableAt hδ) hδ).div
      (((Calm.const (1 : ℝ)).sub (ho.comp (φ := Real.cos) Real.differentiable_cos.differentiableAt hδ)).div ho hn0 hδ)
      (div_ne_zero hc hn0) hδ)) hδ
  have k1 : Calm F δ (fun t => lnK1 (o t)) (lnK1 (vnorm w0)) := by
    rw [lnK1, if_pos h0]
    refine k.congr ?_
    filter_upwards [(ho.lim hδ).eventually_const_lt h0] with t ht
    rw [lnK1, if_pos ht]
  exact Calm.rod (Calm.const _) k1 hw hδ

end large

end Mrob
