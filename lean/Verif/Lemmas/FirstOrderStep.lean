import Verif.Lemmas.FirstOrderRes
import Verif.Lemmas.PlaneGrad

/-!
# First order expansion of the update of a pose
-/

open Matrix Filter Topology Asymptotics

namespace Mrob

open Spec

attribute [local instance] Matrix.linftyOpNormedAddCommGroup Matrix.linftyOpNormedSpace Matrix.linftyOpNormedRing

variable {T : Type} {F : Filter T} {g : T → ℝ}

theorem sqNorm_bigO {u : T → Vec3} (h : u =O[F] g) : (fun t => sqNorm (u t)) =O[F] fun t => g t ^ 2 := by
  have h' := isBigO_pi.mp h
  simp only [sqNorm3]
  simpa [sq] using (((h' 0).mul (h' 0)).add ((h' 1).mul (h' 1))).add ((h' 2).mul (h' 2))

theorem sqNorm_lim {u : T → Vec3} {u0 : Vec3} (h : Tendsto u F (𝓝 u0)) : Tendsto (fun t => sqNorm (u t)) F (𝓝 (sqNorm u0)) := by
  have h' := tendsto_pi_nhds.mp h
  simp only [sqNorm3]
  exact (((h' 0).mul (h' 0)).add ((h' 1).mul (h' 1))).add ((h' 2).mul (h' 2))

theorem vnorm_lim {u : T → Vec3} {u0 : Vec3} (h : Tendsto u F (𝓝 u0)) : Tendsto (fun t => vnorm (u t)) F (𝓝 (vnorm u0)) := by
  simp only [vnorm]
  exact (sqNorm_lim h).sqrt

theorem sqNorm_zero3 : sqNorm (0 : Vec3) = 0 := by simp [sqNorm3]
theorem vnorm_zero3 : vnorm (0 : Vec3) = 0 := by rw [vnorm, sqNorm_zero3, Real.sqrt_zero]

/-- Polynomials of Rodrigues close to the identity. -/
theorem rod_first {a b : T → ℝ} {u : T → Vec3} (ha : Tendsto a F (𝓝 1)) {b0 : ℝ} (hb : Tendsto b F (𝓝 b0)) (hu : u =O[F] g)
    (hg : Tendsto g F (𝓝 0)) : (fun t => rod (a t) (b t) (u t) - 1 - hat3 (u t)) =o[F] g := by
  have e : ∀ t, rod (a t) (b t) (u t) - 1 - hat3 (u t) = (a t - 1) • hat3 (u t) + b t • (hat3 (u t) * hat3 (u t)) := by
    intro t; rw [rod, sub_smul, one_smul]; abel
  simp only [e]
  refine IsLittleO.add ?_ ?_
  · have h1 : (fun t => a t - 1) =o[F] fun _ => (1 : ℝ) := by
      rw [isLittleO_one_iff]
      have := ha.sub_const 1
      rwa [sub_self] at this
    have := h1.smul_isBigO (hat3_bigO hu)
    simpa using this
  · have := (hb.isBigO_one ℝ).smul ((hat3_bigO hu).mul (hat3_bigO hu))
    refine this.trans_isLittleO ?_
    simpa [sq] using sq_littleO hg

theorem rod_bigO {a b : T → ℝ} {u : T → Vec3} {a0 b0 : ℝ} (ha : Tendsto a F (𝓝 a0)) (hb : Tendsto b F (𝓝 b0)) (hu : u =O[F] g)
    (hg : Tendsto g F (𝓝 0)) : (fun t => rod (a t) (b t) (u t) - 1) =O[F] g := by
  have e : ∀ t, rod (a t) (b t) (u t) - 1 = a t • hat3 (u t) + b t • (hat3 (u t) * hat3 (u t)) := by
    intro t; rw [rod]; abel
  simp only [e]
  refine IsBigO.add ?_ ?_
  · simpa using (ha.isBigO_one ℝ).smul (hat3_bigO hu)
  · have := (hb.isBigO_one ℝ).smul ((hat3_bigO hu).mul (hat3_bigO hu))
    refine this.trans ?_
    simpa [sq] using (sq_littleO hg).isBigO

section coeff

variable {u : T → Vec3} (hu : Tendsto u F (𝓝 0))
include hu

theorem coeff_small {ε : ℝ} (hε : 0 < ε) : ∀ᶠ t in F, vnorm (u t) < ε := by
  have := vnorm_lim hu
  rw [vnorm_zero3] at this
  exact this.eventually_lt_const hε

theorem expC1_lim : Tendsto (fun t => expC1 (vnorm (u t)) (sqNorm (u t))) F (𝓝 1) := by
  have h1 := ((sqNorm_lim hu).div_const 6).const_sub 1
  rw [sqNorm_zero3, zero_div, sub_zero] at h1
  refine h1.congr' ?_
  filter_upwards [coeff_small hu (ε := 1e-5) (by norm_num)] with t ht
  rw [expC1_of_lt ht]

theorem expC2_lim : Tendsto (fun t => expC2 (vnorm (u t)) (sqNorm (u t))) F (𝓝 0.5) := by
  have h1 := ((sqNorm_lim hu).div_const 24).const_sub 0.5
  rw [sqNorm_zero3, zero_div, sub_zero] at h1
  refine h1.congr' ?_
  filter_upwards [coeff_small hu (ε := 1e-5) (by norm_num)] with t ht
  rw [expC2_of_lt ht]

theorem vC2_lim : Tendsto (fun t => vC2 (vnorm (u t)) (sqNorm (u t))) F (𝓝 0.5) := by
  have h1 := ((sqNorm_lim hu).div_const 24).const_sub 0.5
  rw [sqNorm_zero3, zero_div, sub_zero] at h1
  refine h1.congr' ?_
  filter_upwards [coeff_small hu (ε := 1e-3) (by norm_num)] with t ht
  rw [vC2, if_neg (not_lt.mpr ht.le)]

theorem vC3_lim : Tendsto (fun t => vC3 (vnorm (u t)) (sqNorm (u t))) F (𝓝 (1 / 6)) := by
  have h1 := ((sqNorm_lim hu).div_const 120).const_sub (1 / 6)
  rw [sqNorm_zero3, zero_div, sub_zero] at h1
  refine h1.congr' ?_
  filter_upwards [coeff_small hu (ε := 1e-3) (by norm_num)] with t ht
  rw [vC3, if_neg (not_lt.mpr ht.le)]

end coeff

theorem exp_first {u : T → Vec3} (hu : u =O[F] g) (hg : Tendsto g F (𝓝 0)) :
    (fun t => (SO3.ofVec (u t)).R - 1 - hat3 (u t)) =o[F] g := by
  have h0 := hu.trans_tendsto hg
  simp only [ofVec_R]
  exact rod_first (expC1_lim h0) (expC2_lim h0) hu hg

theorem exp_bigO {u : T → Vec3} (hu : u =O[F] g) (hg : Tendsto g F (𝓝 0)) :
    (fun t => (SO3.ofVec (u t)).R - 1) =O[F] g := by
  have h0 := hu.trans_tendsto hg
  simp only [ofVec_R]
  exact rod_bigO (expC1_lim h0) (expC2_lim h0) hu hg

theorem vMat_bigO {u : T → Vec3} (hu : u =O[F] g) (hg : Tendsto g F (𝓝 0)) : (fun t => vMat (u t) - 1) =O[F] g := by
  have h0 := hu.trans_tendsto hg
  exact rod_bigO (vC2_lim h0) (vC3_lim h0) hu hg

namespace PoseNear

variable {P : T → SE3} {A : SE3} {Q : T → Mat3} {τ : T → Vec3} (h : PoseNear F g P A Q τ) (hg : Tendsto g F (𝓝 0))
  {z : T → Vec6} (hz : ∀ i, (fun t => vec6 (skewVec (Q t)) (τ t) i - z t i) =o[F] g)

include h hz in
theorem head_bigO : (fun t => head3 (-z t)) =O[F] g := by
  refine isBigO_pi.mpr fun i => ?_
  have := (hz (.inl i)).isBigO.sub (isBigO_pi.mp h.turned.skew i)
  refine this.congr_left fun t => ?_
  change skewVec (Q t) i - z t (.inl i) - skewVec (Q t) i = -z t (.inl i)
  ring

include h hz in
theorem tail_bigO : (fun t => tail3 (-z t)) =O[F] g := by
  refine isBigO_pi.mpr fun i => ?_
  have := (hz (.inr i)).isBigO.sub (isBigO_pi.mp h.trans i)
  refine this.congr_left fun t => ?_
  change τ t i - z t (.inr i) - τ t i = -z t (.inr i)
  ring

include hz in
theorem head_first : (fun t => skewVec (Q t) + head3 (-z t)) =o[F] g := by
  refine isLittleO_pi.mpr fun i => (hz (.inl i)).congr_left fun t => ?_
  change skewVec (Q t) i - z t (.inl i) = skewVec (Q t) i + -z t (.inl i)
  ring

include hz in
theorem tail_first : (fun t => τ t + tail3 (-z t)) =o[F] g := by
  refine isLittleO_pi.mpr fun i => (hz (.inr i)).congr_left fun t => ?_
  change τ t i - z t (.inr i) = τ t i + -z t (.inr i)
  ring

include h hz hg in
theorem turn_first : (fun t => (SO3.ofVec (head3 (-z t))).R * Q t - 1) =o[F] g := by
  have hu := h.head_bigO hz
  have e : ∀ t, (SO3.ofVec (head3 (-z t))).R * Q t - 1 = ((SO3.ofVec (head3 (-z t))).R - 1 - hat3 (head3 (-z t))) +
      (Q t - 1 - hat3 (skewVec (Q t))) + hat3 (skewVec (Q t) + head3 (-z t)) +
      ((SO3.ofVec (head3 (-z t))).R - 1) * (Q t - 1) := by
    intro t; rw [hat3_add]; noncomm_ring
  simp only [e]
  refine (((exp_first hu hg).add (h.turned.first hg)).add (hat3_littleO (head_first hz))).add ?_
  refine ((exp_bigO hu hg).mul (h.turned.sub_one hg)).trans_isLittleO ?_
  simpa [sq] using sq_littleO hg

theorem updateLhs_R {P : SE3} (v : Vec6) (hP : LastRow P.T) : (P.updateLhs v).R = (SO3.ofVec (head3 v)).R * P.R := by
  have e : P.T = homog P.R P.t 1 := by
    ext i j
    rcases i with i | i <;> rcases j with j | j
    · rfl
    · rfl
    · exact hP.1 j
    · exact hP.2
  change tl3 ((SE3.ofVec v).T * P.T) = _
  rw [se3_ofVec_T, e, homog_mul, tl3_homog]

theorem updateLhs_t {P : SE3} (v : Vec6) (hP : LastRow P.T) :
    (P.updateLhs v).t = (SO3.ofVec (head3 v)).R *ᵥ P.t + vMat (head3 v) *ᵥ tail3 v := by
  have e : P.T = homog P.R P.t 1 := by
    ext i j
    rcases i with i | i <;> rcases j with j | j
    · rfl
    · rfl
    · exact hP.1 j
    · exact hP.2
  change tr3 ((SE3.ofVec v).T * P.T) = _
  rw [se3_ofVec_T, e, homog_mul, tr3_homog, one_smul]

include h in
theorem lastRow : ∀ᶠ t in F, LastRow (P t).T := by
  filter_upwards [h.eq] with t ht
  rw [ht]; exact (lastRow_homog _ _).mul h.rigid.lastRow

include h hz hg in
/-- The new rotation. -/
theorem update_R : (fun t => ((P t).updateLhs (-z t)).R - A.R) =o[F] g := by
  have h1 : (fun t => ((SO3.ofVec (head3 (-z t))).R * Q t - 1) * A.R) =o[F] g := by
    have := (h.turn_first hg hz).mul_isBigO (const_bigO_one (F := F) A.R)
    simpa using this
  refine h1.congr' ?_ EventuallyEq.rfl
  filter_upwards [h.R_eq, h.lastRow] with t h2 h3
  rw [updateLhs_R _ h3, h2, Matrix.sub_mul, Matrix.one_mul, Matrix.mul_assoc]

include h hz hg in
/-- The new translation. -/
theorem update_t : (fun t => ((P t).updateLhs (-z t)).t - A.t) =o[F] g := by
  have k0 := h.head_bigO hz
  have k1 : (fun t => ((SO3.ofVec (head3 (-z t))).R * Q t - 1) *ᵥ A.t) =o[F] g := by
    have := mulVec_littleO (h.turn_first hg hz) (isBigO_const_const A.t (one_ne_zero (α := ℝ)) F)
    simpa using this
  have k2 : (fun t => ((SO3.ofVec (head3 (-z t))).R - 1) *ᵥ τ t) =o[F] g := by
    refine (mulVec_bigO (exp_bigO k0 hg) h.trans).trans_isLittleO ?_
    simpa [sq] using sq_littleO hg
  have k3 : (fun t => (vMat (head3 (-z t)) - 1) *ᵥ tail3 (-z t)) =o[F] g := by
    refine (mulVec_bigO (vMat_bigO k0 hg) (h.tail_bigO hz)).trans_isLittleO ?_
    simpa [sq] using sq_littleO hg
  refine (((k1.add k2).add k3).add (tail_first hz)).congr' ?_ EventuallyEq.rfl
  filter_upwards [h.t_eq, h.lastRow] with t h2 h3
  rw [updateLhs_t _ h3, h2]
  simp only [sub_mulVec, one_mulVec, mulVec_add, mulVec_mulVec]
  abel

end PoseNear

end Mrob
