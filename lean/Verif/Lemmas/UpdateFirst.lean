import Verif.Lemmas.RegenFirst
import Verif.Lemmas.SpatialChart

/-!
# The update of a pose to first order
-/

open Matrix Filter Topology Asymptotics

namespace Mrob

open Spec

attribute [local instance] Matrix.linftyOpNormedAddCommGroup Matrix.linftyOpNormedSpace Matrix.linftyOpNormedRing

variable {T : Type} {F : Filter T} {g : T → ℝ}

theorem skewVec_first (Q : Mat3) (v : Vec3) : skewVec (Q - 1 - hat3 v) = skewVec Q - v := by
  funext i
  fin_cases i <;> simp [skewVec, hat3] <;> ring

theorem skewVec_sub_one (Q : Mat3) : skewVec (Q - 1) = skewVec Q := by
  funext i
  fin_cases i <;> simp [skewVec]

theorem cube_littleO (hg : Tendsto g F (𝓝 0)) : (fun t => g t ^ 3) =o[F] fun t => g t ^ 2 := by
  have h1 : g =o[F] fun _ => (1 : ℝ) := (isLittleO_one_iff ℝ).mpr hg
  have := h1.mul_isBigO (isBigO_refl (fun t => g t ^ 2) F)
  exact this.congr (fun t => by ring) (fun t => by ring)

theorem cube_bigO {v : T → Vec3} (h : v =O[F] g) : (fun t => ‖v t‖ ^ 3) =O[F] fun t => g t ^ 3 := h.norm_left.pow 3

theorem exp_turned {u : T → Vec3} (hu : u =O[F] g) (hg : Tendsto g F (𝓝 0)) : Turned F g fun t => (SO3.ofVec (u t)).R := by
  have h1 := exp_bigO hu hg
  have hsk : (fun t => skewVec (SO3.ofVec (u t)).R) =O[F] g := (skewVec_bigO h1).congr_left fun t => skewVec_sub_one _
  have hf : ∀ᶠ t in F, Fine 1 (SO3.ofVec (u t)).R := by
    filter_upwards [coeff_small (hu.trans_tendsto hg) (ε := 1e-5) (by norm_num)] with t ht
    exact taylor_fine ht
  refine ⟨?_, hsk, ?_, ?_⟩
  · have := (h1.trans_tendsto hg).add_const 1
    simp only [sub_add_cancel, zero_add] at this
    exact this
  · refine IsBigO.trans_isLittleO (IsBigO.trans (IsBigO.of_bound 1 ?_) (cube_bigO hsk)) (cube_littleO hg)
    filter_upwards [hf] with t ht
    rw [one_mul, Real.norm_eq_abs, abs_of_nonneg (by positivity)]
    rcases ht with ht | ht
    · rw [ht.1, sub_self, norm_zero]; positivity
    · exact ht.2.1
  · refine IsBigO.trans_isLittleO (IsBigO.trans (IsBigO.of_bound 1 ?_) (cube_bigO hsk)) (cube_littleO hg)
    filter_upwards [hf] with t ht
    rw [one_mul, Real.norm_eq_abs, abs_of_nonneg (by positivity)]
    rcases ht with ht | ht
    · rw [mul_eq_one_comm.mp ht.1, sub_self, norm_zero]; positivity
    · exact ht.2.2

theorem Turned.transpose {Q : T → Mat3} (h : Turned F g Q) : Turned F g fun t => (Q t)ᵀ := by
  refine ⟨h.transpose_lim, ?_, ?_, ?_⟩
  · refine h.skew.neg_left.congr_left fun t => ?_
    funext i
    fin_cases i <;> simp [skewVec] <;> ring
  · simp only [transpose_transpose]; exact h.right
  · simp only [transpose_transpose]; exact h.left

/-- `exp ∘ ln` next to the identity. -/
theorem exp_ln_one {Q : T → Mat3} (h : Turned F g Q) (hg : Tendsto g F (𝓝 0)) :
    (fun t => (SO3.ofVec (SO3.mk (Q t)).lnVee).R - Q t) =o[F] g ∧
    (fun t => vMat (SO3.mk (Q t)).lnVee * vInv (so3Ln (Q t)).2 (SO3.mk (Q t)).lnVee - 1) =o[F] g := by
  obtain ⟨h1, h2⟩ := h.ln hg
  obtain ⟨v, hv⟩ : ∃ v : T → Vec3, v = fun t => (SO3.mk (Q t)).lnVee := ⟨_, rfl⟩
  have h1 : (fun t => v t - skewVec (Q t)) =o[F] g := by rw [hv]; exact h1
  have hvO : v =O[F] g := by
    have := h1.isBigO.add h.skew
    simpa using this
  have hv0 := hvO.trans_tendsto hg
  simp only [show ∀ t, (SO3.mk (Q t)).lnVee = v t from fun t => (congrFun hv t).symm]
  constructor
  · refine (((exp_first hvO hg).sub (h.first hg)).add (hat3_littleO h1)).congr_left fun t => ?_
    rw [sub_eq_add_neg (v t), hat3_add, hat3_neg]; abel
  · have hk : Tendsto (fun t => lnK1 (so3Ln (Q t)).2) F (𝓝 (1 / 12)) := by
      have e : ∀ᶠ t in F, lnK1 (so3Ln (Q t)).2 = 1 / 12 + (so3Ln (Q t)).2 * (so3Ln (Q t)).2 / 720 := by
        filter_upwards [h2.eventually_lt_const (show (0 : ℝ) < 5e-3 by norm_num)] with t ht
        rw [lnK1, if_neg (not_lt.mpr ht.le)]
      have := (tendsto_const_nhds (x := (1 / 12 : ℝ))).add ((h2.mul h2).div_const 720)
      rw [mul_zero, zero_div, add_zero] at this
      exact this.congr' (e.mono fun t ht => ht.symm)
    have hVO : (fun t => vMat (v t) - 1) =O[F] g := vMat_bigO hvO hg
    have hIO : (fun t => vInv (so3Ln (Q t)).2 (v t) - 1) =O[F] g := rod_bigO tendsto_const_nhds hk hvO hg
    -- half of the vector
    have half : ∀ (a b : ℝ) (w : Vec3), rod a b w = rod 1 0 (a • w) + b • (hat3 w * hat3 w) := by
      intro a b w
      simp only [rod, hat3_smul, one_smul, zero_smul, add_zero]
    have hsq : ∀ {b : T → ℝ} {b0 : ℝ}, Tendsto b F (𝓝 b0) → (fun t => b t • (hat3 (v t) * hat3 (v t))) =o[F] g := by
      intro b b0 hb
      have := (hb.isBigO_one ℝ).smul ((hat3_bigO hvO).mul (hat3_bigO hvO))
      refine this.trans_isLittleO ?_
      simpa [sq] using sq_littleO hg
    have hV : (fun t => vMat (v t) - 1 - (0.5 : ℝ) • hat3 (v t)) =o[F] g := by
      have k1 : (fun t => (vC2 (vnorm (v t)) (sqNorm (v t)) - 0.5) • hat3 (v t)) =o[F] g := by
        have h1 : (fun t => vC2 (vnorm (v t)) (sqNorm (v t)) - 0.5) =o[F] fun _ => (1 : ℝ) := by
          rw [isLittleO_one_iff]
          have := (vC2_lim hv0).sub_const 0.5
          rwa [sub_self] at this
        have := h1.smul_isBigO (hat3_bigO hvO)
        simpa using this
      refine (k1.add (hsq (vC3_lim hv0))).congr_left fun t => ?_
      rw [vMat, rod, sub_smul]; abel
    have hI : (fun t => vInv (so3Ln (Q t)).2 (v t) - 1 + (0.5 : ℝ) • hat3 (v t)) =o[F] g := by
      refine (hsq hk).congr_left fun t => ?_
      rw [vInv, rod, neg_smul]; abel
    have hVI : (fun t => (vMat (v t) - 1) * (vInv (so3Ln (Q t)).2 (v t) - 1)) =o[F] g := by
      refine (hVO.mul hIO).trans_isLittleO ?_
      simpa [sq] using sq_littleO hg
    refine ((hV.add hI).add hVI).congr_left fun t => ?_
    noncomm_ring

/-- Rotation of Cayley. -/
noncomputable def cayley (u : Vec3) : Mat3 := rod (4 / (4 + sqNorm u)) (2 / (4 + sqNorm u)) u

theorem cayley_rot (u : Vec3) : IsRotation (cayley u) := by
  have := sqNorm_nonneg u
  refine rod_isRotation ?_
  field_simp
  ring

theorem cayley_first {u : T → Vec3} (hu : u =O[F] g) (hg : Tendsto g F (𝓝 0)) : (fun t => cayley (u t) - 1 - hat3 (u t)) =o[F] g := by
  have hn := sqNorm_lim (hu.trans_tendsto hg)
  rw [sqNorm_zero3] at hn
  have h1 : Tendsto (fun t => 4 / (4 + sqNorm (u t))) F (𝓝 1) := by
    have := (tendsto_const_nhds (x := (4 : ℝ))).div (hn.const_add 4) (by norm_num)
    norm_num at this
    exact this
  have h2 : Tendsto (fun t => 2 / (4 + sqNorm (u t))) F (𝓝 (1 / 2)) := by
    have := (tendsto_const_nhds (x := (2 : ℝ))).div (hn.const_add 4) (by norm_num)
    norm_num at this ⊢
    exact this
  exact rod_first h1 h2 hu hg

namespace PoseNear

variable {P : T → SE3} {A : SE3} {Q : T → Mat3} {τ : T → Vec3} (h : PoseNear F g P A Q τ) (hg : Tendsto g F (𝓝 0))
  {z : T → Vec6} (hz : ∀ i, (fun t => z t i) =O[F] g)

include hz in
theorem headO : (fun t => head3 (-z t)) =O[F] g := isBigO_pi.mpr fun i => (hz (.inl i)).neg_left
include hz in
theorem tailO : (fun t => tail3 (-z t)) =O[F] g := isBigO_pi.mpr fun i => (hz (.inr i)).neg_left

include h hz hg in
theorem turn_expand : (fun t => (SO3.ofVec (head3 (-z t))).R * Q t - 1 - hat3 (skewVec (Q t) + head3 (-z t))) =o[F] g := by
  have hu := headO hz
  have e : ∀ t, (SO3.ofVec (head3 (-z t))).R * Q t - 1 - hat3 (skewVec (Q t) + head3 (-z t)) =
      ((SO3.ofVec (head3 (-z t))).R - 1 - hat3 (head3 (-z t))) +
      (Q t - 1 - hat3 (skewVec (Q t))) + ((SO3.ofVec (head3 (-z t))).R - 1) * (Q t - 1) := by
    intro t; rw [hat3_add]; noncomm_ring
  simp only [e]
  refine ((exp_first hu hg).add (h.turned.first hg)).add ?_
  refine ((exp_bigO hu hg).mul (h.turned.sub_one hg)).trans_isLittleO ?_
  simpa [sq] using sq_littleO hg

include h hz hg in
theorem turn_bigO : (fun t => (SO3.ofVec (head3 (-z t))).R * Q t - 1) =O[F] g := by
  have h1 := (h.turn_expand hg hz).isBigO.add (hat3_bigO (h.turned.skew.add (headO hz)))
  simpa using h1

include h in
theorem update_R_eq : ∀ᶠ t in F, ((P t).updateLhs (-z t)).R = (SO3.ofVec (head3 (-z t))).R * Q t * A.R := by
  filter_upwards [h.R_eq, h.lastRow] with t h2 h3
  rw [updateLhs_R _ h3, h2, Matrix.mul_assoc]

include h in
theorem update_t_eq : ∀ᶠ t in F, ((P t).updateLhs (-z t)).t = ((SO3.ofVec (head3 (-z t))).R * Q t) *ᵥ A.t +
    (SO3.ofVec (head3 (-z t))).R *ᵥ τ t + vMat (head3 (-z t)) *ᵥ tail3 (-z t) := by
  filter_upwards [h.t_eq, h.lastRow] with t h2 h3
  rw [updateLhs_t _ h3, h2, mulVec_add, mulVec_mulVec]

include h hz hg in
theorem shift_expand : (fun t => (SO3.ofVec (head3 (-z t))).R *ᵥ τ t + vMat (head3 (-z t)) *ᵥ tail3 (-z t) - (τ t + tail3 (-z t))) =o[F] g := by
  have k0 := headO hz
  have k2 : (fun t => ((SO3.ofVec (head3 (-z t))).R - 1) *ᵥ τ t) =o[F] g := by
    refine (mulVec_bigO (exp_bigO k0 hg) h.trans).trans_isLittleO ?_
    simpa [sq] using sq_littleO hg
  have k3 : (fun t => (vMat (head3 (-z t)) - 1) *ᵥ tail3 (-z t)) =o[F] g := by
    refine (mulVec_bigO (vMat_bigO k0 hg) (tailO hz)).trans_isLittleO ?_
    simpa [sq] using sq_littleO hg
  refine (k2.add k3).congr_left fun t => ?_
  rw [sub_mulVec, sub_mulVec, one_mulVec, one_mulVec]; abel

include h hz hg in
theorem update_R_bigO : (fun t => ((P t).updateLhs (-z t)).R - A.R) =O[F] g := by
  have h1 : (fun t => ((SO3.ofVec (head3 (-z t))).R * Q t - 1) * A.R) =O[F] g := by
    have := (h.turn_bigO hg hz).mul (const_bigO_one (F := F) A.R)
    simpa using this
  refine h1.congr' ?_ EventuallyEq.rfl
  filter_upwards [h.update_R_eq (z := z)] with t h2
  rw [h2, Matrix.sub_mul, Matrix.one_mul]

include h hz hg in
theorem update_t_bigO : (fun t => ((P t).updateLhs (-z t)).t - A.t) =O[F] g := by
  have k1 : (fun t => ((SO3.ofVec (head3 (-z t))).R * Q t - 1) *ᵥ A.t) =O[F] g := by
    have := mulVec_bigO (h.turn_bigO hg hz) (isBigO_const_const A.t (one_ne_zero (α := ℝ)) F)
    simpa using this
  refine ((k1.add (h.shift_expand hg hz).isBigO).add (h.trans.add (tailO hz))).congr' ?_ EventuallyEq.rfl
  filter_upwards [h.update_t_eq (z := z)] with t h2
  rw [h2, sub_mulVec, one_mulVec]; abel

variable (hT : SafeTurn A.R) (hpi : angle A.R ≠ Real.pi) (hfine : ∀ᶠ t in F, Fine A.R (P t).R)
include h hz hg hT hpi hfine

/-- What `regenerate` changes is of higher order. -/
theorem regenerate_first : (fun t => ((P t).updateLhs (-z t)).regenerate.R - ((P t).updateLhs (-z t)).R) =o[F] g ∧
    (fun t => ((P t).updateLhs (-z t)).regenerate.t - ((P t).updateLhs (-z t)).t) =o[F] g := by
  obtain ⟨M, hM⟩ : ∃ M : T → SE3, M = fun t => (P t).updateLhs (-z t) := ⟨_, rfl⟩
  have hMR : (fun t => (M t).R - A.R) =O[F] g := by rw [hM]; exact h.update_R_bigO hg hz
  have hMt : (fun t => (M t).t - A.t) =O[F] g := by rw [hM]; exact h.update_t_bigO hg hz
  have hMeq : ∀ᶠ t in F, (M t).R = (SO3.ofVec (head3 (-z t))).R * Q t * A.R := by rw [hM]; exact h.update_R_eq
  have hrow : ∀ᶠ t in F, LastRow (M t).T := by
    rw [hM]
    filter_upwards [h.lastRow] with t ht
    exact lastRow_updateLhs ht _
  have hu := headO hz
  simp only [show ∀ t, (P t).updateLhs (-z t) = M t from fun t => (congrFun hM t).symm]
  suffices hh : (fun t => (SO3.ofVec (SO3.mk (M t).R).lnVee).R - (M t).R) =o[F] g ∧
      (fun t => vMat (SO3.mk (M t).R).lnVee * vInv (so3Ln (M t).R).2 (SO3.mk (M t).R).lnVee - 1) =o[F] g by
    constructor
    · refine hh.1.congr' ?_ EventuallyEq.rfl
      filter_upwards [hrow] with t ht
      rw [(regenerate_eq ht).1]
    · have hb : (fun t => (M t).t) =O[F] fun _ => (1 : ℝ) := by
        have := (hMt.trans_tendsto hg).add_const A.t
        simp only [sub_add_cancel] at this
        exact this.isBigO_one ℝ
      have := mulVec_littleO hh.2 hb
      simp only [mul_one] at this
      refine this.congr' ?_ EventuallyEq.rfl
      filter_upwards [hrow] with t ht
      rw [(regenerate_eq ht).2.1, sub_mulVec, one_mulVec]
  obtain ⟨hrot, h1 | ⟨h2, h3, h4⟩⟩ := hT
  · have hQ : Turned F g fun t => (M t).R := by
      have := (exp_turned hu hg).rel h.turned.transpose hg
      simp only [transpose_transpose] at this
      have hme : ∀ᶠ t in F, (SO3.ofVec (head3 (-z t))).R * Q t = (M t).R := by
        filter_upwards [hMeq] with t ht
        rw [ht, h1, Matrix.mul_one]
      refine ⟨this.lim.congr' hme, this.skew.congr' (hme.mono fun t ht => by dsimp only; rw [ht]) EventuallyEq.rfl,
        this.left.congr' (hme.mono fun t ht => by dsimp only; rw [ht]) EventuallyEq.rfl,
        this.right.congr' (hme.mono fun t ht => by dsimp only; rw [ht]) EventuallyEq.rfl⟩
    exact exp_ln_one hQ hg
  · obtain ⟨S, hS⟩ : ∃ S : T → Mat3, S = fun t => cayley (head3 (-z t)) * (P t).R := ⟨_, rfl⟩
    have hne : A.R ≠ 1 := by
      intro h'
      rw [h', angle_eq, show cosOf (1 : Mat3) = 1 by rw [cosOf_eq]; norm_num, Real.arccos_one] at h2
      norm_num at h2
    have hSr : ∀ᶠ t in F, IsRotation (S t) := by
      filter_upwards [hfine] with t ht
      rw [hS]
      rcases ht with ht | ht
      · exact (cayley_rot _).mul ht
      · exact absurd ht.1 hne
    have hPb : (fun t => (P t).R) =O[F] fun _ => (1 : ℝ) := h.R_lim.isBigO_one ℝ
    have hd : (fun t => (M t).R - S t) =o[F] g := by
      have k := ((exp_first hu hg).sub (cayley_first hu hg)).mul_isBigO hPb
      simp only [mul_one] at k
      refine k.congr' ?_ EventuallyEq.rfl
      filter_upwards [h.lastRow] with t ht
      rw [hS, hM]
      dsimp only
      rw [updateLhs_R _ ht]
      noncomm_ring
    have hMl : Tendsto (fun t => (M t).R) F (𝓝 A.R) := by
      have := (hMR.trans_tendsto hg).add_const A.R
      simp only [sub_add_cancel, zero_add] at this
      exact this
    have hp : Pair F (fun t => ‖(M t).R - S t‖) (fun t => (M t).R) S A.R := by
      refine ⟨IsBigO.of_bound 1 (Eventually.of_forall fun t => by rw [one_mul, norm_norm]), hMl, ?_⟩
      have := hMl.sub (hd.trans_tendsto hg)
      simp only [sub_sub_cancel, sub_zero] at this
      exact this
    obtain ⟨k1, k2⟩ := exp_ln_pair hp hrot hSr h2 (h3.resolve_right hpi) h4
    refine ⟨?_, k2.trans_isLittleO hd.norm_left⟩
    refine ((k1.trans_isLittleO hd.norm_left).sub hd).congr_left fun t => ?_
    abel

/-- The coordinates of the new pose. -/
theorem next_turn : (fun t => skewVec (turnOf A ((P t).updateLhs (-z t)).regenerate) - (skewVec (Q t) + head3 (-z t))) =o[F] g := by
  have h1 := (h.regenerate_first hg hz hT hpi hfine).1.mul_isBigO (const_bigO_one (F := F) A.Rᵀ)
  simp only [mul_one] at h1
  have h2 : (fun t => turnOf A ((P t).updateLhs (-z t)).regenerate - 1 - hat3 (skewVec (Q t) + head3 (-z t))) =o[F] g := by
    refine (h1.add (h.turn_expand hg hz)).congr' ?_ EventuallyEq.rfl
    filter_upwards [h.update_R_eq (z := z)] with t ht
    rw [ht, turnOf, Matrix.sub_mul, Matrix.mul_assoc _ A.R, (rigid_R h.rigid).1, Matrix.mul_one]
    abel
  exact (skewVec_littleO h2).congr_left fun t => skewVec_first _ _

theorem next_shift : (fun t => shiftOf A ((P t).updateLhs (-z t)).regenerate - (τ t + tail3 (-z t))) =o[F] g := by
  obtain ⟨k1, k2⟩ := h.regenerate_first hg hz hT hpi hfine
  have h1 := k1.mul_isBigO (const_bigO_one (F := F) A.Rᵀ)
  simp only [mul_one] at h1
  have h3 : (fun t => (turnOf A ((P t).updateLhs (-z t)).regenerate - (SO3.ofVec (head3 (-z t))).R * Q t) *ᵥ A.t) =o[F] g := by
    have := mulVec_littleO h1 (isBigO_const_const A.t (one_ne_zero (α := ℝ)) F)
    simp only [mul_one] at this
    refine this.congr' ?_ EventuallyEq.rfl
    filter_upwards [h.update_R_eq (z := z)] with t ht
    rw [ht, turnOf, Matrix.sub_mul, Matrix.mul_assoc _ A.R, (rigid_R h.rigid).1, Matrix.mul_one]
  refine ((k2.sub h3).add (h.shift_expand hg hz)).congr' ?_ EventuallyEq.rfl
  filter_upwards [h.update_t_eq (z := z)] with t ht
  rw [ht, shiftOf, sub_mulVec]; abel

end PoseNear

end Mrob
