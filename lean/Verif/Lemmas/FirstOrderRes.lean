import Verif.Lemmas.FirstOrder
import Verif.Model.Factor

/-!
# First order expansions of the residuals of spatial factors
-/

open Matrix Filter Topology Asymptotics

namespace Mrob

open Spec

attribute [local instance] Matrix.linftyOpNormedAddCommGroup Matrix.linftyOpNormedSpace Matrix.linftyOpNormedRing

variable {T : Type} {F : Filter T} {g : T → ℝ}

/-- Poses close to `A`, moved from the left by `Q`, `τ`. -/
structure PoseNear (F : Filter T) (g : T → ℝ) (P : T → SE3) (A : SE3) (Q : T → Mat3) (τ : T → Vec3) : Prop where
  rigid : IsRigid A.T
  eq : ∀ᶠ t in F, (P t).T = homog (Q t) (τ t) 1 * A.T
  turned : Turned F g Q
  trans : τ =O[F] g

theorem bigO_one_mul {E : Type*} [Norm E] {f : T → E} (h : f =O[F] fun t => 1 * g t) : f =O[F] g := by simpa using h
theorem littleO_one_mul {E : Type*} [NormedAddCommGroup E] {f : T → E} (h : f =o[F] fun t => 1 * g t) : f =o[F] g := by simpa using h

theorem const_bigO_one (A : Mat3) : (fun _ : T => A) =O[F] fun _ => (1 : ℝ) := isBigO_const_const _ one_ne_zero _

namespace Turned

variable {Q Q' : T → Mat3} (h : Turned F g Q) (h' : Turned F g Q') (hg : Tendsto g F (𝓝 0))

include h in
theorem bounded : Q =O[F] fun _ => (1 : ℝ) := h.lim.isBigO_one ℝ

include h in
theorem transpose_lim : Tendsto (fun t => (Q t)ᵀ) F (𝓝 1) := by
  have := (Continuous.matrix_transpose continuous_id).continuousAt.tendsto.comp h.lim
  simpa [Function.comp_def] using this

include h hg in
theorem transpose_first : (fun t => (Q t)ᵀ - 1 + hat3 (skewVec (Q t))) =o[F] g := by
  refine (transpose_littleO (h.first hg)).congr_left fun t => ?_
  rw [transpose_sub, transpose_sub, transpose_one, hat3_transpose, sub_neg_eq_add]

include h hg in
theorem transpose_sub_one : (fun t => (Q t)ᵀ - 1) =O[F] g := by
  refine (transpose_bigO (h.sub_one hg)).congr_left fun t => ?_
  rw [transpose_sub, transpose_one]

include h h' hg in
/-- The relative rotation. -/
theorem rel_first : (fun t => Q t * (Q' t)ᵀ - 1 - (hat3 (skewVec (Q t)) - hat3 (skewVec (Q' t)))) =o[F] g := by
  have e : ∀ t, Q t * (Q' t)ᵀ - 1 - (hat3 (skewVec (Q t)) - hat3 (skewVec (Q' t))) =
      (Q t - 1 - hat3 (skewVec (Q t))) + ((Q' t)ᵀ - 1 + hat3 (skewVec (Q' t))) + (Q t - 1) * ((Q' t)ᵀ - 1) := by
    intro t; noncomm_ring
  simp only [e]
  refine ((h.first hg).add (h'.transpose_first hg)).add ?_
  have := (h.sub_one hg).mul (h'.transpose_sub_one hg)
  refine this.trans_isLittleO ?_
  simpa [sq] using sq_littleO hg

include h h' hg in
theorem rel_skew : (fun t => skewVec (Q t * (Q' t)ᵀ) - (skewVec (Q t) - skewVec (Q' t))) =o[F] g := by
  refine (skewVec_littleO (h.rel_first h' hg)).congr_left fun t => ?_
  funext i
  fin_cases i <;> simp [skewVec, hat3] <;> ring

include h h' hg in
theorem rel : Turned F g fun t => Q t * (Q' t)ᵀ := by
  refine ⟨?_, ?_, ?_, ?_⟩
  · have := h.lim.mul h'.transpose_lim
    rwa [one_mul] at this
  · have := (h.rel_skew h' hg).isBigO.add (h.skew.sub h'.skew)
    simpa using this
  · have e : ∀ t, Q t * (Q' t)ᵀ * (Q t * (Q' t)ᵀ)ᵀ - 1 = Q t * ((Q' t)ᵀ * Q' t - 1) * (Q t)ᵀ + (Q t * (Q t)ᵀ - 1) := by
      intro t; rw [transpose_mul, transpose_transpose]; noncomm_ring
    simp only [e]
    refine IsLittleO.add ?_ h.left
    have := (h.bounded.mul_isLittleO h'.right).mul_isBigO (transpose_bigO h.bounded)
    simpa using this
  · have e : ∀ t, (Q t * (Q' t)ᵀ)ᵀ * (Q t * (Q' t)ᵀ) - 1 = Q' t * ((Q t)ᵀ * Q t - 1) * (Q' t)ᵀ + (Q' t * (Q' t)ᵀ - 1) := by
      intro t; rw [transpose_mul, transpose_transpose]; noncomm_ring
    simp only [e]
    refine IsLittleO.add ?_ h'.left
    have := (h'.bounded.mul_isLittleO h.right).mul_isBigO (transpose_bigO h'.bounded)
    simpa using this

end Turned

namespace PoseNear

variable {P P' : T → SE3} {A A' : SE3} {Q Q' : T → Mat3} {τ τ' : T → Vec3} (h : PoseNear F g P A Q τ) (h' : PoseNear F g P' A' Q' τ')
  (hg : Tendsto g F (𝓝 0))

include h in
theorem R_eq : ∀ᶠ t in F, (P t).R = Q t * A.R := by
  filter_upwards [h.eq] with t ht
  rw [SE3.R, ht, rigid_T h.rigid, homog_mul, tl3_homog]

include h in
theorem t_eq : ∀ᶠ t in F, (P t).t = Q t *ᵥ A.t + τ t := by
  filter_upwards [h.eq] with t ht
  rw [SE3.t, ht, rigid_T h.rigid, homog_mul, tr3_homog, one_smul]

include h in
theorem R_lim : Tendsto (fun t => (P t).R) F (𝓝 A.R) := by
  have := h.turned.lim.mul_const A.R
  rw [one_mul] at this
  exact this.congr' (h.R_eq.mono fun t ht => ht.symm)

include h hg in
theorem t_lim : Tendsto (fun t => (P t).t) F (𝓝 A.t) := by
  have h1 : Tendsto (fun t => Q t *ᵥ A.t) F (𝓝 ((1 : Mat3) *ᵥ A.t)) :=
    (Continuous.matrix_mulVec continuous_id continuous_const).continuousAt.tendsto.comp h.turned.lim
  have := h1.add (h.trans.trans_tendsto hg)
  rw [one_mulVec, add_zero] at this
  exact this.congr' (h.t_eq.mono fun t ht => ht.symm)

include h hg in
/-- Prior. -/
theorem prior (i : I6) : (fun t => prior3dRes A (P t) i - vec6 (skewVec (Q t)) (τ t) i) =o[F] g := by
  refine (h.turned.lnVee hg h.trans i).congr' ?_ EventuallyEq.rfl
  filter_upwards [h.eq] with t ht
  have : prior3dTr A (P t) = SE3.mk (homog (Q t) (τ t) 1) := by
    refine SE3.ext ?_
    change (P t).T * A.inv.T = _
    rw [ht, Matrix.mul_assoc, mul_inv_cancel' h.rigid, Matrix.mul_one]
  rw [prior3dRes, this]

/-- Translation of the relative error. -/
noncomputable def relShift (A' : SE3) (Q Q' : T → Mat3) (τ τ' : T → Vec3) (t : T) : Vec3 :=
  -((Q t * ((Q' t)ᵀ * Q' t - 1)) *ᵥ A'.t) - (Q t * (Q' t)ᵀ) *ᵥ τ' t + τ t

include h h' in
theorem rel_eq {O : SE3} (hO : A'.T = A.T * O.T) : ∀ᶠ t in F, rel3dTr O (P t) (P' t) =
    SE3.mk (homog (Q t * (Q' t)ᵀ) (relShift A' Q Q' τ τ' t) 1) := by
  have hO' : O.T = A.inv.T * A'.T := by rw [hO, ← Matrix.mul_assoc, mul_eq_one_comm.mp (mul_inv_cancel' h.rigid), Matrix.one_mul]
  have hOR : IsRigid O.T := by
    rw [hO', inv_T, rigid_T h'.rigid, homog_mul, mul_one]
    exact isRigid_homog ((rigid_R h.rigid).transpose.mul (rigid_R h'.rigid)) _
  have e1 : A'.R = A.R * O.R := by
    rw [SE3.R, hO, rigid_T h.rigid, rigid_T hOR, homog_mul, tl3_homog]
  have e2 : A'.t = A.R *ᵥ O.t + A.t := by
    rw [SE3.t, hO, rigid_T h.rigid, rigid_T hOR, homog_mul, tr3_homog, one_smul]
  have e3 : A'.R * A'.Rᵀ = 1 := (rigid_R h'.rigid).1
  filter_upwards [h.eq, h'.R_eq, h'.t_eq] with t h1 h2 h3
  refine SE3.ext ?_
  change (P t).T * O.T * (P' t).inv.T = homog _ _ 1
  rw [inv_T, h1, Matrix.mul_assoc (homog _ _ _), ← hO, rigid_T h'.rigid, homog_mul, homog_mul, h2, h3]
  congr 1
  · rw [transpose_mul, Matrix.mul_assoc, ← Matrix.mul_assoc A'.R, e3, Matrix.one_mul]
  · have e4 : (Q t * A'.R) *ᵥ ((-(Q' t * A'.R)ᵀ) *ᵥ (Q' t *ᵥ A'.t + τ' t)) = -((Q t * (Q' t)ᵀ) *ᵥ (Q' t *ᵥ A'.t + τ' t)) := by
      rw [mulVec_mulVec, transpose_mul, Matrix.mul_neg, neg_mulVec, Matrix.mul_assoc, ← Matrix.mul_assoc A'.R, e3, Matrix.one_mul]
    rw [e4, relShift, mulVec_add, mulVec_mulVec, Matrix.mul_sub, sub_mulVec, Matrix.mul_one, Matrix.mul_assoc, one_smul, one_smul]
    abel
  · norm_num

include h h' hg in
theorem relShift_first : (fun t => relShift A' Q Q' τ τ' t - (τ t - τ' t)) =o[F] g := by
  have e : ∀ t, relShift A' Q Q' τ τ' t - (τ t - τ' t) =
      -((Q t * ((Q' t)ᵀ * Q' t - 1)) *ᵥ A'.t) - (Q t * (Q' t)ᵀ - 1) *ᵥ τ' t := by
    intro t
    rw [relShift, sub_mulVec, one_mulVec]; abel
  simp only [e]
  refine IsLittleO.sub (IsLittleO.neg_left ?_) ?_
  · have h1 := (h.turned.bounded.mul_isLittleO h'.turned.right)
    have h2 := mulVec_littleO h1 (isBigO_const_const A'.t (one_ne_zero (α := ℝ)) F)
    have h3 : (fun t => (1 : ℝ) * g t ^ 2 * 1) =o[F] g := by simpa using sq_littleO hg
    exact h2.trans h3
  · have h1 := mulVec_bigO ((h.turned.rel h'.turned hg).sub_one hg) h'.trans
    refine h1.trans_isLittleO ?_
    simpa [sq] using sq_littleO hg

include h h' hg in
theorem relShift_bigO : (fun t => relShift A' Q Q' τ τ' t) =O[F] g := by
  have := (h.relShift_first h' hg).isBigO.add (h.trans.sub h'.trans)
  simpa using this

include h h' hg in
/-- Relative pose. -/
theorem relRes {O : SE3} (hO : A'.T = A.T * O.T) (i : I6) : (fun t => rel3dRes O (P t) (P' t) i -
    (vec6 (skewVec (Q t)) (τ t) i - vec6 (skewVec (Q' t)) (τ' t) i)) =o[F] g := by
  have h1 := (h.turned.rel h'.turned hg).lnVee hg (h.relShift_bigO h' hg) i
  have h2 : (fun t => vec6 (skewVec (Q t * (Q' t)ᵀ)) (relShift A' Q Q' τ τ' t) i -
      (vec6 (skewVec (Q t)) (τ t) i - vec6 (skewVec (Q' t)) (τ' t) i)) =o[F] g := by
    rcases i with i | i
    · exact isLittleO_pi.mp (h.turned.rel_skew h'.turned hg) i
    · exact isLittleO_pi.mp (h.relShift_first h' hg) i
  refine (h1.add h2).congr' ?_ EventuallyEq.rfl
  filter_upwards [h.rel_eq h' hO] with t ht
  rw [rel3dRes, ht]
  ring

include h h' hg in
theorem relJac {O : SE3} (hO : A'.T = A.T * O.T) (i j : I6) :
    Tendsto (fun t => (rel3dJac O (P t) (P' t)).2 i j) F (𝓝 ((-1 : Mat6) i j)) := by
  have hR : Tendsto (fun t => Q t * (Q' t)ᵀ) F (𝓝 1) := (h.turned.rel h'.turned hg).lim
  have ht : Tendsto (relShift A' Q Q' τ τ') F (𝓝 0) := (h.relShift_bigO h' hg).trans_tendsto hg
  have hh : Tendsto (fun t => hat3 (relShift A' Q Q' τ τ' t)) F (𝓝 0) := (hat3_bigO (h.relShift_bigO h' hg)).trans_tendsto hg
  have hm : Tendsto (fun t => hat3 (relShift A' Q Q' τ τ' t) * (Q t * (Q' t)ᵀ)) F (𝓝 0) := by
    have := hh.mul hR
    rwa [zero_mul] at this
  have he : ∀ {M : T → Mat3} {B : Mat3}, Tendsto M F (𝓝 B) → ∀ i j, Tendsto (fun t => M t i j) F (𝓝 (B i j)) := by
    intro M B hM i j
    exact (Continuous.matrix_elem continuous_id i j).continuousAt.tendsto.comp hM
  have hadj : Tendsto (fun t => (SE3.mk (homog (Q t * (Q' t)ᵀ) (relShift A' Q Q' τ τ' t) 1)).adj i j) F (𝓝 ((1 : Mat6) i j)) := by
    have e : ∀ t, (SE3.mk (homog (Q t * (Q' t)ᵀ) (relShift A' Q Q' τ τ' t) 1)).adj =
        fromBlocks (Q t * (Q' t)ᵀ) 0 (hat3 (relShift A' Q Q' τ τ' t) * (Q t * (Q' t)ᵀ)) (Q t * (Q' t)ᵀ) := by
      intro t; rw [SE3.adj, SE3.R, SE3.t, tl3_homog, tr3_homog]
    simp only [e]
    rcases i with i | i <;> rcases j with j | j
    · simpa [one_apply] using he hR i j
    · simpa [one_apply] using tendsto_const_nhds
    · simpa [one_apply] using he hm i j
    · simpa [one_apply] using he hR i j
  have := hadj.neg
  refine this.congr' ?_
  filter_upwards [h.rel_eq h' hO] with t ht
  rw [rel3dJac, ht]
  rfl

include h hg in
/-- Landmark. -/
theorem landRes {l : Vec3} {δ : T → Vec3} (hδ : δ =O[F] g) {obs : Vec3} (ho : l = A.R *ᵥ obs + A.t) (i : Fin 3) :
    (fun t => land3dRes obs (P t) (l + δ t) i -
      (((land3dJac A l).1 *ᵥ vec6 (skewVec (Q t)) (τ t)) i + ((land3dJac A l).2 *ᵥ δ t) i)) =o[F] g := by
  have hA : A.R * A.Rᵀ = 1 := (rigid_R h.rigid).1
  have hA' : A.Rᵀ * A.R = 1 := mul_eq_one_comm.mp hA
  have e1 : ∀ᶠ t in F, land3dRes obs (P t) (l + δ t) = A.Rᵀ *ᵥ (((Q t)ᵀ - 1) *ᵥ l + (Q t)ᵀ *ᵥ (δ t - τ t) - ((Q t)ᵀ * Q t - 1) *ᵥ A.t) := by
    filter_upwards [h.R_eq, h.t_eq] with t h1 h2
    have e : land3dRes obs (P t) (l + δ t) = (P t).Rᵀ *ᵥ (l + δ t - (P t).t) - obs := by
      change ((P t).inv.R *ᵥ (l + δ t) + (P t).inv.t) - obs = _
      rw [SE3.R, SE3.t, inv_T, tl3_homog, tr3_homog, neg_mulVec, ← sub_eq_add_neg, ← mulVec_sub]
    have e2 : obs = A.Rᵀ *ᵥ (l - A.t) := by rw [ho, add_sub_cancel_right, mulVec_mulVec, hA', one_mulVec]
    rw [e, h1, h2, transpose_mul, ← mulVec_mulVec]
    nth_rw 1 [e2]
    rw [← mulVec_sub]
    congr 1
    simp only [mulVec_sub, mulVec_add, sub_mulVec, one_mulVec, mulVec_mulVec]
    abel
  have e2 : ∀ t, (land3dJac A l).1 *ᵥ vec6 (skewVec (Q t)) (τ t) + (land3dJac A l).2 *ᵥ δ t =
      A.Rᵀ *ᵥ (-(hat3 (skewVec (Q t)) *ᵥ l) + (δ t - τ t)) := by
    intro t
    have e3 : (land3dJac A l).2 = A.Rᵀ := by rw [land3dJac, SE3.R, inv_T, tl3_homog]
    have e4 : (land3dJac A l).1 *ᵥ vec6 (skewVec (Q t)) (τ t) = A.Rᵀ *ᵥ (hat3 l *ᵥ skewVec (Q t) - τ t) := by
      funext k
      have : (land3dJac A l).1 k = ((fromCols (A.Rᵀ * hat3 l) (-A.Rᵀ)) : Matrix (Fin 3) I6 ℝ) k := by
        funext j
        rw [land3dJac]
        simp only [of_apply]
        rw [inv_T, homog, land3dJr, fromBlocks_multiply]
        rcases j with j | j <;> simp
      change (land3dJac A l).1 k ⬝ᵥ _ = _
      rw [this]
      change (fromCols (A.Rᵀ * hat3 l) (-A.Rᵀ) *ᵥ vec6 (skewVec (Q t)) (τ t)) k = _
      rw [show vec6 (skewVec (Q t)) (τ t) = Sum.elim (skewVec (Q t)) (τ t) by funext i; rcases i <;> rfl, fromCols_mulVec_sumElim,
        ← mulVec_mulVec, neg_mulVec, ← sub_eq_add_neg, ← mulVec_sub]
    rw [e3, e4, ← mulVec_add, hat3_mulVec_comm l, ]
    congr 1
    abel
  have h3 : (fun t => A.Rᵀ *ᵥ (((Q t)ᵀ - 1 + hat3 (skewVec (Q t))) *ᵥ l + ((Q t)ᵀ - 1) *ᵥ (δ t - τ t) - ((Q t)ᵀ * Q t - 1) *ᵥ A.t)) =o[F] g := by
    have k1 := mulVec_littleO (h.turned.transpose_first hg) (isBigO_const_const l (one_ne_zero (α := ℝ)) F)
    have k2 := mulVec_bigO (h.turned.transpose_sub_one hg) (hδ.sub h.trans)
    have k3 := mulVec_littleO h.turned.right (isBigO_const_const A.t (one_ne_zero (α := ℝ)) F)
    simp only [mul_one] at k1 k3
    have k4 := mulVec_littleO' (const_bigO_one A.Rᵀ) ((k1.add (k2.trans_isLittleO (by simpa [sq] using sq_littleO hg))).sub
      (k3.trans (sq_littleO hg)))
    exact littleO_one_mul k4
  refine (isLittleO_pi.mp h3 i).congr' ?_ EventuallyEq.rfl
  filter_upwards [e1] with t ht
  have e5 := congrFun (e2 t) i
  rw [Pi.add_apply] at e5
  rw [ht, e5]
  refine Eq.trans ?_ (congrFun (mulVec_sub A.Rᵀ _ _) i)
  refine congrFun (congrArg (A.Rᵀ *ᵥ ·) ?_) i
  simp only [add_mulVec, sub_mulVec, one_mulVec]
  abel

include h hg in
theorem landJac {l : T → Vec3} {l0 : Vec3} (hl : Tendsto l F (𝓝 l0)) (i : Fin 3) :
    (∀ j, Tendsto (fun t => (land3dJac (P t) (l t)).1 i j) F (𝓝 ((land3dJac A l0).1 i j))) ∧
    ∀ j, Tendsto (fun t => (land3dJac (P t) (l t)).2 i j) F (𝓝 ((land3dJac A l0).2 i j)) := by
  have he : ∀ i j, Tendsto (fun t => (P t).R i j) F (𝓝 (A.R i j)) := fun i j =>
    (Continuous.matrix_elem continuous_id i j).continuousAt.tendsto.comp h.R_lim
  have hl' : ∀ k, Tendsto (fun t => l t k) F (𝓝 (l0 k)) := fun k => (tendsto_pi_nhds.mp hl) k
  constructor
  · intro j
    have e : ∀ (X : SE3) (l : Vec3), (land3dJac X l).1 i j = (fromCols (X.Rᵀ * hat3 l) (-X.Rᵀ) : Matrix (Fin 3) I6 ℝ) i j := by
      intro X l
      rw [land3dJac]
      simp only [of_apply]
      rw [inv_T, homog, land3dJr, fromBlocks_multiply]
      rcases j with j | j <;> simp
    simp only [e]
    rcases j with j | j
    · simp only [fromCols_apply_inl, Matrix.mul_apply, transpose_apply]
      refine tendsto_finsetSum _ fun k _ => (he k i).mul ?_
      fin_cases k <;> fin_cases j <;>
        first
        | exact tendsto_const_nhds
        | exact hl' _
        | exact (hl' _).neg
    · simp only [fromCols_apply_inr, Matrix.neg_apply, transpose_apply]
      exact (he j i).neg
  · intro j
    have e : ∀ (X : SE3) (l : Vec3), (land3dJac X l).2 i j = X.R j i := by
      intro X l; rw [land3dJac, SE3.R, inv_T, tl3_homog]; rfl
    simp only [e]
    exact he j i

include h hg in
/-- Point to plane. -/
theorem planeRes {px py ny : Vec3} (ho : ny ⬝ᵥ (A.transform px - py) = 0) :
    (fun t => p2planeRes px py ny (P t) - p2planeJac px ny A ⬝ᵥ vec6 (skewVec (Q t)) (τ t)) =o[F] g := by
  set q := A.transform px with hq
  have e1 : ∀ᶠ t in F, p2planeRes px py ny (P t) = ny ⬝ᵥ ((Q t - 1) *ᵥ q + τ t) := by
    filter_upwards [h.R_eq, h.t_eq] with t h1 h2
    have : (P t).transform px = Q t *ᵥ q + τ t := by
      rw [hq, SE3.transform, SE3.transform, h1, h2, mulVec_add, mulVec_mulVec]; abel
    rw [p2planeRes, this, sub_mulVec, one_mulVec]
    rw [dotProduct_sub, sub_eq_zero] at ho
    simp only [dotProduct_add, dotProduct_sub]
    rw [ho]; ring
  have e2 : ∀ t, p2planeJac px ny A ⬝ᵥ vec6 (skewVec (Q t)) (τ t) = ny ⬝ᵥ (hat3 (skewVec (Q t)) *ᵥ q + τ t) := by
    intro t
    rw [p2planeJac, ← dotProduct_mulVec, ← hq, pointJr,
      show vec6 (skewVec (Q t)) (τ t) = Sum.elim (skewVec (Q t)) (τ t) by funext i; rcases i <;> rfl, fromCols_mulVec_sumElim,
      one_mulVec, neg_mulVec, hat3_mulVec_comm (skewVec (Q t))]
  have h3 : (fun t => ny ⬝ᵥ ((Q t - 1 - hat3 (skewVec (Q t))) *ᵥ q)) =o[F] g := by
    have k1 := mulVec_littleO (h.turned.first hg) (isBigO_const_const q (one_ne_zero (α := ℝ)) F)
    simp only [mul_one] at k1
    simp only [dotProduct]
    refine IsLittleO.fun_sum (g' := g) (A := fun i t => ny i * ((Q t - 1 - hat3 (skewVec (Q t))) *ᵥ q) i) fun i _ => ?_
    exact (isLittleO_pi.mp k1 i).const_mul_left _
  refine h3.congr' ?_ EventuallyEq.rfl
  filter_upwards [e1] with t ht
  rw [ht, e2, ← dotProduct_sub]
  congr 1
  simp only [sub_mulVec, one_mulVec]
  abel

include h hg in
theorem planeJacLim (px ny : Vec3) (j : I6) : Tendsto (fun t => p2planeJac px ny (P t) j) F (𝓝 (p2planeJac px ny A j)) := by
  have hq : Tendsto (fun t => (P t).transform px) F (𝓝 (A.transform px)) := by
    have h1 : Tendsto (fun t => (P t).R *ᵥ px) F (𝓝 (A.R *ᵥ px)) :=
      (Continuous.matrix_mulVec continuous_id continuous_const).continuousAt.tendsto.comp h.R_lim
    exact h1.add (h.t_lim hg)
  have hq' : ∀ k, Tendsto (fun t => (P t).transform px k) F (𝓝 (A.transform px k)) := fun k => (tendsto_pi_nhds.mp hq) k
  simp only [p2planeJac, vecMul, dotProduct, pointJr]
  refine tendsto_finsetSum _ fun k _ => tendsto_const_nhds.mul ?_
  rcases j with j | j
  · simp only [fromCols_apply_inl, Matrix.neg_apply]
    refine Tendsto.neg ?_
    fin_cases k <;> fin_cases j <;>
      first
      | exact tendsto_const_nhds
      | exact hq' _
      | exact (hq' _).neg
  · simp only [fromCols_apply_inr]
    exact tendsto_const_nhds

end PoseNear

end Mrob
