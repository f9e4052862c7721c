import Verif.Lemmas.IterReg
import Verif.Props.SE3
import Verif.Props.SO3
import Verif.Props.Arun

/-! # Property C57: iterative registration -/

open Matrix

namespace Mrob

open Spec

/-- The increment `dx` at the pose `T` for the correspondences `(L, x, y)`: it minimises the cost linearised at `T`, and it is
a strict descent direction of the cost with these weights, unless it is zero and the cost is stationary at `T`. -/
def GaussNewtonIncrement (T : SE3) (dx : Vec6) (terms : List (Mat3 × Vec3 × Vec3)) : Prop :=
  (∀ w v, linearizedCost (head3 dx) (tail3 dx) (terms.map fun p => (p.1, movePoint T.T p.2.1, p.2.2)) ≤
    linearizedCost w v (terms.map fun p => (p.1, movePoint T.T p.2.1, p.2.2))) ∧
  ∃ g, HasDerivAt (fun h : ℝ => weightedAlignCost (T.updateLhs (h • dx)).T terms) g 0 ∧
    (g < 0 ∨ dx = 0 ∧ ∀ xi : Vec6, HasDerivAt (fun h : ℝ => weightedAlignCost (T.updateLhs (h • xi)).T terms) 0 0)

theorem matched_lists {W : SE3 → ℕ → Out Mat3} {X Y : List Vec3} {T : SE3} {terms : List (Mat3 × Vec3 × Vec3)}
    (h : Matched W X Y T terms) : terms.map (fun p => p.2.1) = X ∧ terms.map (fun p => p.2.2) = Y.take X.length := by
  have key : ∀ i, (hi : i < X.length) → ∃ p, terms[i]? = some p := fun i hi =>
    ⟨_, List.getElem?_eq_getElem (by rw [h.1]; exact hi)⟩
  constructor
  · refine List.ext_getElem? fun i => ?_
    rcases lt_or_ge i X.length with hi | hi
    · obtain ⟨p, hp⟩ := key i hi
      rw [List.getElem?_map, hp, (h.2 i p hp).1]; rfl
    · rw [List.getElem?_eq_none (by simpa [h.1] using hi), List.getElem?_eq_none hi]
  · refine List.ext_getElem? fun i => ?_
    rcases lt_or_ge i X.length with hi | hi
    · obtain ⟨p, hp⟩ := key i hi
      rw [List.getElem?_map, hp, List.getElem?_take_of_lt hi, (h.2 i p hp).2.1]; rfl
    · rw [List.getElem?_eq_none (by simpa [h.1] using hi), List.getElem?_eq_none (by simp; omega)]

theorem trace_lastRow {Ts : ℕ → SE3} {dx : ℕ → Vec6} {k : ℕ} (h0 : LastRow (Ts 0).T)
    (h : ∀ j, j < k → Ts (j + 1) = (Ts j).updateLhs (dx j)) (j : ℕ) (hj : j ≤ k) : LastRow (Ts j).T := by
  induction j with
  | zero => exact h0
  | succ j ih => rw [h j hj]; exact lastRow_updateLhs (ih (by omega)) _

/-- `gicp`: between 1 and 20 iterations; every iteration multiplies the pose on the left by the exponential of a Gauss-Newton
increment, the weight of a correspondence being the inverse of the covariance of `y` plus the rotated covariance of `x`; the
loop stops early only when an increment is not longer than the tolerance, and always then. -/
theorem C57_gicp (X Y : List Vec3) (covX covY : List Mat3) (hX : ∀ C ∈ covX, C.PosSemidef) (hY : ∀ C ∈ covY, C.PosSemidef)
    (tol : ℝ) (T T' : SE3) (hT : IsRigid T.T) (k : ℕ) (h : gicp X Y covX covY tol T = .ok (k, T')) :
    1 ≤ k ∧ k ≤ 20 ∧ ∃ (Ts : ℕ → SE3) (dx : ℕ → Vec6), Ts 0 = T ∧ Ts k = T' ∧
      (∀ j < k, Ts (j + 1) = (Ts j).updateLhs (dx j) ∧ ∃ terms, terms.map (fun p => p.2.1) = X ∧
        terms.map (fun p => p.2.2) = Y.take X.length ∧
        (∀ (i : ℕ) (p : Mat3 × Vec3 × Vec3), terms[i]? = some p → ∃ sx sy, covX[i]? = some sx ∧ covY[i]? = some sy ∧
          p.1 * (sy + (Ts j).T.toBlocks₁₁ * sx * ((Ts j).T.toBlocks₁₁)ᵀ) = 1) ∧
        GaussNewtonIncrement (Ts j) (dx j) terms) ∧
      (∀ j, j + 1 < k → tol < len (dx j)) ∧ (k < 20 → len (dx (k - 1)) ≤ tol) := by
  obtain ⟨h1, h2, Ts, dx, e1, e2, e3, e4, e5⟩ := regLoop_trace (by norm_num) h
  have hlr := fun j hj => trace_lastRow (Ts := Ts) (dx := dx) (k := k) (by rw [e1]; exact hT.lastRow)
    (fun j hj => (e3 j (Nat.zero_le _) hj).2) j hj
  refine ⟨h1, h2, Ts, dx, e1, e2, fun j hj => ⟨(e3 j (Nat.zero_le _) hj).2, ?_⟩, fun j hj => e4 j (Nat.zero_le _) hj, e5⟩
  obtain ⟨terms, hm, hu, hd⟩ := regStep_inv (e3 j (Nat.zero_le _) hj).1
  obtain ⟨m1, m2⟩ := matched_lists hm
  have hw : ∀ (i : ℕ) (p : Mat3 × Vec3 × Vec3), terms[i]? = some p → ∃ sx sy, covX[i]? = some sx ∧ covY[i]? = some sy ∧
      IsUnit (sy + (Ts j).R * sx * (Ts j).Rᵀ).det ∧ p.1 = (sy + (Ts j).R * sx * (Ts j).Rᵀ)⁻¹ := by
    intro i p hp
    have := (hm.2 i p hp).2.2
    rw [gicpWeight] at this
    obtain ⟨sy, hsy, this⟩ := Out.bind_eq_ok.mp this
    obtain ⟨sx, hsx, this⟩ := Out.bind_eq_ok.mp this
    by_cases hi : IsUnit (sy + (Ts j).R * sx * (Ts j).Rᵀ).det
    · rw [if_pos hi] at this
      exact ⟨sx, sy, Out.index_eq_ok.mp hsx, Out.index_eq_ok.mp hsy, hi, (Out.ok.inj this).symm⟩
    · rw [if_neg hi] at this; cases this
  refine ⟨terms, m1, m2, fun i p hp => ?_, ?_⟩
  · obtain ⟨sx, sy, a, b, c, d⟩ := hw i p hp
    exact ⟨sx, sy, a, b, by rw [d]; exact nonsing_inv_mul _ c⟩
  · refine regStep_spec (hlr j hj.le) (fun p hp => ?_) hu hd
    obtain ⟨i, hi⟩ := List.mem_iff_getElem?.mp hp
    obtain ⟨sx, sy, a, b, c, d⟩ := hw i p hi
    rw [d]
    refine Matrix.PosSemidef.inv (Matrix.PosSemidef.add (hY _ (List.mem_of_getElem? b)) ?_)
    have := (hX _ (List.mem_of_getElem? a)).mul_mul_conjTranspose_same (Ts j).R
    rwa [conjTranspose_eq_transpose_of_trivial] at this

/-- `weighted_point`: the same with the weight `w_i I`. -/
theorem C57_weighted_point (X Y : List Vec3) (w : List ℝ) (hw : ∀ c ∈ w, 0 ≤ c) (tol : ℝ) (T T' : SE3) (hT : IsRigid T.T)
    (k : ℕ) (h : weightedPoint X Y w tol T = .ok (k, T')) :
    1 ≤ k ∧ k ≤ 20 ∧ ∃ (Ts : ℕ → SE3) (dx : ℕ → Vec6), Ts 0 = T ∧ Ts k = T' ∧
      (∀ j < k, Ts (j + 1) = (Ts j).updateLhs (dx j) ∧ ∃ terms, terms.map (fun p => p.2.1) = X ∧
        terms.map (fun p => p.2.2) = Y.take X.length ∧
        (∀ (i : ℕ) (p : Mat3 × Vec3 × Vec3), terms[i]? = some p → ∃ c, w[i]? = some c ∧ p.1 = c • 1) ∧
        GaussNewtonIncrement (Ts j) (dx j) terms) ∧
      (∀ j, j + 1 < k → tol < len (dx j)) ∧ (k < 20 → len (dx (k - 1)) ≤ tol) := by
  obtain ⟨h1, h2, Ts, dx, e1, e2, e3, e4, e5⟩ := regLoop_trace (by norm_num) h
  have hlr := fun j hj => trace_lastRow (Ts := Ts) (dx := dx) (k := k) (by rw [e1]; exact hT.lastRow)
    (fun j hj => (e3 j (Nat.zero_le _) hj).2) j hj
  refine ⟨h1, h2, Ts, dx, e1, e2, fun j hj => ⟨(e3 j (Nat.zero_le _) hj).2, ?_⟩, fun j hj => e4 j (Nat.zero_le _) hj, e5⟩
  obtain ⟨terms, hm, hu, hd⟩ := regStep_inv (e3 j (Nat.zero_le _) hj).1
  obtain ⟨m1, m2⟩ := matched_lists hm
  have hww : ∀ (i : ℕ) (p : Mat3 × Vec3 × Vec3), terms[i]? = some p → ∃ c, w[i]? = some c ∧ p.1 = c • 1 := by
    intro i p hp
    have := (hm.2 i p hp).2.2
    rw [pointWeight] at this
    obtain ⟨c, hc, this⟩ := Out.bind_eq_ok.mp this
    exact ⟨c, Out.index_eq_ok.mp hc, (Out.ok.inj this).symm⟩
  refine ⟨terms, m1, m2, hww, ?_⟩
  refine regStep_spec (hlr j hj.le) (fun p hp => ?_) hu hd
  obtain ⟨i, hi⟩ := List.mem_iff_getElem?.mp hp
  obtain ⟨c, a, d⟩ := hww i p hi
  rw [d]
  exact Matrix.PosSemidef.one.smul (hw c (List.mem_of_getElem? a))

/-! ### Aligned clouds -/

theorem regLoop_fixed {step : SE3 → Out Vec6} {tol : ℝ} {T T' : SE3} {k i : ℕ} (hi : i < 20)
    (hs : ∀ dx, step T = .ok dx → dx = 0) (h : regLoop step tol i T = .ok (k, T')) : T' = T ∧ (0 ≤ tol → k = i + 1) := by
  have hup : T.updateLhs 0 = T := by simpa using updateLhs_zero_smul T 0
  obtain ⟨h1, h2, Ts, dx, e1, e2, e3, e4, e5⟩ := regLoop_trace hi h
  have hTs : ∀ j, i ≤ j → j ≤ k → Ts j = T := by
    intro j
    induction j with
    | zero => intro hj _; obtain rfl : i = 0 := by omega
              exact e1
    | succ j ih =>
      intro hj hk
      rcases Nat.eq_or_lt_of_le hj with rfl | hj
      · exact e1
      · have hT := ih (by omega) (by omega)
        obtain ⟨a, b⟩ := e3 j (by omega) (by omega)
        rw [hT] at a b
        rw [b, hs _ a, hup]
  refine ⟨by rw [← e2]; exact hTs k (by omega) le_rfl, fun htol => ?_⟩
  by_contra hne
  have h3 := e4 i le_rfl (by omega)
  have h4 := (e3 i le_rfl h1).1
  rw [e1] at h4
  rw [hs _ h4, (vnorm_eq_zero (v := (0 : Vec6))).mpr rfl] at h3
  linarith

theorem regStep_aligned {W : SE3 → ℕ → Out Mat3} {X Y : List Vec3} {T : SE3} {dx : Vec6}
    (hY : Y.take X.length = X.map (movePoint T.T)) (h : regStep W X Y T = .ok dx) : dx = 0 := by
  obtain ⟨terms, hm, hu, hd⟩ := regStep_inv h
  obtain ⟨m1, m2⟩ := matched_lists hm
  have hz : ∀ p ∈ terms, p.2.2 = T.transform p.2.1 := by
    intro p hp
    obtain ⟨i, hi⟩ := List.mem_iff_getElem?.mp hp
    have e1 := congrArg (·[i]?) m1
    have e2 := congrArg (·[i]?) (m2.trans hY)
    simp only [List.getElem?_map, hi, Option.map_some] at e1 e2
    rw [← e1] at e2
    rw [transform_eq_movePoint]
    simpa using e2
  have hJ : (terms.map fun p => regTerm p.1 (T.transform p.2.1) p.2.2).sum.1 = 0 := by
    clear hu hd hm m1 m2
    induction terms with
    | nil => rfl
    | cons p terms ih =>
      rw [List.map_cons, List.sum_cons, Prod.fst_add, ih fun q hq => hz q (List.mem_cons_of_mem _ hq), add_zero, regTerm,
        hz p List.mem_cons_self]
      simp
  rw [hJ, neg_zero] at hd
  have := congrArg (((terms.map fun p => regTerm p.1 (T.transform p.2.1) p.2.2).sum.2)⁻¹ *ᵥ ·) hd
  simpa [mulVec_mulVec, nonsing_inv_mul _ hu] using this

/-- If the clouds are aligned at the initial pose, `gicp` and `weighted_point` stop after one iteration (for a tolerance which
is not negative) with the pose unchanged. -/
theorem C57_aligned (X Y : List Vec3) (tol : ℝ) (T T' : SE3) (k : ℕ) (hY : Y.take X.length = X.map (movePoint T.T)) :
    (∀ covX covY, gicp X Y covX covY tol T = .ok (k, T') → T' = T ∧ (0 ≤ tol → k = 1)) ∧
      ∀ w, weightedPoint X Y w tol T = .ok (k, T') → T' = T ∧ (0 ≤ tol → k = 1) :=
  ⟨fun _ _ h => regLoop_fixed (by norm_num) (fun _ => regStep_aligned hY) h,
    fun _ h => regLoop_fixed (by norm_num) (fun _ => regStep_aligned hY) h⟩

/-! ### Validity of the result -/

theorem trace_reach {U : Vec6 → Prop} {Ts : ℕ → SE3} {dx : ℕ → Vec6} {k : ℕ} (h0 : IsRigid (Ts 0).T)
    (h : ∀ j, j < k → Ts (j + 1) = (Ts j).updateLhs (dx j)) (hU : ∀ j, j < k → U (dx j)) (j : ℕ) (hj : j ≤ k) :
    SE3Reach U j (Ts j) := by
  induction j with
  | zero => exact .start _ h0
  | succ j ih => rw [h j hj]; exact .updateLhs _ (hU j hj) (ih (by omega))

/-- From a rigid pose the result has last row `(0,0,0,1)` and its rotation block preserves squared lengths up to a relative
error of `2.1e-30`.  Missing for C57: exact rigidity, which holds only when every increment has an angular part which is zero
or at least `1e-5` long. -/
theorem C57_rigid_partial (X Y : List Vec3) (tol : ℝ) (T T' : SE3) (hT : IsRigid T.T) (k : ℕ)
    (h : (∃ covX covY, gicp X Y covX covY tol T = .ok (k, T')) ∨ ∃ w, weightedPoint X Y w tol T = .ok (k, T')) :
    T'.T.toBlocks₂₁ = 0 ∧ T'.T.toBlocks₂₂ = 1 ∧ NearOrthogonal 2.1e-30 T'.T.toBlocks₁₁ ∧
      |T'.T.toBlocks₁₁.det - 1| ≤ 2.1e-30 := by
  have key : ∃ step, regLoop step tol 0 T = .ok (k, T') := by
    rcases h with ⟨a, b, h⟩ | ⟨w, h⟩
    exacts [⟨_, h⟩, ⟨_, h⟩]
  obtain ⟨step, h⟩ := key
  obtain ⟨h1, h2, Ts, dx, e1, e2, e3, -, -⟩ := regLoop_trace (by norm_num) h
  have hr := trace_reach (U := fun _ => True) (k := k) (by rw [e1]; exact hT) (fun j hj => (e3 j (Nat.zero_le _) hj).2)
    (fun _ _ => trivial) k le_rfl
  rw [e2] at hr
  obtain ⟨a, b, c, d⟩ := C09_group_drift hr
  have hb : (1 + 1e-31 : ℝ) ^ k - 1 ≤ 2.1e-30 := by
    have : (1 + 1e-31 : ℝ) ^ k ≤ (1 + 1e-31) ^ 20 := pow_le_pow_right₀ (by norm_num) h2
    have : (1 + 1e-31 : ℝ) ^ 20 ≤ 1 + 2.1e-30 := by norm_num
    linarith
  have hx : ∀ x : Fin 3 → ℝ, ((1 + 1e-31 : ℝ) ^ k - 1) * (x ⬝ᵥ x) ≤ 2.1e-30 * (x ⬝ᵥ x) := fun x =>
    mul_le_mul_of_nonneg_right hb (Finset.sum_nonneg fun i _ => mul_self_nonneg _)
  exact ⟨a, b, fun x => ⟨(c x).1.trans (hx x), (c x).2.trans (hx x)⟩, d.trans hb⟩

/-- Under the same conditions the result is exactly rigid when the angular part of every increment is zero or at least `1e-5`
long. -/
theorem C57_rigid_exact_partial (step : SE3 → Out Vec6) (tol : ℝ) (T T' : SE3) (hT : IsRigid T.T) (k : ℕ)
    (hstep : ∀ S dx, step S = .ok dx → 1e-5 ≤ len (head3 dx) ∨ head3 dx = 0)
    (h : regLoop step tol 0 T = .ok (k, T')) : IsRigid T'.T := by
  obtain ⟨h1, h2, Ts, dx, e1, e2, e3, -, -⟩ := regLoop_trace (by norm_num) h
  have hr := trace_reach (U := fun xi => 1e-5 ≤ len (head3 xi) ∨ head3 xi = 0) (k := k) (by rw [e1]; exact hT)
    (fun j hj => (e3 j (Nat.zero_le _) hj).2) (fun j hj => hstep _ _ (e3 j (Nat.zero_le _) hj).1) k le_rfl
  rw [e2] at hr
  exact C09_group_exact hr

/-! ### A concrete registration -/

/-- The octahedron displaced to first order by a rotation of `1e-6` about the x axis. -/
noncomputable def octahedronTurned : List Vec3 :=
  [![1, 0, 0], ![-1, 0, 0], ![0, 1, 1e-6], ![0, -1, -1e-6], ![0, -1e-6, 1], ![0, 1e-6, -1]]

theorem octahedron_step {W : SE3 → ℕ → Out Mat3} (hW : ∀ i < 6, W SE3.default i = .ok 1) :
    regStep W octahedron octahedronTurned SE3.default = .ok (vec6 ![1e-6, 0, 0] 0) := by
  have htr : ∀ x, SE3.default.transform x = x := fun x => by
    rw [transform_eq_movePoint, movePoint_rigid]
    have e1 : tl3 (1 : Mat4) = 1 := by rw [← homog_one]; simp
    have e2 : tr3 (1 : Mat4) = 0 := by rw [← homog_one]; simp
    change tl3 (1 : Mat4) *ᵥ x + tr3 (1 : Mat4) = x
    rw [e1, e2, one_mulVec, add_zero]
  have hsys : regSystem W octahedron octahedronTurned SE3.default =
      .ok (-vec6 ![4e-6, 0, 0] 0, diagonal (Sum.elim (fun _ => 4) fun _ => 6)) := by
    have hr : List.range octahedron.length = [0, 1, 2, 3, 4, 5] := by decide
    rw [regSystem, hr]
    simp only [Out.traverse, hW 0 (by norm_num), hW 1 (by norm_num), hW 2 (by norm_num), hW 3 (by norm_num),
      hW 4 (by norm_num), hW 5 (by norm_num), octahedron, octahedronTurned, Out.index, List.getElem?_cons_zero,
      List.getElem?_cons_succ, Out.ok_bind, htr]
    congr 1
    refine Prod.ext ?_ ?_
    · ext i
      rcases i with i | i <;> fin_cases i <;>
        simp [regTerm, regJr, hat3, vec6, vecMul, dotProduct, Fin.sum_univ_three, Matrix.one_apply, vecHead, vecTail] <;> norm_num
    · ext i j
      rcases i with i | i <;> rcases j with j | j <;> fin_cases i <;> fin_cases j <;>
        simp [regTerm, regJr, hat3, Matrix.mul_apply, Fin.sum_univ_three, Matrix.one_apply] <;> norm_num
  rw [regStep, hsys, Out.ok_bind]
  have hdet : IsUnit (diagonal (Sum.elim (fun _ => 4) fun _ => 6 : I6 → ℝ)).det := by
    rw [det_diagonal, isUnit_iff_ne_zero, Finset.prod_ne_zero_iff]
    intro i _
    rcases i with i | i <;> norm_num
  dsimp only
  rw [if_pos hdet]
  congr 1
  have h1 : diagonal (Sum.elim (fun _ => 4) fun _ => 6 : I6 → ℝ) *ᵥ vec6 ![1e-6, 0, 0] 0 = vec6 ![4e-6, 0, 0] 0 := by
    ext i
    rw [mulVec_diagonal]
    rcases i with i | i <;> fin_cases i <;> norm_num [vec6]
  rw [mulVec_neg, neg_neg, ← h1, mulVec_mulVec, nonsing_inv_mul _ hdet, one_mulVec]

theorem octahedron_run {W : SE3 → ℕ → Out Mat3} (hW : ∀ i < 6, W SE3.default i = .ok 1) :
    regLoop (regStep W octahedron octahedronTurned) 1e-4 0 SE3.default =
      .ok (1, SE3.default.updateLhs (vec6 ![1e-6, 0, 0] 0)) := by
  rw [regLoop, octahedron_step hW, Out.ok_bind, if_neg]
  rintro ⟨h, -⟩
  have : vnorm (vec6 ![(1e-6 : ℝ), 0, 0] 0) = 1e-6 := by
    rw [vnorm, sqNorm, show ∑ i, vec6 ![(1e-6 : ℝ), 0, 0] 0 i * vec6 ![(1e-6 : ℝ), 0, 0] 0 i = 1e-6 ^ 2 by
      simp [vec6, Fintype.sum_sum_type, Fin.sum_univ_three]; norm_num, Real.sqrt_sq (by norm_num)]
  rw [this] at h
  norm_num at h

/-- Both functions terminate on this input after one iteration, with a matrix whose rotation block is not orthogonal:
exact rigidity is false. -/
theorem C57_rigid_fails :
    ∃ T' : SE3, gicp octahedron octahedronTurned (List.replicate 6 0) (List.replicate 6 1) 1e-4 SE3.default = .ok (1, T') ∧
      weightedPoint octahedron octahedronTurned (List.replicate 6 1) 1e-4 SE3.default = .ok (1, T') ∧ ¬ IsRigid T'.T := by
  refine ⟨_, octahedron_run fun i hi => ?_, octahedron_run fun i hi => ?_, fun h => ?_⟩
  · have : ∀ c : Mat3, Out.index (List.replicate 6 c) i = .ok c := fun c => by
      rw [Out.index_eq_ok, List.getElem?_replicate, if_pos hi]
    rw [gicpWeight, this, this, Out.ok_bind, Out.ok_bind, if_pos] <;> simp
  · have : ∀ c : ℝ, Out.index (List.replicate 6 c) i = .ok c := fun c => by
      rw [Out.index_eq_ok, List.getElem?_replicate, if_pos hi]
    rw [pointWeight, this, Out.ok_bind, one_smul]
  · refine C03_rotation_small_not_exact ?_
    have e : (SE3.default.updateLhs (vec6 ![1e-6, 0, 0] 0)).T = (SE3.ofVec (vec6 ![1e-6, 0, 0] 0)).T := Matrix.mul_one _
    rw [e, se3_ofVec_T] at h
    have := (isRigid_iff.mp h).1
    simpa using this

/-- The hypotheses of the theorems above are met by this input. -/
example : ∃ k T', gicp octahedron octahedronTurned (List.replicate 6 0) (List.replicate 6 1) 1e-4 SE3.default = .ok (k, T') ∧
    IsRigid SE3.default.T ∧ (∀ C ∈ List.replicate 6 (0 : Mat3), C.PosSemidef) ∧
    ∀ C ∈ List.replicate 6 (1 : Mat3), C.PosSemidef := by
  obtain ⟨T', h, -, -⟩ := C57_rigid_fails
  refine ⟨1, T', h, ?_, fun C hC => ?_, fun C hC => ?_⟩
  · change IsRigid (1 : Mat4)
    rw [← homog_one]; exact isRigid_homog isRotation_one _
  · rw [List.eq_of_mem_replicate hC]; exact Matrix.PosSemidef.zero
  · rw [List.eq_of_mem_replicate hC]; exact Matrix.PosSemidef.one

end Mrob
