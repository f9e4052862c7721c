import Verif.Lemmas.SpatialFactors
import Verif.Lemmas.Convergence
import Verif.Lemmas.Parts

/-!
# Gauss-Newton steps of spatial graphs
-/

open Matrix Filter Topology Asymptotics

namespace Mrob

open Spec World

attribute [local instance] Matrix.linftyOpNormedAddCommGroup Matrix.linftyOpNormedSpace Matrix.linftyOpNormedRing

/-- The same graph. -/
def sameSym : Sym where
  rel v v' := v' = v
  A _ i j := if i = j then 1 else 0
  Ai _ i j := if i = j then 1 else 0
  ok _ _ := True
  kind := by rintro _ _ rfl; rfl

theorem sameSym_lin (κ : NodeKind) (δ : ℕ → ℝ) {k : ℕ} (hk : k < κ.dim) : sameSym.lin κ δ k = δ k := by
  rw [Sym.lin]
  change ∑ j ∈ Finset.range κ.dim, (if k = j then (1 : ℝ) else 0) * δ j = _
  simp [hk]

theorem sameSym_moves (κ : NodeKind) : sameSym.Moves κ := by
  refine ⟨?_, fun i hi j hj => ?_⟩
  · rintro v _ - rfl; rfl
  · change ∑ k ∈ Finset.range κ.dim, (if i = k then (1 : ℝ) else 0) * (if k = j then (1 : ℝ) else 0) = _
    simp [hi]
    intro hj' hij; omega

theorem sameSym_follows (κ : NodeKind) (δ : ℕ → ℝ) : sameSym.Follows κ δ := by
  rintro ⟨κ', x⟩ _ h rfl
  change κ' = κ at h
  subst h
  change (⟨κ', κ'.upd x (κ'.ofFlat (sameSym.lin κ' δ))⟩ : NodeVal) = ⟨κ', κ'.upd x (κ'.ofFlat δ)⟩
  have : κ'.ofFlat (sameSym.lin κ' δ) = κ'.ofFlat δ := by
    have h := fun k hk => sameSym_lin κ' δ (k := k) hk
    generalize sameSym.lin κ' δ = u at h
    cases κ' with
    | pose2d => funext i; exact h i i.2
    | pose3d =>
      funext i
      rcases i with i | i
      · exact h i (by have := i.2; change (i : ℕ) < 6; omega)
      · exact h (3 + i) (by have := i.2; change 3 + (i : ℕ) < 6; omega)
    | landmark2d => funext i; exact h i i.2
    | landmark3d => funext i; exact h i i.2
    | plane4d =>
      funext i
      rcases i with i | i
      · exact h i (by have := i.2; change (i : ℕ) < 4; omega)
      · exact h 3 (by change 3 < 4; omega)
  rw [this]

theorem sameSym_jac {m : ℕ} (J : Fin m → ℕ → ℝ) : ∀ (tk : ℕ) (ks : List NodeKind), sameSym.JacRel (1 : Matrix (Fin m) (Fin m) ℝ) J J tk ks := by
  intro tk ks
  induction ks generalizing tk with
  | nil => trivial
  | cons κ ks ih =>
    refine ⟨fun l j hj => ?_, ih _⟩
    change ∑ k ∈ Finset.range κ.dim, J l (tk + k) * (if k = j then (1 : ℝ) else 0) = _
    simp [hj, Matrix.one_apply]

theorem sameSym_factors (V : FactorVirt) : sameSym.Factors V V := by
  refine ⟨rfl, 1, by simp, fun vals vals' h1 h h2 => ?_⟩
  clear h1 h2
  obtain rfl : vals' = vals := by
    induction h with
    | nil => rfl
    | cons h1 _ ih => rw [show _ = _ from h1, ih]
  exact ⟨by rw [one_mulVec], sameSym_jac _ _ _⟩

namespace World

variable {w : World}

/-- The states after a step. -/
noncomputable def next (w : World) (X : NRef → NodeVal) : NRef → NodeVal := fun n =>
  if n ∈ w.g.active then (X n).upd (w.spread (-((w.pH X)⁻¹ *ᵥ w.pb X)) n) else X n

section node

variable (h : SpatialSolved w) (hdet : (infoMatrix (graphTerms w)).det ≠ 0)
include h hdet

theorem spread_small (n : NRef) (k : ℕ) : (fun X => w.spread (w.errs X) n k - w.spread ((w.pH X)⁻¹ *ᵥ w.pb X) n k) =o[w.nearby] w.errNorm := by
  by_cases hk : n ∈ w.g.active ∧ k < (w.nh n).dim
  · simp only [spread, dif_pos hk]
    exact isLittleO_pi.mp (h.newton hdet).2 ⟨⟨n, hk.1⟩, ⟨k, hk.2⟩⟩
  · simp only [spread, dif_neg hk, sub_self]
    exact isLittleO_zero _ _

theorem next_pose {n : NRef} (hn : n ∈ w.g.active) {A : SE3} (hv : (w.nh n).val = ⟨.pose3d, A⟩) (hA : IsRigid A.T) (hT : SafeTurn A.R) :
    (fun X => gap (w.nh n).val (w.next X n)) =o[w.nearby] w.errNorm ∧ ∀ᶠ X in w.nearby, Fits (w.nh n).val (w.next X n) := by
  have hg := errNorm_lim h.spatial
  have hP := poseNear h.spatial hv hA
  set z : (NRef → NodeVal) → Vec6 := fun X => NodeKind.ofFlat .pose3d (w.spread ((w.pH X)⁻¹ *ᵥ w.pb X) n) with hzdef
  have hz : ∀ i, (fun X => vec6 (skewVec (turnOf A (poseOf (X n)))) (shiftOf A (poseOf (X n))) i - z X i) =o[w.nearby] w.errNorm := by
    intro i
    have : (fun X => NodeKind.ofFlat .pose3d (w.spread (w.errs X) n) i - z X i) =o[w.nearby] w.errNorm := by
      rcases i with i | i <;> exact spread_small h hdet n _
    refine this.congr' ?_ EventuallyEq.rfl
    filter_upwards [good_near] with X hX
    rw [hX.pose_flat hv hA]
  set M : (NRef → NodeVal) → SE3 := fun X => (poseOf (X n)).updateLhs (-z X) with hM
  have hR : (fun X => (M X).R - A.R) =o[w.nearby] w.errNorm := hP.update_R hg hz
  have ht : (fun X => (M X).t - A.t) =o[w.nearby] w.errNorm := hP.update_t hg hz
  set δ : (NRef → NodeVal) → ℝ := fun X => ‖(M X).R - A.R‖ + ‖(M X).t - A.t‖ with hδ
  have hδo : δ =o[w.nearby] w.errNorm := hR.norm_left.add ht.norm_left
  have hδ0 : Tendsto δ w.nearby (𝓝 0) := hδo.trans_tendsto hg
  have cR : Calm w.nearby δ (fun X => (M X).R) A.R := by
    refine IsBigO.of_bound 1 (Eventually.of_forall fun X => ?_)
    rw [one_mul, Real.norm_eq_abs, abs_of_nonneg (by positivity)]
    exact le_add_of_nonneg_right (norm_nonneg _)
  have ct : Calm w.nearby δ (fun X => (M X).t) A.t := by
    refine IsBigO.of_bound 1 (Eventually.of_forall fun X => ?_)
    rw [one_mul, Real.norm_eq_abs, abs_of_nonneg (by positivity)]
    exact le_add_of_nonneg_left (norm_nonneg _)
  have hrow : ∀ᶠ X in w.nearby, LastRow (M X).T := by
    filter_upwards [hP.lastRow] with X hX
    exact lastRow_updateLhs hX _
  obtain ⟨k1, k2, k3⟩ := regenerate_calm cR ct hrow hT hδ0
  have hval : ∀ᶠ X in w.nearby, w.next X n = ⟨.pose3d, (M X).regenerate⟩ := by
    filter_upwards [good_near] with X hX
    rw [next, if_pos hn, spread_neg, eq_poseOf (hX.pose_kind hv)]
    refine congrArg (Sigma.mk NodeKind.pose3d) ?_
    change ((poseOf (X n)).updateLhs (NodeKind.ofFlat .pose3d (-w.spread ((w.pH X)⁻¹ *ᵥ w.pb X) n))).regenerate = ((poseOf (X n)).updateLhs (-z X)).regenerate
    congr 2
    funext i
    rcases i with i | i <;> rfl
  constructor
  · have h1 : (fun X => ‖fun p : I4 × I4 => (M X).regenerate.T p.1 p.2 - A.T p.1 p.2‖) =o[w.nearby] w.errNorm := by
      refine IsLittleO.norm_left (isLittleO_pi.mpr fun p => ?_)
      obtain ⟨i, j⟩ := p
      rcases i with i | i <;> rcases j with j | j
      · exact (mat_bigO.mp k1 i j).trans_isLittleO hδo
      · exact (isBigO_pi.mp k2 i).trans_isLittleO hδo
      · refine (isLittleO_zero w.errNorm w.nearby (E' := ℝ)).congr' ?_ EventuallyEq.rfl
        filter_upwards [k3] with X hX
        rw [hX.1.1 j, hA.lastRow.1 j, sub_zero]
      · refine (isLittleO_zero w.errNorm w.nearby (E' := ℝ)).congr' ?_ EventuallyEq.rfl
        filter_upwards [k3] with X hX
        exact (sub_eq_zero.mpr (hX.1.2.trans hA.lastRow.2.symm)).symm
    refine h1.congr' ?_ EventuallyEq.rfl
    filter_upwards [hval] with X hX
    rw [hX, hv]; rfl
  · filter_upwards [hval, k3] with X hX h3
    rw [hX, hv]; exact h3

theorem next_mark {n : NRef} (hn : n ∈ w.g.active) {l : Vec3} (hv : (w.nh n).val = ⟨.landmark3d, l⟩) :
    (fun X => gap (w.nh n).val (w.next X n)) =o[w.nearby] w.errNorm ∧ ∀ᶠ X in w.nearby, Fits (w.nh n).val (w.next X n) := by
  have hval : ∀ᶠ X in w.nearby, w.next X n = ⟨.landmark3d, fun i : Fin 3 => markOf (X n) i - w.spread ((w.pH X)⁻¹ *ᵥ w.pb X) n i⟩ := by
    filter_upwards [good_near] with X hX
    rw [next, if_pos hn, spread_neg, eq_markOf (hX.mark_kind hv)]
    refine congrArg (Sigma.mk NodeKind.landmark3d) ?_
    funext i
    exact (sub_eq_add_neg _ _).symm
  constructor
  · have h1 : (fun X => ‖fun i : Fin 3 => markOf (X n) i - w.spread ((w.pH X)⁻¹ *ᵥ w.pb X) n i - l i‖) =o[w.nearby] w.errNorm := by
      refine IsLittleO.norm_left (isLittleO_pi.mpr fun i => ?_)
      refine (spread_small h hdet n i).congr' ?_ EventuallyEq.rfl
      filter_upwards [good_near] with X hX
      rw [congrFun (hX.mark_spread hv) i, Pi.sub_apply]; ring
    refine h1.congr' ?_ EventuallyEq.rfl
    filter_upwards [hval] with X hX
    rw [hX, hv]; rfl
  · filter_upwards [hval] with X hX
    rw [hX, hv]; exact trivial

theorem next_small : (fun X => w.size (w.next X)) =o[w.nearby] w.size := by
  refine IsLittleO.trans_isBigO ?_ (errNorm_bigO h.spatial)
  refine IsLittleO.norm_left (isLittleO_pi.mpr fun a => ?_)
  rcases h.spatial.cases a.2 with ⟨A, hv, hA, hT⟩ | ⟨l, hv⟩
  · exact (next_pose h hdet a.2 hv hA hT).1
  · exact (next_mark h hdet a.2 hv).1

theorem next_good : ∀ᶠ X in w.nearby, Good w (w.next X) := by
  have h1 : ∀ᶠ X in w.nearby, ∀ a : {a : NRef // a ∈ w.g.active}, Fits (w.nh a).val (w.next X a) := by
    refine eventually_all.mpr fun a => ?_
    rcases h.spatial.cases a.2 with ⟨A, hv, hA, hT⟩ | ⟨l, hv⟩
    · exact (next_pose h hdet a.2 hv hA hT).2
    · exact (next_mark h hdet a.2 hv).2
  filter_upwards [h1, good_near] with X h1 hX
  refine ⟨fun n hn => h1 ⟨n, hn⟩, fun n hn => ?_⟩
  rw [next, if_neg hn, hX.fixed n hn]

/-- One step. -/
theorem next_rate {c : ℝ} (hc : 0 < c) : ∃ ε > 0, ∀ X, w.size X < ε → Good w X →
    (w.pH X).det ≠ 0 ∧ w.size (w.next X) ≤ c * w.size X ∧ Good w (w.next X) := by
  refine nearby_iff.mp ?_
  filter_upwards [(h.newton hdet).1, (isLittleO_iff.mp (next_small h hdet)) hc, next_good h hdet] with X h1 h2 h3
  refine ⟨h1, ?_, h3⟩
  rwa [Real.norm_eq_abs, Real.norm_eq_abs, abs_of_nonneg (size_nonneg _), abs_of_nonneg (size_nonneg _)] at h2

end node

/-- The graph of the solver is `w` with other states. -/
structure OffSpatial (w : World) (X : NRef → NodeVal) (w' : World) : Prop where
  gauge : Gauge sameSym (w.put X) w'
  wellPosed : WellPosed w'
  robust : NoRansac w'

/-- Gauss-Newton is a contraction near the solution. -/
theorem SpatialSolved.step (h : SpatialSolved w) (hw : Wired w) (hdet : (infoMatrix (graphTerms w)).det ≠ 0) {env : Env}
    (henv : env.Sound) (hcomp : env.Complete) {c : ℝ} (hc : 0 < c) : ∃ ε > 0, ∀ (X : NRef → NodeVal) (s : FGraphSolve), w.size X < ε →
    Good w X → OffSpatial w X s.w → ∀ (k : ℕ) (l t : ℝ), ∃ s1, s.solve env .GN k l t = .ok s1 ∧
      ∃ X', w.size X' ≤ c * w.size X ∧ Good w X' ∧ OffSpatial w X' s1.w := by
  obtain ⟨ε, hε, hball⟩ := next_rate h hdet hc
  refine ⟨ε, hε, fun X s hX hgood hs k l t => ?_⟩
  obtain ⟨hd, hrate, hgood'⟩ := hball X hX hgood
  have hwd : Wired (w.put X) := hgood.frame.wired hw
  have hrd : NoRansac (w.put X) := h.robust
  have hG := hs.gauge
  have hH : infoMatrix (graphTerms (w.put X)) = w.pH X := pH_put hgood
  have hb : infoVector (graphTerms (w.put X)) = w.pb X := pb_put hgood
  have hdet' : (infoMatrix (graphTerms s.w)).det ≠ 0 := by
    intro h0
    refine hd ?_
    have := congrArg Matrix.det (hG.infoMatrix hwd hrd hs.robust)
    rw [det_mul, det_mul, det_submatrix_equiv_self, h0, mul_zero, zero_mul] at this
    exact (congrArg Matrix.det hH).symm.trans this
  have hpd : (infoMatrix (graphTerms s.w)).PosDef := by
    have hpsd := FGraphSolve.terms_psd hs.wellPosed
    exact hpsd.posDef_iff_det_ne_zero.mpr hdet'
  obtain ⟨s1, h1⟩ := C36_returns env hcomp s hs.wellPosed hpd k l t
  obtain ⟨dx, hdx, hw1⟩ := FGraphSolve.gn_ok hs.wellPosed h1
  have hx := FGraphSolve.normal_solution henv hs.wellPosed hdx
  obtain ⟨z', hz1, hz2, -⟩ := hG.solution hwd hrd hs.robust (l := 0) (Or.inl rfl) _ (by rw [hx]; simp)
  rw [zero_smul, add_zero] at hz2
  obtain ⟨z, hzz⟩ : ∃ z : Cols w → ℝ, z = z' := ⟨z', rfl⟩
  have hz3 : w.pH X *ᵥ z = w.pb X := by
    rw [hzz]
    exact (congrArg (fun H : Matrix (Cols w) (Cols w) ℝ => H *ᵥ z') hH).symm.trans (hz2.trans hb)
  have hz4 : z = (w.pH X)⁻¹ *ᵥ w.pb X := by
    rw [← hz3, mulVec_mulVec, nonsing_inv_mul _ (isUnit_iff_ne_zero.mpr hd), one_mulVec]
  have hF := FGraphSolve.solve_frame h1
  refine ⟨s1, h1, w.next X, hrate, hgood', ⟨?_, ?_, ?_⟩⟩
  · refine ⟨?_, ?_, fun f hf => ?_, fun n hn => ?_, fun f hf => ?_, fun n hn => sameSym_moves _, fun f hf => trivial⟩
    · rw [hF.factors.g]; exact hG.active
    · rw [hF.factors.g]; exact hG.factors
    · rw [hF.factors.nbrs]; exact hG.nbrs f hf
    · have hmv : sameSym.rel (((w.put X).moved ((w.put X).spread (-z' : Cols (w.put X) → ℝ))).nh n).val (s1.w.nh n).val := by
        rw [hw1]
        have e1 : ∀ (w : World) δ n, ((w.built.moved δ).nh n).val = ((w.moved δ).nh n).val := fun _ _ _ => rfl
        rw [e1, moved_step hs.wellPosed.wired]
        refine hG.moved_val _ _ ?_ (fun n _ => sameSym_follows _ _) hn
        refine Eq.trans ?_ (mulVec_neg _ _).symm
        rw [← hz1]
        rfl
      refine Eq.trans hmv ?_
      rw [hgood'.put_val]
      change (if n ∈ w.g.active then ((w.put X).nh n).update (w.spread (-z') n) else (w.put X).nh n).val = _
      rw [next, ← hz4, hzz]
      split
      · change NodeVal.upd ((w.put X).nh n).val _ = _
        rw [hgood.put_val]
        rfl
      · exact hgood.put_val n
    · rw [hF.factors.virt]; exact hG.virt f hf
  · refine hs.wellPosed.of_frame hF fun f hf => ?_
    rw [hw1]
    exact hs.wellPosed.built_weight f hf
  · exact hs.robust.of_factors hF.factors

/-- Repeated calls. -/
theorem SpatialSolved.repeat (h : SpatialSolved w) (hw : Wired w) (hdet : (infoMatrix (graphTerms w)).det ≠ 0) {env : Env}
    (henv : env.Sound) (hcomp : env.Complete) {c : ℝ} (hc : 0 < c) (hc1 : c ≤ 1) : ∃ ε > 0, ∀ (calls : List (ℕ × ℝ × ℝ))
    (X : NRef → NodeVal) (s : FGraphSolve), w.size X < ε → Good w X → OffSpatial w X s.w → ∃ s1, repeatGN env calls s = .ok s1 ∧
      ∃ X', w.size X' ≤ c ^ calls.length * w.size X ∧ Good w X' ∧ OffSpatial w X' s1.w := by
  obtain ⟨ε, hε, hstep⟩ := h.step hw hdet henv hcomp hc
  refine ⟨ε, hε, fun calls => ?_⟩
  induction calls with
  | nil => intro X s hX hg hs; exact ⟨s, rfl, X, by simp, hg, hs⟩
  | cons a calls ih =>
    intro X s hX hg hs
    obtain ⟨s1, h1, X1, hX1, hg1, hs1⟩ := hstep X s hX hg hs a.1 a.2.1 a.2.2
    obtain ⟨s2, h2, X2, hX2, hg2, hs2⟩ := ih X1 s1 (lt_of_le_of_lt (hX1.trans (mul_le_of_le_one_left (size_nonneg _) hc1)) hX) hg1 hs1
    refine ⟨s2, ?_, X2, hX2.trans ?_, hg2, hs2⟩
    · rw [repeatGN, h1]; exact h2
    · rw [List.length_cons, pow_succ, mul_assoc]
      exact mul_le_mul_of_nonneg_left hX1 (by positivity)

end World

end Mrob
