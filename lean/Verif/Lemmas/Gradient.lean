import Verif.Lemmas.Landmarks
import Verif.Props.Jacobian
import Verif.Props.Jacobian3d
import Verif.Props.Node

/-!
# Derivatives of the cost of a graph
-/

open Matrix Spec

namespace Mrob

/-! ### Robust costs as functions of `chi2` -/

/-- The documented cost of a robust factor, as a function of the square root of its `chi2`. -/
noncomputable def robustCost : Robust → ℝ → ℝ
  | .quadratic => quadraticCost
  | .huber => huberCost
  | .cauchy => cauchyCost
  | .mcclure => gemanMcClureCost
  | .ransac => fun _ => 0

/-- Behind the square root the robust costs are differentiable also at zero. -/
theorem robustCost_deriv {ty : Robust} (hty : ty ≠ .ransac) (old : ℝ) {q : ℝ → ℝ} (hq : ∀ s, 0 ≤ q s) {q' : ℝ}
    (h : HasDerivAt q q' 0) :
    HasDerivAt (fun s => robustCost ty (Real.sqrt (q s))) (robustWeight ty old (Real.sqrt (q 0)) * q' / 2) 0 := by
  rcases (hq 0).lt_or_eq with h0 | h0
  · have hs := (h.sqrt h0.ne')
    have hu : 0 < Real.sqrt (q 0) := Real.sqrt_pos.mpr h0
    have hc : HasDerivAt (robustCost ty) (robustWeight ty old (Real.sqrt (q 0)) * Real.sqrt (q 0)) (Real.sqrt (q 0)) := by
      obtain ⟨h1, h2, h3, h4⟩ := C24_influence old (Real.sqrt (q 0)) hu.le
      cases ty with
      | quadratic => exact h1
      | huber => exact h2
      | cauchy => exact h3
      | mcclure => exact h4
      | ransac => exact absurd rfl hty
    refine (hc.comp (0 : ℝ) hs).congr_deriv ?_
    field_simp
  · -- `q` has a minimum at zero, so its derivative vanishes there
    have hq' : q' = 0 := by
      have hmin : IsLocalMin q 0 := Filter.Eventually.of_forall fun s => by rw [← h0]; exact hq s
      exact hmin.hasDerivAt_eq_zero h
    have hsq : ∀ s, Real.sqrt (q s) ^ 2 = q s := fun s => Real.sq_sqrt (hq s)
    subst hq'
    rw [mul_zero, zero_div]
    have hb : ∀ s, |robustCost ty (Real.sqrt (q s))| ≤ |q s| := by
      intro s
      suffices hu : ∀ u : ℝ, 0 ≤ u → |robustCost ty u| ≤ u ^ 2 by
        rw [abs_of_nonneg (hq s)]
        exact (hu _ (Real.sqrt_nonneg _)).trans_eq (hsq s)
      intro u hn
      cases ty with
      | quadratic =>
        change |u ^ 2 / 2| ≤ u ^ 2
        rw [abs_of_nonneg (by positivity)]; nlinarith [sq_nonneg u]
      | huber =>
        change |if u < 1 then _ else _| ≤ _
        split
        · rw [abs_of_nonneg (by positivity)]; nlinarith [sq_nonneg u]
        · rw [abs_of_nonneg (by linarith)]; nlinarith
      | cauchy =>
        change |Real.log (1 + u ^ 2) / 2| ≤ u ^ 2
        have h1 : 0 ≤ Real.log (1 + u ^ 2) := Real.log_nonneg (by nlinarith [sq_nonneg u])
        have h2 := Real.log_le_sub_one_of_pos (show 0 < 1 + u ^ 2 by positivity)
        rw [abs_of_nonneg (by positivity)]; nlinarith
      | mcclure =>
        change |u ^ 2 / (1 + u ^ 2) / 2| ≤ u ^ 2
        have h1 : u ^ 2 / (1 + u ^ 2) ≤ u ^ 2 := div_le_self (sq_nonneg u) (by nlinarith [sq_nonneg u])
        rw [abs_of_nonneg (by positivity)]
        have : 0 ≤ u ^ 2 / (1 + u ^ 2) := by positivity
        linarith
      | ransac => exact absurd rfl hty
    have hz : robustCost ty (Real.sqrt (q 0)) = 0 := by
      have := hb 0
      rw [← h0, abs_zero] at this
      rw [← h0]
      exact abs_nonpos_iff.mp this
    rw [hasDerivAt_iff_isLittleO] at h ⊢
    refine Asymptotics.IsBigO.trans_isLittleO (g := fun s => q s - q 0 - (s - 0) • (0 : ℝ)) ?_ h
    refine Asymptotics.IsBigO.of_bound 1 (Filter.Eventually.of_forall fun s => ?_)
    rw [hz, ← h0]
    simpa using hb s

/-- `chi2` of a factor along a curve. -/
theorem chi2_deriv {m : ℕ} {W : Matrix (Fin m) (Fin m) ℝ} (hW : W.IsSymm) {r : ℝ → Fin m → ℝ} {r' : Fin m → ℝ}
    (h : HasDerivAt r r' 0) : HasDerivAt (fun s => factorChi2 W (r s)) (r' ⬝ᵥ (W *ᵥ r 0)) 0 := by
  have hi := hasDerivAt_pi.mp h
  have h1 : HasDerivAt (fun s => r s ⬝ᵥ (W *ᵥ r s)) (r' ⬝ᵥ (W *ᵥ r 0) + r 0 ⬝ᵥ (W *ᵥ r')) 0 := by
    have hm : ∀ i, HasDerivAt (fun s => (W *ᵥ r s) i) ((W *ᵥ r') i) 0 := fun i =>
      HasDerivAt.fun_sum (u := Finset.univ) fun j _ => (hi j).const_mul (W i j)
    refine (HasDerivAt.fun_sum (u := Finset.univ) fun i _ => (hi i).mul (hm i)).congr_deriv ?_
    rw [Finset.sum_add_distrib]
    rfl
  refine (h1.const_mul 0.5).congr_deriv ?_
  have h2 : r 0 ⬝ᵥ (W *ᵥ r') = r' ⬝ᵥ (W *ᵥ r 0) := by
    rw [dotProduct_mulVec, ← mulVec_transpose, hW.eq, dotProduct_comm]
  rw [h2]
  ring

namespace World

variable {w : World}

/-- The states of all nodes after moving the unknown ones along the increments `δ`.  3D poses are moved by
`SE3::update_lhs` (without the re-orthogonalisation that follows it in `NodePose3d::update`). -/
noncomputable def perturbed (w : World) (δ : Cols w → ℝ) (n : NRef) : NodeVal :=
  if n ∈ w.g.active then
    ⟨(w.nh n).kind, (w.nh n).kind.updAux (w.nh n).obj.state ((w.nh n).kind.ofFlat (w.spread δ n))⟩
  else (w.nh n).val

/-- Sum of the costs of the factors at given states of the nodes. -/
noncomputable def objective (w : World) (x : NRef → NodeVal) : ℝ :=
  (w.g.factors.map fun f =>
    robustCost (w.fh f).virt.robust (Real.sqrt (factorChi2 (w.fh f).virt.W ((w.fh f).virt.res ((w.fh f).nbrs.map x))))).sum

/-- Sum of the `chi2` of the factors at given states of the nodes. -/
noncomputable def chi2At (w : World) (x : NRef → NodeVal) : ℝ :=
  (w.g.factors.map fun f => factorChi2 (w.fh f).virt.W ((w.fh f).virt.res ((w.fh f).nbrs.map x))).sum

/-- The Jacobians of the factors are the derivatives of their residuals (and a zero increment does not change the
residuals: `NodePose2d` wraps the heading, `NodePlane4d` normalises the plane). -/
def Smooth (w : World) : Prop := ∀ f ∈ w.g.factors, ∀ δ : Cols w → ℝ,
  (w.fh f).virt.res ((w.fh f).nbrs.map (w.perturbed ((0 : ℝ) • δ))) = (factorTerm w f).r ∧
  HasDerivAt (fun s : ℝ => (w.fh f).virt.res ((w.fh f).nbrs.map (w.perturbed (s • δ)))) ((factorTerm w f).J *ᵥ δ) 0

theorem spread_smul (s : ℝ) (δ : Cols w → ℝ) (n : NRef) : w.spread (s • δ) n = s • w.spread δ n := by
  funext k
  rw [Pi.smul_apply, spread, spread]
  split <;> simp

theorem spread_zero (n : NRef) : w.spread (0 : Cols w → ℝ) n = 0 := by
  funext k
  rw [spread]
  split <;> rfl

theorem list_sum_deriv {α : Type*} (l : List α) (F : α → ℝ → ℝ) (F' : α → ℝ) (h : ∀ a ∈ l, HasDerivAt (F a) (F' a) 0) :
    HasDerivAt (fun s => (l.map fun a => F a s).sum) (l.map F').sum 0 := by
  induction l with
  | nil => simpa using hasDerivAt_const (0 : ℝ) (0 : ℝ)
  | cons a l ih =>
    simp only [List.map_cons, List.sum_cons]
    exact (h a List.mem_cons_self).add (ih fun b hb => h b (List.mem_cons_of_mem _ hb))

theorem infoVector_dot (δ : Cols w → ℝ) : Spec.infoVector (graphTerms w) ⬝ᵥ δ =
    (w.g.factors.map fun f => ((factorTerm w f).J *ᵥ δ) ⬝ᵥ ((factorTerm w f).W *ᵥ (factorTerm w f).r)).sum := by
  rw [dotProduct_comm]
  unfold Spec.infoVector
  rw [Spec.dotProduct_list_sum, graphTerms, List.map_map]
  congr 1
  refine List.map_congr_left fun f _ => ?_
  rw [Function.comp_apply, ← mulVec_mulVec, dotProduct_mulVec, vecMul_transpose]

end World

/-- States after `solve(GN)`. -/
theorem FGraphSolve.gn_val {s s' : FGraphSolve} (hw : WellPosed s.w) {dx : Fin s.w.g.stateDim → ℝ}
    (h : s'.w = s.w.built.moved (s.w.unstack dx)) (n : NRef) :
    (s'.w.nh n).val = if n ∈ s.w.g.active then
      ⟨(s.w.nh n).kind, (s.w.nh n).kind.upd (s.w.nh n).obj.state
        ((s.w.nh n).kind.ofFlat (s.w.spread (World.step hw.wired dx) n))⟩ else (s.w.nh n).val := by
  rw [h]
  change (if n ∈ s.w.g.active then (s.w.nh n).update (s.w.unstack dx n) else s.w.nh n).val = _
  split
  · rename_i hn
    have h4 := congrArg (fun w : World => w.nh n) (World.moved_step hw.wired dx)
    have h5 : (if n ∈ s.w.g.active then (s.w.nh n).update (s.w.unstack dx n) else s.w.nh n) =
        if n ∈ s.w.g.active then (s.w.nh n).update (s.w.spread (World.step hw.wired dx) n) else s.w.nh n := h4
    rw [if_pos hn, if_pos hn] at h5
    rw [h5]
    rfl
  · rfl

end Mrob
