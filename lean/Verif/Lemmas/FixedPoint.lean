import Verif.Lemmas.Damping
import Verif.Lemmas.DemoPrior3d
import Verif.Lemmas.PlaneReg
import Verif.Props.Node

/-!
# Solving a graph that is already at a solution
-/

open Matrix

namespace Mrob

open World Spec

/-- All measurements of the graph are met exactly at the current states. -/
def World.Consistent (w : World) : Prop := ∀ f ∈ w.g.factors, (w.fh f).virt.res ((w.fh f).nbrs.map fun n => (w.nh n).val) = 0

/-- States that `update(0)` keeps: reduced headings, unit normals, and 3D poses whose rotation is outside the approximated
bands of the logarithm and is not a rotation by a right angle or more about a horizontal diagonal. -/
def Settled : (k : NodeKind) → k.State → Prop
  | .pose2d, x => HeadingOk x
  | .pose3d, X => IsRigid (SE3.T X) ∧ (angle (SE3.R X) = 0 ∨ 5e-3 < angle (SE3.R X)) ∧
      (angle (SE3.R X) ≤ Real.pi - 6e-8 ∨ angle (SE3.R X) = Real.pi) ∧
      (angle (SE3.R X) < Real.pi / 2 ∨ ¬ FixesDiagonal (SE3.R X))
  | .landmark2d, _ => True
  | .landmark3d, _ => True
  | .plane4d, x => len (planeNormal x) = 1

theorem ofFlat_zero (k : NodeKind) : ∀ x : k.State, k.upd x (k.ofFlat fun _ => 0) =
    match k, x with
    | .pose2d, x => wrap2 x
    | .pose3d, x => SE3.regenerate x
    | .landmark2d, x => x
    | .landmark3d, x => x
    | .plane4d, x => normalizeHead x := by
  intro x
  cases k with
  | pose2d =>
    change wrap2 (x + 0) = wrap2 x
    rw [add_zero]
  | pose3d =>
    change (SE3.updateLhs x _).regenerate = SE3.regenerate x
    have : (NodeKind.ofFlat .pose3d fun _ => 0) = (0 : Vec6) := by
      funext i; rcases i with i | i <;> rfl
    rw [this, updateLhs_zero']
  | landmark2d => exact add_zero (M := Vec2) x
  | landmark3d => exact add_zero (M := Vec3) x
  | plane4d =>
    have : (NodeKind.ofFlat .plane4d fun _ => 0) = (0 : Vec4) := by
      funext i; rcases i with i | i <;> rfl
    change normalizeHead (x + _) = normalizeHead x
    rw [this, add_zero]

theorem Settled.upd_zero {k : NodeKind} {x : k.State} (h : Settled k x) : k.upd x (k.ofFlat fun _ => 0) = x := by
  rw [ofFlat_zero]
  cases k with
  | pose2d => exact wrap2_of_mem h.1 h.2
  | pose3d =>
    obtain ⟨h1, h2, h3, h4⟩ := h
    change SE3.regenerate x = x
    rw [C13_regenerate h1, C13_exp_ln_partial h1 h2 h3 h4]
  | landmark2d => rfl
  | landmark3d => rfl
  | plane4d =>
    refine normalizeHead_unit _ ?_
    have h' : len (planeNormal x) = 1 := h
    rw [len_eq_vnorm] at h'
    have := vnorm_sq (planeNormal x)
    rw [h', one_pow] at this
    exact this.symm

/-- All unknown nodes hold such states. -/
def World.AllSettled (w : World) : Prop := ∀ n ∈ w.g.active, Settled (w.nh n).kind (w.nh n).obj.state

namespace World

variable {w : World}

theorem Consistent.stationary (h : Consistent w) : infoVector (graphTerms w) = 0 := by
  have key : ∀ l : List FRef, (∀ f ∈ l, f ∈ w.g.factors) → infoVector (l.map (factorTerm w)) = 0 := by
    intro l
    induction l with
    | nil => intro _; rfl
    | cons f l ih =>
      intro hl
      have h1 := ih fun f hf => hl f (List.mem_cons_of_mem _ hf)
      unfold infoVector at h1 ⊢
      rw [List.map_cons, List.map_cons, List.sum_cons, h1, add_zero]
      have h2 : (factorTerm w f).r = 0 := h f (hl f List.mem_cons_self)
      rw [h2, mulVec_zero]
  exact key _ fun _ h => h

theorem moved_zero_val (w : World) (n : NRef) : ((w.moved (w.spread 0)).nh n).val =
    if n ∈ w.g.active then ⟨(w.nh n).kind, (w.nh n).kind.upd (w.nh n).obj.state ((w.nh n).kind.ofFlat fun _ => 0)⟩
    else (w.nh n).val := by
  change (if n ∈ w.g.active then (w.nh n).update (w.spread 0 n) else w.nh n).val = _
  have : w.spread 0 n = fun _ => 0 := by
    funext k
    rw [spread]
    split <;> rfl
  rw [this]
  split <;> rfl

theorem AllSettled.moved_zero (h : AllSettled w) (n : NRef) : ((w.moved (w.spread 0)).nh n).val = (w.nh n).val := by
  rw [moved_zero_val]
  split
  · rename_i hn
    rw [(h n hn).upd_zero]
    rfl
  · rfl

theorem AllSettled.of_vals {w' : World} (h : AllSettled w) (hg : w'.g = w.g) (hv : ∀ n, (w'.nh n).val = (w.nh n).val) :
    AllSettled w' := by
  intro n hn
  rw [hg] at hn
  have h1 := h n hn
  have h2 : (⟨(w'.nh n).kind, (w'.nh n).obj.state⟩ : NodeVal) = ⟨(w.nh n).kind, (w.nh n).obj.state⟩ := hv n
  generalize (w'.nh n).obj.state = x at h2 ⊢
  generalize (w'.nh n).kind = k at x h2 ⊢
  cases h2
  exact h1

theorem Consistent.of_vals {w' : World} (h : Consistent w) (hF : SameFactors w w') (hv : ∀ n, (w'.nh n).val = (w.nh n).val) :
    Consistent w' := by
  intro f hf
  rw [hF.g] at hf
  rw [hF.virt, hF.nbrs]
  simp only [hv]
  exact h f hf

end World

namespace FGraphSolve

/-- At a stationary point the damped step is zero. -/
theorem trial_stationary {env : Env} (henv : env.Sound) {s s' : FGraphSolve} {delta : ℝ} (hw : WellPosed s.w)
    (hl : 0 < s.lambda) (hst : infoVector (graphTerms s.w) = 0) (h : s.trial env = .ok (delta, s')) :
    (∀ n, (s'.w.nh n).val = ((s.w.moved (s.w.spread 0)).nh n).val) ∧ WellPosed s'.w := by
  obtain ⟨x, hx, hv, -, hw'⟩ := trial_model henv hw h
  have hpsd := terms_psd hw
  have h1 : 0 ≤ x ⬝ᵥ (infoMatrix (graphTerms s.w) *ᵥ x) := by
    have := hpsd.dotProduct_mulVec_nonneg x
    rwa [star_trivial] at this
  have h2 : x ⬝ᵥ (infoMatrix (graphTerms s.w) *ᵥ x) + s.lambda * (x ⬝ᵥ x) = 0 := by
    have := congrArg (x ⬝ᵥ ·) (hx.trans hst)
    simpa [dotProduct_add, dotProduct_smul] using this
  have h3 : x ⬝ᵥ x = 0 := by
    have h4 := dot_self_nonneg x
    rcases h4.lt_or_eq with h5 | h5
    · have := mul_pos hl h5
      linarith
    · exact h5.symm
  have hx0 : x = 0 := dotProduct_self_eq_zero.mp h3
  subst hx0
  rw [neg_zero] at hv
  exact ⟨hv, hw'⟩

/-- At a stationary point with settled states an iteration changes nothing. -/
theorem trial_fixed {env : Env} (henv : env.Sound) {s s' : FGraphSolve} {delta : ℝ} (hw : WellPosed s.w)
    (hl : 0 < s.lambda) (hst : infoVector (graphTerms s.w) = 0) (hset : AllSettled s.w) (h : s.trial env = .ok (delta, s')) :
    delta = 0 ∧ (∀ n, (s'.w.nh n).val = (s.w.nh n).val) ∧ WellPosed s'.w := by
  obtain ⟨hv, hw'⟩ := trial_stationary henv hw hl hst h
  have hv' : ∀ n, (s'.w.nh n).val = (s.w.nh n).val := fun n => (hv n).trans (hset.moved_zero n)
  have hd := (trial_ok h).2.2.2.2.2.1
  rw [cost_congr_nh (trial_frame h).factors hv', sub_self] at hd
  exact ⟨hd, hv', hw'⟩

theorem LMRun.fixed {env : Env} (henv : env.Sound) {maxIters iter : ℕ} {s : FGraphSolve} {r : LMResult}
    (h : LMRun env maxIters iter s r) : WellPosed s.w → 0 < s.lambda → Consistent s.w → AllSettled s.w →
    ∀ n, (r.s.w.nh n).val = (s.w.nh n).val := by
  induction h with
  | rejectLast h1 h2 =>
    intro hw hl hc hs
    have := (trial_fixed henv hw hl hc.stationary hs h1).1
    linarith
  | rejectNext h1 h2 =>
    intro hw hl hc hs
    have := (trial_fixed henv hw hl hc.stationary hs h1).1
    linarith
  | converged h1 h2 =>
    intro hw hl hc hs
    exact (trial_fixed henv hw hl hc.stationary hs h1).2.1
  | acceptLast h1 h2 =>
    intro hw hl hc hs
    exact (trial_fixed henv hw hl hc.stationary hs h1).2.1
  | @acceptNext _ s delta s' r h1 h2 h3 h4 h5 ih =>
    intro hw hl hc hs n
    obtain ⟨hd, hv, hw'⟩ := trial_fixed henv hw hl hc.stationary hs h1
    have hF := (trial_frame h1).factors
    refine (ih hw' ?_ (hc.of_vals hF hv) (hs.of_vals hF.g hv) n).trans (hv n)
    refine nextLambda_pos ?_
    rw [(trial_ok h1).2.1]
    exact hl

theorem gn_stationary {env : Env} (henv : env.Sound) {s s' : FGraphSolve} (hw : WellPosed s.w)
    (hpd : (infoMatrix (graphTerms s.w)).PosDef) (hst : infoVector (graphTerms s.w) = 0) {k : ℕ} {l t : ℝ}
    (h : s.solve env .GN k l t = .ok s') (n : NRef) : (s'.w.nh n).val = ((s.w.moved (s.w.spread 0)).nh n).val := by
  obtain ⟨dx, h1, h2⟩ := gn_ok hw h
  have h3 := normal_solution henv hw h1
  rw [hst] at h3
  have hx : (fun c => dx (colEquiv hw.wired c)) = 0 := by
    by_contra hne
    have := hpd.dotProduct_mulVec_pos hne
    rw [h3, dotProduct_zero] at this
    exact lt_irrefl _ this
  have hz : World.step hw.wired dx = 0 := by
    change -(fun c => dx (colEquiv hw.wired c)) = 0
    rw [hx, neg_zero]
  have h4 := moved_step hw.wired dx
  rw [hz] at h4
  rw [h2]
  have h5 : (s.w.built.moved (s.w.unstack dx)).nh n = (s.w.moved (s.w.unstack dx)).nh n := rfl
  rw [h5, h4]

end FGraphSolve

/-! ### One 3D pose with a prior at that pose -/

namespace Demo

/-- The pose and its prior. -/
noncomputable def atWorld₀ (a : SE3) : World :=
  ⟨fun _ => NodeCell.new .pose3d a .standard, fun _ => FactorCell.new (.prior3d a 1 .quadratic) [0] 0 0, emptyGraph⟩
/-- The graph. -/
noncomputable def atWorld (a : SE3) : World := World.run p3Ops (atWorld₀ a)
/-- The object. -/
noncomputable def atSolver (a : SE3) : FGraphSolve := ⟨atWorld a, 1e-6, 1e-2, ⟨0, 0, 0, 0⟩, ⟨0, 0, 0, 0, 0⟩⟩

theorem at_proper (a : SE3) : Proper (atWorld₀ a) p3Ops := by
  constructor
  · intro op hop n m; simp [p3Ops] at hop; rcases hop with rfl | rfl <;> simp
  · simp [addedNodes, p3Ops]
  · intro n hn; simp [atWorld₀, NodeCell.new]
  · intro f hf n hn
    simp [atWorld₀, FactorCell.new] at hn; left; subst hn; simp [addedNodes, p3Ops]
  · intro f hf
    simp [atWorld₀, FactorCell.new, NodeCell.new]
  · intro f hf
    simp [atWorld₀, FactorCell.new, NodeCell.new, FactorCell.wellTyped, FactorVirt.prior3d]

theorem at_factors (a : SE3) : (atWorld a).g.factors = [0] := rfl
theorem at_active (a : SE3) : (atWorld a).g.active = [0] := rfl
theorem at_val (a : SE3) : ((atWorld a).nh 0).val = ⟨.pose3d, a⟩ := rfl

theorem at_wellPosed (a : SE3) : WellPosed (atWorld a) := by
  refine ⟨C44_wired_partial _ rfl _ (at_proper a), fun f hf => ?_, fun f hf => ?_⟩
  · rw [at_factors, List.mem_singleton] at hf
    subst hf
    exact Matrix.PosSemidef.one
  · rw [at_factors, List.mem_singleton] at hf
    subst hf
    exact le_refl (0 : ℝ)

theorem at_row (a : SE3) (δ : Cols (atWorld a) → ℝ) (l : Fin 6) :
    ((factorTerm (atWorld a) 0).J *ᵥ δ) l = (atWorld a).spread δ 0 l := by
  refine (term_mulVec 0 δ l).trans ?_
  change (atWorld a).rowApply δ (blk ((1 : Mat6).submatrix at6 at6) l) 0 [0] = _
  have hd : ((atWorld a).nh 0).dim = 6 := rfl
  rw [rowApply, rowApply, add_zero]
  have : ∀ d : ℕ, d = 6 → ∑ k : Fin d, blk ((1 : Mat6).submatrix at6 at6) l (0 + k) * (atWorld a).spread δ 0 k =
      ∑ k : Fin 6, blk ((1 : Mat6).submatrix at6 at6) l (0 + k) * (atWorld a).spread δ 0 k := by
    rintro _ rfl; rfl
  rw [this _ hd]
  have h3 : ∀ k : Fin 6, blk ((1 : Mat6).submatrix at6 at6) l (0 + k) = if l = k then 1 else 0 := by
    intro k
    rw [zero_add, blk, dif_pos k.2]
    fin_cases l <;> fin_cases k <;> rfl
  simp only [h3, ite_mul, one_mul, zero_mul, Finset.sum_ite_eq, Finset.mem_univ, if_true]

theorem at_posDef (a : SE3) : (infoMatrix (graphTerms (atWorld a))).PosDef := by
  have hw := at_wellPosed a
  refine Matrix.PosDef.of_dotProduct_mulVec_pos (FGraphSolve.terms_psd hw).isHermitian fun {x} hx => ?_
  rw [star_trivial]
  unfold Spec.infoMatrix
  rw [Spec.sum_mulVec, Spec.dotProduct_list_sum]
  change x ⬝ᵥ (((factorTerm (atWorld a) 0).Jᵀ * (factorTerm (atWorld a) 0).W * (factorTerm (atWorld a) 0).J) *ᵥ x) + 0 > 0
  have key : ∀ (J : Matrix (Fin 6) (Cols (atWorld a)) ℝ) (v : Fin 6 → ℝ), (J *ᵥ x) = v →
      x ⬝ᵥ ((Jᵀ * ((1 : ℝ) • (1 : Matrix (Fin 6) (Fin 6) ℝ)) * J) *ᵥ x) = v ⬝ᵥ v := by
    intro J v hv
    rw [one_smul, Matrix.mul_one, ← mulVec_mulVec, dotProduct_mulVec, vecMul_transpose, hv]
  have k0 : x ⬝ᵥ (((factorTerm (atWorld a) 0).Jᵀ * (factorTerm (atWorld a) 0).W * (factorTerm (atWorld a) 0).J) *ᵥ x) = _ :=
    key _ _ (funext (at_row a x))
  rw [k0, add_zero]
  rcases (dot_self_nonneg fun l : Fin 6 => (atWorld a).spread x 0 l).lt_or_eq with h | h
  · exact h
  exfalso
  have z0 := congrFun (dotProduct_self_eq_zero.mp h.symm)
  refine hx (funext fun c => ?_)
  rw [← spread_apply x c]
  obtain ⟨⟨n, hn⟩, k⟩ := c
  have hn' := hn
  rw [at_active, List.mem_singleton] at hn'
  subst hn'
  exact z0 k

/-- The cost depends on the pose alone. -/
theorem at_cost (a : SE3) {w : World} (hF : Frame (atWorld a) w) {X : SE3} (hv : (w.nh 0).val = ⟨.pose3d, X⟩)
    (hX : prior3dRes a X = 0) : w.cost = 0 := by
  rw [cost, hF.factors.g, at_factors, List.map_singleton, List.sum_singleton]
  have e : (w.fh 0).virt.res ((w.fh 0).vals w.nh) = 0 := by
    have e1 : (w.fh 0).vals w.nh = [⟨.pose3d, X⟩] := by
      rw [FactorCell.vals, hF.factors.nbrs]
      change [(w.nh 0).val] = _
      rw [hv]
    rw [e1, hF.factors.virt]
    change (fun i : Fin 6 => prior3dRes a X (at6 i)) = 0
    rw [hX]; rfl
  rw [e, factorChi2, mulVec_zero, dotProduct_zero, mul_zero]

theorem at_consistent {a : SE3} (h : IsRigid a.T) : Consistent (atWorld a) := by
  intro f hf
  rw [at_factors, List.mem_singleton] at hf
  subst hf
  change (fun i : Fin 6 => prior3dRes a a (at6 i)) = 0
  have e : prior3dTr a a = SE3.default := by
    ext1
    exact mul_inv_cancel' h
  rw [prior3dRes, e, lnVee_default]
  rfl

end Demo

end Mrob
