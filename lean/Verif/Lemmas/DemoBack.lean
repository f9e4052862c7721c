import Verif.Lemmas.DemoPair

/-!
# A pose with a prior, from which the robot turned round and drove to an anchor
-/

open Matrix

namespace Mrob.Demo

open World Spec

/-- The result of a Gauss-Newton step of a graph with one node to estimate. -/
theorem lone_gn {w : World} (hw : WellPosed w) {n0 : NRef} (hact : w.g.active = [n0]) {x : NodeVal} (hv : (w.nh n0).val = x)
    (M : Matrix (Fin x.1.dim) (Fin x.1.dim) ℝ) (b : Fin x.1.dim → ℝ)
    (hM : ∀ δ z : Cols w → ℝ, δ ⬝ᵥ (infoMatrix (graphTerms w) *ᵥ z) =
      (fun k : Fin x.1.dim => w.spread δ n0 k) ⬝ᵥ (M *ᵥ fun k : Fin x.1.dim => w.spread z n0 k))
    (hb : ∀ δ : Cols w → ℝ, δ ⬝ᵥ infoVector (graphTerms w) = (fun k : Fin x.1.dim => w.spread δ n0 k) ⬝ᵥ b)
    (hpd : M.PosDef) (y : Fin x.1.dim → ℝ) (hy : M *ᵥ y = b) (s : FGraphSolve) (hs : s.w = w) :
    (infoMatrix (graphTerms w)).PosDef ∧ ∃ s1, s.solve Env.exact .GN 20 1e-6 1e-2 = .ok s1 ∧
      (s1.w.nh n0).val = x.upd fun k => if hk : k < x.1.dim then -y ⟨k, hk⟩ else 0 := by
  have hmem : n0 ∈ w.g.active := by rw [hact]; simp
  have d2 : (w.nh n0).dim = x.1.dim := by rw [← hv]; rfl
  have hsp : ∀ z : Cols w → ℝ, (∀ k : Fin x.1.dim, w.spread z n0 k = 0) → z = 0 := by
    intro z hz
    funext c
    rw [← spread_apply z c]
    obtain ⟨⟨n, hn⟩, k⟩ := c
    have hn' := hn
    rw [hact, List.mem_singleton] at hn'
    subst hn'
    exact hz ⟨k, d2 ▸ k.2⟩
  have hPD : (infoMatrix (graphTerms w)).PosDef := by
    refine Matrix.PosDef.of_dotProduct_mulVec_pos (FGraphSolve.terms_psd hw).isHermitian fun {z} hz => ?_
    rw [star_trivial, hM z z]
    have := hpd.dotProduct_mulVec_pos (x := fun k : Fin x.1.dim => w.spread z n0 k)
      (fun h0 => hz (hsp z fun k => congrFun h0 k))
    simpa using this
  obtain ⟨w', lambda, tol, sys, mats⟩ := s
  dsimp only at hs
  subst hs
  obtain ⟨s1, h1⟩ := C36_returns Env.exact Env.exact_complete ⟨w', lambda, tol, sys, mats⟩ hw hPD 20 1e-6 1e-2
  refine ⟨hPD, s1, h1, ?_⟩
  obtain ⟨dx, hdx, hw1⟩ := FGraphSolve.gn_ok hw h1
  have hx := FGraphSolve.normal_solution Env.exact_sound hw hdx
  set X : Cols w' → ℝ := fun c => dx (colEquiv hw.wired c) with hX
  have hsol : (fun k : Fin x.1.dim => w'.spread X n0 k) = y := by
    by_contra hne
    have hpos := hpd.dotProduct_mulVec_pos (sub_ne_zero.mpr hne)
    rw [mulVec_sub, hy, star_trivial] at hpos
    set u := (fun k : Fin x.1.dim => w'.spread X n0 k) - y with hu
    let U : Cols w' → ℝ := fun c => if hk : (c.2 : ℕ) < x.1.dim then u ⟨c.2, hk⟩ else 0
    have hU : (fun k : Fin x.1.dim => w'.spread U n0 k) = u := by
      funext k
      rw [spread, dif_pos ⟨hmem, by rw [d2]; exact k.2⟩]
      exact dif_pos k.2
    have f1 := hM U X
    have f2 := hb U
    rw [hU] at f1 f2
    rw [dotProduct_sub, ← f1, ← f2, hx, sub_self] at hpos
    exact lt_irrefl _ hpos
  rw [hw1]
  change ((w'.moved (w'.unstack dx)).nh n0).val = _
  rw [moved_step hw.wired]
  have hv' : (((w'.moved (w'.spread (step hw.wired dx))).nh n0).val) = ((w'.nh n0).val).upd (w'.spread (step hw.wired dx) n0) := by
    rw [moved]
    simp only [if_pos hmem]
    rfl
  rw [hv', hv]
  congr 1
  funext k
  by_cases hk : k < x.1.dim
  · rw [dif_pos hk, ← congrFun hsol ⟨k, hk⟩, spread, spread, dif_pos ⟨hmem, by rw [d2]; exact hk⟩,
      dif_pos ⟨hmem, by rw [d2]; exact hk⟩]
    rfl
  · rw [dif_neg hk, spread, dif_neg (by rw [d2]; exact fun h => hk h.2)]

/-- Node 0 is the pose, all others the anchor. -/
noncomputable def backNodes (t : ℝ) : NRef → NodeCell := fun n =>
  if n = 0 then NodeCell.new .pose2d ![0, 0, t] .standard else NodeCell.new .pose2d ![-3, 0, Real.pi] .anchor

/-- Factor 0 is the prior, all others: turn round, drive 3. -/
noncomputable def backFactors : FRef → FactorCell := fun f =>
  if f = 0 then FactorCell.new (.prior2d 0 1 .quadratic) [0] 0 0
  else FactorCell.new (.odom ![Real.pi, 3, 0] 1 .quadratic) [0, 1] 0 0

/-- Objects before any call. -/
noncomputable def backWorld₀ (t : ℝ) : World := ⟨backNodes t, backFactors, emptyGraph⟩
/-- The calls. -/
def backOps : List GraphOp := [.addNode 0, .addNode 1, .addFactor 0, .addFactor 1]
/-- The graph. -/
noncomputable def backWorld (t : ℝ) : World := World.run backOps (backWorld₀ t)

theorem back_proper (t : ℝ) : Proper (backWorld₀ t) backOps := by
  constructor
  · intro op hop n m; simp [backOps] at hop; rcases hop with rfl | rfl | rfl | rfl <;> simp
  · simp [addedNodes, backOps]
  · intro n hn; simp [addedNodes, backOps] at hn; rcases hn with rfl | rfl <;> simp [backWorld₀, backNodes, NodeCell.new]
  · intro f hf n hn
    simp [addedFactors, backOps] at hf
    rcases hf with rfl | rfl
    · simp [backWorld₀, backFactors, FactorCell.new] at hn; left; simp [hn, addedNodes, backOps]
    · simp [backWorld₀, backFactors, FactorCell.new] at hn; left; rcases hn with rfl | rfl <;> simp [addedNodes, backOps]
  · intro f hf
    simp [addedFactors, backOps] at hf
    rcases hf with rfl | rfl <;> simp [backWorld₀, backFactors, backNodes, FactorCell.new, NodeCell.new]
  · intro f hf
    simp [addedFactors, backOps] at hf
    rcases hf with rfl | rfl <;>
      simp [backWorld₀, backFactors, backNodes, FactorCell.new, NodeCell.new, FactorCell.wellTyped, FactorVirt.prior2d,
        FactorVirt.odom]

theorem back_factors (t : ℝ) : (backWorld t).g.factors = [0, 1] := rfl
theorem back_active (t : ℝ) : (backWorld t).g.active = [0] := by
  change (World.run backOps _).g.active = _
  rw [run_active _ (back_proper t).noSetMode]
  simp [backWorld₀, emptyGraph, addedNodes, backOps, backNodes, NodeCell.new]

theorem back_psd : ∀ t, ∀ f ∈ addedFactors backOps, ((backWorld₀ t).fh f).virt.W.PosSemidef := by
  intro t f hf
  simp [addedFactors, backOps] at hf
  rcases hf with rfl | rfl
  · exact (PosSemidef.one : (1 : Mat3).PosSemidef)
  · exact (PosSemidef.one : (1 : Mat3).PosSemidef)

theorem back_weights : ∀ t, ∀ f ∈ addedFactors backOps, 0 ≤ ((backWorld₀ t).fh f).weight := by
  intro t f hf
  simp [addedFactors, backOps] at hf
  rcases hf with rfl | rfl <;> exact le_refl (0 : ℝ)

theorem back_wellPosed (t : ℝ) : WellPosed (backWorld t) := run_wellPosed rfl (back_proper t) (back_psd t) (back_weights t)

theorem back_val (t : ℝ) : ((backWorld t).nh 0).val = ⟨.pose2d, ![0, 0, t]⟩ ∧ ((backWorld t).nh 1).val = ⟨.pose2d, ![-3, 0, Real.pi]⟩ :=
  ⟨(run_nh_static backOps _ 0).1, (run_nh_static backOps _ 1).1⟩

/-- The Jacobian of the odometry in the code. -/
noncomputable def backJac (t : ℝ) : Mat3 := !![1, 0, -3 * Real.sin t; 0, 1, 3 * Real.cos t; 0, 0, 1]

theorem back_row (t : ℝ) (δ : Cols (backWorld t) → ℝ) :
    (factorTerm (backWorld t) 0).J *ᵥ δ = (fun k : Fin 3 => (backWorld t).spread δ 0 k) ∧
    (factorTerm (backWorld t) 1).J *ᵥ δ = backJac t *ᵥ (fun k : Fin 3 => (backWorld t).spread δ 0 k) := by
  obtain ⟨e0, e1⟩ := back_val t
  have h1 : (1 : NRef) ∉ (backWorld t).g.active := by rw [back_active]; simp
  have d0 : ((backWorld t).nh 0).dim = 3 := rfl
  constructor
  · funext l
    refine (term_mulVec 0 δ l).trans ?_
    change rowApply _ δ ((FactorVirt.prior2d 0 1 .quadratic).jac [((backWorld t).nh 0).val] l) 0 [0] = _
    rw [rowApply, rowApply, e0]
    have key : ∀ l : Fin 3, ∑ k : Fin 3, blk (1 : Mat3) l (0 + k) * (backWorld t).spread δ 0 k + 0 = (backWorld t).spread δ 0 l := by
      intro l
      fin_cases l <;> simp [blk, Fin.sum_univ_three, Matrix.one_apply]
    exact key l
  · funext l
    refine (term_mulVec 1 δ l).trans ?_
    change rowApply _ δ ((FactorVirt.odom ![Real.pi, 3, 0] 1 .quadratic).jac [((backWorld t).nh 0).val, ((backWorld t).nh 1).val] l) 0 [0, 1] = _
    rw [rowApply, rowApply, rowApply, Finset.sum_eq_zero (f := fun k : Fin ((backWorld t).nh 1).dim => _) fun k _ => by rw [spread_of_notMem δ h1, mul_zero], e0, e1]
    have key : ∀ l : Fin 3, ∑ k : Fin 3, (FactorVirt.odom ![Real.pi, 3, 0] 1 .quadratic).jac [⟨.pose2d, ![0, 0, t]⟩, ⟨.pose2d, ![-3, 0, Real.pi]⟩] l (0 + k) *
        (backWorld t).spread δ 0 k + (0 + 0) = (backJac t *ᵥ (fun k : Fin 3 => (backWorld t).spread δ 0 k)) l := by
      intro l
      fin_cases l <;> simp [FactorVirt.odom, blk, blk2, Fin.sum_univ_three, mulVec, dotProduct, backJac, odomJac]
    exact key l

theorem back_res (t : ℝ) (h1 : -Real.pi ≤ t) (h2 : t < Real.pi) : prior2dRes 0 ![0, 0, t] = ![0, 0, t] ∧
    odomRes ![Real.pi, 3, 0] ![0, 0, t] ![-3, 0, Real.pi] = ![3 - 3 * Real.cos t, -(3 * Real.sin t), t] := by
  constructor
  · rw [prior2dRes, sub_zero]
    exact wrap2_of_mem (x := ![0, 0, t]) h1 h2
  · have e : odomPredict ![0, 0, t] ![Real.pi, 3, 0] - ![-3, 0, Real.pi] = ![3 - 3 * Real.cos t, -(3 * Real.sin t), t] := by
      funext i
      fin_cases i
      · simp [odomPredict, Real.cos_add_pi]; ring
      · simp [odomPredict, Real.sin_add_pi]
      · simp [odomPredict]
    rw [odomRes, e]
    exact wrap2_of_mem (x := ![3 - 3 * Real.cos t, -(3 * Real.sin t), t]) h1 h2

/-- Heading of the step. -/
noncomputable def backTurn (t : ℝ) : ℝ := (4 * t - 9 * Real.sin t) / 13

theorem back_forms (t : ℝ) (h1 : -Real.pi ≤ t) (h2 : t < Real.pi) (δ z : Cols (backWorld t) → ℝ) :
    δ ⬝ᵥ (infoMatrix (graphTerms (backWorld t)) *ᵥ z) =
      (fun k : Fin 3 => (backWorld t).spread δ 0 k) ⬝ᵥ ((1 + (backJac t)ᵀ * backJac t) *ᵥ fun k : Fin 3 => (backWorld t).spread z 0 k) ∧
    δ ⬝ᵥ infoVector (graphTerms (backWorld t)) =
      (fun k : Fin 3 => (backWorld t).spread δ 0 k) ⬝ᵥ (![0, 0, t] + (backJac t)ᵀ *ᵥ ![3 - 3 * Real.cos t, -(3 * Real.sin t), t]) := by
  obtain ⟨e0, e1⟩ := back_val t
  obtain ⟨r0, r1⟩ := back_res t h1 h2
  have k0 := back_row t δ
  have k0' := back_row t z
  have w0 : (factorTerm (backWorld t) 0).W = (1 : Mat3) := one_smul ℝ (1 : Mat3)
  have w1 : (factorTerm (backWorld t) 1).W = (1 : Mat3) := one_smul ℝ (1 : Mat3)
  constructor
  · unfold infoMatrix
    rw [Spec.sum_mulVec, Spec.dotProduct_list_sum]
    change δ ⬝ᵥ (((factorTerm (backWorld t) 0).Jᵀ * (factorTerm (backWorld t) 0).W * (factorTerm (backWorld t) 0).J) *ᵥ z) +
      (δ ⬝ᵥ (((factorTerm (backWorld t) 1).Jᵀ * (factorTerm (backWorld t) 1).W * (factorTerm (backWorld t) 1).J) *ᵥ z) + 0) = _
    have key : ∀ (J : Matrix (Fin 3) (Cols (backWorld t)) ℝ) (W : Mat3) (u v : Vec3), J *ᵥ δ = u → J *ᵥ z = v → W = 1 →
        δ ⬝ᵥ ((Jᵀ * W * J) *ᵥ z) = u ⬝ᵥ v := by
      rintro J _ u v h h' rfl
      rw [Matrix.mul_one, ← mulVec_mulVec, dotProduct_mulVec, vecMul_transpose, h, h']
    rw [add_mulVec, dotProduct_add, one_mulVec, ← mulVec_mulVec _ (backJac t)ᵀ, dotProduct_mulVec _ (backJac t)ᵀ, vecMul_transpose, add_zero]
    exact congrArg₂ (· + ·) (key _ _ _ _ k0.1 k0'.1 w0) (key _ _ _ _ k0.2 k0'.2 w1)
  · unfold infoVector
    rw [Spec.dotProduct_list_sum]
    change δ ⬝ᵥ (((factorTerm (backWorld t) 0).Jᵀ * (factorTerm (backWorld t) 0).W) *ᵥ
        (FactorVirt.prior2d 0 1 .quadratic).res [((backWorld t).nh 0).val]) +
      (δ ⬝ᵥ (((factorTerm (backWorld t) 1).Jᵀ * (factorTerm (backWorld t) 1).W) *ᵥ
        (FactorVirt.odom ![Real.pi, 3, 0] 1 .quadratic).res [((backWorld t).nh 0).val, ((backWorld t).nh 1).val]) + 0) = _
    have key : ∀ (J : Matrix (Fin 3) (Cols (backWorld t)) ℝ) (W : Mat3) (r u : Vec3), J *ᵥ δ = u → W = 1 →
        δ ⬝ᵥ ((Jᵀ * W) *ᵥ r) = u ⬝ᵥ r := by
      rintro J _ r u h rfl
      rw [Matrix.mul_one, dotProduct_mulVec, vecMul_transpose, h]
    rw [dotProduct_add, dotProduct_mulVec _ (backJac t)ᵀ, vecMul_transpose, add_zero, ← r0, ← r1, e0, e1]
    exact congrArg₂ (· + ·) (key _ _ _ _ k0.1 w0) (key _ _ _ _ k0.2 w1)

/-- The increment. -/
noncomputable def backDx (t : ℝ) : Vec3 :=
  ![(3 - 3 * Real.cos t + 3 * Real.sin t * backTurn t) / 2, (-(3 * Real.sin t) - 3 * Real.cos t * backTurn t) / 2, backTurn t]

theorem back_solution (t : ℝ) : (1 + (backJac t)ᵀ * backJac t) *ᵥ backDx t =
    ![0, 0, t] + (backJac t)ᵀ *ᵥ ![3 - 3 * Real.cos t, -(3 * Real.sin t), t] := by
  have hsc := Real.sin_sq_add_cos_sq t
  have ht : 13 * backTurn t = 4 * t - 9 * Real.sin t := by rw [backTurn]; ring
  rw [add_mulVec, one_mulVec, ← mulVec_mulVec]
  funext i
  fin_cases i
  · simp [backJac, backDx, mulVec, dotProduct, Fin.sum_univ_three]
    ring
  · simp [backJac, backDx, mulVec, dotProduct, Fin.sum_univ_three]
    ring
  · simp [backJac, backDx, mulVec, dotProduct, Fin.sum_univ_three]
    linear_combination (1 / 2) * ht + (9 / 2) * backTurn t * hsc

theorem back_posDef (t : ℝ) : (1 + (backJac t)ᵀ * backJac t).PosDef := by
  refine PosDef.add_posSemidef PosDef.one ?_
  have := posSemidef_conjTranspose_mul_self (backJac t)
  rwa [conjTranspose_eq_transpose_of_trivial] at this

/-- One call. -/
theorem back_gn (t : ℝ) (h1 : -Real.pi ≤ t) (h2 : t < Real.pi) (s : FGraphSolve) (hs : s.w = backWorld t) :
    (infoMatrix (graphTerms (backWorld t))).PosDef ∧ ∃ s1, s.solve Env.exact .GN 20 1e-6 1e-2 = .ok s1 ∧
      ∃ x : Vec3, (s1.w.nh 0).val = ⟨.pose2d, x⟩ ∧ x 2 = wrapAngle (9 * (t + Real.sin t) / 13) := by
  obtain ⟨hpd, s1, k1, k2⟩ := lone_gn (back_wellPosed t) (back_active t) (back_val t).1 _ _
    (fun δ z => (back_forms t h1 h2 δ z).1) (fun δ => (back_forms t h1 h2 δ δ).2) (back_posDef t) (backDx t) (back_solution t) s hs
  refine ⟨hpd, s1, k1, _, k2, ?_⟩
  change wrapAngle (t + -backTurn t) = _
  congr 1
  rw [backTurn]; ring

end Mrob.Demo
