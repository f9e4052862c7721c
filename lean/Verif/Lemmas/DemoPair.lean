import Verif.Lemmas.Gauge
import Verif.Props.GaussNewton

/-!
# One node, measured twice from anchors
-/

open Matrix

namespace Mrob.Demo

open World Spec

/-- Node 2 is to be estimated, the others are anchors. -/
noncomputable def twiceNodes (a : NRef → NodeVal) (x : NodeVal) : NRef → NodeCell := fun n =>
  if n = 2 then NodeCell.new x.1 x.2 .standard else NodeCell.new (a n).1 (a n).2 .anchor

/-- Factor 0 measures node 2 from node 0, the others from node 1. -/
noncomputable def twiceFactors (v : FRef → FactorVirt) : FRef → FactorCell := fun f =>
  FactorCell.new (v f) [if f = 0 then 0 else 1, 2] 0 0

/-- Objects before any call. -/
noncomputable def twiceWorld₀ (a : NRef → NodeVal) (x : NodeVal) (v : FRef → FactorVirt) : World :=
  ⟨twiceNodes a x, twiceFactors v, emptyGraph⟩

/-- The calls. -/
def twiceOps : List GraphOp := [.addNode 0, .addNode 1, .addNode 2, .addFactor 0, .addFactor 1]

/-- The graph. -/
noncomputable def twiceWorld (a : NRef → NodeVal) (x : NodeVal) (v : FRef → FactorVirt) : World :=
  World.run twiceOps (twiceWorld₀ a x v)

variable {a : NRef → NodeVal} {x : NodeVal} {v : FRef → FactorVirt}

/-- What the two measurements are assumed to be. -/
structure Measured (a : NRef → NodeVal) (x : NodeVal) (v : FRef → FactorVirt) : Prop where
  /-- the constructors keep the values -/
  stored : x.1.construct x.2 = x.2
  /-- the constructors keep the values -/
  stored0 : (a 0).1.construct (a 0).2 = (a 0).2
  /-- the constructors keep the values -/
  stored1 : (a 1).1.construct (a 1).2 = (a 1).2
  /-- classes -/
  kinds0 : (v 0).kinds = [(a 0).1, x.1]
  /-- classes -/
  kinds1 : (v 1).kinds = [(a 1).1, x.1]
  /-- information -/
  psd0 : (v 0).W.PosSemidef
  /-- information -/
  psd1 : (v 1).W.PosSemidef
  /-- no robust function -/
  plain0 : (v 0).robust = .quadratic
  /-- no robust function -/
  plain1 : (v 1).robust = .quadratic

theorem twice_proper (h : Measured a x v) : Proper (twiceWorld₀ a x v) twiceOps := by
  constructor
  · intro op hop n m; simp [twiceOps] at hop; rcases hop with rfl | rfl | rfl | rfl | rfl <;> simp
  · simp [addedNodes, twiceOps]
  · intro n hn
    simp [addedNodes, twiceOps] at hn
    rcases hn with rfl | rfl | rfl <;> simp [twiceWorld₀, twiceNodes, NodeCell.new]
  · intro f hf n hn
    simp [addedFactors, twiceOps] at hf
    rcases hf with rfl | rfl <;> simp [twiceWorld₀, twiceFactors, FactorCell.new] at hn <;> left <;>
      rcases hn with rfl | rfl <;> simp [addedNodes, twiceOps]
  · intro f hf
    simp [addedFactors, twiceOps] at hf
    rcases hf with rfl | rfl <;> simp [twiceWorld₀, twiceFactors, twiceNodes, FactorCell.new, NodeCell.new]
  · intro f hf
    simp [addedFactors, twiceOps] at hf
    rcases hf with rfl | rfl
    · simp [twiceWorld₀, twiceFactors, twiceNodes, FactorCell.new, NodeCell.new, FactorCell.wellTyped, h.kinds0]
    · simp [twiceWorld₀, twiceFactors, twiceNodes, FactorCell.new, NodeCell.new, FactorCell.wellTyped, h.kinds1]

theorem twice_factors : (twiceWorld a x v).g.factors = [0, 1] := rfl
theorem twice_active : (twiceWorld a x v).g.active = [2] := by
  change (World.run twiceOps _).g.active = _
  rw [run_active _ (by intro op hop n m; simp [twiceOps] at hop; rcases hop with rfl | rfl | rfl | rfl | rfl <;> simp)]
  simp [twiceWorld₀, emptyGraph, addedNodes, twiceOps, twiceNodes, NodeCell.new]

theorem twice_wellPosed (h : Measured a x v) : WellPosed (twiceWorld a x v) := by
  refine run_wellPosed rfl (twice_proper h) (fun f hf => ?_) fun f hf => ?_
  · simp [addedFactors, twiceOps] at hf
    rcases hf with rfl | rfl
    · exact h.psd0
    · exact h.psd1
  · exact le_refl (0 : ℝ)

theorem twice_val (h : Measured a x v) : ((twiceWorld a x v).nh 0).val = a 0 ∧ ((twiceWorld a x v).nh 1).val = a 1 ∧
    ((twiceWorld a x v).nh 2).val = x := by
  refine ⟨((run_nh_static twiceOps _ 0).1).trans ?_, ((run_nh_static twiceOps _ 1).1).trans ?_,
    ((run_nh_static twiceOps _ 2).1).trans ?_⟩
  · change (⟨(a 0).1, (a 0).1.construct (a 0).2⟩ : NodeVal) = _
    rw [h.stored0]
  · change (⟨(a 1).1, (a 1).1.construct (a 1).2⟩ : NodeVal) = _
    rw [h.stored1]
  · change (⟨x.1, x.1.construct x.2⟩ : NodeVal) = _
    rw [h.stored]

/-- The block of the Jacobian that belongs to the node. -/
noncomputable def twiceJac (a : NodeVal) (x : NodeVal) (v : FactorVirt) : Matrix (Fin v.dim) (Fin x.1.dim) ℝ :=
  Matrix.of fun l k => v.jac [a, x] l (a.1.dim + k)

theorem twice_row (h : Measured a x v) (δ : Cols (twiceWorld a x v) → ℝ) :
    (factorTerm (twiceWorld a x v) 0).J *ᵥ δ = twiceJac (a 0) x (v 0) *ᵥ (fun k : Fin x.1.dim => (twiceWorld a x v).spread δ 2 k) ∧
    (factorTerm (twiceWorld a x v) 1).J *ᵥ δ = twiceJac (a 1) x (v 1) *ᵥ (fun k : Fin x.1.dim => (twiceWorld a x v).spread δ 2 k) := by
  obtain ⟨e0, e1, e2⟩ := twice_val h
  have h0 : (0 : NRef) ∉ (twiceWorld a x v).g.active := by rw [twice_active]; simp
  have h1 : (1 : NRef) ∉ (twiceWorld a x v).g.active := by rw [twice_active]; simp
  have d0 : ((twiceWorld a x v).nh 0).dim = (a 0).1.dim := by rw [← e0]; rfl
  have d1 : ((twiceWorld a x v).nh 1).dim = (a 1).1.dim := by rw [← e1]; rfl
  have d2 : ((twiceWorld a x v).nh 2).dim = x.1.dim := by rw [← e2]; rfl
  have aux : ∀ (d : ℕ), d = x.1.dim → ∀ F : ℕ → ℝ, ∑ k : Fin d, F k = ∑ k : Fin x.1.dim, F k := by
    rintro _ rfl F; rfl
  constructor
  · funext l
    refine (term_mulVec 0 δ l).trans ?_
    change rowApply _ δ ((v 0).jac [((twiceWorld a x v).nh 0).val, ((twiceWorld a x v).nh 2).val] l) 0 [0, 2] = _
    rw [rowApply, rowApply, rowApply, Finset.sum_eq_zero fun k _ => by rw [spread_of_notMem δ h0, mul_zero], e0, e2, d0,
      zero_add, zero_add, add_zero, aux _ d2 fun k => (v 0).jac [a 0, x] l ((a 0).1.dim + k) * (twiceWorld a x v).spread δ 2 k]
    rfl
  · funext l
    refine (term_mulVec 1 δ l).trans ?_
    change rowApply _ δ ((v 1).jac [((twiceWorld a x v).nh 1).val, ((twiceWorld a x v).nh 2).val] l) 0 [1, 2] = _
    rw [rowApply, rowApply, rowApply, Finset.sum_eq_zero fun k _ => by rw [spread_of_notMem δ h1, mul_zero], e1, e2, d1,
      zero_add, zero_add, add_zero, aux _ d2 fun k => (v 1).jac [a 1, x] l ((a 1).1.dim + k) * (twiceWorld a x v).spread δ 2 k]
    rfl

theorem twice_weight (h : Measured a x v) : (factorTerm (twiceWorld a x v) 0).W = (v 0).W ∧ (factorTerm (twiceWorld a x v) 1).W = (v 1).W := by
  have e : ∀ r c d, r = Robust.quadratic → robustWeight r c d = 1 := by rintro _ _ _ rfl; rfl
  constructor
  · exact (congrArg (· • (v 0).W) (e _ _ _ h.plain0)).trans (one_smul _ _)
  · exact (congrArg (· • (v 1).W) (e _ _ _ h.plain1)).trans (one_smul _ _)

theorem twice_forms (h : Measured a x v) (δ z : Cols (twiceWorld a x v) → ℝ) :
    δ ⬝ᵥ (infoMatrix (graphTerms (twiceWorld a x v)) *ᵥ z) =
      (fun k : Fin x.1.dim => (twiceWorld a x v).spread δ 2 k) ⬝ᵥ
        (((twiceJac (a 0) x (v 0))ᵀ * (v 0).W * twiceJac (a 0) x (v 0) + (twiceJac (a 1) x (v 1))ᵀ * (v 1).W * twiceJac (a 1) x (v 1)) *ᵥ
          fun k : Fin x.1.dim => (twiceWorld a x v).spread z 2 k) ∧
    δ ⬝ᵥ infoVector (graphTerms (twiceWorld a x v)) =
      (fun k : Fin x.1.dim => (twiceWorld a x v).spread δ 2 k) ⬝ᵥ
        ((twiceJac (a 0) x (v 0))ᵀ *ᵥ ((v 0).W *ᵥ (v 0).res [a 0, x]) + (twiceJac (a 1) x (v 1))ᵀ *ᵥ ((v 1).W *ᵥ (v 1).res [a 1, x])) := by
  obtain ⟨e0, e1, e2⟩ := twice_val h
  obtain ⟨w0, w1⟩ := twice_weight h
  have k0 := twice_row h δ
  have k0' := twice_row h z
  constructor
  · unfold infoMatrix
    rw [Spec.sum_mulVec, Spec.dotProduct_list_sum]
    change δ ⬝ᵥ (((factorTerm (twiceWorld a x v) 0).Jᵀ * (factorTerm (twiceWorld a x v) 0).W * (factorTerm (twiceWorld a x v) 0).J) *ᵥ z) +
      (δ ⬝ᵥ (((factorTerm (twiceWorld a x v) 1).Jᵀ * (factorTerm (twiceWorld a x v) 1).W * (factorTerm (twiceWorld a x v) 1).J) *ᵥ z) + 0) = _
    rw [← mulVec_mulVec, ← mulVec_mulVec, ← mulVec_mulVec, ← mulVec_mulVec, dotProduct_mulVec, dotProduct_mulVec δ, vecMul_transpose,
      vecMul_transpose, k0.1, k0.2, k0'.1, k0'.2, w0, w1, add_zero, add_mulVec, dotProduct_add, ← mulVec_mulVec, ← mulVec_mulVec,
      ← mulVec_mulVec, ← mulVec_mulVec, dotProduct_mulVec _ (twiceJac (a 0) x (v 0))ᵀ, dotProduct_mulVec _ (twiceJac (a 1) x (v 1))ᵀ,
      vecMul_transpose, vecMul_transpose]
    rfl
  · unfold infoVector
    rw [Spec.dotProduct_list_sum]
    change δ ⬝ᵥ (((factorTerm (twiceWorld a x v) 0).Jᵀ * (factorTerm (twiceWorld a x v) 0).W) *ᵥ
        (v 0).res [((twiceWorld a x v).nh 0).val, ((twiceWorld a x v).nh 2).val]) +
      (δ ⬝ᵥ (((factorTerm (twiceWorld a x v) 1).Jᵀ * (factorTerm (twiceWorld a x v) 1).W) *ᵥ
        (v 1).res [((twiceWorld a x v).nh 1).val, ((twiceWorld a x v).nh 2).val]) + 0) = _
    have key : ∀ (d : ℕ) (J : Matrix (Fin d) (Cols (twiceWorld a x v)) ℝ) (W W' : Matrix (Fin d) (Fin d) ℝ) (r : Fin d → ℝ)
        (M : Matrix (Fin d) (Fin x.1.dim) ℝ) (u : Fin x.1.dim → ℝ), J *ᵥ δ = M *ᵥ u → W = W' →
        δ ⬝ᵥ ((Jᵀ * W) *ᵥ r) = u ⬝ᵥ (Mᵀ *ᵥ (W' *ᵥ r)) := by
      rintro d J W _ r M u h rfl
      rw [← mulVec_mulVec, dotProduct_mulVec, vecMul_transpose, h, dotProduct_mulVec u, vecMul_transpose]
    rw [e0, e1, e2, add_zero, dotProduct_add]
    exact congrArg₂ (· + ·) (key _ _ _ _ _ _ _ k0.1 w0) (key _ _ _ _ _ _ _ k0.2 w1)

/-- The normal equations of the graph and those of the node. -/
theorem twice_normal (h : Measured a x v)
    (hpd : ((twiceJac (a 0) x (v 0))ᵀ * (v 0).W * twiceJac (a 0) x (v 0) +
      (twiceJac (a 1) x (v 1))ᵀ * (v 1).W * twiceJac (a 1) x (v 1)).PosDef) (y : Fin x.1.dim → ℝ)
    (hy : ((twiceJac (a 0) x (v 0))ᵀ * (v 0).W * twiceJac (a 0) x (v 0) +
        (twiceJac (a 1) x (v 1))ᵀ * (v 1).W * twiceJac (a 1) x (v 1)) *ᵥ y =
      (twiceJac (a 0) x (v 0))ᵀ *ᵥ ((v 0).W *ᵥ (v 0).res [a 0, x]) + (twiceJac (a 1) x (v 1))ᵀ *ᵥ ((v 1).W *ᵥ (v 1).res [a 1, x])) :
    (infoMatrix (graphTerms (twiceWorld a x v))).PosDef ∧ ∀ X : Cols (twiceWorld a x v) → ℝ,
      infoMatrix (graphTerms (twiceWorld a x v)) *ᵥ X = infoVector (graphTerms (twiceWorld a x v)) →
      (twiceWorld a x v).spread (-X) 2 = fun k => if hk : k < x.1.dim then -y ⟨k, hk⟩ else 0 := by
  have hw := twice_wellPosed h
  have hmem : (2 : NRef) ∈ (twiceWorld a x v).g.active := by rw [twice_active]; simp
  have d2 : ((twiceWorld a x v).nh 2).dim = x.1.dim := by rw [← (twice_val h).2.2]; rfl
  have hsp : ∀ z : Cols (twiceWorld a x v) → ℝ, (∀ k : Fin x.1.dim, (twiceWorld a x v).spread z 2 k = 0) → z = 0 := by
    intro z hz
    funext c
    rw [← spread_apply z c]
    obtain ⟨⟨n, hn⟩, k⟩ := c
    have hn' := hn
    rw [twice_active, List.mem_singleton] at hn'
    subst hn'
    exact hz ⟨k, d2 ▸ k.2⟩
  have hPD : (infoMatrix (graphTerms (twiceWorld a x v))).PosDef := by
    refine Matrix.PosDef.of_dotProduct_mulVec_pos (FGraphSolve.terms_psd hw).isHermitian fun {z} hz => ?_
    rw [star_trivial, (twice_forms h z z).1]
    have := hpd.dotProduct_mulVec_pos (x := fun k : Fin x.1.dim => (twiceWorld a x v).spread z 2 k)
      (fun h0 => hz (hsp z fun k => congrFun h0 k))
    simpa using this
  refine ⟨hPD, fun X hx => ?_⟩
  have hsol : (fun k : Fin x.1.dim => (twiceWorld a x v).spread X 2 k) = y := by
    by_contra hne
    have hpos := hpd.dotProduct_mulVec_pos (sub_ne_zero.mpr hne)
    rw [mulVec_sub, hy, star_trivial] at hpos
    set u := (fun k : Fin x.1.dim => (twiceWorld a x v).spread X 2 k) - y with hu
    let U : Cols (twiceWorld a x v) → ℝ := fun c => if hk : (c.2 : ℕ) < x.1.dim then u ⟨c.2, hk⟩ else 0
    have hU : (fun k : Fin x.1.dim => (twiceWorld a x v).spread U 2 k) = u := by
      funext k
      rw [spread, dif_pos ⟨hmem, by rw [d2]; exact k.2⟩]
      exact dif_pos k.2
    have f1 := (twice_forms h U X).1
    have f2 := (twice_forms h U X).2
    rw [hU] at f1 f2
    rw [dotProduct_sub, ← f1, ← f2, hx, sub_self] at hpos
    exact lt_irrefl _ hpos
  funext k
  by_cases hk : k < x.1.dim
  · rw [dif_pos hk, ← congrFun hsol ⟨k, hk⟩, spread, spread, dif_pos ⟨hmem, by rw [d2]; exact hk⟩,
      dif_pos ⟨hmem, by rw [d2]; exact hk⟩]
    rfl
  · rw [dif_neg hk, spread, dif_neg (by rw [d2]; exact fun h => hk h.2)]

/-- The result of a Gauss-Newton step, from the normal equations of the node. -/
theorem twice_gn (h : Measured a x v)
    (hpd : ((twiceJac (a 0) x (v 0))ᵀ * (v 0).W * twiceJac (a 0) x (v 0) +
      (twiceJac (a 1) x (v 1))ᵀ * (v 1).W * twiceJac (a 1) x (v 1)).PosDef) (y : Fin x.1.dim → ℝ)
    (hy : ((twiceJac (a 0) x (v 0))ᵀ * (v 0).W * twiceJac (a 0) x (v 0) +
        (twiceJac (a 1) x (v 1))ᵀ * (v 1).W * twiceJac (a 1) x (v 1)) *ᵥ y =
      (twiceJac (a 0) x (v 0))ᵀ *ᵥ ((v 0).W *ᵥ (v 0).res [a 0, x]) + (twiceJac (a 1) x (v 1))ᵀ *ᵥ ((v 1).W *ᵥ (v 1).res [a 1, x]))
    (s : FGraphSolve) (hs : s.w = twiceWorld a x v) :
    (infoMatrix (graphTerms s.w)).PosDef ∧ ∃ s1, s.solve Env.exact .GN 20 1e-6 1e-2 = .ok s1 ∧
      (s1.w.nh 2).val = x.upd fun k => if hk : k < x.1.dim then -y ⟨k, hk⟩ else 0 := by
  have hw := twice_wellPosed h
  have hmem : (2 : NRef) ∈ (twiceWorld a x v).g.active := by rw [twice_active]; simp
  obtain ⟨hPD, hn⟩ := twice_normal h hpd y hy
  obtain ⟨w, lambda, tol, sys, mats⟩ := s
  dsimp only at hs
  subst hs
  obtain ⟨s1, h1⟩ := C36_returns Env.exact Env.exact_complete ⟨twiceWorld a x v, lambda, tol, sys, mats⟩ hw hPD 20 1e-6 1e-2
  refine ⟨hPD, s1, h1, ?_⟩
  obtain ⟨dx, hdx, hw1⟩ := FGraphSolve.gn_ok hw h1
  have hx := FGraphSolve.normal_solution Env.exact_sound hw hdx
  rw [hw1]
  change (((twiceWorld a x v).moved ((twiceWorld a x v).unstack dx)).nh 2).val = _
  rw [moved_step hw.wired]
  have hv : ((((twiceWorld a x v).moved ((twiceWorld a x v).spread (step hw.wired dx))).nh 2).val) =
      (((twiceWorld a x v).nh 2).val).upd ((twiceWorld a x v).spread (step hw.wired dx) 2) := by
    rw [moved]
    simp only [if_pos hmem]
    rfl
  rw [hv, (twice_val h).2.2]
  exact congrArg x.upd (hn _ hx)

end Mrob.Demo
