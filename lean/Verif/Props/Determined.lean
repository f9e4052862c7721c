import Verif.Lemmas.Determined
import Verif.Props.Getters
import Verif.Props.Plane

/-!
# C97: graphs that determine their nodes
-/

open Matrix

namespace Mrob

open World Spec

/-- C97: when every node is an anchor or tied to anchors and priors by a chain of measurements with positive definite
information, the information matrix is positive definite at every state whose 3D poses are rigid motions, and one
Gauss-Newton call returns. -/
theorem C97_determined (env : Env) (henv : env.Complete) (s : FGraphSolve) (hw : WellPosed s.w)
    (hR : ∀ f ∈ s.w.g.factors, ∀ n ∈ (s.w.fh f).nbrs, ∀ X : SE3, (s.w.nh n).val = ⟨.pose3d, X⟩ → IsRigid X.T)
    (ht : ∀ n ∈ s.w.g.active, Tied s.w n) (k : ℕ) (l t : ℝ) :
    (infoMatrix (graphTerms s.w)).PosDef ∧ ∃ s', s.solve env .GN k l t = .ok s' := by
  have h := posDef_of_tied hw (fun f hf n hn X hX => .of_rigid (hR f hf n hn X hX)) ht
  exact ⟨h, C36_returns env henv s hw h k l t⟩

/-- C97: on such a graph no sequence of calls of `solve`, with any methods and parameters, ends in NaN, an exception or
undefined behaviour, and the information matrix is positive definite after each of them. -/
theorem C97_session (env : Env) (henv : env.Complete) (calls : List (FGraphSolve.Method × ℕ × ℝ × ℝ)) (s : FGraphSolve)
    (hw : WellPosed s.w)
    (hR : ∀ f ∈ s.w.g.factors, ∀ n ∈ (s.w.fh f).nbrs, ∀ X : SE3, (s.w.nh n).val = ⟨.pose3d, X⟩ → IsRigid X.T)
    (ht : ∀ n ∈ s.w.g.active, Tied s.w n) :
    ∃ s', solveAll env calls s = .ok s' ∧ (infoMatrix (graphTerms s'.w)).PosDef := by
  have hs : SolidPoses s.w := fun f hf n hn X hX => .of_rigid (hR f hf n hn X hX)
  clear hR
  induction calls generalizing s with
  | nil => exact ⟨s, rfl, posDef_of_tied hw hs ht⟩
  | cons c cs ih =>
    obtain ⟨s1, h1, hw1, hs1, ht1⟩ := FGraphSolve.solve_returns henv hw hs ht c.1 c.2.1 c.2.2.1 c.2.2.2
    obtain ⟨s2, h2, h3⟩ := ih s1 hw1 ht1 hs1
    exact ⟨s2, by rw [solveAll, h1]; exact h2, h3⟩

/-- C97, converse: a planar graph of relative measurements only, without anchors, does not determine its nodes; the
information matrix is singular and Gauss-Newton fails with a solver that does not accept singular matrices. -/
theorem C97_free (env : Env) (henv : ∀ N L b, L.det = 0 → env.chol N L b = none) (s : FGraphSolve) (hw : WellPosed s.w)
    (hne : s.w.g.active ≠ []) (ha : ∀ f ∈ s.w.g.factors, ∀ n ∈ (s.w.fh f).nbrs, n ∈ s.w.g.active)
    (hrel : ∀ f ∈ s.w.g.factors, Relative s.w (s.w.fh f).virt (s.w.fh f).nbrs) (k : ℕ) (l t : ℝ) :
    (infoMatrix (graphTerms s.w)).det = 0 ∧ s.solve env .GN k l t = .nan := by
  have h : (infoMatrix (graphTerms s.w)).det = 0 := by
    refine det_of_unseen (commonX_ne hne) fun f hf => ?_
    funext i
    rw [term_mulVec, Pi.zero_apply]
    exact relative_zero (hrel f hf) (hw.wired.typed f hf) (ha f hf) i
  exact ⟨h, FGraphSolve.gn_nan hw k l t (henv _ _ _ (assembly_det hw h))⟩

/-- C97, converse: with fewer scalar measurements than unknowns the information matrix is singular. -/
theorem C97_few (env : Env) (henv : ∀ N L b, L.det = 0 → env.chol N L b = none) (s : FGraphSolve) (hw : WellPosed s.w)
    (h : s.w.g.obsDim < s.w.g.stateDim) (k : ℕ) (l t : ℝ) :
    (infoMatrix (graphTerms s.w)).det = 0 ∧ s.solve env .GN k l t = .nan := by
  have h : (infoMatrix (graphTerms s.w)).det = 0 := by
    refine det_of_few ?_
    rw [Fintype.card_congr (colEquiv hw.wired), Fintype.card_fin, ← total_eq_sum]
    exact lt_of_le_of_lt hw.wired.obsDim h
  exact ⟨h, FGraphSolve.gn_nan hw k l t (henv _ _ _ (assembly_det hw h))⟩

/-- C97, converse: an unknown node without a measurement makes the information matrix singular. -/
theorem C97_isolated (env : Env) (henv : ∀ N L b, L.det = 0 → env.chol N L b = none) (s : FGraphSolve) (hw : WellPosed s.w)
    (m : NRef) (hm : m ∈ s.w.g.active) (hiso : ∀ f ∈ s.w.g.factors, m ∉ (s.w.fh f).nbrs) (k : ℕ) (l t : ℝ) :
    (infoMatrix (graphTerms s.w)).det = 0 ∧ s.solve env .GN k l t = .nan := by
  have h : (infoMatrix (graphTerms s.w)).det = 0 := by
    refine det_of_unseen (δ := shiftOne s.w m) ?_ fun f hf => ?_
    · intro h0
      have := congrFun h0 ⟨⟨m, hm⟩, ⟨0, NodeCell.dim_pos _⟩⟩
      rw [shiftOne, if_pos ⟨rfl, rfl⟩] at this
      exact one_ne_zero (this : (1 : ℝ) = 0)
    · funext i
      rw [term_mulVec, Pi.zero_apply]
      refine rowApply_zero (fun n hn j => ?_) _ _
      rw [spread]
      split
      · exact if_neg fun (h : n = m ∧ j = 0) => hiso f hf (h.1 ▸ hn)
      · rfl
  exact ⟨h, FGraphSolve.gn_nan hw k l t (henv _ _ _ (assembly_det hw h))⟩

namespace Demo

/-- Node 0 is a known 3D pose, node 1 a pose, node 2 a point and the others planes. -/
noncomputable def tiNodes : NRef → NodeCell := fun n =>
  if n = 0 then NodeCell.new .pose3d SE3.default .anchor
  else if n = 1 then NodeCell.new .pose3d SE3.default .standard
  else if n = 2 then NodeCell.new .landmark3d ![5, 0, 0] .standard
  else NodeCell.new .plane4d (Sum.elim ![0, 0, 1] fun _ => 7) .standard

/-- The pose is measured from the known one, the point (robustly) and a plane from the pose; another measurement of the
point has no information. -/
noncomputable def tiFactors : FRef → FactorCell := fun f =>
  if f = 0 then FactorCell.new (.rel3d SE3.default 1 .quadratic) [0, 1] 0 0
  else if f = 1 then FactorCell.new (.land3d ![4, 0, 0] 1 false .cauchy) [1, 2] 0 0
  else if f = 2 then FactorCell.new (.plane4d (Sum.elim ![0, 1, 1] fun _ => 3) 1 false .quadratic) [1, 3] 0 0
  else FactorCell.new (.land3d ![4, 9, 0] 0 false .quadratic) [0, 2] 0 0

/-- Objects before any call. -/
noncomputable def tiWorld₀ : World := ⟨tiNodes, tiFactors, emptyGraph⟩
/-- The calls. -/
def tiOps : List GraphOp :=
  [.addNode 0, .addNode 1, .addNode 2, .addNode 3, .addFactor 0, .addFactor 1, .addFactor 2, .addFactor 3]
/-- The object. -/
noncomputable def tiSolver : FGraphSolve := ⟨World.run tiOps tiWorld₀, 1e-6, 1e-2, ⟨0, 0, 0, 0⟩, ⟨0, 0, 0, 0, 0⟩⟩

theorem ti_proper : Proper tiWorld₀ tiOps := by
  constructor
  · intro op hop n m; simp [tiOps] at hop
    rcases hop with rfl | rfl | rfl | rfl | rfl | rfl | rfl | rfl <;> simp
  · simp [addedNodes, tiOps]
  · intro n hn; simp [addedNodes, tiOps] at hn
    rcases hn with rfl | rfl | rfl | rfl <;> simp [tiWorld₀, tiNodes, NodeCell.new]
  all_goals
    intro f hf
    simp [addedFactors, tiOps] at hf
  · intro n hn
    rcases hf with rfl | rfl | rfl | rfl <;> simp [tiWorld₀, tiFactors, FactorCell.new] at hn <;> left <;>
      rcases hn with rfl | rfl <;> simp [addedNodes, tiOps]
  · rcases hf with rfl | rfl | rfl | rfl <;> simp [tiWorld₀, tiFactors, tiNodes, FactorCell.new, NodeCell.new]
  · rcases hf with rfl | rfl | rfl | rfl <;> simp [tiWorld₀, tiFactors, tiNodes, FactorCell.new, NodeCell.new, FactorCell.wellTyped,
      FactorVirt.rel3d, FactorVirt.land3d, FactorVirt.plane4d]

theorem ti_active : tiSolver.w.g.active = [1, 2, 3] := rfl
theorem ti_factors : tiSolver.w.g.factors = [0, 1, 2, 3] := rfl
theorem ti_fh0 : (tiSolver.w.fh 0).virt = .rel3d SE3.default 1 .quadratic ∧ (tiSolver.w.fh 0).nbrs = [0, 1] := ⟨rfl, rfl⟩
theorem ti_fh1 : (tiSolver.w.fh 1).virt = .land3d ![4, 0, 0] 1 false .cauchy ∧ (tiSolver.w.fh 1).nbrs = [1, 2] := ⟨rfl, rfl⟩
theorem ti_fh2 : (tiSolver.w.fh 2).virt = .plane4d (Sum.elim ![0, 1, 1] fun _ => 3) 1 false .quadratic ∧
    (tiSolver.w.fh 2).nbrs = [1, 3] := ⟨rfl, rfl⟩

theorem ti_wellPosed : WellPosed tiSolver.w := by
  refine run_wellPosed rfl ti_proper (fun f hf => ?_) fun f hf => ?_ <;> simp [addedFactors, tiOps] at hf
  · rcases hf with rfl | rfl | rfl | rfl
    · exact (Matrix.PosSemidef.one (n := Fin 6))
    · exact (Matrix.PosSemidef.one (n := Fin 3))
    · exact (Matrix.PosSemidef.one (n := Fin 4))
    · exact (Matrix.PosSemidef.zero (n := Fin 3))
  · rcases hf with rfl | rfl | rfl | rfl <;> exact le_refl (0 : ℝ)

theorem ti_rigid : ∀ f ∈ tiSolver.w.g.factors, ∀ n ∈ (tiSolver.w.fh f).nbrs, ∀ X : SE3,
    (tiSolver.w.nh n).val = ⟨.pose3d, X⟩ → IsRigid X.T := by
  have key : ∀ n X, (tiNodes n).val = ⟨.pose3d, X⟩ → IsRigid X.T := by
    intro n X
    unfold tiNodes
    split_ifs
    · intro h; have := eq_of_heq (Sigma.mk.inj h).2; rw [← this]; exact rigid_default
    · intro h; have := eq_of_heq (Sigma.mk.inj h).2; rw [← this]; exact rigid_default
    · intro h; exact absurd (Sigma.mk.inj h).1 NodeKind.noConfusion
    · intro h; exact absurd (Sigma.mk.inj h).1 NodeKind.noConfusion
  intro f hf n hn X hX
  refine key n X ?_
  rw [← hX]
  exact (run_nh_static tiOps tiWorld₀ n).1.symm

theorem ti_tied : ∀ n ∈ tiSolver.w.g.active, Tied tiSolver.w n := by
  have h0 : Tied tiSolver.w 0 := .known (by rw [ti_active]; decide)
  have h1 : Tied tiSolver.w 1 := by
    refine .measured (f := 0) (known := [0]) (by rw [ti_factors]; decide) ?_ ?_ ?_ (by simpa using h0)
    · rw [ti_fh0.1]; exact (Matrix.PosDef.one (n := Fin 6))
    · rw [ti_fh0.1]; decide
    · rw [ti_fh0.1, ti_fh0.2]; exact .rel3d rigid_default
  have h2 : Tied tiSolver.w 2 := by
    refine .measured (f := 1) (known := [1]) (by rw [ti_factors]; decide) ?_ ?_ ?_ (by simpa using h1)
    · rw [ti_fh1.1]; exact (Matrix.PosDef.one (n := Fin 3))
    · rw [ti_fh1.1]; decide
    · rw [ti_fh1.1, ti_fh1.2]; exact .land3d
  have h3 : Tied tiSolver.w 3 := by
    refine .measured (f := 2) (known := [1]) (by rw [ti_factors]; decide) ?_ ?_ ?_ (by simpa using h1)
    · rw [ti_fh2.1]; exact (Matrix.PosDef.one (n := Fin 4))
    · rw [ti_fh2.1]; decide
    · rw [ti_fh2.1, ti_fh2.2]; exact .plane4d
  intro n hn
  rw [ti_active] at hn
  simp at hn
  rcases hn with rfl | rfl | rfl <;> assumption

/-- Poses at the origin and landmarks at `(3, 0)`. -/
noncomputable def frNodes : NRef → NodeCell := fun n =>
  if n = 0 ∨ n = 1 then NodeCell.new .pose2d 0 .standard else NodeCell.new .landmark2d ![3, 0] .standard

/-- The second pose is measured from the first one, twice; the landmark from both. -/
noncomputable def frFactors : FRef → FactorCell := fun f =>
  if f = 0 then FactorCell.new (.rel2d ![1, 0, 0] 1 .quadratic) [0, 1] 0 0
  else if f = 1 then FactorCell.new (.land2d ![2, 0] 1 false .cauchy) [1, 2] 0 0
  else if f = 2 then FactorCell.new (.odom ![0, 1, 0] 1 .quadratic) [0, 1] 0 0
  else FactorCell.new (.land2d ![3, 1] 1 false .quadratic) [0, 2] 0 0

/-- Objects before any call. -/
noncomputable def frWorld₀ : World := ⟨frNodes, frFactors, emptyGraph⟩
/-- Two poses and a landmark. -/
def frOps : List GraphOp := [.addNode 0, .addNode 1, .addNode 2, .addFactor 0, .addFactor 1, .addFactor 2, .addFactor 3]
/-- The first two measurements only. -/
def frFew : List GraphOp := [.addNode 0, .addNode 1, .addNode 2, .addFactor 0, .addFactor 1]
/-- One more landmark, never seen. -/
def frLone : List GraphOp :=
  [.addNode 0, .addNode 1, .addNode 2, .addNode 3, .addFactor 0, .addFactor 1, .addFactor 2, .addFactor 3]
/-- The object. -/
noncomputable def frSolver (ops : List GraphOp) : FGraphSolve := ⟨World.run ops frWorld₀, 1e-6, 1e-2, ⟨0, 0, 0, 0⟩, ⟨0, 0, 0, 0, 0⟩⟩

theorem fr_wellPosed {ops : List GraphOp} (h1 : NoSetMode ops) (h2 : (addedNodes ops).Nodup) (h3 : ∀ n ∈ [0, 1, 2], n ∈ addedNodes ops)
    (h4 : ∀ f ∈ addedFactors ops, f = 0 ∨ f = 1 ∨ f = 2 ∨ f = 3) : WellPosed (frSolver ops).w := by
  refine run_wellPosed rfl ⟨h1, h2, ?_, ?_, ?_, ?_⟩ ?_ ?_
  · intro n _
    change (frNodes n).mode ≠ .schur
    unfold frNodes
    split_ifs <;> simp [NodeCell.new]
  all_goals
    intro f hf
    replace hf := h4 f hf
  · intro n hn
    left
    refine h3 n ?_
    rcases hf with rfl | rfl | rfl | rfl <;> simp [frWorld₀, frFactors, FactorCell.new] at hn <;>
      rcases hn with rfl | rfl <;> simp
  · rcases hf with rfl | rfl | rfl | rfl <;> simp [frWorld₀, frFactors, frNodes, FactorCell.new, NodeCell.new]
  · rcases hf with rfl | rfl | rfl | rfl <;> simp [frWorld₀, frFactors, frNodes, FactorCell.new, NodeCell.new, FactorCell.wellTyped,
      FactorVirt.rel2d, FactorVirt.land2d, FactorVirt.odom]
  · rcases hf with rfl | rfl | rfl | rfl
    · exact (Matrix.PosSemidef.one (n := Fin 3))
    · exact (Matrix.PosSemidef.one (n := Fin 2))
    · exact (Matrix.PosSemidef.one (n := Fin 3))
    · exact (Matrix.PosSemidef.one (n := Fin 2))
  · rcases hf with rfl | rfl | rfl | rfl <;> exact le_refl (0 : ℝ)

theorem fr_factors : (frSolver frOps).w.g.factors = [0, 1, 2, 3] := rfl
theorem fr_active : (frSolver frOps).w.g.active = [0, 1, 2] := rfl

theorem fr_relative : ∀ f ∈ (frSolver frOps).w.g.factors,
    Relative (frSolver frOps).w ((frSolver frOps).w.fh f).virt ((frSolver frOps).w.fh f).nbrs := by
  intro f hf
  rw [fr_factors] at hf
  simp at hf
  have hq : (1e-6 : ℝ) ≤ ((![3, 0] : Vec2) 0 - (0 : Vec3) 0) ^ 2 + ((![3, 0] : Vec2) 1 - (0 : Vec3) 1) ^ 2 := by norm_num
  rcases hf with rfl | rfl | rfl | rfl
  · exact .rel2d
  · exact .land2d (x := 0) (y := ![3, 0]) rfl rfl hq
  · exact .odom
  · exact .land2d (x := 0) (y := ![3, 0]) rfl rfl hq

theorem exact_singular : ∀ N L b, L.det = 0 → Env.exact.chol N L b = none := by
  intro N L b h
  simp [Env.exact, h]

end Demo

example : Env.exact.Complete ∧ WellPosed Demo.tiSolver.w ∧
    (∀ f ∈ Demo.tiSolver.w.g.factors, ∀ n ∈ (Demo.tiSolver.w.fh f).nbrs, ∀ X : SE3,
      (Demo.tiSolver.w.nh n).val = ⟨.pose3d, X⟩ → IsRigid X.T) ∧
    ∀ n ∈ Demo.tiSolver.w.g.active, Tied Demo.tiSolver.w n :=
  ⟨Env.exact_complete, Demo.ti_wellPosed, Demo.ti_rigid, Demo.ti_tied⟩

example : ∃ s', solveAll Env.exact [(.GN, 1, 0, 0), (.LM, 20, 1, -3), (.GN, 1, 0, 0)] Demo.tiSolver = .ok s' ∧
    (infoMatrix (graphTerms s'.w)).PosDef :=
  C97_session _ Env.exact_complete _ _ Demo.ti_wellPosed Demo.ti_rigid Demo.ti_tied

example : (Demo.frSolver Demo.frOps).solve Env.exact .GN 1 0 0 = .nan := by
  refine (C97_free _ Demo.exact_singular _ (Demo.fr_wellPosed ?_ ?_ ?_ ?_) ?_ ?_ Demo.fr_relative _ _ _).2
  · intro op hop n m; simp [Demo.frOps] at hop; rcases hop with rfl | rfl | rfl | rfl | rfl | rfl | rfl <;> simp
  · simp [addedNodes, Demo.frOps]
  · simp [addedNodes, Demo.frOps]
  · simp [addedFactors, Demo.frOps]
  · rw [Demo.fr_active]; simp
  · intro f hf n hn
    rw [Demo.fr_factors] at hf
    rw [Demo.fr_active]
    simp at hf
    rcases hf with rfl | rfl | rfl | rfl
    · exact (by simp : ∀ n : ℕ, n ∈ [0, 1] → n ∈ [0, 1, 2]) n hn
    · exact (by simp : ∀ n : ℕ, n ∈ [1, 2] → n ∈ [0, 1, 2]) n hn
    · exact (by simp : ∀ n : ℕ, n ∈ [0, 1] → n ∈ [0, 1, 2]) n hn
    · exact (by simp : ∀ n : ℕ, n ∈ [0, 2] → n ∈ [0, 1, 2]) n hn

example : (Demo.frSolver Demo.frFew).solve Env.exact .GN 1 0 0 = .nan := by
  refine (C97_few _ Demo.exact_singular (Demo.frSolver Demo.frFew) (Demo.fr_wellPosed ?_ ?_ ?_ ?_) (show (5 : ℕ) < 8 by decide) _ _ _).2
  · intro op hop n m; simp [Demo.frFew] at hop; rcases hop with rfl | rfl | rfl | rfl | rfl <;> simp
  · simp [addedNodes, Demo.frFew]
  · simp [addedNodes, Demo.frFew]
  · simp [addedFactors, Demo.frFew]

example : (Demo.frSolver Demo.frLone).solve Env.exact .GN 1 0 0 = .nan := by
  refine (C97_isolated _ Demo.exact_singular _ (Demo.fr_wellPosed ?_ ?_ ?_ ?_) 3 ?_ ?_ _ _ _).2
  · intro op hop n m; simp [Demo.frLone] at hop; rcases hop with rfl | rfl | rfl | rfl | rfl | rfl | rfl | rfl <;> simp
  · simp [addedNodes, Demo.frLone]
  · simp [addedNodes, Demo.frLone]
  · simp [addedFactors, Demo.frLone]
  · exact (by decide : (3 : ℕ) ∈ [0, 1, 2, 3])
  · intro f hf
    have hf : f ∈ [0, 1, 2, 3] := hf
    simp at hf
    rcases hf with rfl | rfl | rfl | rfl
    · exact (by decide : (3 : ℕ) ∉ [0, 1])
    · exact (by decide : (3 : ℕ) ∉ [1, 2])
    · exact (by decide : (3 : ℕ) ∉ [0, 1])
    · exact (by decide : (3 : ℕ) ∉ [0, 2])

end Mrob
