import Verif.Lemmas.Proper

/-!
# Small graphs used in examples and counterexamples
-/

open Matrix

namespace Mrob.Demo

open World

/-- Planar poses at the origin; the node object 0 is an anchor. -/
noncomputable def nodes (x : Vec3) : NRef → NodeCell := fun n =>
  if n = 0 then NodeCell.new .pose2d 0 .anchor else NodeCell.new .pose2d x .standard

/-- Factor object 0 is a prior on node 1, all others are relative factors between the nodes 0 and 1. -/
noncomputable def factors (obs : Vec3) (ty : Robust) : FRef → FactorCell := fun f =>
  if f = 0 then FactorCell.new (.prior2d obs 1 ty) [1] 0 0 else FactorCell.new (.rel2d obs 1 ty) [0, 1] 0 0

/-- Objects before any call. -/
noncomputable def world (x obs : Vec3) (ty : Robust) : World := ⟨nodes x, factors obs ty, emptyGraph⟩

/-- Two nodes and two factors. -/
def ops : List GraphOp := [.addNode 0, .addNode 1, .addFactor 0, .addFactor 1]
/-- The same in another order. -/
def ops' : List GraphOp := [.addNode 0, .addFactor 1, .addNode 1, .addFactor 0]

theorem proper (x obs : Vec3) (ty : Robust) : Proper (world x obs ty) ops := by
  constructor
  · intro op hop n m; simp [ops] at hop; rcases hop with rfl | rfl | rfl | rfl <;> simp
  · simp [addedNodes, ops]
  · intro n hn; simp [addedNodes, ops] at hn; rcases hn with rfl | rfl <;> simp [world, nodes, NodeCell.new]
  · intro f hf n hn
    simp [addedFactors, ops] at hf
    rcases hf with rfl | rfl
    · simp [world, factors, FactorCell.new] at hn; left; simp [hn, addedNodes, ops]
    · simp [world, factors, FactorCell.new] at hn; left; rcases hn with rfl | rfl <;> simp [addedNodes, ops]
  · intro f hf
    simp [addedFactors, ops] at hf
    rcases hf with rfl | rfl <;> simp [world, factors, nodes, FactorCell.new, NodeCell.new]
  · intro f hf
    simp [addedFactors, ops] at hf
    rcases hf with rfl | rfl <;>
      simp [world, factors, nodes, FactorCell.new, NodeCell.new, FactorCell.wellTyped, FactorVirt.prior2d,
        FactorVirt.rel2d]

theorem W_eq (obs : Vec3) (ty : Robust) (f : FRef) : (factors obs ty f).virt.dim = 3 := by
  by_cases h : f = 0 <;> simp [factors, h, FactorCell.new, FactorVirt.prior2d, FactorVirt.rel2d]

theorem posDef (obs : Vec3) (ty : Robust) (f : FRef) : (factors obs ty f).virt.W.PosDef := by
  by_cases h : f = 0
  · rw [factors, if_pos h]; exact Matrix.PosDef.one (R := ℝ) (n := Fin 3)
  · rw [factors, if_neg h]; exact Matrix.PosDef.one (R := ℝ) (n := Fin 3)

/-- A graph with the standard node 0; the factor is connected to the node object 1, which is not in the graph. -/
noncomputable def strayWorld : World :=
  World.run [.addNode 0, .addFactor 0]
    ⟨fun _ => NodeCell.new .pose2d 0 .standard, fun _ => FactorCell.new (.prior2d 0 1 .quadratic) [1] 0 0, emptyGraph⟩

/-- `strayWorld` after the evaluation of the factors. -/
noncomputable def stray1 : World := mapF (·.full strayWorld.nh) strayWorld.g.factors strayWorld

theorem stray_typed : ∀ f ∈ strayWorld.g.factors, (strayWorld.fh f).wellTyped strayWorld.nh := by
  have : strayWorld.g.factors = [0] := rfl
  rw [this]
  intro f hf
  rw [List.mem_singleton] at hf
  subst hf
  rfl

theorem stray_weightable : ∀ f ∈ stray1.g.factors, (stray1.fh f).weightable := by
  have : stray1.g.factors = [0] := rfl
  rw [this]
  intro f hf
  rw [List.mem_singleton] at hf
  subst hf
  have : (stray1.fh 0).virt.robust = .quadratic := rfl
  simp [FactorCell.weightable, this]

theorem stray_aIns : stray1.aIns (colPairs stray1.nh 0 stray1.g.active) 0 stray1.g.factors =
    [(0, 0, blk prior2dJac 0 0), (0, 1, blk prior2dJac 0 1), (0, 2, blk prior2dJac 0 2),
     (1, 0, blk prior2dJac 1 0), (1, 1, blk prior2dJac 1 1), (1, 2, blk prior2dJac 1 2),
     (2, 0, blk prior2dJac 2 0), (2, 1, blk prior2dJac 2 1), (2, 2, blk prior2dJac 2 2)] := rfl

theorem stray_wIns : (mapF (·.weighted) stray1.g.factors stray1).wIns 0 stray1.g.factors =
    [(0, 0, 1 * (1 : Mat3) 0 0), (0, 1, 1 * (1 : Mat3) 0 1), (0, 2, 1 * (1 : Mat3) 0 2),
     (1, 1, 1 * (1 : Mat3) 1 1), (1, 2, 1 * (1 : Mat3) 1 2), (2, 2, 1 * (1 : Mat3) 2 2)] := rfl

theorem stray_assembly (env : Env) : ∃ w' a, strayWorld.buildAdjacency env = .ok (w', a) ∧ ∃ e : 3 = a.N,
    a.L (Fin.cast e 0) (Fin.cast e 0) = 1 := by
  have hA : ∃ A, (SMat.empty 3 3).insertAll
      (stray1.aIns (colPairs stray1.nh 0 stray1.g.active) 0 stray1.g.factors) = .ok A := by
    rw [stray_aIns, SMat.insertAll_empty_iff]
    constructor
    · simp
    · simp
  have hW : ∃ W, (SMat.empty 3 3).insertAll ((mapF (·.weighted) stray1.g.factors stray1).wIns 0 stray1.g.factors) =
      .ok W := by
    rw [stray_wIns, SMat.insertAll_empty_iff]
    constructor
    · simp
    · simp
  obtain ⟨A, hA⟩ := hA
  obtain ⟨W, hW⟩ := hW
  refine ⟨mapF (·.weighted) stray1.g.factors stray1, ⟨3, 3, A.toMatrix 3 3, W.toMatrix 3 3,
    fun i => (mapF (·.weighted) stray1.g.factors stray1).rVec env.junk 0 stray1.g.factors i⟩, ?_, rfl, ?_⟩
  · rw [buildAdjacency, forAll_evalFull _ _ stray_typed, Out.ok_bind]
    change ((SMat.empty 3 3).insertAll (stray1.aIns (colPairs stray1.nh 0 stray1.g.active) 0 stray1.g.factors) >>= _) = _
    rw [hA, Out.ok_bind]
    change (forAll evalWeight stray1.g.factors stray1 >>= _) = _
    rw [forAll_evalWeight _ _ stray_weightable, Out.ok_bind]
    change ((SMat.empty 3 3).insertAll ((mapF (·.weighted) stray1.g.factors stray1).wIns 0 stray1.g.factors) >>= _) = _
    rw [hW, Out.ok_bind]
    rfl
  · have eA : A.toMatrix 3 3 = 1 := by
      ext i j
      rw [SMat.toMatrix, of_apply, SMat.insertAll_empty_get hA, stray_aIns]
      fin_cases i <;> fin_cases j <;> simp [blk, prior2dJac, Matrix.one_apply]
    have eW : symUpper (W.toMatrix 3 3) = 1 := by
      ext i j
      rw [symUpper, of_apply, SMat.toMatrix, of_apply, of_apply, SMat.insertAll_empty_get hW, SMat.insertAll_empty_get hW,
        stray_wIns]
      fin_cases i <;> fin_cases j <;> simp
    change ((A.toMatrix 3 3)ᵀ * symUpper (W.toMatrix 3 3) * A.toMatrix 3 3) 0 0 = 1
    rw [eA, eW]
    simp

end Mrob.Demo
