import Verif.Props.Assembly
import Verif.Lemmas.Dense
import Verif.Lemmas.DemoLM

/-!
# C44 and C45: nodes that are not in the graph, memory that is not written
-/

open Matrix

namespace Mrob

open World

namespace Demo

/-- A graph with an anchor (id 0) and the standard node 1; the factor is connected to the node object 2, which is not in the
graph and has the id 0 of its constructor. -/
noncomputable def lostWorld : World :=
  World.run [.addNode 0, .addNode 1, .addFactor 0]
    ⟨fun n => if n = 0 then NodeCell.new .pose2d 0 .anchor else NodeCell.new .pose2d 0 .standard,
      fun _ => FactorCell.new (.prior2d 0 1 .quadratic) [2] 0 0, emptyGraph⟩

/-- `lostWorld` after the evaluation of the factors. -/
noncomputable def lost1 : World := mapF (·.full lostWorld.nh) lostWorld.g.factors lostWorld

theorem lost_typed : ∀ f ∈ lostWorld.g.factors, (lostWorld.fh f).wellTyped lostWorld.nh := by
  have : lostWorld.g.factors = [0] := rfl
  rw [this]
  intro f hf
  rw [List.mem_singleton] at hf
  subst hf
  rfl

theorem lost_weightable : ∀ f ∈ lost1.g.factors, (lost1.fh f).weightable := by
  have : lost1.g.factors = [0] := rfl
  rw [this]
  intro f hf
  rw [List.mem_singleton] at hf
  subst hf
  have : (lost1.fh 0).virt.robust = .quadratic := rfl
  simp [FactorCell.weightable, this]

theorem lost_aIns : lost1.aIns (colPairs lost1.nh 0 lost1.g.active) 0 lost1.g.factors =
    [(0, 0, blk prior2dJac 0 0), (0, 1, blk prior2dJac 0 1), (0, 2, blk prior2dJac 0 2),
     (1, 0, blk prior2dJac 1 0), (1, 1, blk prior2dJac 1 1), (1, 2, blk prior2dJac 1 2),
     (2, 0, blk prior2dJac 2 0), (2, 1, blk prior2dJac 2 1), (2, 2, blk prior2dJac 2 2)] := rfl

theorem lost_wIns : (mapF (·.weighted) lost1.g.factors lost1).wIns 0 lost1.g.factors =
    [(0, 0, 1 * (1 : Mat3) 0 0), (0, 1, 1 * (1 : Mat3) 0 1), (0, 2, 1 * (1 : Mat3) 0 2),
     (1, 1, 1 * (1 : Mat3) 1 1), (1, 2, 1 * (1 : Mat3) 1 2), (2, 2, 1 * (1 : Mat3) 2 2)] := rfl

theorem lost_assembly (env : Env) : ∃ w' a, lostWorld.buildAdjacency env = .ok (w', a) ∧ ∃ e : 3 = a.N,
    ∀ i, a.L (Fin.cast e i) (Fin.cast e i) = 1 := by
  have hA : ∃ A, (SMat.empty 3 3).insertAll
      (lost1.aIns (colPairs lost1.nh 0 lost1.g.active) 0 lost1.g.factors) = .ok A := by
    rw [lost_aIns, SMat.insertAll_empty_iff]
    constructor
    · simp
    · simp
  have hW : ∃ W, (SMat.empty 3 3).insertAll ((mapF (·.weighted) lost1.g.factors lost1).wIns 0 lost1.g.factors) =
      .ok W := by
    rw [lost_wIns, SMat.insertAll_empty_iff]
    constructor
    · simp
    · simp
  obtain ⟨A, hA⟩ := hA
  obtain ⟨W, hW⟩ := hW
  refine ⟨mapF (·.weighted) lost1.g.factors lost1, ⟨3, 3, A.toMatrix 3 3, W.toMatrix 3 3,
    fun i => (mapF (·.weighted) lost1.g.factors lost1).rVec env.junk 0 lost1.g.factors i⟩, ?_, rfl, fun i => ?_⟩
  · rw [buildAdjacency, forAll_evalFull _ _ lost_typed, Out.ok_bind]
    change ((SMat.empty 3 3).insertAll (lost1.aIns (colPairs lost1.nh 0 lost1.g.active) 0 lost1.g.factors) >>= _) = _
    rw [hA, Out.ok_bind]
    change (forAll evalWeight lost1.g.factors lost1 >>= _) = _
    rw [forAll_evalWeight _ _ lost_weightable, Out.ok_bind]
    change ((SMat.empty 3 3).insertAll ((mapF (·.weighted) lost1.g.factors lost1).wIns 0 lost1.g.factors) >>= _) = _
    rw [hW, Out.ok_bind]
    rfl
  · have eA : A.toMatrix 3 3 = 1 := by
      ext i j
      rw [SMat.toMatrix, of_apply, SMat.insertAll_empty_get hA, lost_aIns]
      fin_cases i <;> fin_cases j <;> simp [blk, prior2dJac, Matrix.one_apply]
    have eW : symUpper (W.toMatrix 3 3) = 1 := by
      ext i j
      rw [symUpper, of_apply, SMat.toMatrix, of_apply, of_apply, SMat.insertAll_empty_get hW, SMat.insertAll_empty_get hW,
        lost_wIns]
      fin_cases i <;> fin_cases j <;> simp
    change ((A.toMatrix 3 3)ᵀ * symUpper (W.toMatrix 3 3) * A.toMatrix 3 3) i i = 1
    rw [eA, eW]
    simp

/-- A dense graph with the node 0; the factor connects it to the node object 1, which got its id 7 in another graph. -/
noncomputable def alienWorld : World :=
  World.run [.addNode 0, .addFactor 0]
    ⟨fun n => if n = 0 then NodeCell.new .pose2d 0 .standard else { NodeCell.new .pose2d 0 .standard with id := 7 },
      fun _ => FactorCell.new (.rel2d 0 1 .quadratic) [0, 1] 0 0, emptyGraph⟩

/-- A node, and two factors on it. -/
noncomputable def eigWorld₀ : World :=
  ⟨fun _ => NodeCell.new .pose2d 0 .standard, fun _ => FactorCell.new (.prior2d 0 1 .quadratic) [0] 0 0, emptyGraph⟩

/-- A graph with a prior and an eigen factor (both of dimension 3). -/
noncomputable abbrev eigWorld : World := World.run [.addNode 0, .addFactor 0, .addEigenFactor 1] eigWorld₀

theorem eig_proper : Proper eigWorld₀ [.addNode 0, .addFactor 0, .addEigenFactor 1] := by
  refine ⟨?_, ?_, ?_, ?_, ?_, ?_⟩
  · intro op hop n m
    simp at hop
    rcases hop with rfl | rfl | rfl <;> simp
  · simp [addedNodes]
  · intro n _; simp [eigWorld₀, NodeCell.new]
  · intro f _ n hn
    have : n ∈ [0] := hn
    simp at this
    subst this
    left
    simp [addedNodes]
  · intro f _
    change (List.filter _ [0]).Nodup
    exact (List.nodup_singleton _).filter _
  · intro f _
    rfl

theorem eig_wired : Wired eigWorld := C44_wired_partial _ rfl _ eig_proper

theorem eig_weightable : ∀ f ∈ eigWorld.g.factors, ((eigWorld.fh f).full eigWorld.nh).weightable := by
  have : eigWorld.g.factors = [0] := rfl
  rw [this]
  intro f hf
  rw [List.mem_singleton] at hf
  subst hf
  have : ((eigWorld.fh 0).full eigWorld.nh).virt.robust = .quadratic := rfl
  simp [FactorCell.weightable, this]

theorem eig_r (env : Env) : (eigWorld.assembly env).r (Fin.cast rfl (3 : Fin 6)) = env.junk 3 := rfl

end Demo

/-- C44 and C34 are false for a factor whose node is not in the graph, also when the graph has no unknown node with the id
of that node: `operator[]` of the map gives column 0, and the contribution of the factor goes to the first unknown node, to which
the factor is not connected. -/
theorem C44_lost_fails (env : Env) : ∃ w : World, w.g.active = [1] ∧ w.g.factors = [0] ∧ (w.fh 0).nbrs = [2] ∧ 2 ∉ w.g.nodes ∧
    (w.nh 2).id ≠ (w.nh 1).id ∧
    ∃ w' a, w.buildAdjacency env = .ok (w', a) ∧ ∃ e : (w.nh 1).dim = a.N, ∀ i, a.L (Fin.cast e i) (Fin.cast e i) = 1 := by
  refine ⟨Demo.lostWorld, rfl, rfl, rfl, ?_, ?_, Demo.lost_assembly env⟩
  · change (2 : ℕ) ∉ [0, 1]; decide
  · change (0 : ℕ) ≠ 1; decide

/-- C45 is false for a factor whose node is not in the dense graph: the search for its column runs past the end of the vector
of ids. -/
theorem C45_unregistered_fails : ∃ w : World, w.g.nodes = [0] ∧ w.g.factors = [0] ∧ (w.fh 0).nbrs = [0, 1] ∧
    (∀ f ∈ w.g.factors, (w.fh f).wellTyped w.nh) ∧ w.denseGradHess = .ub := by
  have ht : ∀ f ∈ Demo.alienWorld.g.factors, (Demo.alienWorld.fh f).wellTyped Demo.alienWorld.nh := by
    have : Demo.alienWorld.g.factors = [0] := rfl
    rw [this]
    intro f hf
    rw [List.mem_singleton] at hf
    subst hf
    rfl
  refine ⟨Demo.alienWorld, rfl, rfl, rfl, ht, ?_⟩
  rw [denseGradHess, forAll_evalFull _ _ ht, Out.ok_bind]
  rfl

/-- C44: what the memory of `r_` held before does not influence the linear system. -/
theorem C44_memory (w : World) (hw : Wired w) (hs : ∀ f ∈ w.g.factors, (w.fh f).virt.W.IsSymm)
    (hwt : ∀ f ∈ w.g.factors, ((w.fh f).full w.nh).weightable) (env env' : Env) :
    ∃ w' M N A W r r', w.buildAdjacency env = .ok (w', ⟨M, N, A, W, r⟩) ∧ w.buildAdjacency env' = .ok (w', ⟨M, N, A, W, r'⟩) ∧
      (Aᵀ * symUpper W) *ᵥ r = (Aᵀ * symUpper W) *ᵥ r' := by
  refine ⟨w.built, _, _, _, _, _, _, buildAdjacency_wired hw hwt env, buildAdjacency_wired hw hwt env', ?_⟩
  have h1 := assembly_b_terms hw env hs
  have h2 := assembly_b_terms hw env' hs
  funext i
  have h3 := congrFun (h1.trans h2.symm) ((colEquiv hw).symm i)
  have h4 : (w.assembly env).b ((colEquiv hw) ((colEquiv hw).symm i)) = (w.assembly env').b ((colEquiv hw) ((colEquiv hw).symm i)) := h3
  rw [Equiv.apply_symm_apply] at h4
  exact h4

/-- ... but it stays in `r_` when the graph has eigen factors, whose rows are counted and never written. -/
theorem C44_memory_fails (env env' : Env) (h : env.junk 3 ≠ env'.junk 3) : ∃ (w w' w'' : World) (a a' : Assembly),
    w = World.run [.addNode 0, .addFactor 0, .addEigenFactor 1] Demo.eigWorld₀ ∧
    w.buildAdjacency env = .ok (w', a) ∧ w.buildAdjacency env' = .ok (w'', a') ∧
    ∃ (e : 6 = a.M) (e' : 6 = a'.M), a.r (Fin.cast e 3) ≠ a'.r (Fin.cast e' 3) := by
  refine ⟨_, _, _, _, _, rfl, buildAdjacency_wired Demo.eig_wired Demo.eig_weightable env,
    buildAdjacency_wired Demo.eig_wired Demo.eig_weightable env', rfl, rfl, ?_⟩
  exact fun hh => h ((Demo.eig_r env).symm.trans (hh.trans (Demo.eig_r env')))

example : ∃ env env' : Env, env.junk 3 ≠ env'.junk 3 :=
  ⟨⟨fun _ _ _ => none, fun _ => 0⟩, ⟨fun _ _ _ => none, fun _ => 1⟩, zero_ne_one⟩

example : Wired (World.run [.addNode 0, .addFactor 0, .addEigenFactor 1] Demo.eigWorld₀) := Demo.eig_wired

end Mrob
