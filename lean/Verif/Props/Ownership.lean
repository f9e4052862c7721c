import Verif.Spec.Ownership
import Verif.Props.Graph
import Verif.Props.FGraphPy

/-!
# C81: deleting a graph releases its nodes and factors
-/

namespace Mrob

open World Spec

theorem destroy_nbrs (w : World) (n : NRef) :
    (w.destroy.nh n).nbrs = if n ∈ w.g.nodes then [] else (w.nh n).nbrs := by
  change (if n ∈ w.g.nodes then { w.nh n with nbrs := [] } else w.nh n : NodeCell).nbrs = _
  split <;> rfl

/-- An object in a reference cycle is never released. -/
theorem Spec.Released.acyclic {w : World} {heap held : Obj → Prop} {x : Obj} (h : Released w heap held x) :
    ∀ y, heap y → heap x → Owns w y x → Owns w x y → False := by
  induction h with
  | mk _ ho ih => exact fun y hy hx h1 h2 => ih y hy h1 _ hx hy h2 h1

theorem Spec.Released.not_reached {w : World} {heap held : Obj → Prop} {x : Obj} (h : Released w heap held x) :
    ∀ y, heap y → Reaches w heap y x → ¬ held y := by
  intro y _ hr
  induction hr with
  | refl => cases h with | mk h _ => exact h
  | step hx ho _ ih =>
    have key : ∀ z, Released w heap held z → ∀ y, heap y → Owns w y z → Released w heap held y := fun z hz y hy h => by
      cases hz with | mk _ ho => exact ho y hy h
    have : ∀ y z, Reaches w heap y z → Released w heap held z → Released w heap held y := by
      intro y z hr hz
      induction hr with
      | refl => exact hz
      | step hx ho _ ih => exact key _ (ih hz) _ hx ho
    cases key _ (this _ _ ‹_› h) _ hx ho with | mk h _ => exact h

/-- C81, one graph: after the destructor of a graph, if all existing nodes with factors were in the graph, an object is deleted
exactly when the program holds none of the objects that own it. -/
theorem C81_released_partial (w : World) (heap held : Obj → Prop)
    (hn : ∀ n, heap (.node n) → n ∉ w.g.nodes → (w.nh n).nbrs = []) (x : Obj) :
    Released w.destroy heap held x ↔ ¬ held x ∧ ∀ y, heap y → Reaches w.destroy heap y x → ¬ held y := by
  have he : ∀ n, heap (.node n) → (w.destroy.nh n).nbrs = [] := fun n h => by
    rw [destroy_nbrs]; split
    · rfl
    · exact hn n h ‹_›
  refine ⟨fun h => ⟨by cases h with | mk h _ => exact h, h.not_reached⟩, fun ⟨h0, h⟩ => ⟨h0, ?_⟩⟩
  rintro y hy ho
  refine ⟨h y hy (.step hy ho .refl), ?_⟩
  rintro z hz ho'
  exfalso
  cases ho' with
  | factorOfNode hm => rw [he _ hz] at hm; cases hm
  | nodeOfFactor hm =>
    cases ho with
    | factorOfNode hm' => rw [he _ hy] at hm'; cases hm'

theorem outside_nbrs {w₀ : World} (h₀ : w₀.g = emptyGraph) {ops : List GraphOp} (hn : ∀ n, (w₀.nh n).nbrs = [])
    (hc : ∀ f ∈ addedAny ops, ∀ n ∈ (w₀.fh f).nbrs, n ∈ addedNodes ops) (n : NRef) (h : n ∉ (World.run ops w₀).g.nodes) :
    ((World.run ops w₀).nh n).nbrs = [] := by
  rw [run_nodes, h₀] at h
  by_contra hne
  obtain ⟨f, hf⟩ := List.exists_mem_of_ne_nil _ hne
  obtain ⟨h1, h2⟩ := C33_only_added w₀ ops hn n f hf
  rw [(run_fh_static ops w₀ f).2] at h2
  exact h (by simpa [emptyGraph] using hc f h1 n h2)

/-- C81, histories: for a graph built by any history from new nodes, such that the nodes of the factors are added to the
graph as well, the destructor has the effect that everything the program does not hold is deleted; if the program holds
nothing, nothing is left. -/
theorem C81_history_partial (w₀ : World) (h₀ : w₀.g = emptyGraph) (ops : List GraphOp) (hn : ∀ n, (w₀.nh n).nbrs = [])
    (hc : ∀ f ∈ addedAny ops, ∀ n ∈ (w₀.fh f).nbrs, n ∈ addedNodes ops) (heap held : Obj → Prop) :
    let w := (World.run ops w₀).destroy
    (∀ x, Released w heap held x ↔ ¬ held x ∧ ∀ y, heap y → Reaches w heap y x → ¬ held y) ∧
    ∀ x, Released w heap (fun _ => False) x := by
  have hm := outside_nbrs h₀ hn hc
  exact ⟨C81_released_partial _ heap held fun n _ h => hm n h, fun x =>
    (C81_released_partial _ heap (fun _ => False) (fun n _ h => hm n h) x).mpr ⟨id, fun _ _ _ => id⟩⟩

/-- C81, reuse: the nodes and factors of a deleted graph keep their states and can be used in a new graph: the neighbour lists
are those of the new history alone, and nodes, factors and ids are counted from zero. -/
theorem C81_reuse_partial (w₀ : World) (h₀ : w₀.g = emptyGraph) (ops ops' : List GraphOp) (hn : ∀ n, (w₀.nh n).nbrs = [])
    (hc : ∀ f ∈ addedAny ops, ∀ n ∈ (w₀.fh f).nbrs, n ∈ addedNodes ops) :
    let w := World.run ops' (World.run ops w₀).destroy
    (∀ n, (w.nh n).val = (w₀.nh n).val ∧
      (w.nh n).nbrs = (addedAny ops').flatMap fun f => List.replicate ((w₀.fh f).nbrs.count n) f) ∧
    w.numberNodes = (addedNodes ops').length ∧ w.numberFactors = (addedFactors ops').length ∧
    ((addedNodes ops').Nodup → ∀ k n, (addedNodes ops')[k]? = some n → w.getNode k = .ok n ∧ (w.nh n).id = k) ∧
    ((addedAny ops').Nodup → ∀ k f, (addedFactors ops')[k]? = some f → w.getFactor k = .ok f ∧ (w.fh f).id = k) := by
  have hm := outside_nbrs h₀ hn hc
  have he : ∀ n, ((World.run ops w₀).destroy.nh n).nbrs = [] := fun n => by
    rw [destroy_nbrs]; split
    · rfl
    · exact hm n ‹_›
  have hg : (World.run ops w₀).destroy.g = emptyGraph := rfl
  have hf : ∀ f, ((World.run ops' (World.run ops w₀).destroy).fh f).nbrs = (w₀.fh f).nbrs := fun f =>
    (run_fh_static _ _ f).2.trans (run_fh_static ops w₀ f).2
  refine ⟨fun n => ⟨?_, ?_⟩, ?_, ?_, fun h => (C31_node_ids_partial _ hg ops' h).2.1,
    fun h => (C31_factor_ids_partial _ hg ops' h).2.1⟩
  · rw [(run_nh_static _ _ n).1, ← (run_nh_static ops w₀ n).1]
    change (if n ∈ (World.run ops w₀).g.nodes then { (World.run ops w₀).nh n with nbrs := [] }
      else (World.run ops w₀).nh n : NodeCell).val = _
    split <;> rfl
  · rw [C33_neighbours _ ops' he n]
    simp only [hf]
  · rw [numberNodes, run_nodes, hg]; simp [emptyGraph]
  · rw [numberFactors, run_factors, hg]; simp [emptyGraph]

/-- C81 for graphs made from Python, where the objects are created by the calls and held by nobody but the graph: after every
legal history that returns, deleting the graph deletes all the nodes and factors created. -/
theorem C81_python_partial (robust : Robust) (nh : NRef → NodeCell) (fh : FRef → FactorCell)
    (mem : FRef → (d : ℕ) → (Fin d → ℝ) × (Fin d → ℕ → ℝ)) (cs : List FGraphPy.Call) (hl : FGraphPy.Legal [] cs)
    (ids : List (Option ℕ)) (q : FGraphPy) (h : FGraphPy.run cs (FGraphPy.new robust nh fh mem) = .ok (ids, q)) (x : Obj) :
    Released q.s.w.destroy (fun | .node n => n < (FGraphPy.created cs).length | .factor f => f < (FGraphPy.factorsOf cs).length)
      (fun _ => False) x := by
  refine (C81_released_partial q.s.w _ _ (fun n hn h' => absurd ?_ h') x).mpr ⟨id, fun _ _ _ => id⟩
  rcases FGraphPy.run_legal cs (PyInv.new robust nh fh mem) (by simp) (by simp) hl with h1 | ⟨q', h1, ha⟩
  · rw [h] at h1; simp at h1
  · rw [h] at h1
    have hi := ha.inv
    simp only [List.nil_append] at hi
    have hq : q = q' := by simpa using congrArg (fun o => match o with | Out.ok r => r.2 | _ => q) h1
    rw [hq, hi.nodes]
    exact List.mem_range.mpr hn

/-- The history of `Demo` returns. -/
example : ∃ ids q, FGraphPy.Legal [] (Demo.history Env.exact) ∧
    FGraphPy.run (Demo.history Env.exact) Demo.newGraph = .ok (ids, q) := by
  obtain ⟨q, hq⟩ := C71_returns_partial _ _ _ _ _ (Demo.history_legal Env.exact) (by
    intro c hc
    simp only [Demo.history, List.mem_cons, List.not_mem_nil, or_false] at hc
    rcases hc with rfl | rfl | rfl | rfl | rfl | rfl | rfl | rfl
    · trivial
    · trivial
    · trivial
    · exact Matrix.PosSemidef.one
    · exact Matrix.PosSemidef.one
    · trivial
    · exact ⟨rfl, Env.exact_complete⟩
    · trivial)
  exact ⟨_, q, Demo.history_legal _, hq⟩

/-- C81 is false in general: a factor and any of its nodes that was not added to the graph own each other after the graph is
deleted and stay in memory for ever, although nothing else refers to them. -/
theorem C81_leak_fails (w₀ : World) (h₀ : w₀.g = emptyGraph) (ops : List GraphOp) (hn : ∀ n, (w₀.nh n).nbrs = [])
    (f : FRef) (hf : f ∈ addedAny ops) (n : NRef) (hfn : n ∈ (w₀.fh f).nbrs) (hna : n ∉ addedNodes ops)
    (heap held : Obj → Prop) (hhn : heap (.node n)) (hhf : heap (.factor f)) :
    let w := (World.run ops w₀).destroy
    ¬ Released w heap held (.node n) ∧ ¬ Released w heap held (.factor f) := by
  intro w
  have hnbr : f ∈ (w.nh n).nbrs := by
    rw [destroy_nbrs, if_neg (by rw [run_nodes, h₀]; simpa [emptyGraph] using hna), C33_neighbours w₀ ops hn n,
      List.mem_flatMap]
    refine ⟨f, hf, List.mem_replicate.mpr ⟨?_, rfl⟩⟩
    rw [(run_fh_static ops w₀ f).2]
    exact (List.count_pos_iff.mpr hfn).ne'
  have h1 : Owns w (.node n) (.factor f) := .factorOfNode hnbr
  have h2 : Owns w (.factor f) (.node n) := .nodeOfFactor (by
    change n ∈ ((World.run ops w₀).fh f).nbrs
    rw [(run_fh_static ops w₀ f).2]; exact hfn)
  exact ⟨fun h => h.acyclic _ hhf hhn h2 h1, fun h => h.acyclic _ hhn hhf h1 h2⟩

/-- Without the destructor every factor of a graph would stay in memory: the nodes and factors own each other. -/
theorem C81_cycle (w₀ : World) (ops : List GraphOp) (hn : ∀ n, (w₀.nh n).nbrs = [])
    (f : FRef) (hf : f ∈ addedAny ops) (n : NRef) (hfn : n ∈ (w₀.fh f).nbrs)
    (heap held : Obj → Prop) (hhn : heap (.node n)) (hhf : heap (.factor f)) :
    ¬ Released (World.run ops w₀) heap held (.node n) ∧ ¬ Released (World.run ops w₀) heap held (.factor f) := by
  have hnbr : f ∈ ((World.run ops w₀).nh n).nbrs := by
    rw [C33_neighbours w₀ ops hn n, List.mem_flatMap]
    refine ⟨f, hf, List.mem_replicate.mpr ⟨?_, rfl⟩⟩
    rw [(run_fh_static ops w₀ f).2]
    exact (List.count_pos_iff.mpr hfn).ne'
  have h1 : Owns (World.run ops w₀) (.node n) (.factor f) := .factorOfNode hnbr
  have h2 : Owns (World.run ops w₀) (.factor f) (.node n) := .nodeOfFactor (by
    rw [(run_fh_static ops w₀ f).2]; exact hfn)
  exact ⟨fun h => h.acyclic _ hhf hhn h2 h1, fun h => h.acyclic _ hhn hhf h1 h2⟩

namespace Demo

/-- New nodes and, everywhere, a factor between nodes 0 and 1. -/
noncomputable def linked : World :=
  ⟨fun _ => NodeCell.new .pose2d (0 : Vec3) .standard, fun _ => .new (.rel2d 0 1 .quadratic) [0, 1] 0 0, emptyGraph⟩

end Demo

/-- A graph of two nodes and two factors, and the same nodes and one of the factors in a second graph. -/
example : (∀ f ∈ addedAny [.addNode 0, .addFactor 4, .addNode 1, .addFactor 5], ∀ n ∈ (Demo.linked.fh f).nbrs,
      n ∈ addedNodes [.addNode 0, .addFactor 4, .addNode 1, .addFactor 5]) ∧
    ((World.run [.addNode 1, .addNode 0, .addFactor 5]
      (World.run [.addNode 0, .addFactor 4, .addNode 1, .addFactor 5] Demo.linked).destroy).nh 0).nbrs = [5] := by
  have hc : ∀ f ∈ addedAny [.addNode 0, .addFactor 4, .addNode 1, .addFactor 5], ∀ n ∈ (Demo.linked.fh f).nbrs,
      n ∈ addedNodes [.addNode 0, .addFactor 4, .addNode 1, .addFactor 5] := by
    intro f _ n hn
    have : n ∈ ([0, 1] : List NRef) := hn
    simp [addedNodes] at this ⊢
    exact this
  refine ⟨hc, ?_⟩
  rw [((C81_reuse_partial Demo.linked rfl _ _ (fun _ => rfl) hc).1 0).2]
  rfl

/-- A factor between nodes 0 and 1 in a graph that only has node 0. -/
example (heap held : Obj → Prop) (h : ∀ x, heap x) :
    ¬ Released (World.run [.addNode 0, .addFactor 4] Demo.linked).destroy heap held (.node 1) :=
  (C81_leak_fails Demo.linked rfl [.addNode 0, .addFactor 4] (fun _ => rfl) 4 (by simp [addedAny]) 1
    (by change (1 : NRef) ∈ ([0, 1] : List NRef); simp) (by simp [addedNodes]) heap held (h _) (h _)).1

end Mrob
