import Verif.Lemmas.Graph

/-!
# C31, C32, C33, C59: identifiers, dimensions and neighbour lists of a graph

Histories are arbitrary lists of calls `add_node`, `add_factor`, `add_eigen_factor`, `set_node_mode` on an empty graph with
arbitrary node and factor objects.
-/

namespace Mrob

open World

/-! ### Reading a history -/

/-- The node objects passed to `add_node`, in order. -/
def addedNodes (ops : List GraphOp) : List NRef :=
  ops.filterMap fun | .addNode n => some n | _ => none

/-- The factor objects passed to `add_factor`, in order. -/
def addedFactors (ops : List GraphOp) : List FRef :=
  ops.filterMap fun | .addFactor f => some f | _ => none

/-- The factor objects passed to `add_eigen_factor`, in order. -/
def addedEigen (ops : List GraphOp) : List FRef :=
  ops.filterMap fun | .addEigenFactor f => some f | _ => none

/-- All factor objects added, in order. -/
def addedAny (ops : List GraphOp) : List FRef :=
  ops.filterMap fun | .addFactor f => some f | .addEigenFactor f => some f | _ => none

/-- No call of `set_node_mode`. -/
def NoSetMode (ops : List GraphOp) : Prop := ∀ op ∈ ops, ∀ n m, op ≠ .setMode n m

/-- Sum over the added nodes that are STANDARD when they are added; `mode` are the modes at the beginning. -/
def dimAtAddition (dim : NRef → ℕ) : (NRef → Mode) → List GraphOp → ℕ
  | _, [] => 0
  | mode, .addNode n :: ops => (if mode n = .standard then dim n else 0) + dimAtAddition dim mode ops
  | mode, .setMode n m :: ops => dimAtAddition dim (Function.update mode n m) ops
  | mode, .addFactor _ :: ops => dimAtAddition dim mode ops
  | mode, .addEigenFactor _ :: ops => dimAtAddition dim mode ops

/-! ### What no operation changes -/

theorem run_append (a b : List GraphOp) (w : World) : World.run (a ++ b) w = World.run b (World.run a w) := by
  simp [World.run]

theorem op_nh_static (op : GraphOp) (w : World) (n : NRef) :
    ((op.run w).nh n).val = (w.nh n).val ∧ ((op.run w).nh n).dim = (w.nh n).dim := by
  cases op with
  | addNode m =>
    simp only [GraphOp.run, addNode_nh]
    by_cases h : n = m
    · subst h; rw [Function.update_self]; exact ⟨rfl, rfl⟩
    · rw [Function.update_of_ne h]; exact ⟨rfl, rfl⟩
  | addFactor f => rw [GraphOp.run, addFactor_nh]; exact ⟨rfl, rfl⟩
  | addEigenFactor f => rw [GraphOp.run, addEigenFactor_nh]; exact ⟨rfl, rfl⟩
  | setMode m md =>
    rw [GraphOp.run, setMode_nh]
    by_cases h : n = m
    · subst h; rw [if_pos rfl]; exact ⟨rfl, rfl⟩
    · rw [if_neg h]; exact ⟨rfl, rfl⟩

theorem op_fh_static (op : GraphOp) (w : World) (f : FRef) :
    ((op.run w).fh f).virt = (w.fh f).virt ∧ ((op.run w).fh f).nbrs = (w.fh f).nbrs := by
  cases op with
  | addNode m => rw [GraphOp.run, addNode_fh]; exact ⟨rfl, rfl⟩
  | setMode m md => exact ⟨rfl, rfl⟩
  | addFactor m =>
    simp only [GraphOp.run, addFactor_fh]
    by_cases h : f = m
    · subst h; rw [Function.update_self]; exact ⟨rfl, rfl⟩
    · rw [Function.update_of_ne h]; exact ⟨rfl, rfl⟩
  | addEigenFactor m =>
    simp only [GraphOp.run, addEigenFactor_fh]
    by_cases h : f = m
    · subst h; rw [Function.update_self]; exact ⟨rfl, rfl⟩
    · rw [Function.update_of_ne h]; exact ⟨rfl, rfl⟩

theorem run_fh_static (ops : List GraphOp) (w : World) (f : FRef) :
    ((World.run ops w).fh f).virt = (w.fh f).virt ∧ ((World.run ops w).fh f).nbrs = (w.fh f).nbrs := by
  induction ops generalizing w with
  | nil => exact ⟨rfl, rfl⟩
  | cons op ops ih =>
    have h1 := ih (op.run w)
    have h2 := op_fh_static op w f
    exact ⟨h1.1.trans h2.1, h1.2.trans h2.2⟩

theorem run_nh_static (ops : List GraphOp) (w : World) (n : NRef) :
    ((World.run ops w).nh n).val = (w.nh n).val ∧ ((World.run ops w).nh n).dim = (w.nh n).dim := by
  induction ops generalizing w with
  | nil => exact ⟨rfl, rfl⟩
  | cons op ops ih =>
    have h1 := ih (op.run w)
    have h2 := op_nh_static op w n
    exact ⟨h1.1.trans h2.1, h1.2.trans h2.2⟩

theorem run_nodes (ops : List GraphOp) (w : World) :
    (World.run ops w).g.nodes = w.g.nodes ++ addedNodes ops := by
  induction ops generalizing w with
  | nil => simp [World.run, addedNodes]
  | cons op ops ih =>
    have := ih (op.run w)
    simp only [World.run, List.foldl_cons] at this ⊢
    rw [this]
    cases op <;> simp [GraphOp.run, addNode_nodes, addFactor_nodes, addEigenFactor_nodes, setMode, addedNodes]

theorem run_factors (ops : List GraphOp) (w : World) :
    (World.run ops w).g.factors = w.g.factors ++ addedFactors ops := by
  induction ops generalizing w with
  | nil => simp [World.run, addedFactors]
  | cons op ops ih =>
    have := ih (op.run w)
    simp only [World.run, List.foldl_cons] at this ⊢
    rw [this]
    cases op <;> simp [GraphOp.run, addNode_factors, addFactor_factors, addEigenFactor_factors, setMode, addedFactors]

theorem run_eigen (ops : List GraphOp) (w : World) :
    (World.run ops w).g.eigenFactors = w.g.eigenFactors ++ addedEigen ops := by
  induction ops generalizing w with
  | nil => simp [World.run, addedEigen]
  | cons op ops ih =>
    have := ih (op.run w)
    simp only [World.run, List.foldl_cons] at this ⊢
    rw [this]
    cases op <;> simp [GraphOp.run, addNode_eigen, addFactor_eigen, addEigenFactor_eigen, setMode, addedEigen]

/-- A node that is not added keeps its id. -/
theorem run_id_of_notMem (ops : List GraphOp) (w : World) (n : NRef) (h : n ∉ addedNodes ops) :
    ((World.run ops w).nh n).id = (w.nh n).id := by
  induction ops generalizing w with
  | nil => rfl
  | cons op ops ih =>
    have hs : n ∉ addedNodes ops := by
      intro hc; apply h
      cases op <;> simp [addedNodes] at hc ⊢ <;> tauto
    have := ih (op.run w) hs
    simp only [World.run, List.foldl_cons] at this ⊢
    rw [this]
    cases op with
    | addNode m =>
      have hm : n ≠ m := by rintro rfl; apply h; simp [addedNodes]
      rw [GraphOp.run, addNode_nh, Function.update_of_ne hm]
    | addFactor f => rw [GraphOp.run, addFactor_nh]
    | addEigenFactor f => rw [GraphOp.run, addEigenFactor_nh]
    | setMode m md =>
      rw [GraphOp.run, setMode_nh]
      by_cases hm : n = m
      · subst hm; rw [if_pos rfl]
      · rw [if_neg hm]

theorem run_fid_of_notMem (ops : List GraphOp) (w : World) (f : FRef) (h : f ∉ addedAny ops) :
    ((World.run ops w).fh f).id = (w.fh f).id := by
  induction ops generalizing w with
  | nil => rfl
  | cons op ops ih =>
    have hs : f ∉ addedAny ops := by
      intro hc; apply h
      cases op <;> simp [addedAny] at hc ⊢ <;> tauto
    have := ih (op.run w) hs
    simp only [World.run, List.foldl_cons] at this ⊢
    rw [this]
    cases op with
    | addNode m => rw [GraphOp.run, addNode_fh]
    | setMode m md => rfl
    | addFactor m =>
      have hm : f ≠ m := by rintro rfl; apply h; simp [addedAny]
      rw [GraphOp.run, addFactor_fh, Function.update_of_ne hm]
    | addEigenFactor m =>
      have hm : f ≠ m := by rintro rfl; apply h; simp [addedAny]
      rw [GraphOp.run, addEigenFactor_fh, Function.update_of_ne hm]

theorem run_node_id (ops : List GraphOp) (w : World) (hnd : (addedNodes ops).Nodup) (k : ℕ) (n : NRef)
    (hk : (addedNodes ops)[k]? = some n) : ((World.run ops w).nh n).id = w.g.nodes.length + k := by
  induction ops generalizing w k with
  | nil => simp [addedNodes] at hk
  | cons op ops ih =>
    change ((World.run ops (op.run w)).nh n).id = _
    cases op with
    | addNode m =>
      have e : addedNodes (.addNode m :: ops) = m :: addedNodes ops := by simp [addedNodes]
      rw [e] at hnd hk
      rw [List.nodup_cons] at hnd
      cases k with
      | zero =>
        simp only [List.getElem?_cons_zero, Option.some.injEq] at hk
        subst hk
        rw [run_id_of_notMem _ _ _ hnd.1, GraphOp.run, addNode_nh, Function.update_self]
        simp
      | succ k =>
        rw [List.getElem?_cons_succ] at hk
        rw [ih _ hnd.2 k hk, GraphOp.run, addNode_nodes]
        simp; omega
    | addFactor f =>
      rw [ih _ (by simpa [addedNodes] using hnd) k (by simpa [addedNodes] using hk), GraphOp.run, addFactor_nodes]
    | addEigenFactor f =>
      rw [ih _ (by simpa [addedNodes] using hnd) k (by simpa [addedNodes] using hk), GraphOp.run,
        addEigenFactor_nodes]
    | setMode m md =>
      rw [ih _ (by simpa [addedNodes] using hnd) k (by simpa [addedNodes] using hk)]; rfl

theorem run_factor_id (ops : List GraphOp) (w : World) (hnd : (addedAny ops).Nodup) (k : ℕ) (f : FRef)
    (hk : (addedFactors ops)[k]? = some f) : ((World.run ops w).fh f).id = w.g.factors.length + k := by
  induction ops generalizing w k with
  | nil => simp [addedFactors] at hk
  | cons op ops ih =>
    change ((World.run ops (op.run w)).fh f).id = _
    cases op with
    | addNode m =>
      rw [ih _ (by simpa [addedAny] using hnd) k (by simpa [addedFactors] using hk), GraphOp.run, addNode_factors]
    | setMode m md =>
      rw [ih _ (by simpa [addedAny] using hnd) k (by simpa [addedFactors] using hk)]; rfl
    | addEigenFactor m =>
      have e : addedAny (.addEigenFactor m :: ops) = m :: addedAny ops := by simp [addedAny]
      rw [e, List.nodup_cons] at hnd
      rw [ih _ hnd.2 k (by simpa [addedFactors] using hk), GraphOp.run, addEigenFactor_factors]
    | addFactor m =>
      have e : addedAny (.addFactor m :: ops) = m :: addedAny ops := by simp [addedAny]
      have e' : addedFactors (.addFactor m :: ops) = m :: addedFactors ops := by simp [addedFactors]
      rw [e, List.nodup_cons] at hnd
      rw [e'] at hk
      cases k with
      | zero =>
        simp only [List.getElem?_cons_zero, Option.some.injEq] at hk
        subst hk
        rw [run_fid_of_notMem _ _ _ hnd.1, GraphOp.run, addFactor_fh, Function.update_self]
        simp
      | succ k =>
        rw [List.getElem?_cons_succ] at hk
        rw [ih _ hnd.2 k hk, GraphOp.run, addFactor_factors]
        simp; omega

/-! ### C31 -/

/-- C31 for nodes: after any history in which no node object is added twice, the graph counts the additions, the `k`-th
added node has id `k` and is what `get_node(k)` returns, keys beyond that are out of range; and the next `add_node`
returns the number of nodes so far. -/
theorem C31_node_ids_partial (w₀ : World) (h₀ : w₀.g = emptyGraph) (ops : List GraphOp) (hnd : (addedNodes ops).Nodup) :
    let w := World.run ops w₀
    w.numberNodes = (addedNodes ops).length ∧
    (∀ k n, (addedNodes ops)[k]? = some n → w.getNode k = .ok n ∧ (w.nh n).id = k) ∧
    (∀ k, (addedNodes ops).length ≤ k → w.getNode k = .ub) ∧
    (∀ n, (w.addNode n).1 = w.numberNodes) := by
  have hn : (World.run ops w₀).g.nodes = addedNodes ops := by rw [run_nodes, h₀]; simp [emptyGraph]
  refine ⟨by rw [numberNodes, hn], fun k n hk => ⟨?_, ?_⟩, fun k hk => ?_, fun n => addNode_ret _ _⟩
  · rw [getNode, hn, hk]
  · rw [run_node_id ops w₀ hnd k n hk, h₀]; simp [emptyGraph]
  · rw [getNode, hn, List.getElem?_eq_none hk]

/-- C31 for factors. -/
theorem C31_factor_ids_partial (w₀ : World) (h₀ : w₀.g = emptyGraph) (ops : List GraphOp) (hnd : (addedAny ops).Nodup) :
    let w := World.run ops w₀
    w.numberFactors = (addedFactors ops).length ∧
    (∀ k f, (addedFactors ops)[k]? = some f → w.getFactor k = .ok f ∧ (w.fh f).id = k) ∧
    (∀ k, (addedFactors ops).length ≤ k → w.getFactor k = .ub) ∧
    (∀ f, (w.addFactor f).1 = w.numberFactors) := by
  have hn : (World.run ops w₀).g.factors = addedFactors ops := by rw [run_factors, h₀]; simp [emptyGraph]
  refine ⟨by rw [numberFactors, hn], fun k n hk => ⟨?_, ?_⟩, fun k hk => ?_, fun n => addFactor_ret _ _⟩
  · rw [getFactor, hn, hk]
  · rw [run_factor_id ops w₀ hnd k n hk, h₀]; simp [emptyGraph]
  · rw [getFactor, hn, List.getElem?_eq_none hk]

/-- A history with two nodes, an anchor change, two factors and an eigen factor meets the hypotheses. -/
example : (addedNodes [.addNode 4, .addFactor 7, .setMode 9 .anchor, .addNode 9, .addFactor 2, .addEigenFactor 3]).Nodup ∧
    (addedAny [.addNode 4, .addFactor 7, .setMode 9 .anchor, .addNode 9, .addFactor 2, .addEigenFactor 3]).Nodup := by
  decide

/-- C31 without the hypothesis is false: `add_node` does not check whether the node is already in the graph (the comment
"Adds a node if it was not already on the set", factor_graph.hpp 83), so the second addition changes the id of the
node returned by `get_node(0)`. -/
theorem C31_duplicate_fails (w₀ : World) (h₀ : w₀.g = emptyGraph) (n : NRef) :
    let w := World.run [.addNode n, .addNode n] w₀
    w.getNode 0 = .ok n ∧ (w.nh n).id ≠ 0 ∧ w.numberNodes = 2 := by
  have hn : (World.run [.addNode n, .addNode n] w₀).g.nodes = [n, n] := by
    rw [run_nodes, h₀]; simp [emptyGraph, addedNodes]
  refine ⟨by rw [getNode, hn]; rfl, ?_, by rw [numberNodes, hn]; rfl⟩
  change ((((w₀.addNode n).2.addNode n).2).nh n).id ≠ 0
  rw [addNode_nh, Function.update_self, addNode_nodes]
  simp

/-- The same for factors. -/
theorem C31_duplicate_factor_fails (w₀ : World) (h₀ : w₀.g = emptyGraph) (f : FRef) :
    let w := World.run [.addFactor f, .addFactor f] w₀
    w.getFactor 0 = .ok f ∧ (w.fh f).id ≠ 0 ∧ w.numberFactors = 2 := by
  have hn : (World.run [.addFactor f, .addFactor f] w₀).g.factors = [f, f] := by
    rw [run_factors, h₀]; simp [emptyGraph, addedFactors]
  refine ⟨by rw [getFactor, hn]; rfl, ?_, by rw [numberFactors, hn]; rfl⟩
  change ((((w₀.addFactor f).2.addFactor f).2).fh f).id ≠ 0
  rw [addFactor_fh, Function.update_self, addFactor_factors]
  simp

/-! ### C32 -/

theorem run_stateDim (ops : List GraphOp) (w : World) :
    (World.run ops w).g.stateDim =
      w.g.stateDim + dimAtAddition (fun n => (w.nh n).dim) (fun n => (w.nh n).mode) ops := by
  induction ops generalizing w with
  | nil => simp [World.run, dimAtAddition]
  | cons op ops ih =>
    change (World.run ops (op.run w)).g.stateDim = _
    rw [ih]
    have hd : (fun n => ((op.run w).nh n).dim) = fun n => (w.nh n).dim :=
      funext fun n => (op_nh_static op w n).2
    rw [hd]
    cases op with
    | addNode m =>
      have hm : (fun n => (((GraphOp.addNode m).run w).nh n).mode) = fun n => (w.nh n).mode := by
        funext n
        by_cases h : n = m
        · subst h; rw [GraphOp.run, addNode_nh, Function.update_self]
        · rw [GraphOp.run, addNode_nh, Function.update_of_ne h]
      rw [hm, dimAtAddition, GraphOp.run, addNode_stateDim]
      omega
    | addFactor f =>
      have hm : (fun n => (((GraphOp.addFactor f).run w).nh n).mode) = fun n => (w.nh n).mode := by
        funext n; rw [GraphOp.run, addFactor_nh]
      rw [hm, dimAtAddition, GraphOp.run, addFactor_stateDim]
    | addEigenFactor f =>
      have hm : (fun n => (((GraphOp.addEigenFactor f).run w).nh n).mode) = fun n => (w.nh n).mode := by
        funext n; rw [GraphOp.run, addEigenFactor_nh]
      rw [hm, dimAtAddition, GraphOp.run, addEigenFactor_stateDim]
    | setMode m md =>
      have hm : (fun n => (((GraphOp.setMode m md).run w).nh n).mode) =
          Function.update (fun n => (w.nh n).mode) m md := by
        funext n
        rw [GraphOp.run, setMode_nh]
        by_cases h : n = m
        · subst h; rw [if_pos rfl, Function.update_self]
        · rw [if_neg h, Function.update_of_ne h]
      rw [hm, dimAtAddition]; rfl

theorem run_mode (ops : List GraphOp) (hno : NoSetMode ops) (w : World) (n : NRef) :
    ((World.run ops w).nh n).mode = (w.nh n).mode := by
  induction ops generalizing w with
  | nil => rfl
  | cons op ops ih =>
    change ((World.run ops (op.run w)).nh n).mode = _
    rw [ih (fun o ho => hno o (List.mem_cons_of_mem _ ho))]
    cases op with
    | addNode m =>
      by_cases h : n = m
      · subst h; rw [GraphOp.run, addNode_nh, Function.update_self]
      · rw [GraphOp.run, addNode_nh, Function.update_of_ne h]
    | addFactor f => rw [GraphOp.run, addFactor_nh]
    | addEigenFactor f => rw [GraphOp.run, addEigenFactor_nh]
    | setMode m md => exact absurd rfl (hno _ List.mem_cons_self m md)

theorem dimAtAddition_noSetMode (dim : NRef → ℕ) (mode : NRef → Mode) (ops : List GraphOp) (hno : NoSetMode ops) :
    dimAtAddition dim mode ops = (((addedNodes ops).filter (mode · = .standard)).map dim).sum := by
  induction ops with
  | nil => rfl
  | cons op ops ih =>
    have ih := ih (fun o ho => hno o (List.mem_cons_of_mem _ ho))
    cases op with
    | addNode m =>
      have e : addedNodes (.addNode m :: ops) = m :: addedNodes ops := by simp [addedNodes]
      rw [dimAtAddition, ih, e]
      by_cases h : mode m = .standard <;> simp [h]
    | addFactor f => rw [dimAtAddition, ih]; simp [addedNodes]
    | addEigenFactor f => rw [dimAtAddition, ih]; simp [addedNodes]
    | setMode m md => exact absurd rfl (hno _ List.mem_cons_self m md)

/-- C32, state dimension: it is the sum of the dimensions of the nodes that were STANDARD when they were added, for every
history; without calls of `set_node_mode` it is the sum over the nodes of the graph that are STANDARD now. -/
theorem C32_state_dim (w₀ : World) (h₀ : w₀.g = emptyGraph) (ops : List GraphOp) :
    let w := World.run ops w₀
    w.dimensionState = dimAtAddition (fun n => (w₀.nh n).dim) (fun n => (w₀.nh n).mode) ops ∧
    (NoSetMode ops → w.dimensionState =
      (((addedNodes ops).filter fun n => (w.nh n).mode = .standard).map fun n => (w.nh n).dim).sum) := by
  have h : (World.run ops w₀).dimensionState =
      dimAtAddition (fun n => (w₀.nh n).dim) (fun n => (w₀.nh n).mode) ops := by
    rw [dimensionState, run_stateDim, h₀]; simp [emptyGraph]
  refine ⟨h, fun hno => ?_⟩
  rw [h, dimAtAddition_noSetMode _ _ _ hno]
  simp only [run_mode ops hno, run_nh_static]

/-- C32, observation dimension: the sum of the dimensions of all added factors, eigen factors included. -/
theorem C32_obs_dim (w₀ : World) (h₀ : w₀.g = emptyGraph) (ops : List GraphOp) :
    let w := World.run ops w₀
    w.dimensionObs = ((addedAny ops).map fun f => (w.fh f).virt.dim).sum := by
  have key : ∀ (ops : List GraphOp) (w : World), (World.run ops w).g.obsDim =
      w.g.obsDim + ((addedAny ops).map fun f => (w.fh f).virt.dim).sum := by
    intro ops
    induction ops with
    | nil => intro w; simp [World.run, addedAny]
    | cons op ops ih =>
      intro w
      change (World.run ops (op.run w)).g.obsDim = _
      rw [ih]
      have hs : (fun f => ((op.run w).fh f).virt.dim) = fun f => (w.fh f).virt.dim := by
        funext f; rw [(op_fh_static op w f).1]
      rw [hs]
      cases op with
      | addNode m => rw [GraphOp.run, addNode_obsDim]; simp [addedAny]
      | setMode m md => simp [addedAny, GraphOp.run, setMode]
      | addFactor f => rw [GraphOp.run, addFactor_obsDim]; simp [addedAny]; omega
      | addEigenFactor f => rw [GraphOp.run, addEigenFactor_obsDim]; simp [addedAny]; omega
  intro w
  change (World.run ops w₀).g.obsDim = _
  rw [key, h₀]
  have hs : (fun f => (w.fh f).virt.dim) = fun f => (w₀.fh f).virt.dim := by
    funext f; rw [(run_fh_static ops w₀ f).1]
  rw [hs]; simp [emptyGraph]

/-- An example of a history without `set_node_mode`. -/
example : NoSetMode [.addNode 0, .addNode 1, .addFactor 0] := by
  intro op h n m; fin_cases h <;> simp

/-- C32 fails when the mode of a node is changed after it was added: `set_node_mode` (node.hpp 126) does not tell the graph.
A STANDARD node that becomes an anchor still contributes to the state dimension. -/
theorem C32_set_mode_fails (w₀ : World) (h₀ : w₀.g = emptyGraph) (n : NRef) (hm : (w₀.nh n).mode = .standard) :
    let w := World.run [.addNode n, .setMode n .anchor] w₀
    (w.nh n).mode = .anchor ∧ 0 < w.dimensionState ∧
    (((addedNodes [.addNode n, .setMode n .anchor]).filter fun n => (w.nh n).mode = .standard).map
      fun n => (w.nh n).dim).sum = 0 := by
  have hmode : ((World.run [.addNode n, .setMode n .anchor] w₀).nh n).mode = .anchor := by
    change (((w₀.addNode n).2.setMode n .anchor).nh n).mode = _
    rw [setMode_nh, if_pos rfl]
  refine ⟨hmode, ?_, ?_⟩
  · rw [(C32_state_dim w₀ h₀ _).1]
    simp only [dimAtAddition, hm, if_true, NodeCell.dim]
    cases (w₀.nh n).kind <;> decide
  · simp only [addedNodes, List.filterMap_cons, List.filterMap_nil, List.filter_cons, hmode]
    simp

/-- C32 fails for eigen factors: `obsDim_` counts them although they are not among the factors from which the rows of the
problem are built (`number_factors`, `get_factor`). -/
theorem C32_eigen_fails (w₀ : World) (h₀ : w₀.g = emptyGraph) (f : FRef) (hf : 0 < (w₀.fh f).virt.dim) :
    let w := World.run [.addEigenFactor f] w₀
    w.numberFactors = 0 ∧ 0 < w.dimensionObs := by
  refine ⟨?_, ?_⟩
  · rw [numberFactors, run_factors, h₀]; rfl
  · rw [C32_obs_dim w₀ h₀]
    simpa [addedAny, (run_fh_static _ w₀ f).1] using hf

/-! ### C33 -/

/-- C33: after any history, starting with nodes without factors, the neighbour list of every node is obtained by going
through the added factors in order and writing each one as often as the node occurs among the factor's nodes. -/
theorem C33_neighbours (w₀ : World) (ops : List GraphOp) (hn : ∀ n, (w₀.nh n).nbrs = []) (n : NRef) :
    let w := World.run ops w₀
    (w.nh n).nbrs = (addedAny ops).flatMap fun f => List.replicate ((w.fh f).nbrs.count n) f := by
  have key : ∀ (ops : List GraphOp) (w : World), ((World.run ops w).nh n).nbrs = (w.nh n).nbrs ++
      (addedAny ops).flatMap fun f => List.replicate ((w.fh f).nbrs.count n) f := by
    intro ops
    induction ops with
    | nil => intro w; simp [World.run, addedAny]
    | cons op ops ih =>
      intro w
      change ((World.run ops (op.run w)).nh n).nbrs = _
      rw [ih]
      have hs : (fun f => List.replicate (((op.run w).fh f).nbrs.count n) f) =
          fun f => List.replicate ((w.fh f).nbrs.count n) f := by
        funext f; rw [(op_fh_static op w f).2]
      rw [hs]
      cases op with
      | addNode m =>
        have e : (((GraphOp.addNode m).run w).nh n).nbrs = (w.nh n).nbrs := by
          by_cases h : n = m
          · subst h; rw [GraphOp.run, addNode_nh, Function.update_self]
          · rw [GraphOp.run, addNode_nh, Function.update_of_ne h]
        rw [e]; simp [addedAny]
      | setMode m md =>
        have e : (((GraphOp.setMode m md).run w).nh n).nbrs = (w.nh n).nbrs := by
          rw [GraphOp.run, setMode_nh]
          by_cases h : n = m
          · subst h; rw [if_pos rfl]
          · rw [if_neg h]
        rw [e]; simp [addedAny]
      | addFactor f => rw [GraphOp.run, addFactor_nh]; simp [addedAny]
      | addEigenFactor f => rw [GraphOp.run, addEigenFactor_nh]; simp [addedAny]
  intro w
  change ((World.run ops w₀).nh n).nbrs = _
  rw [key, hn]
  have hs : (fun f => List.replicate ((w.fh f).nbrs.count n) f) =
      fun f => List.replicate ((w₀.fh f).nbrs.count n) f := by
    funext f; rw [(run_fh_static ops w₀ f).2]
  rw [hs]; simp

/-- C33, counting form: how often a factor is in the list of a node. -/
theorem C33_count (w₀ : World) (ops : List GraphOp) (hn : ∀ n, (w₀.nh n).nbrs = []) (n : NRef) (f : FRef)
    (hnd : (addedAny ops).Nodup) (hf : f ∈ addedAny ops) :
    let w := World.run ops w₀
    (w.nh n).nbrs.count f = (w.fh f).nbrs.count n := by
  intro w
  rw [C33_neighbours w₀ ops hn n, List.count_flatMap]
  have : ∀ l : List FRef, l.Nodup → f ∈ l →
      (l.map (List.count f ∘ fun g => List.replicate ((w.fh g).nbrs.count n) g)).sum = (w.fh f).nbrs.count n := by
    intro l
    induction l with
    | nil => intro _ h; simp at h
    | cons a l ih =>
      intro hnd h
      rw [List.nodup_cons] at hnd
      rw [List.map_cons, List.sum_cons]
      by_cases ha : f = a
      · subst ha
        have hz : (l.map (List.count f ∘ fun g => List.replicate ((w.fh g).nbrs.count n) g)).sum = 0 := by
          rw [List.sum_eq_zero]
          intro x hx
          rw [List.mem_map] at hx
          obtain ⟨g, hg, rfl⟩ := hx
          rw [Function.comp_apply, List.count_replicate, if_neg]
          simp; rintro rfl; exact hnd.1 hg
        rw [hz]; simp
      · have hl : f ∈ l := by simpa [ha] using h
        rw [ih hnd.2 hl, Function.comp_apply, List.count_replicate, if_neg (by simpa using fun e => ha e.symm)]
        simp
  exact this _ hnd hf

/-- C33, converse: a factor that was never added is in no list. -/
theorem C33_only_added (w₀ : World) (ops : List GraphOp) (hn : ∀ n, (w₀.nh n).nbrs = []) (n : NRef) (f : FRef)
    (hf : f ∈ ((World.run ops w₀).nh n).nbrs) :
    f ∈ addedAny ops ∧ n ∈ ((World.run ops w₀).fh f).nbrs := by
  rw [C33_neighbours w₀ ops hn n, List.mem_flatMap] at hf
  obtain ⟨g, hg, hf⟩ := hf
  rw [List.mem_replicate] at hf
  obtain ⟨hc, rfl⟩ := hf
  exact ⟨hg, List.count_pos_iff.mp (Nat.pos_of_ne_zero hc)⟩

/-- Freshly constructed nodes meet the hypothesis. -/
example (k : NRef → NodeKind) (x : ∀ n, (k n).State) (m : NRef → Mode) (fh : NRef → FactorCell) (n : NRef) :
    ((World.mk (fun n => NodeCell.new (k n) (x n) (m n)) fh emptyGraph).nh n).nbrs = [] := rfl

/-! ### C59 -/

/-- C59 when the factor is present: `rm_factor` reports `true`, exactly the first occurrence is removed (the list before was
`a ++ f :: b` with no `f` in `a`, afterwards it is `a ++ b`), and nothing else changes. -/
theorem C59_present_partial (w : World) (n : NRef) (f : FRef) (h : f ∈ (w.nh n).nbrs) :
    ∃ w', w.nodeRmFactor n f = .ok (true, w') ∧
      (∃ a b, f ∉ a ∧ (w.nh n).nbrs = a ++ f :: b ∧ (w'.nh n).nbrs = a ++ b) ∧
      (∀ m, m ≠ n → w'.nh m = w.nh m) ∧ w'.g = w.g ∧ w'.fh = w.fh ∧
      (w'.nh n).val = (w.nh n).val ∧ (w'.nh n).id = (w.nh n).id ∧ (w'.nh n).mode = (w.nh n).mode := by
  obtain ⟨a, b, hab, ha, he⟩ := List.exists_erase_eq h
  refine ⟨w.setN n { w.nh n with nbrs := (w.nh n).nbrs.erase f }, if_pos h, ⟨a, b, hab, ha, ?_⟩, fun m hm => ?_, rfl, rfl, ?_, ?_, ?_⟩
  · rw [setN_nh, Function.update_self]; exact he
  · rw [setN_nh, Function.update_of_ne hm]
  all_goals rw [setN_nh, Function.update_self]
  rfl

/-- C59 is false when the factor is absent: instead of reporting `false` the call erases the end iterator, which is
undefined behaviour (node.cpp 50-56). -/
theorem C59_absent_fails (w : World) (n : NRef) (f : FRef) (h : f ∉ (w.nh n).nbrs) : w.nodeRmFactor n f = .ub := by
  rw [nodeRmFactor, if_neg h]

/-- C59 inverts the addition: removing a factor that was just added to a node without it gives back the old list. -/
theorem C59_undo_add_partial (w : World) (n : NRef) (f : FRef) (h : f ∉ (w.nh n).nbrs) :
    ∃ w', (w.nodeAddFactor n f).nodeRmFactor n f = .ok (true, w') ∧ (w'.nh n).nbrs = (w.nh n).nbrs := by
  have e : ((w.nodeAddFactor n f).nh n).nbrs = (w.nh n).nbrs ++ [f] := by
    rw [nodeAddFactor, setN_nh, Function.update_self]
  obtain ⟨w', h1, -, -⟩ := C59_present_partial (w.nodeAddFactor n f) n f (by rw [e]; simp)
  refine ⟨w', h1, ?_⟩
  rw [nodeRmFactor, if_pos (by rw [e]; simp)] at h1
  obtain rfl := (Prod.mk.inj (Out.ok.inj h1)).2
  rw [setN_nh, Function.update_self]
  change ((w.nodeAddFactor n f).nh n).nbrs.erase f = _
  rw [e, List.erase_append_right _ h]; simp

/-- Nodes with and without a given factor exist. -/
example (k : NodeKind) (x : k.State) : (7 : FRef) ∈ ({ NodeCell.new k x .standard with nbrs := [3, 7, 7] } : NodeCell).nbrs ∧
    (5 : FRef) ∉ ({ NodeCell.new k x .standard with nbrs := [3, 7, 7] } : NodeCell).nbrs := by
  simp

end Mrob
