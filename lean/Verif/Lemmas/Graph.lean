import Verif.Model.Graph

/-!
# Effect of the graph operations on the members
-/

namespace Mrob
namespace World

@[simp] theorem setN_g (w : World) (n : NRef) (c : NodeCell) : (w.setN n c).g = w.g := rfl
@[simp] theorem setN_fh (w : World) (n : NRef) (c : NodeCell) : (w.setN n c).fh = w.fh := rfl
@[simp] theorem setF_g (w : World) (n : FRef) (c : FactorCell) : (w.setF n c).g = w.g := rfl
@[simp] theorem setF_nh (w : World) (n : FRef) (c : FactorCell) : (w.setF n c).nh = w.nh := rfl
theorem setN_nh (w : World) (n : NRef) (c : NodeCell) : (w.setN n c).nh = Function.update w.nh n c := rfl
theorem setF_fh (w : World) (n : FRef) (c : FactorCell) : (w.setF n c).fh = Function.update w.fh n c := rfl

theorem foldAdd_g (f : FRef) (l : List NRef) (w : World) :
    (l.foldl (fun w n => w.nodeAddFactor n f) w).g = w.g := by
  induction l generalizing w with
  | nil => rfl
  | cons a l ih => rw [List.foldl_cons, ih]; rfl

theorem foldAdd_fh (f : FRef) (l : List NRef) (w : World) :
    (l.foldl (fun w n => w.nodeAddFactor n f) w).fh = w.fh := by
  induction l generalizing w with
  | nil => rfl
  | cons a l ih => rw [List.foldl_cons, ih]; rfl

theorem foldAdd_nh (f : FRef) (l : List NRef) (w : World) (m : NRef) :
    (l.foldl (fun w n => w.nodeAddFactor n f) w).nh m =
      { w.nh m with nbrs := (w.nh m).nbrs ++ List.replicate (l.count m) f } := by
  induction l generalizing w with
  | nil => simp
  | cons a l ih =>
    rw [List.foldl_cons, ih]
    by_cases h : m = a
    · subst h
      have e : (w.nodeAddFactor m f).nh m = { w.nh m with nbrs := (w.nh m).nbrs ++ [f] } := by
        rw [nodeAddFactor, setN_nh, Function.update_self]
      rw [e]; simp [List.replicate_succ]
    · have h' : (a == m) = false := by simpa using fun e => h e.symm
      have e : (w.nodeAddFactor a f).nh m = w.nh m := by
        rw [nodeAddFactor, setN_nh, Function.update_of_ne h]
      rw [e]; simp [List.count_cons, h']

section addNode
variable (w : World) (n : NRef)

theorem addNode_nodes : (w.addNode n).2.g.nodes = w.g.nodes ++ [n] := by
  unfold addNode; dsimp only; split <;> rfl
theorem addNode_factors : (w.addNode n).2.g.factors = w.g.factors := by
  unfold addNode; dsimp only; split <;> rfl
theorem addNode_eigen : (w.addNode n).2.g.eigenFactors = w.g.eigenFactors := by
  unfold addNode; dsimp only; split <;> rfl
theorem addNode_obsDim : (w.addNode n).2.g.obsDim = w.g.obsDim := by
  unfold addNode; dsimp only; split <;> rfl
theorem addNode_fh : (w.addNode n).2.fh = w.fh := by
  unfold addNode; dsimp only; split <;> rfl
theorem addNode_nh : (w.addNode n).2.nh = Function.update w.nh n { w.nh n with id := w.g.nodes.length } := by
  unfold addNode; dsimp only; split <;> rfl
theorem addNode_ret : (w.addNode n).1 = w.g.nodes.length := by
  unfold addNode; dsimp only; split <;> simp [setN]
theorem addNode_active : (w.addNode n).2.g.active =
    if (w.nh n).mode = .standard then w.g.active ++ [n] else w.g.active := by
  unfold addNode; dsimp only; split <;> rename_i h <;> simp [setN] at h <;> simp [h, setN]
theorem addNode_stateDim : (w.addNode n).2.g.stateDim =
    w.g.stateDim + if (w.nh n).mode = .standard then (w.nh n).dim else 0 := by
  unfold addNode; dsimp only; split <;> rename_i h <;> simp [setN] at h <;> simp [h, setN, NodeCell.dim]

end addNode

section addFactor
variable (w : World) (f : FRef)

theorem addFactor_nodes : (w.addFactor f).2.g.nodes = w.g.nodes := by simp [addFactor, foldAdd_g]
theorem addFactor_active : (w.addFactor f).2.g.active = w.g.active := by simp [addFactor, foldAdd_g]
theorem addFactor_stateDim : (w.addFactor f).2.g.stateDim = w.g.stateDim := by simp [addFactor, foldAdd_g]
theorem addFactor_eigen : (w.addFactor f).2.g.eigenFactors = w.g.eigenFactors := by simp [addFactor, foldAdd_g]
theorem addFactor_factors : (w.addFactor f).2.g.factors = w.g.factors ++ [f] := by simp [addFactor, foldAdd_g]
theorem addFactor_fh : (w.addFactor f).2.fh = Function.update w.fh f { w.fh f with id := w.g.factors.length } := by
  simp [addFactor, foldAdd_fh, setF]
theorem addFactor_obsDim : (w.addFactor f).2.g.obsDim = w.g.obsDim + (w.fh f).virt.dim := by
  simp [addFactor, foldAdd_g, foldAdd_fh, setF]
theorem addFactor_ret : (w.addFactor f).1 = w.g.factors.length := by
  simp [addFactor, foldAdd_fh, setF]
theorem addFactor_nh (m : NRef) : (w.addFactor f).2.nh m =
    { w.nh m with nbrs := (w.nh m).nbrs ++ List.replicate ((w.fh f).nbrs.count m) f } := by
  simp [addFactor, foldAdd_nh, setF]

end addFactor

section addEigenFactor
variable (w : World) (f : FRef)

theorem addEigenFactor_nodes : (w.addEigenFactor f).2.g.nodes = w.g.nodes := by simp [addEigenFactor, foldAdd_g]
theorem addEigenFactor_active : (w.addEigenFactor f).2.g.active = w.g.active := by
  simp [addEigenFactor, foldAdd_g]
theorem addEigenFactor_stateDim : (w.addEigenFactor f).2.g.stateDim = w.g.stateDim := by
  simp [addEigenFactor, foldAdd_g]
theorem addEigenFactor_factors : (w.addEigenFactor f).2.g.factors = w.g.factors := by
  simp [addEigenFactor, foldAdd_g]
theorem addEigenFactor_eigen : (w.addEigenFactor f).2.g.eigenFactors = w.g.eigenFactors ++ [f] := by
  simp [addEigenFactor, foldAdd_g]
theorem addEigenFactor_fh :
    (w.addEigenFactor f).2.fh = Function.update w.fh f { w.fh f with id := w.g.eigenFactors.length } := by
  simp [addEigenFactor, foldAdd_fh, setF]
theorem addEigenFactor_obsDim : (w.addEigenFactor f).2.g.obsDim = w.g.obsDim + (w.fh f).virt.dim := by
  simp [addEigenFactor, foldAdd_g, foldAdd_fh, setF]
theorem addEigenFactor_nh (m : NRef) : (w.addEigenFactor f).2.nh m =
    { w.nh m with nbrs := (w.nh m).nbrs ++ List.replicate ((w.fh f).nbrs.count m) f } := by
  simp [addEigenFactor, foldAdd_nh, setF]

end addEigenFactor

theorem setMode_nh (w : World) (n m : NRef) (md : Mode) :
    (w.setMode n md).nh m = if m = n then { w.nh n with mode := md } else w.nh m := by
  by_cases h : m = n
  · subst h; simp [setMode, setN]
  · simp [setMode, setN, Function.update_of_ne h, h]

end World
end Mrob
