import Verif.Lemmas.Normal
import Verif.Model.FactorClass
import Verif.Props.Graph
import Verif.Props.Factor
import Mathlib.Algebra.Order.Star.Real
import Mathlib.LinearAlgebra.Matrix.PosDef

/-!
# Facts about histories, positive semidefinite systems and repeated insertions
-/

open Matrix

namespace Mrob

open World

/-! ### Facts about histories -/

theorem run_active (ops : List GraphOp) (hno : NoSetMode ops) (w : World) :
    (World.run ops w).g.active = w.g.active ++ (addedNodes ops).filter fun n => (w.nh n).mode = .standard := by
  induction ops generalizing w with
  | nil => simp [World.run, addedNodes]
  | cons op ops ih =>
    have ih := ih (fun o ho => hno o (List.mem_cons_of_mem _ ho)) (op.run w)
    change (World.run ops (op.run w)).g.active = _
    rw [ih]
    have hm : ∀ n, ((op.run w).nh n).mode = (w.nh n).mode := fun n =>
      run_mode [op] (fun o ho => hno o (by rw [List.mem_singleton] at ho; rw [ho]; exact List.mem_cons_self)) w n
    simp only [hm]
    cases op with
    | addNode m =>
      have e : addedNodes (.addNode m :: ops) = m :: addedNodes ops := by simp [addedNodes]
      rw [GraphOp.run, addNode_active, e]
      by_cases h : (w.nh m).mode = .standard <;> simp [h]
    | addFactor f => rw [GraphOp.run, addFactor_active]; simp [addedNodes]
    | addEigenFactor f => rw [GraphOp.run, addEigenFactor_active]; simp [addedNodes]
    | setMode m md => exact absurd rfl (hno _ List.mem_cons_self m md)

theorem run_kind (ops : List GraphOp) (w : World) (n : NRef) : ((World.run ops w).nh n).kind = (w.nh n).kind :=
  congrArg Sigma.fst (run_nh_static ops w n).1

theorem addedFactors_sublist (ops : List GraphOp) : (addedFactors ops).Sublist (addedAny ops) := by
  induction ops with
  | nil => exact List.Sublist.refl _
  | cons op ops ih =>
    cases op with
    | addNode m => exact ih
    | setMode m md => exact ih
    | addFactor f => exact ih.cons_cons f
    | addEigenFactor f => exact ih.cons f

/-- What the API does not check about a history: the node objects are distinct, their modes are STANDARD or ANCHOR and do
not change, the nodes of a factor have been added (or are anchors), are distinct (or anchors), and are of the classes the
factor expects. -/
structure Proper (w₀ : World) (ops : List GraphOp) : Prop where
  /-- no `set_node_mode` -/
  noSetMode : NoSetMode ops
  /-- no node is added twice -/
  nodup : (addedNodes ops).Nodup
  /-- no node to be marginalised -/
  noSchur : ∀ n ∈ addedNodes ops, (w₀.nh n).mode ≠ .schur
  /-- factors connect nodes of the graph -/
  registered : ∀ f ∈ addedFactors ops, ∀ n ∈ (w₀.fh f).nbrs, n ∈ addedNodes ops ∨ (w₀.nh n).mode = .anchor
  /-- no loops -/
  noLoop : ∀ f ∈ addedFactors ops, ((w₀.fh f).nbrs.filter fun n => (w₀.nh n).mode ≠ .anchor).Nodup
  /-- classes -/
  typed : ∀ f ∈ addedFactors ops, (w₀.fh f).wellTyped w₀.nh


theorem NodeCell.dim_pos (c : NodeCell) : 0 < c.dim := by
  rw [NodeCell.dim]; cases c.kind <;> simp [NodeKind.dim]

theorem rowIns_sublist (nh : NRef → NodeCell) (ps : List (ℕ × ℕ)) (row : ℕ) (Jl : ℕ → ℝ) (ns : List NRef) (tk : ℕ) :
    ((ns.filter fun n => (nh n).mode ≠ .anchor).map fun n => (row, colOf ps (nh n).id)).Sublist
      ((rowIns nh ps row Jl tk ns).map fun e => (e.1, e.2.1)) := by
  induction ns generalizing tk with
  | nil => exact List.nil_sublist _
  | cons n ns ih =>
    rw [rowIns]
    split
    · rename_i h
      rw [List.filter_cons_of_neg (by simp [h])]
      exact ih _
    · rename_i h
      rw [List.filter_cons_of_pos (by simp [h]), List.map_cons, List.map_append, ← List.singleton_append]
      refine List.Sublist.append ?_ (ih _)
      rw [List.singleton_sublist, List.mem_map]
      refine ⟨_, List.mem_map.mpr ⟨0, List.mem_range.mpr (nh n).dim_pos, rfl⟩, rfl⟩

theorem aIns_sublist (w : World) (ps : List (ℕ × ℕ)) (fs : List FRef) (f : FRef) (hf : f ∈ fs) (row : ℕ)
    (hd : 0 < (w.fh f).virt.dim) : ∃ r, ((((w.fh f).nbrs.filter fun n => (w.nh n).mode ≠ .anchor).map fun n =>
      (r, colOf ps (w.nh n).id)).Sublist ((w.aIns ps row fs).map fun e => (e.1, e.2.1))) := by
  induction fs generalizing row with
  | nil => simp at hf
  | cons g fs ih =>
    rw [aIns, List.map_append]
    by_cases h : f = g
    · subst h
      refine ⟨row + 0, List.Sublist.trans ?_ (List.sublist_append_left _ _)⟩
      refine (rowIns_sublist w.nh ps (row + 0) ((w.fh f).J ⟨0, hd⟩) _ 0).trans ?_
      refine List.Sublist.map _ ?_
      rw [factorIns, List.flatMap]
      refine List.sublist_flatten_of_mem ?_
      rw [List.mem_map]
      exact ⟨⟨0, hd⟩, List.mem_finRange _, rfl⟩
    · obtain ⟨r, hr⟩ := ih (by simpa [h] using hf) (row + (w.fh g).virt.dim)
      exact ⟨r, hr.trans (List.sublist_append_right _ _)⟩

theorem insertAll_cases (es : List (ℕ × ℕ × ℝ)) (A : SMat) : A.insertAll es = .ub ∨ ∃ B, A.insertAll es = .ok B := by
  induction es generalizing A with
  | nil => exact Or.inr ⟨A, rfl⟩
  | cons e es ih =>
    rw [SMat.insertAll, SMat.insert]
    split
    · exact ih _
    · exact Or.inl rfl

theorem list_sum_eq_zero {α : Type*} {l : List α} {f : α → ℝ} (h : ∀ a ∈ l, 0 ≤ f a) :
    0 ≤ (l.map f).sum ∧ ((l.map f).sum = 0 ↔ ∀ a ∈ l, f a = 0) := by
  induction l with
  | nil => simp
  | cons a l ih =>
    obtain ⟨h1, h2⟩ := ih fun b hb => h b (List.mem_cons_of_mem _ hb)
    have h0 := h a List.mem_cons_self
    rw [List.map_cons, List.sum_cons]
    refine ⟨by linarith, ⟨fun hs => ?_, fun hs => ?_⟩⟩
    · have ha : f a = 0 := by linarith
      have hl : (l.map f).sum = 0 := by linarith
      intro b hb
      rcases List.mem_cons.mp hb with rfl | hb
      · exact ha
      · exact h2.mp hl b hb
    · rw [hs a List.mem_cons_self, h2.mpr fun b hb => hs b (List.mem_cons_of_mem _ hb), add_zero]

theorem infoMatrix_posSemidef {C : Type} [Fintype C] (ts : List (Spec.Term C)) (h : ∀ t ∈ ts, t.W.PosSemidef) :
    (Spec.infoMatrix ts).PosSemidef := by
  induction ts with
  | nil => exact Matrix.PosSemidef.zero
  | cons t ts ih =>
    have e : Spec.infoMatrix (t :: ts) = t.Jᵀ * t.W * t.J + Spec.infoMatrix ts := by simp [Spec.infoMatrix]
    rw [e]
    refine Matrix.PosSemidef.add ?_ (ih fun u hu => h u (List.mem_cons_of_mem _ hu))
    have := (h t List.mem_cons_self).conjTranspose_mul_mul_same t.J
    rwa [conjTranspose_eq_transpose_of_trivial] at this

theorem infoMatrix_symm {C : Type} [Fintype C] (ts : List (Spec.Term C)) (h : ∀ t ∈ ts, t.W.IsSymm) :
    (Spec.infoMatrix ts).IsSymm := by
  induction ts with
  | nil => exact Matrix.isSymm_zero
  | cons t ts ih =>
    have e : Spec.infoMatrix (t :: ts) = t.Jᵀ * t.W * t.J + Spec.infoMatrix ts := by simp [Spec.infoMatrix]
    rw [e]
    refine Matrix.IsSymm.add ?_ (ih fun u hu => h u (List.mem_cons_of_mem _ hu))
    have := h t List.mem_cons_self
    rw [Matrix.IsSymm, transpose_mul, transpose_mul, transpose_transpose, this.eq, Matrix.mul_assoc]

theorem robustWeight_nonneg (ty : Robust) {old : ℝ} (h : 0 ≤ old) {u : ℝ} (hu : 0 ≤ u) : 0 ≤ robustWeight ty old u := by
  cases ty <;> simp only [robustWeight]
  · exact zero_le_one
  · split
    · exact zero_le_one
    · positivity
  · positivity
  · positivity
  · exact h

theorem run_fh_eq (ops : List GraphOp) (w : World) (f : FRef) :
    ∃ k, (World.run ops w).fh f = { w.fh f with id := k } := by
  induction ops generalizing w with
  | nil => exact ⟨(w.fh f).id, rfl⟩
  | cons op ops ih =>
    obtain ⟨k, hk⟩ := ih (op.run w)
    have : ∃ k, (op.run w).fh f = { w.fh f with id := k } := by
      cases op with
      | addNode m => rw [GraphOp.run, addNode_fh]; exact ⟨(w.fh f).id, rfl⟩
      | setMode m md => exact ⟨(w.fh f).id, rfl⟩
      | addFactor m =>
        by_cases h : f = m
        · subst h; rw [GraphOp.run, addFactor_fh, Function.update_self]; exact ⟨_, rfl⟩
        · rw [GraphOp.run, addFactor_fh, Function.update_of_ne h]; exact ⟨(w.fh f).id, rfl⟩
      | addEigenFactor m =>
        by_cases h : f = m
        · subst h; rw [GraphOp.run, addEigenFactor_fh, Function.update_self]; exact ⟨_, rfl⟩
        · rw [GraphOp.run, addEigenFactor_fh, Function.update_of_ne h]; exact ⟨(w.fh f).id, rfl⟩
    obtain ⟨k', hk'⟩ := this
    exact ⟨k, by change (World.run ops (op.run w)).fh f = _; rw [hk, hk']⟩

theorem run_id_congr (ops ops' : List GraphOp) (w : World) (hnd : (addedNodes ops).Nodup)
    (hN : addedNodes ops' = addedNodes ops) (n : NRef) : ((World.run ops' w).nh n).id = ((World.run ops w).nh n).id := by
  by_cases h : n ∈ addedNodes ops
  · obtain ⟨i, hi⟩ := List.mem_iff_getElem?.mp h
    rw [run_node_id ops w hnd i n hi, run_node_id ops' w (hN ▸ hnd) i n (hN ▸ hi)]
  · rw [run_id_of_notMem ops w n h, run_id_of_notMem ops' w n (hN ▸ h)]

/-- Two node heaps the assembly does not distinguish. -/
structure SameNodes (nh nh' : NRef → NodeCell) : Prop where
  /-- states -/
  val : ∀ n, (nh' n).val = (nh n).val
  /-- ids -/
  id : ∀ n, (nh' n).id = (nh n).id
  /-- modes -/
  mode : ∀ n, (nh' n).mode = (nh n).mode

namespace SameNodes

variable {nh nh' : NRef → NodeCell} (h : SameNodes nh nh')
include h

theorem dim (n : NRef) : (nh' n).dim = (nh n).dim := congrArg (fun v : NodeVal => v.1.dim) (h.val n)

theorem colPairs (off : ℕ) (ns : List NRef) : colPairs nh' off ns = colPairs nh off ns := by
  induction ns generalizing off with
  | nil => rfl
  | cons n ns ih => rw [World.colPairs, World.colPairs, h.id, h.dim, ih]

theorem rowIns (ps : List (ℕ × ℕ)) (row : ℕ) (Jl : ℕ → ℝ) (tk : ℕ) (ns : List NRef) :
    rowIns nh' ps row Jl tk ns = rowIns nh ps row Jl tk ns := by
  induction ns generalizing tk with
  | nil => rfl
  | cons n ns ih => rw [World.rowIns, World.rowIns, h.id, h.dim, h.mode, ih]

theorem rowVal (ps : List (ℕ × ℕ)) (Jl : ℕ → ℝ) (ns : List NRef) (j : ℕ) :
    rowVal nh' ps Jl ns j = rowVal nh ps Jl ns j := by
  rw [World.rowVal, World.rowVal, h.rowIns]

theorem vals (c : FactorCell) : c.vals nh' = c.vals nh := List.map_congr_left fun n _ => h.val n

end SameNodes

theorem run_sameNodes (ops ops' : List GraphOp) (hno : NoSetMode ops) (hno' : NoSetMode ops') (w : World)
    (hnd : (addedNodes ops).Nodup) (hN : addedNodes ops' = addedNodes ops) :
    SameNodes (World.run ops w).nh (World.run ops' w).nh where
  val n := by rw [(run_nh_static ops w n).1, (run_nh_static ops' w n).1]
  id n := run_id_congr ops ops' w hnd hN n
  mode n := by rw [run_mode ops hno, run_mode ops' hno']

end Mrob
