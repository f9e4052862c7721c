import Verif.Lemmas.Assembly
import Verif.Lemmas.Stack

/-!
# Column offsets and values of the inserted entries
-/

open Matrix

namespace Mrob

/-- First column of the node `a` when the nodes in the list are laid out one after another. -/
def offset (dim : NRef → ℕ) : List NRef → NRef → ℕ
  | [], _ => 0
  | n :: ns, a => if n = a then 0 else dim n + offset dim ns a

/-- The entry in row vector `J = [J₁, J₂, …]` for component `k` of node `a`: the sum over the positions at which `a` occurs
among the neighbours (the blocks before that position are skipped). -/
def blockEntry (dim : NRef → ℕ) (Jl : ℕ → ℝ) (a : NRef) (k : ℕ) : ℕ → List NRef → ℝ
  | _, [] => 0
  | tk, n :: ns => (if n = a then Jl (tk + k) else 0) + blockEntry dim Jl a k (tk + dim n) ns

section offset
variable {dim : NRef → ℕ}

theorem offset_lt {ns : List NRef} {a : NRef} (ha : a ∈ ns) {k : ℕ} (hk : k < dim a) :
    offset dim ns a + k < total dim ns := by
  induction ns with
  | nil => simp at ha
  | cons n ns ih =>
    simp only [total, List.map_cons, List.sum_cons, offset]
    by_cases h : n = a
    · subst h; rw [if_pos rfl]; omega
    · rw [if_neg h]
      have := ih (by simpa [Ne.symm h] using ha)
      simp only [total] at this
      omega

theorem offset_inj {ns : List NRef} {a b : NRef} (ha : a ∈ ns) (hb : b ∈ ns) {k l : ℕ} (hk : k < dim a)
    (hl : l < dim b) (h : offset dim ns a + k = offset dim ns b + l) : a = b ∧ k = l := by
  induction ns with
  | nil => simp at ha
  | cons n ns ih =>
    simp only [offset] at h
    by_cases h1 : n = a
    · subst h1
      by_cases h2 : n = b
      · subst h2; simpa using h
      · rw [if_pos rfl, if_neg h2] at h; omega
    · by_cases h2 : n = b
      · subst h2; rw [if_pos rfl, if_neg h1] at h; omega
      · rw [if_neg h1, if_neg h2] at h
        exact ih (by simpa [Ne.symm h1] using ha) (by simpa [Ne.symm h2] using hb) (by omega)

theorem exists_offset {ns : List NRef} (hnd : ns.Nodup) {i : ℕ} (hi : i < total dim ns) :
    ∃ a ∈ ns, ∃ k < dim a, offset dim ns a + k = i := by
  induction ns generalizing i with
  | nil => simp [total] at hi
  | cons n ns ih =>
    rw [List.nodup_cons] at hnd
    by_cases h : i < dim n
    · exact ⟨n, List.mem_cons_self, i, h, by simp [offset]⟩
    · simp only [total, List.map_cons, List.sum_cons] at hi
      obtain ⟨a, ha, k, hk, e⟩ := ih hnd.2 (i := i - dim n) (by simp only [total]; omega)
      have hne : n ≠ a := by rintro rfl; exact hnd.1 ha
      exact ⟨a, List.mem_cons_of_mem _ ha, k, hk, by rw [offset, if_neg hne]; omega⟩

end offset

namespace World

theorem colPairs_lookup (nh : NRef → NodeCell) {ns : List NRef}
    (hinj : ∀ a ∈ ns, ∀ b ∈ ns, (nh a).id = (nh b).id → a = b) {a : NRef} (ha : a ∈ ns) (off : ℕ) :
    (colPairs nh off ns).lookup (nh a).id = some (off + offset (fun n => (nh n).dim) ns a) := by
  induction ns generalizing off with
  | nil => simp at ha
  | cons n ns ih =>
    rw [colPairs, offset]
    by_cases h : n = a
    · subst h; simp
    · have hid : ((nh a).id == (nh n).id) = false := by
        simp only [beq_eq_false_iff_ne, ne_eq]
        exact fun e => h (hinj a ha n List.mem_cons_self e).symm
      rw [List.lookup_cons, hid, if_neg h]
      rw [ih (fun x hx y hy => hinj x (List.mem_cons_of_mem _ hx) y (List.mem_cons_of_mem _ hy))
        (by simpa [Ne.symm h] using ha)]
      simp only [Option.some.injEq]; omega

/-! ### Rows of the adjacency matrix -/

/-- Value of row `Jl` at column `c` accumulated by the insertions. -/
def rowVal (nh : NRef → NodeCell) (ps : List (ℕ × ℕ)) (Jl : ℕ → ℝ) (nbrs : List NRef) (c : ℕ) : ℝ :=
  ((rowIns nh ps 0 Jl 0 nbrs).map fun e => if e.2.1 = c then e.2.2 else 0).sum

theorem rowIns_row (nh : NRef → NodeCell) (ps : List (ℕ × ℕ)) (row : ℕ) (Jl : ℕ → ℝ) (tk : ℕ) (nbrs : List NRef)
    (e : ℕ × ℕ × ℝ) (he : e ∈ rowIns nh ps row Jl tk nbrs) : e.1 = row := by
  induction nbrs generalizing tk with
  | nil => simp [rowIns] at he
  | cons n ns ih =>
    rw [rowIns] at he
    split at he
    · exact ih _ he
    · rcases List.mem_append.mp he with he | he
      · obtain ⟨k, -, rfl⟩ := List.mem_map.mp he; rfl
      · exact ih _ he

theorem rowIns_sum (nh : NRef → NodeCell) (ps : List (ℕ × ℕ)) (row row' : ℕ) (Jl : ℕ → ℝ) (tk : ℕ)
    (nbrs : List NRef) (c : ℕ) :
    ((rowIns nh ps row Jl tk nbrs).map fun e => if e.2.1 = c then e.2.2 else 0).sum =
      ((rowIns nh ps row' Jl tk nbrs).map fun e => if e.2.1 = c then e.2.2 else 0).sum := by
  induction nbrs generalizing tk with
  | nil => rfl
  | cons n ns ih =>
    rw [rowIns, rowIns]
    split
    · exact ih _
    · simp only [List.map_append, List.sum_append, List.map_map, ih]
      rfl

theorem factorIns_sum (nh : NRef → NodeCell) (ps : List (ℕ × ℕ)) (row : ℕ) (f : FactorCell) (i c : ℕ) :
    ((factorIns nh ps row f).map fun e => if e.1 = i ∧ e.2.1 = c then e.2.2 else 0).sum =
      if h : row ≤ i ∧ i - row < f.virt.dim then rowVal nh ps (f.J ⟨i - row, h.2⟩) f.nbrs c else 0 := by
  rw [factorIns, sum_map_flatMap, ← Fin.sum_univ_def]
  have key : ∀ l : Fin f.virt.dim, ((rowIns nh ps (row + l) (f.J l) 0 f.nbrs).map fun e =>
      if e.1 = i ∧ e.2.1 = c then e.2.2 else 0).sum =
      if row + (l : ℕ) = i then rowVal nh ps (f.J l) f.nbrs c else 0 := by
    intro l
    split
    · rename_i h
      rw [rowVal, rowIns_sum nh ps 0 (row + l)]
      congr 1
      apply List.map_congr_left
      intro e he
      have := rowIns_row _ _ _ _ _ _ e he
      simp [this, h]
    · rename_i h
      apply List.sum_eq_zero
      intro x hx
      obtain ⟨e, he, rfl⟩ := List.mem_map.mp hx
      have := rowIns_row _ _ _ _ _ _ e he
      simp [this, h]
  simp only [key]
  split
  · rename_i h
    rw [Finset.sum_eq_single ⟨i - row, h.2⟩]
    · rw [if_pos (by simp only []; omega)]
    · intro l _ hl
      rw [if_neg]
      intro hc; apply hl; ext; simp only []; omega
    · simp
  · rename_i h
    apply Finset.sum_eq_zero
    intro l _
    rw [if_neg]
    have := l.2
    omega

theorem factorIns_row (nh : NRef → NodeCell) (ps : List (ℕ × ℕ)) (row : ℕ) (f : FactorCell)
    (e : ℕ × ℕ × ℝ) (he : e ∈ factorIns nh ps row f) : row ≤ e.1 ∧ e.1 < row + f.virt.dim := by
  rw [factorIns, List.mem_flatMap] at he
  obtain ⟨l, -, he⟩ := he
  have := rowIns_row _ _ _ _ _ _ e he
  omega

theorem aIns_row (w : World) (ps : List (ℕ × ℕ)) (row : ℕ) (fs : List FRef) (e : ℕ × ℕ × ℝ)
    (he : e ∈ w.aIns ps row fs) : row ≤ e.1 ∧ e.1 < row + total (fun f => (w.fh f).virt.dim) fs := by
  induction fs generalizing row with
  | nil => simp [aIns] at he
  | cons f fs ih =>
    rw [aIns, List.mem_append] at he
    simp only [total, List.map_cons, List.sum_cons] at ih ⊢
    rcases he with he | he
    · have := factorIns_row _ _ _ _ e he; omega
    · have := ih _ he; omega

/-- The adjacency matrix is the stack of the rows of the factors. -/
theorem aIns_sum (w : World) (ps : List (ℕ × ℕ)) (row : ℕ) (fs : List FRef) (i c : ℕ) :
    ((w.aIns ps row fs).map fun e => if e.1 = i ∧ e.2.1 = c then e.2.2 else 0).sum =
      stack (fun f => (w.fh f).virt.dim) (fun f l => rowVal w.nh ps ((w.fh f).J l) (w.fh f).nbrs c) row fs i := by
  induction fs generalizing row with
  | nil => rfl
  | cons f fs ih =>
    rw [aIns, List.map_append, List.sum_append, factorIns_sum, stack, ih]
    split
    · rw [stack_lt (by omega), add_zero]
    · rw [zero_add]

/-! ### The weight matrix -/

theorem weightIns_row (row : ℕ) (f : FactorCell) (e : ℕ × ℕ × ℝ) (he : e ∈ weightIns row f) :
    (row ≤ e.1 ∧ e.1 < row + f.virt.dim) ∧ (row ≤ e.2.1 ∧ e.2.1 < row + f.virt.dim) := by
  rw [weightIns, List.mem_flatMap] at he
  obtain ⟨l, -, he⟩ := he
  obtain ⟨k, -, rfl⟩ := List.mem_map.mp he
  have := l.2; have := k.2
  simp only []
  omega

theorem weightIns_sum (row : ℕ) (f : FactorCell) (i j : ℕ) :
    ((weightIns row f).map fun e => if e.1 = i ∧ e.2.1 = j then e.2.2 else 0).sum =
      if hi : row ≤ i ∧ i - row < f.virt.dim then
        if hj : row ≤ j ∧ j - row < f.virt.dim then
          if (⟨i - row, hi.2⟩ : Fin f.virt.dim) ≤ ⟨j - row, hj.2⟩ then
            f.weight * f.virt.W ⟨i - row, hi.2⟩ ⟨j - row, hj.2⟩ else 0
        else 0
      else 0 := by
  rw [weightIns, sum_map_flatMap, ← Fin.sum_univ_def]
  have key : ∀ l : Fin f.virt.dim,
      ((((List.finRange f.virt.dim).filter (l ≤ ·)).map fun (k : Fin f.virt.dim) =>
        (row + (l : ℕ), row + (k : ℕ), f.weight * f.virt.W l k)).map fun e =>
          if e.1 = i ∧ e.2.1 = j then e.2.2 else 0).sum =
      ∑ k : Fin f.virt.dim, if l ≤ k then
        (if row + (l : ℕ) = i ∧ row + (k : ℕ) = j then f.weight * f.virt.W l k else 0) else 0 := by
    intro l
    rw [List.map_map, sum_map_filter, Fin.sum_univ_def]
    simp
  simp only [key]
  by_cases hi : row ≤ i ∧ i - row < f.virt.dim
  · rw [dif_pos hi, Finset.sum_eq_single ⟨i - row, hi.2⟩]
    · by_cases hj : row ≤ j ∧ j - row < f.virt.dim
      · rw [dif_pos hj, Finset.sum_eq_single ⟨j - row, hj.2⟩]
        · have : (row + (i - row) = i ∧ row + (j - row) = j) := by omega
          simp only [this, and_self, if_true]
        · intro k _ hk
          have : ¬ (row + (i - row) = i ∧ row + (k : ℕ) = j) := by
            intro hc; apply hk; ext; simp only []; omega
          simp only [this, if_false, ite_self]
        · simp
      · rw [dif_neg hj]
        apply Finset.sum_eq_zero
        intro k _
        have := k.2
        have : ¬ (row + (i - row) = i ∧ row + (k : ℕ) = j) := by omega
        simp only [this, if_false, ite_self]
    · intro l _ hl
      apply Finset.sum_eq_zero
      intro k _
      have : ¬ (row + (l : ℕ) = i ∧ row + (k : ℕ) = j) := by
        intro hc; apply hl; ext; simp only []; omega
      simp only [this, if_false, ite_self]
    · simp
  · rw [dif_neg hi]
    apply Finset.sum_eq_zero
    intro l _
    apply Finset.sum_eq_zero
    intro k _
    have := l.2
    have : ¬ (row + (l : ℕ) = i ∧ row + (k : ℕ) = j) := by omega
    simp only [this, if_false, ite_self]

theorem wIns_row (w : World) (row : ℕ) (fs : List FRef) (e : ℕ × ℕ × ℝ) (he : e ∈ w.wIns row fs) :
    (row ≤ e.1 ∧ e.1 < row + total (fun f => (w.fh f).virt.dim) fs) ∧
    (row ≤ e.2.1 ∧ e.2.1 < row + total (fun f => (w.fh f).virt.dim) fs) := by
  induction fs generalizing row with
  | nil => simp [wIns] at he
  | cons f fs ih =>
    rw [wIns, List.mem_append] at he
    simp only [total, List.map_cons, List.sum_cons] at ih ⊢
    rcases he with he | he
    · have := weightIns_row _ _ e he; omega
    · have := ih _ he; omega

/-- The weight matrix is block diagonal. -/
theorem wIns_sum (w : World) (row : ℕ) (fs : List FRef) (i j : ℕ) :
    ((w.wIns row fs).map fun e => if e.1 = i ∧ e.2.1 = j then e.2.2 else 0).sum =
      diagB (fun f => (w.fh f).virt.dim)
        (fun f l k => if l ≤ k then (w.fh f).weight * (w.fh f).virt.W l k else 0) row fs i j := by
  induction fs generalizing row with
  | nil => rfl
  | cons f fs ih =>
    rw [wIns, List.map_append, List.sum_append, weightIns_sum, diagB, ih]
    by_cases hi : row ≤ i ∧ i - row < (w.fh f).virt.dim
    · rw [dif_pos hi, dif_pos hi, diagB_lt_left (by omega), add_zero]
    · rw [dif_neg hi, dif_neg hi, zero_add]
      split
      · rw [diagB_lt_right (by omega)]
      · rfl

theorem weightIns_nodup (row : ℕ) (f : FactorCell) : ((weightIns row f).map fun e => (e.1, e.2.1)).Nodup := by
  rw [weightIns, List.map_flatMap]
  rw [List.nodup_flatMap]
  constructor
  · intro l _
    rw [List.map_map]
    apply List.Nodup.map _ ((List.nodup_finRange _).filter _)
    intro a b hab
    simp only [Function.comp_apply, Prod.mk.injEq] at hab
    ext; omega
  · apply List.Pairwise.imp _ (List.nodup_finRange _)
    intro a b hab
    simp only [Function.onFun, List.disjoint_left, List.mem_map]
    rintro _ ⟨_, ⟨k, _, rfl⟩, rfl⟩ ⟨_, ⟨k', _, rfl⟩, h⟩
    simp only [Prod.mk.injEq] at h
    exact hab (by ext; omega)

theorem wIns_nodup (w : World) (row : ℕ) (fs : List FRef) : ((w.wIns row fs).map fun e => (e.1, e.2.1)).Nodup := by
  induction fs generalizing row with
  | nil => simp [wIns]
  | cons f fs ih =>
    rw [wIns, List.map_append, List.nodup_append]
    refine ⟨weightIns_nodup _ _, ih _, ?_⟩
    intro a ha b hb
    obtain ⟨e, he, rfl⟩ := List.mem_map.mp ha
    obtain ⟨e', he', rfl⟩ := List.mem_map.mp hb
    have h1 := weightIns_row _ _ e he
    have h2 := wIns_row _ _ _ e' he'
    intro hc
    simp only [Prod.mk.injEq] at hc
    omega

/-! ### The residual vector -/

theorem rVec_eq_stack (w : World) (junk : ℕ → ℝ) (row : ℕ) (fs : List FRef) (i : ℕ) (h : row ≤ i)
    (h' : i < row + total (fun f => (w.fh f).virt.dim) fs) :
    w.rVec junk row fs i = stack (fun f => (w.fh f).virt.dim) (fun f l => (w.fh f).r l) row fs i := by
  induction fs generalizing row with
  | nil => simp [total] at h'; omega
  | cons f fs ih =>
    rw [rVec, stack]
    split
    · rfl
    · simp only [total, List.map_cons, List.sum_cons] at h' ih
      exact ih _ (by omega) (by omega)

end World

end Mrob

namespace Mrob

/-- Conditions under which the graph is assembled correctly.  Every graph built with `add_node` and `add_factor` from
distinct objects of the right classes meets them (theorem `C44_wired_partial`). -/
structure Wired (w : World) : Prop where
  /-- no node is active twice -/
  active_nodup : w.g.active.Nodup
  /-- ids are unique -/
  ids : ∀ a ∈ w.g.active, ∀ b ∈ w.g.active, (w.nh a).id = (w.nh b).id → a = b
  /-- active nodes are not anchors -/
  modes : ∀ a ∈ w.g.active, (w.nh a).mode ≠ .anchor
  /-- the nodes of a factor are active or anchors -/
  nbrs_active : ∀ f ∈ w.g.factors, ∀ n ∈ (w.fh f).nbrs, (w.nh n).mode ≠ .anchor → n ∈ w.g.active
  /-- the non-anchor nodes of a factor are distinct -/
  nbrs_nodup : ∀ f ∈ w.g.factors, ((w.fh f).nbrs.filter fun n => (w.nh n).mode ≠ .anchor).Nodup
  /-- the nodes of a factor are of the classes it expects -/
  typed : ∀ f ∈ w.g.factors, (w.fh f).wellTyped w.nh
  /-- `stateDim_` -/
  stateDim : w.g.stateDim = total (fun n => (w.nh n).dim) w.g.active
  /-- `obsDim_` -/
  obsDim : total (fun f => (w.fh f).virt.dim) w.g.factors ≤ w.g.obsDim

namespace World

variable {w : World}

theorem colOf_active (hw : Wired w) {a : NRef} (ha : a ∈ w.g.active) :
    colOf (colPairs w.nh 0 w.g.active) (w.nh a).id = offset (fun n => (w.nh n).dim) w.g.active a := by
  rw [colOf, colPairs_lookup w.nh hw.ids ha]; simp

theorem rowIns_mem {row : ℕ} {Jl : ℕ → ℝ} {ps : List (ℕ × ℕ)} {nbrs : List NRef} {tk : ℕ} {e : ℕ × ℕ × ℝ}
    (he : e ∈ rowIns w.nh ps row Jl tk nbrs) :
    ∃ n ∈ nbrs, (w.nh n).mode ≠ .anchor ∧ ∃ k < (w.nh n).dim, e.2.1 = colOf ps (w.nh n).id + k := by
  induction nbrs generalizing tk with
  | nil => simp [rowIns] at he
  | cons n ns ih =>
    rw [rowIns] at he
    split at he
    · obtain ⟨m, hm, h⟩ := ih he
      exact ⟨m, List.mem_cons_of_mem _ hm, h⟩
    · rename_i hmode
      rcases List.mem_append.mp he with he | he
      · obtain ⟨k, hk, rfl⟩ := List.mem_map.mp he
        exact ⟨n, List.mem_cons_self, hmode, k, List.mem_range.mp hk, rfl⟩
      · obtain ⟨m, hm, h⟩ := ih he
        exact ⟨m, List.mem_cons_of_mem _ hm, h⟩

theorem rowIns_nodup (hw : Wired w) (row : ℕ) (Jl : ℕ → ℝ) (nbrs : List NRef) (tk : ℕ)
    (hact : ∀ n ∈ nbrs, (w.nh n).mode ≠ .anchor → n ∈ w.g.active)
    (hnd : (nbrs.filter fun n => (w.nh n).mode ≠ .anchor).Nodup) :
    ((rowIns w.nh (colPairs w.nh 0 w.g.active) row Jl tk nbrs).map fun e => (e.1, e.2.1)).Nodup := by
  induction nbrs generalizing tk with
  | nil => simp [rowIns]
  | cons n ns ih =>
    rw [rowIns]
    split
    · rename_i h
      exact ih _ (fun m hm => hact m (List.mem_cons_of_mem _ hm)) (by simpa [h] using hnd)
    · rename_i h
      rw [List.filter_cons_of_pos (by simpa using h), List.nodup_cons] at hnd
      rw [List.map_append, List.nodup_append]
      refine ⟨?_, ih _ (fun m hm => hact m (List.mem_cons_of_mem _ hm)) hnd.2, ?_⟩
      · rw [List.map_map]
        apply List.Nodup.map _ List.nodup_range
        intro a b hab
        simp only [Function.comp_apply, Prod.mk.injEq] at hab
        omega
      · intro x hx y hy hxy
        obtain ⟨e, he, rfl⟩ := List.mem_map.mp hx
        obtain ⟨e', he', rfl⟩ := List.mem_map.mp hy
        obtain ⟨k, hk, rfl⟩ := List.mem_map.mp he
        obtain ⟨m, hm, hmm, k', hk', e2⟩ := rowIns_mem he'
        simp only [Prod.mk.injEq] at hxy
        have hn := hact n List.mem_cons_self h
        have hma := hact m (List.mem_cons_of_mem _ hm) hmm
        rw [e2, colOf_active hw hn, colOf_active hw hma] at hxy
        obtain ⟨rfl, -⟩ := offset_inj hn hma (List.mem_range.mp hk) hk' hxy.2
        exact hnd.1 (List.mem_filter.mpr ⟨hm, by simpa using hmm⟩)

theorem factorIns_nodup (hw : Wired w) (row : ℕ) (f : FactorCell)
    (hact : ∀ n ∈ f.nbrs, (w.nh n).mode ≠ .anchor → n ∈ w.g.active)
    (hnd : (f.nbrs.filter fun n => (w.nh n).mode ≠ .anchor).Nodup) :
    ((factorIns w.nh (colPairs w.nh 0 w.g.active) row f).map fun e => (e.1, e.2.1)).Nodup := by
  rw [factorIns, List.map_flatMap, List.nodup_flatMap]
  refine ⟨fun l _ => rowIns_nodup hw _ _ _ _ hact hnd, ?_⟩
  apply List.Pairwise.imp _ (List.nodup_finRange _)
  intro a b hab
  simp only [Function.onFun, List.disjoint_left, List.mem_map]
  rintro _ ⟨e, he, rfl⟩ ⟨e', he', h⟩
  have h1 := rowIns_row _ _ _ _ _ _ e he
  have h2 := rowIns_row _ _ _ _ _ _ e' he'
  simp only [Prod.mk.injEq] at h
  exact hab (by ext; omega)

theorem aIns_nodup (hw : Wired w) (row : ℕ) (fs : List FRef) (hfs : ∀ f ∈ fs, f ∈ w.g.factors) :
    ((w.aIns (colPairs w.nh 0 w.g.active) row fs).map fun e => (e.1, e.2.1)).Nodup := by
  induction fs generalizing row with
  | nil => simp [aIns]
  | cons f fs ih =>
    have hf := hfs f List.mem_cons_self
    rw [aIns, List.map_append, List.nodup_append]
    refine ⟨factorIns_nodup hw _ _ (hw.nbrs_active f hf) (hw.nbrs_nodup f hf),
      ih _ fun g hg => hfs g (List.mem_cons_of_mem _ hg), ?_⟩
    intro a ha b hb
    obtain ⟨e, he, rfl⟩ := List.mem_map.mp ha
    obtain ⟨e', he', rfl⟩ := List.mem_map.mp hb
    have h1 := factorIns_row _ _ _ _ e he
    have h2 := aIns_row _ _ _ _ e' he'
    intro hc
    simp only [Prod.mk.injEq] at hc
    omega

theorem aIns_bounds (hw : Wired w) (row : ℕ) (fs : List FRef) (hfs : ∀ f ∈ fs, f ∈ w.g.factors)
    (e : ℕ × ℕ × ℝ) (he : e ∈ w.aIns (colPairs w.nh 0 w.g.active) row fs) : e.2.1 < w.g.stateDim := by
  induction fs generalizing row with
  | nil => simp [aIns] at he
  | cons f fs ih =>
    rw [aIns, List.mem_append] at he
    rcases he with he | he
    · rw [factorIns, List.mem_flatMap] at he
      obtain ⟨l, -, he⟩ := he
      obtain ⟨n, hn, hm, k, hk, e2⟩ := rowIns_mem he
      have ha := hw.nbrs_active f (hfs f List.mem_cons_self) n hn hm
      rw [e2, colOf_active hw ha, hw.stateDim]
      exact offset_lt ha hk
    · exact ih _ (fun g hg => hfs g (List.mem_cons_of_mem _ hg)) he

theorem rowVal_eq (hw : Wired w) (Jl : ℕ → ℝ) (nbrs : List NRef)
    (hact : ∀ n ∈ nbrs, (w.nh n).mode ≠ .anchor → n ∈ w.g.active) {a : NRef} (ha : a ∈ w.g.active) {k : ℕ}
    (hk : k < (w.nh a).dim) :
    rowVal w.nh (colPairs w.nh 0 w.g.active) Jl nbrs (offset (fun n => (w.nh n).dim) w.g.active a + k) =
      blockEntry (fun n => (w.nh n).dim) Jl a k 0 nbrs := by
  rw [rowVal]
  suffices h : ∀ tk, ((rowIns w.nh (colPairs w.nh 0 w.g.active) 0 Jl tk nbrs).map fun e =>
      if e.2.1 = offset (fun n => (w.nh n).dim) w.g.active a + k then e.2.2 else 0).sum =
      blockEntry (fun n => (w.nh n).dim) Jl a k tk nbrs from h 0
  induction nbrs with
  | nil => intro tk; rfl
  | cons n ns ih =>
    intro tk
    have ih := ih (fun m hm => hact m (List.mem_cons_of_mem _ hm))
    rw [rowIns, blockEntry]
    split
    · rename_i hm
      have hne : n ≠ a := by rintro rfl; exact hw.modes _ ha hm
      rw [if_neg hne, zero_add, ← ih]
    · rename_i hm
      have hn := hact n List.mem_cons_self hm
      rw [List.map_append, List.sum_append, ih]
      congr 1
      rw [List.map_map, colOf_active hw hn]
      have e2 : ∑ k' ∈ Finset.range (w.nh n).dim, (if offset (fun n => (w.nh n).dim) w.g.active n + k' =
            offset (fun n => (w.nh n).dim) w.g.active a + k then Jl (k' + tk) else 0) =
          if n = a then Jl (tk + k) else 0 := by
        split
        · rename_i h
          subst h
          rw [Finset.sum_eq_single k]
          · rw [if_pos rfl, add_comm]
          · intro k' _ hk'
            rw [if_neg (by omega)]
          · intro hc; exact absurd (Finset.mem_range.mpr hk) hc
        · rename_i h
          apply Finset.sum_eq_zero
          intro k' hk'
          rw [if_neg]
          intro hc
          exact h (offset_inj hn ha (Finset.mem_range.mp hk') hk hc).1
      rw [← e2, ← sum_map_range]
      rfl

end World

end Mrob
