import Mathlib.Algebra.BigOperators.Intervals
import Mathlib.Algebra.BigOperators.Fin
import Mathlib.Data.Real.Basic
import Mathlib.Tactic.Ring

/-!
# Block-stacked vectors and block-diagonal matrices indexed by natural numbers
-/

namespace Mrob

theorem sum_map_flatMap {α β : Type*} (l : List α) (f : α → List β) (g : β → ℝ) :
    ((l.flatMap f).map g).sum = (l.map fun a => ((f a).map g).sum).sum := by
  induction l with
  | nil => rfl
  | cons a l ih => simp [List.flatMap_cons, ih]

theorem sum_map_filter {α : Type*} (l : List α) (p : α → Bool) (g : α → ℝ) :
    ((l.filter p).map g).sum = (l.map fun a => if p a then g a else 0).sum := by
  induction l with
  | nil => rfl
  | cons a l ih => by_cases h : p a <;> simp [h, ih]

theorem sum_map_range (n : ℕ) (g : ℕ → ℝ) : ((List.range n).map g).sum = ∑ k ∈ Finset.range n, g k := rfl

variable {α : Type*} (dim : α → ℕ)

/-- Sum of dimensions. -/
def total (as : List α) : ℕ := (as.map dim).sum

/-- Vector made of blocks. -/
def stack (g : (a : α) → Fin (dim a) → ℝ) : ℕ → List α → ℕ → ℝ
  | _, [], _ => 0
  | row, a :: as, i =>
    if h : row ≤ i ∧ i - row < dim a then g a ⟨i - row, h.2⟩ else stack g (row + dim a) as i

/-- Block-diagonal matrix. -/
def diagB (S : (a : α) → Fin (dim a) → Fin (dim a) → ℝ) : ℕ → List α → ℕ → ℕ → ℝ
  | _, [], _, _ => 0
  | row, a :: as, i, j =>
    if hi : row ≤ i ∧ i - row < dim a then
      if hj : row ≤ j ∧ j - row < dim a then S a ⟨i - row, hi.2⟩ ⟨j - row, hj.2⟩ else 0
    else if row ≤ j ∧ j - row < dim a then 0
    else diagB S (row + dim a) as i j

variable {dim}

theorem stack_lt {g : (a : α) → Fin (dim a) → ℝ} {as : List α} {row i : ℕ} (h : i < row) :
    stack dim g row as i = 0 := by
  induction as generalizing row with
  | nil => rfl
  | cons a as ih => rw [stack, dif_neg (by omega), ih (by omega)]

theorem stack_ge {g : (a : α) → Fin (dim a) → ℝ} {as : List α} {row i : ℕ} (h : row + total dim as ≤ i) :
    stack dim g row as i = 0 := by
  induction as generalizing row with
  | nil => rfl
  | cons a as ih =>
    simp only [total, List.map_cons, List.sum_cons] at h
    rw [stack, dif_neg (by omega), ih (by simp only [total]; omega)]

theorem diagB_lt_left {S : (a : α) → Fin (dim a) → Fin (dim a) → ℝ} {as : List α} {row i j : ℕ} (h : i < row) :
    diagB dim S row as i j = 0 := by
  induction as generalizing row with
  | nil => rfl
  | cons a as ih =>
    rw [diagB, dif_neg (by omega)]
    split
    · rfl
    · exact ih (by omega)

theorem diagB_lt_right {S : (a : α) → Fin (dim a) → Fin (dim a) → ℝ} {as : List α} {row i j : ℕ} (h : j < row) :
    diagB dim S row as i j = 0 := by
  induction as generalizing row with
  | nil => rfl
  | cons a as ih =>
    rw [diagB]
    split
    · rw [dif_neg (by omega)]
    · rw [if_neg (by omega)]; exact ih (by omega)

theorem diagB_ge_right {S : (a : α) → Fin (dim a) → Fin (dim a) → ℝ} {as : List α} {row i j : ℕ}
    (h : row + total dim as ≤ j) : diagB dim S row as i j = 0 := by
  induction as generalizing row with
  | nil => rfl
  | cons a as ih =>
    simp only [total, List.map_cons, List.sum_cons] at h
    rw [diagB]
    split
    · rw [dif_neg (by omega)]
    · rw [if_neg (by omega)]; exact ih (by simp only [total]; omega)

theorem sum_Ico_block (row d : ℕ) (F : ℕ → ℝ) : ∑ i ∈ Finset.Ico row (row + d), F i = ∑ k : Fin d, F (row + k) := by
  rw [Finset.sum_Ico_eq_sum_range, Nat.add_sub_cancel_left]
  exact (Fin.sum_univ_eq_sum_range (fun k => F (row + k)) d).symm

/-- Sum of all entries of a stacked vector. -/
theorem sum_stack (g : (a : α) → Fin (dim a) → ℝ) (as : List α) (row : ℕ) :
    ∑ i ∈ Finset.Ico row (row + total dim as), stack dim g row as i = (as.map fun a => ∑ k, g a k).sum := by
  induction as generalizing row with
  | nil => simp [total]
  | cons a as ih =>
    have e : row + total dim (a :: as) = (row + dim a) + total dim as := by
      simp only [total, List.map_cons, List.sum_cons]; omega
    rw [e, ← Finset.sum_Ico_consecutive _ (Nat.le_add_right row (dim a)) (by omega), sum_Ico_block,
      List.map_cons, List.sum_cons]
    congr 1
    · apply Finset.sum_congr rfl
      intro k _
      rw [stack, dif_pos (by omega)]
      congr 1; ext; simp
    · rw [← ih]
      apply Finset.sum_congr rfl
      intro i hi
      rw [Finset.mem_Ico] at hi
      rw [stack, dif_neg (by omega)]

theorem stack_mul (g g' : (a : α) → Fin (dim a) → ℝ) (as : List α) (row i : ℕ) :
    stack dim g row as i * stack dim g' row as i = stack dim (fun a k => g a k * g' a k) row as i := by
  induction as generalizing row with
  | nil => simp [stack]
  | cons a as ih =>
    rw [stack, stack, stack]
    split
    · rfl
    · exact ih _

/-- Block-diagonal matrix times stacked vector. -/
theorem diagB_mul_stack (S : (a : α) → Fin (dim a) → Fin (dim a) → ℝ) (g : (a : α) → Fin (dim a) → ℝ)
    (as : List α) (row i : ℕ) :
    ∑ j ∈ Finset.Ico row (row + total dim as), diagB dim S row as i j * stack dim g row as j =
      stack dim (fun a l => ∑ k, S a l k * g a k) row as i := by
  induction as generalizing row with
  | nil => simp [total, stack]
  | cons a as ih =>
    have e : row + total dim (a :: as) = (row + dim a) + total dim as := by
      simp only [total, List.map_cons, List.sum_cons]; omega
    rw [e, ← Finset.sum_Ico_consecutive _ (Nat.le_add_right row (dim a)) (by omega), sum_Ico_block, stack]
    split
    · rename_i h
      have h2 : ∑ j ∈ Finset.Ico (row + dim a) (row + dim a + total dim as),
          diagB dim S row (a :: as) i j * stack dim g row (a :: as) j = 0 := by
        apply Finset.sum_eq_zero
        intro j hj
        rw [Finset.mem_Ico] at hj
        rw [diagB, dif_pos h, dif_neg (by omega), zero_mul]
      rw [h2, add_zero]
      apply Finset.sum_congr rfl
      intro k _
      rw [diagB, dif_pos h, dif_pos (by omega), stack, dif_pos (by omega)]
      congr 2 <;> (ext; simp)
    · rename_i h
      have h1 : ∑ k : Fin (dim a), diagB dim S row (a :: as) i (row + k) * stack dim g row (a :: as) (row + k) = 0 := by
        apply Finset.sum_eq_zero
        intro k _
        rw [diagB, dif_neg h, if_pos (by omega), zero_mul]
      rw [h1, zero_add, ← ih]
      apply Finset.sum_congr rfl
      intro j hj
      rw [Finset.mem_Ico] at hj
      rw [diagB, dif_neg h, if_neg (by omega), stack, dif_neg (by omega)]

theorem sum_range_eq_Ico {F : ℕ → ℝ} {M t : ℕ} (hM : t ≤ M) (h : ∀ i, t ≤ i → F i = 0) :
    ∑ i ∈ Finset.range M, F i = ∑ i ∈ Finset.Ico 0 (0 + t), F i := by
  rw [zero_add, ← Finset.range_eq_Ico]
  symm
  apply Finset.sum_subset
  · intro i hi; rw [Finset.mem_range] at *; omega
  · intro i _ hi; rw [Finset.mem_range] at hi; exact h i (by omega)

/-- The quadratic form of stacked vectors in a block-diagonal matrix. -/
theorem quad_stack (S : (a : α) → Fin (dim a) → Fin (dim a) → ℝ) (g g' : (a : α) → Fin (dim a) → ℝ)
    (as : List α) (M : ℕ) (hM : total dim as ≤ M) (y : ℕ → ℝ)
    (hy : ∀ i, i < total dim as → y i = stack dim g' 0 as i) :
    ∑ i ∈ Finset.range M, stack dim g 0 as i * ∑ j ∈ Finset.range M, diagB dim S 0 as i j * y j =
      (as.map fun a => ∑ l, g a l * ∑ k, S a l k * g' a k).sum := by
  have h1 : ∀ i, ∑ j ∈ Finset.range M, diagB dim S 0 as i j * y j =
      stack dim (fun a l => ∑ k, S a l k * g' a k) 0 as i := by
    intro i
    rw [sum_range_eq_Ico hM, ← diagB_mul_stack]
    · apply Finset.sum_congr rfl
      intro j hj
      rw [Finset.mem_Ico] at hj
      rw [hy j (by omega)]
    · intro j hj
      rw [diagB_ge_right (by omega), zero_mul]
  simp only [h1, stack_mul]
  rw [sum_range_eq_Ico hM, sum_stack]
  intro i hi
  exact stack_ge (by omega)

theorem diagB_symm (S : (a : α) → Fin (dim a) → Fin (dim a) → ℝ) (as : List α) (row i j : ℕ) :
    (if i ≤ j then diagB dim (fun a l k => if l ≤ k then S a l k else 0) row as i j
      else diagB dim (fun a l k => if l ≤ k then S a l k else 0) row as j i) =
    diagB dim (fun a l k => if l ≤ k then S a l k else S a k l) row as i j := by
  induction as generalizing row with
  | nil => simp [diagB]
  | cons a as ih =>
    by_cases hij : i ≤ j
    · rw [if_pos hij, diagB, diagB]
      split
      · rename_i hi
        split
        · rename_i hj
          have : (⟨i - row, hi.2⟩ : Fin (dim a)) ≤ ⟨j - row, hj.2⟩ := by simp only [Fin.mk_le_mk]; omega
          rw [if_pos this, if_pos this]
        · rfl
      · split
        · rfl
        · rw [← ih, if_pos hij]
    · rw [if_neg hij, diagB, diagB]
      by_cases hi : row ≤ i ∧ i - row < dim a
      · by_cases hj : row ≤ j ∧ j - row < dim a
        · have h1 : (⟨j - row, hj.2⟩ : Fin (dim a)) ≤ ⟨i - row, hi.2⟩ := by simp only [Fin.mk_le_mk]; omega
          have h2 : ¬ (⟨i - row, hi.2⟩ : Fin (dim a)) ≤ ⟨j - row, hj.2⟩ := by simp only [Fin.mk_le_mk]; omega
          rw [dif_pos hj, dif_pos hi, dif_pos hi, dif_pos hj, if_pos h1, if_neg h2]
        · rw [dif_neg hj, if_pos hi, dif_pos hi, dif_neg hj]
      · by_cases hj : row ≤ j ∧ j - row < dim a
        · rw [dif_pos hj, dif_neg hi, dif_neg hi, if_pos hj]
        · rw [dif_neg hj, if_neg hi, dif_neg hi, if_neg hj, ← ih, if_neg hij]

end Mrob
