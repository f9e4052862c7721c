import Verif.Model.Solve
import Mathlib.Algebra.BigOperators.Intervals
import Mathlib.Tactic.Ring

/-!
# Lemmas about evaluation of factors and sparse insertion
-/

open Matrix

namespace Mrob

namespace SMat

/-- Effect of a successful sequence of insertions. -/
theorem insertAll_spec (es : List (ℕ × ℕ × ℝ)) : ∀ (A B : SMat), A.insertAll es = .ok B →
    (B.rows = A.rows ∧ B.cols = A.cols) ∧ (∀ e ∈ es, e.1 < A.rows ∧ e.2.1 < A.cols) ∧
    (es.map fun e => (e.1, e.2.1)).Nodup ∧ (∀ e ∈ es, A.get e.1 e.2.1 = none) ∧
    (∀ i j, (B.get i j).getD 0 = (A.get i j).getD 0 + (es.map fun e => if e.1 = i ∧ e.2.1 = j then e.2.2 else 0).sum) := by
  induction es with
  | nil =>
    intro A B h
    simp only [insertAll, Out.ok.injEq] at h
    subst h; simp
  | cons e es ih =>
    intro A B h
    rw [insertAll, Out.bind_eq_ok] at h
    obtain ⟨A', hA, h⟩ := h
    rw [insert] at hA
    split at hA
    · rename_i hc
      simp only [Out.ok.injEq] at hA
      obtain ⟨h1, h2, h3, h4, h5⟩ := ih A' B h
      subst hA
      have hne : ∀ e' ∈ es, ¬ (e'.1 = e.1 ∧ e'.2.1 = e.2.1) := by
        intro e' he' hcc
        have := h4 e' he'
        simp [hcc] at this
      refine ⟨h1, ?_, ?_, ?_, ?_⟩
      · intro e' he'
        rcases List.mem_cons.mp he' with rfl | he'
        · exact ⟨hc.1, hc.2.1⟩
        · exact h2 e' he'
      · rw [List.map_cons, List.nodup_cons]
        refine ⟨?_, h3⟩
        intro hm
        obtain ⟨e', he', heq⟩ := List.mem_map.mp hm
        exact hne e' he' (by simpa using heq)
      · intro e' he'
        rcases List.mem_cons.mp he' with rfl | he'
        · exact hc.2.2
        · have := h4 e' he'
          simpa [hne e' he'] using this
      · intro i j
        rw [h5, List.map_cons, List.sum_cons]
        by_cases hij : i = e.1 ∧ j = e.2.1
        · obtain ⟨rfl, rfl⟩ := hij
          simp [hc.2.2]
        · have hij' : ¬ (e.1 = i ∧ e.2.1 = j) := fun hh => hij ⟨hh.1.symm, hh.2.symm⟩
          simp [hij, hij']
    · simp at hA

/-- Sufficient conditions for success. -/
theorem insertAll_ok (es : List (ℕ × ℕ × ℝ)) : ∀ (A : SMat),
    (∀ e ∈ es, e.1 < A.rows ∧ e.2.1 < A.cols) → (es.map fun e => (e.1, e.2.1)).Nodup →
    (∀ e ∈ es, A.get e.1 e.2.1 = none) → ∃ B, A.insertAll es = .ok B := by
  induction es with
  | nil => intro A _ _ _; exact ⟨A, rfl⟩
  | cons e es ih =>
    intro A hb hnd hn
    rw [List.map_cons, List.nodup_cons] at hnd
    have he := hb e List.mem_cons_self
    rw [insertAll, insert, if_pos ⟨he.1, he.2, hn e List.mem_cons_self⟩, Out.ok_bind]
    apply ih
    · exact fun e' he' => hb e' (List.mem_cons_of_mem _ he')
    · exact hnd.2
    · intro e' he'
      have hne : ¬ (e'.1 = e.1 ∧ e'.2.1 = e.2.1) := fun hcc =>
        hnd.1 (List.mem_map.mpr ⟨e', he', by simp [hcc]⟩)
      simp [hne, hn e' (List.mem_cons_of_mem _ he')]

/-- Insertion into an empty matrix: success and value. -/
theorem insertAll_empty_iff (m n : ℕ) (es : List (ℕ × ℕ × ℝ)) :
    (∃ B, (SMat.empty m n).insertAll es = .ok B) ↔
      (∀ e ∈ es, e.1 < m ∧ e.2.1 < n) ∧ (es.map fun e => (e.1, e.2.1)).Nodup := by
  constructor
  · rintro ⟨B, h⟩
    obtain ⟨-, h2, h3, -⟩ := insertAll_spec es _ _ h
    exact ⟨h2, h3⟩
  · rintro ⟨h1, h2⟩
    exact insertAll_ok es _ h1 h2 fun _ _ => rfl

theorem insertAll_empty_get {m n : ℕ} {es : List (ℕ × ℕ × ℝ)} {B : SMat}
    (h : (SMat.empty m n).insertAll es = .ok B) (i j : ℕ) :
    (B.get i j).getD 0 = (es.map fun e => if e.1 = i ∧ e.2.1 = j then e.2.2 else 0).sum := by
  obtain ⟨-, -, -, -, h5⟩ := insertAll_spec es _ _ h
  rw [h5]; simp [empty]

end SMat

namespace World

/-! ### Evaluation of all factors -/

/-- Overwrites the factor objects in `l`. -/
def mapF (φ : FactorCell → FactorCell) (l : List FRef) (w : World) : World :=
  { w with fh := fun f => if f ∈ l then φ (w.fh f) else w.fh f }

@[simp] theorem mapF_g (φ : FactorCell → FactorCell) (l : List FRef) (w : World) : (mapF φ l w).g = w.g := rfl
@[simp] theorem mapF_nh (φ : FactorCell → FactorCell) (l : List FRef) (w : World) : (mapF φ l w).nh = w.nh := rfl
theorem mapF_fh (φ : FactorCell → FactorCell) (l : List FRef) (w : World) (f : FRef) :
    (mapF φ l w).fh f = if f ∈ l then φ (w.fh f) else w.fh f := rfl

theorem forAll_setF (act : World → FRef → Out World) (φ : FactorCell → FactorCell) (P : FactorCell → Prop)
    (nh : NRef → NodeCell)
    (hact : ∀ w f, w.nh = nh → P (w.fh f) → act w f = .ok (w.setF f (φ (w.fh f))))
    (hP : ∀ c, P c → P (φ c)) (hid : ∀ c, φ (φ c) = φ c) (l : List FRef) :
    ∀ (w : World), w.nh = nh → (∀ f ∈ l, P (w.fh f)) → forAll act l w = .ok (mapF φ l w) := by
  induction l with
  | nil => intro w _ _; simp [forAll, mapF]
  | cons f l ih =>
    intro w hn h
    rw [forAll, hact w f hn (h f List.mem_cons_self), Out.ok_bind]
    rw [ih (w.setF f (φ (w.fh f))) hn]
    · congr 1
      unfold mapF
      congr 1
      funext g
      by_cases hg : g = f
      · subst hg
        by_cases hgl : g ∈ l <;> simp [hgl, setF, hid]
      · by_cases hgl : g ∈ l <;> simp [hgl, hg, setF]
    · intro g hg
      by_cases hgf : g = f
      · subst hgf
        simpa [setF] using hP _ (h g List.mem_cons_self)
      · simpa [setF, Function.update_of_ne hgf] using h g (List.mem_cons_of_mem _ hg)

theorem forAll_setF_ok (act : World → FRef → Out World) (φ : FactorCell → FactorCell) (P : FactorCell → Prop)
    (nh : NRef → NodeCell)
    (hact : ∀ w f, w.nh = nh → P (w.fh f) → act w f = .ok (w.setF f (φ (w.fh f))))
    (hnot : ∀ w f w', w.nh = nh → act w f = .ok w' → P (w.fh f)) (l : List FRef) :
    ∀ (w w' : World), w.nh = nh → forAll act l w = .ok w' → ∀ f ∈ l, P (w.fh f) := by
  induction l with
  | nil => intro w w' _ _; simp
  | cons f l ih =>
    intro w w' hn h
    rw [forAll, Out.bind_eq_ok] at h
    obtain ⟨w1, h1, h⟩ := h
    have hf := hnot w f w1 hn h1
    rw [hact w f hn hf, Out.ok.injEq] at h1
    subst h1
    intro g hg
    by_cases hgf : g = f
    · subst hgf; exact hf
    · have := ih (w.setF f (φ (w.fh f))) w' hn h g (by simpa [hgf] using hg)
      simpa [setF, Function.update_of_ne hgf] using this

theorem forAll_evalFull (l : List FRef) (w : World) (h : ∀ f ∈ l, (w.fh f).wellTyped w.nh) :
    forAll evalFull l w = .ok (mapF (·.full w.nh) l w) :=
  forAll_setF evalFull (·.full w.nh) (·.wellTyped w.nh) w.nh
    (fun w' f hn hf => by rw [evalFull, hn, if_pos hf]) (fun _ h => h) (fun _ => rfl) l w rfl h

theorem forAll_evalFull_ok (l : List FRef) (w w' : World) (h : forAll evalFull l w = .ok w') :
    ∀ f ∈ l, (w.fh f).wellTyped w.nh :=
  forAll_setF_ok evalFull (·.full w.nh) (·.wellTyped w.nh) w.nh
    (fun w' f hn hf => by rw [evalFull, hn, if_pos hf])
    (fun w1 f w2 hn h1 => by
      rw [evalFull, hn] at h1
      by_contra hc
      rw [if_neg hc] at h1
      simp at h1) l w w' rfl h

theorem forAll_evalRes (l : List FRef) (w : World) (h : ∀ f ∈ l, (w.fh f).wellTyped w.nh) :
    forAll evalRes l w = .ok (mapF (·.resd w.nh) l w) :=
  forAll_setF evalRes (·.resd w.nh) (·.wellTyped w.nh) w.nh
    (fun w' f hn hf => by rw [evalRes, hn, if_pos hf]) (fun _ h => h) (fun _ => rfl) l w rfl h

theorem forAll_evalRes_ok (l : List FRef) (w w' : World) (h : forAll evalRes l w = .ok w') :
    ∀ f ∈ l, (w.fh f).wellTyped w.nh :=
  forAll_setF_ok evalRes (·.resd w.nh) (·.wellTyped w.nh) w.nh
    (fun w' f hn hf => by rw [evalRes, hn, if_pos hf])
    (fun w1 f w2 hn h1 => by
      rw [evalRes, hn] at h1
      by_contra hc
      rw [if_neg hc] at h1
      simp at h1) l w w' rfl h

theorem robustWeight_idem (ty : Robust) (old u : ℝ) :
    robustWeight ty (robustWeight ty old u) u = robustWeight ty old u := by
  cases ty <;> simp [robustWeight]

theorem weighted_weighted (c : FactorCell) : c.weighted.weighted = c.weighted := by
  simp [FactorCell.weighted, robustWeight_idem]

theorem forAll_evalWeight (l : List FRef) (w : World) (h : ∀ f ∈ l, (w.fh f).weightable) :
    forAll evalWeight l w = .ok (mapF (·.weighted) l w) :=
  forAll_setF evalWeight (·.weighted) (·.weightable) w.nh
    (fun w' f hn hf => by rw [evalWeight, if_pos hf]) (fun _ h => h) weighted_weighted l w rfl h

theorem forAll_evalWeight_ok (l : List FRef) (w w' : World) (h : forAll evalWeight l w = .ok w') :
    ∀ f ∈ l, (w.fh f).weightable :=
  forAll_setF_ok evalWeight (·.weighted) (·.weightable) w.nh
    (fun w' f hn hf => by rw [evalWeight, if_pos hf])
    (fun w1 f w2 hn h1 => by
      rw [evalWeight] at h1
      by_contra hc
      rw [if_neg hc] at h1
      simp at h1) l w w' rfl h

end World

end Mrob
