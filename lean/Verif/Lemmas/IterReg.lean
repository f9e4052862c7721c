import Verif.Lemmas.Registration
import Verif.Lemmas.PlaneGrad
import Verif.Lemmas.PlaneObj
import Mathlib.LinearAlgebra.Matrix.PosDef
import Mathlib.Algebra.Order.Star.Real
import Mathlib.Analysis.Matrix.Order

/-! # Lemmas about the iterative registration -/

open Matrix

namespace Mrob

open Spec

/-! ## The loop -/

/-- Poses and increments of the loop. -/
theorem regLoop_trace {step : SE3 → Out Vec6} {tol : ℝ} {i k : ℕ} {T T' : SE3} (hi : i < 20)
    (h : regLoop step tol i T = .ok (k, T')) : i < k ∧ k ≤ 20 ∧ ∃ (Ts : ℕ → SE3) (dx : ℕ → Vec6), Ts i = T ∧ Ts k = T' ∧
      (∀ j, i ≤ j → j < k → step (Ts j) = .ok (dx j) ∧ Ts (j + 1) = (Ts j).updateLhs (dx j)) ∧
      (∀ j, i ≤ j → j + 1 < k → tol < vnorm (dx j)) ∧ (k < 20 → vnorm (dx (k - 1)) ≤ tol) := by
  induction hm : 20 - i using Nat.strong_induction_on generalizing i T with
  | _ m ih =>
    rw [regLoop] at h
    obtain ⟨d, hd, h⟩ := Out.bind_eq_ok.mp h
    by_cases hc : vnorm d > tol ∧ i + 1 < 20
    · rw [if_pos hc] at h
      obtain ⟨h1, h2, Ts, dx, e1, e2, e3, e4, e5⟩ := ih (20 - (i + 1)) (by omega) hc.2 h rfl
      refine ⟨by omega, h2, fun j => if j ≤ i then T else Ts j, fun j => if j ≤ i then d else dx j, by simp, ?_, ?_, ?_, ?_⟩
      · simp only [if_neg (by omega : ¬ k ≤ i), e2]
      · intro j hj hjk
        rcases Nat.eq_or_lt_of_le hj with rfl | hj
        · simp only [le_refl, if_true, if_neg (by omega : ¬ i + 1 ≤ i)]
          exact ⟨hd, e1⟩
        · simp only [if_neg (by omega : ¬ j ≤ i), if_neg (by omega : ¬ j + 1 ≤ i)]
          exact e3 j hj hjk
      · intro j hj hjk
        rcases Nat.eq_or_lt_of_le hj with rfl | hj
        · simp only [le_refl, if_true]; exact hc.1
        · simp only [if_neg (by omega : ¬ j ≤ i)]
          exact e4 j hj hjk
      · intro hk
        simp only [if_neg (by omega : ¬ k - 1 ≤ i)]
        exact e5 hk
    · rw [if_neg hc] at h
      simp only [Out.ok.injEq, Prod.mk.injEq] at h
      obtain ⟨rfl, rfl⟩ := h
      refine ⟨by omega, by omega, fun j => if j ≤ i then T else T.updateLhs d, fun _ => d, by simp, by simp, ?_, ?_, ?_⟩
      · intro j hj hjk
        obtain rfl : j = i := by omega
        simp only [le_refl, if_true, if_neg (by omega : ¬ j + 1 ≤ j)]
        exact ⟨hd, trivial⟩
      · intro j hj hjk; omega
      · intro hk
        by_contra hn
        exact hc ⟨not_le.mp hn, hk⟩

/-! ## The normal equations -/

/-- `(L, x, y)` for every correspondence. -/
def Matched (W : SE3 → ℕ → Out Mat3) (X Y : List Vec3) (T : SE3) (terms : List (Mat3 × Vec3 × Vec3)) : Prop :=
  terms.length = X.length ∧ ∀ i p, terms[i]? = some p → X[i]? = some p.2.1 ∧ Y[i]? = some p.2.2 ∧ W T i = .ok p.1

theorem traverse_getElem {α β : Type} {f : α → Out β} {l : List α} {r : List β} (h : Out.traverse f l = .ok r) (i : ℕ) (a : α)
    (ha : l[i]? = some a) : ∃ b, r[i]? = some b ∧ f a = .ok b := by
  induction l generalizing r i with
  | nil => simp at ha
  | cons c l ih =>
    rw [Out.traverse] at h
    obtain ⟨b, hb, h⟩ := Out.bind_eq_ok.mp h
    obtain ⟨bs, hbs, h⟩ := Out.bind_eq_ok.mp h
    cases h
    cases i with
    | zero =>
      simp only [List.getElem?_cons_zero, Option.some.injEq] at ha
      subst ha
      exact ⟨b, by simp, hb⟩
    | succ i =>
      simp only [List.getElem?_cons_succ] at ha
      obtain ⟨b', h1, h2⟩ := ih hbs i ha
      exact ⟨b', by simpa using h1, h2⟩

theorem regSystem_inv {W : SE3 → ℕ → Out Mat3} {X Y : List Vec3} {T : SE3} {s : Vec6 × Mat6}
    (h : regSystem W X Y T = .ok s) : ∃ terms, Matched W X Y T terms ∧
      s = (terms.map fun p => regTerm p.1 (T.transform p.2.1) p.2.2).sum := by
  rw [regSystem] at h
  obtain ⟨ts, hts, h⟩ := Out.bind_eq_ok.mp h
  cases h
  have hl := Plane.traverse_length hts
  rw [List.length_range] at hl
  have key : ∀ i, i < X.length → ∃ p : Mat3 × Vec3 × Vec3, X[i]? = some p.2.1 ∧ Y[i]? = some p.2.2 ∧ W T i = .ok p.1 ∧
      ts[i]? = some (regTerm p.1 (T.transform p.2.1) p.2.2) := by
    intro i hi
    obtain ⟨b, hb, h2⟩ := traverse_getElem hts i i (List.getElem?_range hi)
    obtain ⟨x, hx, h2⟩ := Out.bind_eq_ok.mp h2
    obtain ⟨y, hy, h2⟩ := Out.bind_eq_ok.mp h2
    obtain ⟨L, hL, h2⟩ := Out.bind_eq_ok.mp h2
    cases h2
    exact ⟨(L, x, y), Out.index_eq_ok.mp hx, Out.index_eq_ok.mp hy, hL, hb⟩
  choose g hg using key
  refine ⟨(List.finRange X.length).map fun i => g i.1 i.2, ⟨by simp, fun i p hp => ?_⟩, ?_⟩
  · obtain ⟨hi, he⟩ := List.getElem?_eq_some_iff.mp hp
    have hi' : i < X.length := by simpa using hi
    have : p = g i hi' := by rw [← he]; simp
    rw [this]
    obtain ⟨a, b, c, -⟩ := hg i hi'
    exact ⟨a, b, c⟩
  · congr 1
    refine List.ext_getElem? fun i => ?_
    rcases lt_or_ge i X.length with hi | hi
    · rw [(hg i hi).2.2.2]
      rw [List.getElem?_eq_getElem (by simpa using hi)]
      simp
    · rw [List.getElem?_eq_none (by omega), List.getElem?_eq_none (by simpa using hi)]

theorem regStep_inv {W : SE3 → ℕ → Out Mat3} {X Y : List Vec3} {T : SE3} {dx : Vec6}
    (h : regStep W X Y T = .ok dx) : ∃ terms, Matched W X Y T terms ∧
      IsUnit ((terms.map fun p => regTerm p.1 (T.transform p.2.1) p.2.2).sum.2).det ∧
      (terms.map fun p => regTerm p.1 (T.transform p.2.1) p.2.2).sum.2 *ᵥ dx =
        -(terms.map fun p => regTerm p.1 (T.transform p.2.1) p.2.2).sum.1 := by
  rw [regStep] at h
  obtain ⟨s, hs, h⟩ := Out.bind_eq_ok.mp h
  obtain ⟨terms, hm, rfl⟩ := regSystem_inv hs
  refine ⟨terms, hm, ?_⟩
  dsimp only at h
  by_cases hu : IsUnit ((terms.map fun p => regTerm p.1 (T.transform p.2.1) p.2.2).sum.2).det
  · rw [if_pos hu] at h
    cases h
    refine ⟨hu, ?_⟩
    rw [mulVec_neg, mulVec_mulVec, mul_nonsing_inv _ hu, one_mulVec]
  · rw [if_neg hu] at h; cases h

theorem regJr_mulVec (q : Vec3) (xi : Vec6) : regJr q *ᵥ xi = -screwVelocity (head3 xi) (tail3 xi) q := by
  obtain ⟨w, v, rfl⟩ : ∃ w v, xi = vec6 w v :=
    ⟨head3 xi, tail3 xi, by ext k; rcases k with k | k <;> rfl⟩
  rw [head3_vec6, tail3_vec6]
  ext i
  fin_cases i <;> simp [regJr, screwVelocity, vec6, mulVec, dotProduct, Fintype.sum_sum_type, Fin.sum_univ_three,
    hat3, crossProduct, Matrix.one_apply, vecHead, vecTail] <;> ring

/-- Value of the linear form and the quadratic form of the system. -/
theorem regTerms_sum (T : SE3) (terms : List (Mat3 × Vec3 × Vec3)) (xi : Vec6) :
    (terms.map fun p => regTerm p.1 (T.transform p.2.1) p.2.2).sum.1 ⬝ᵥ xi =
      (terms.map fun p => (p.2.2 - T.transform p.2.1) ⬝ᵥ
        (p.1 *ᵥ -screwVelocity (head3 xi) (tail3 xi) (T.transform p.2.1))).sum ∧
    ∀ zeta, zeta ⬝ᵥ ((terms.map fun p => regTerm p.1 (T.transform p.2.1) p.2.2).sum.2 *ᵥ xi) =
      (terms.map fun p => screwVelocity (head3 zeta) (tail3 zeta) (T.transform p.2.1) ⬝ᵥ
        (p.1 *ᵥ screwVelocity (head3 xi) (tail3 xi) (T.transform p.2.1))).sum := by
  induction terms with
  | nil => simp
  | cons p terms ih =>
    refine ⟨?_, fun zeta => ?_⟩
    · rw [List.map_cons, List.sum_cons, Prod.fst_add, add_dotProduct, ih.1, List.map_cons, List.sum_cons]
      congr 1
      rw [regTerm, ← dotProduct_mulVec, ← mulVec_mulVec, regJr_mulVec]
    · rw [List.map_cons, List.sum_cons, Prod.snd_add, add_mulVec, dotProduct_add, ih.2 zeta, List.map_cons, List.sum_cons]
      congr 1
      rw [regTerm, ← mulVec_mulVec, ← mulVec_mulVec, regJr_mulVec, dotProduct_mulVec, ← mulVec_transpose, transpose_transpose,
        regJr_mulVec, mulVec_neg, neg_dotProduct_neg]

theorem screwVelocity_deriv {T : SE3} (x : Vec3) (hT : LastRow T.T) (xi : Vec6) :
    VDeriv (fun h : ℝ => movePoint (T.updateLhs (h • xi)).T x) (screwVelocity (head3 xi) (tail3 xi) (T.transform x)) 0 := by
  have hd := updateLhs_deriv T xi
  have e : ∀ h : ℝ, movePoint (T.updateLhs (h • xi)).T x = fun i => ((T.updateLhs (h • xi)).T *ᵥ homPt x) (.inl i) := fun h => by
    rw [mulVec_homPt (lastRow_updateLhs hT _)]
    rfl
  intro i
  simp only [e]
  refine ((hd.mulVec (VDeriv.const (homPt x) 0)) (.inl i)).congr_deriv ?_
  rw [mulVec_zero, add_zero, ← mulVec_mulVec, mulVec_homPt hT, hat6_eq, transform_eq_movePoint]
  generalize movePoint T.T x = q
  generalize head3 xi = w
  generalize tail3 xi = v
  fin_cases i <;> simp [homog, homPt, screwVelocity, mulVec, dotProduct, Fintype.sum_sum_type, Fin.sum_univ_three, hat3,
    crossProduct] <;> ring

/-- The linear form is half the derivative of the cost with the weights kept fixed. -/
theorem weightedAlignCost_deriv {T : SE3} (hT : LastRow T.T) (terms : List (Mat3 × Vec3 × Vec3))
    (hs : ∀ p ∈ terms, p.1ᵀ = p.1) (xi : Vec6) :
    HasDerivAt (fun h : ℝ => weightedAlignCost (T.updateLhs (h • xi)).T terms)
      (2 * ((terms.map fun p => regTerm p.1 (T.transform p.2.1) p.2.2).sum.1 ⬝ᵥ xi)) 0 := by
  rw [(regTerms_sum T terms xi).1]
  induction terms with
  | nil => simpa [weightedAlignCost] using hasDerivAt_const (0 : ℝ) (0 : ℝ)
  | cons p terms ih =>
    have hv := (VDeriv.const p.2.2 0).sub (screwVelocity_deriv p.2.1 hT xi)
    have h1 := hv.dot ((MDeriv.const p.1 0).mulVec hv)
    have h2 := h1.add (ih fun q hq => hs q (List.mem_cons_of_mem _ hq))
    have e : (fun h : ℝ => weightedAlignCost (T.updateLhs (h • xi)).T (p :: terms)) =
        (fun h : ℝ => (p.2.2 - movePoint (T.updateLhs (h • xi)).T p.2.1) ⬝ᵥ
          (p.1 *ᵥ (p.2.2 - movePoint (T.updateLhs (h • xi)).T p.2.1))) +
        fun h : ℝ => weightedAlignCost (T.updateLhs (h • xi)).T terms := by
      funext h; simp [weightedAlignCost]
    rw [e]
    refine h2.congr_deriv ?_
    rw [List.map_cons, List.sum_cons, mul_add]
    congr 1
    have hp := hs p List.mem_cons_self
    rw [updateLhs_zero_smul, ← transform_eq_movePoint]
    set r := p.2.2 - T.transform p.2.1
    set v := screwVelocity (head3 xi) (tail3 xi) (T.transform p.2.1)
    have e3 : (0 - v) ⬝ᵥ (p.1 *ᵥ r) = r ⬝ᵥ (p.1 *ᵥ (0 - v)) := by
      rw [dotProduct_mulVec, ← mulVec_transpose, hp, dotProduct_comm]
    rw [zero_mulVec, zero_add, e3, zero_sub]
    ring

/-- The linearised cost is a quadratic polynomial with the system as coefficients. -/
theorem linearizedCost_eq (T : SE3) (terms : List (Mat3 × Vec3 × Vec3)) (hs : ∀ p ∈ terms, p.1ᵀ = p.1) (xi : Vec6) :
    linearizedCost (head3 xi) (tail3 xi) (terms.map fun p => (p.1, T.transform p.2.1, p.2.2)) =
      linearizedCost 0 0 (terms.map fun p => (p.1, T.transform p.2.1, p.2.2))
      + 2 * ((terms.map fun p => regTerm p.1 (T.transform p.2.1) p.2.2).sum.1 ⬝ᵥ xi)
      + xi ⬝ᵥ ((terms.map fun p => regTerm p.1 (T.transform p.2.1) p.2.2).sum.2 *ᵥ xi) := by
  rw [(regTerms_sum T terms xi).1, (regTerms_sum T terms xi).2]
  induction terms with
  | nil => simp [linearizedCost]
  | cons p terms ih =>
    have ih := ih fun q hq => hs q (List.mem_cons_of_mem _ hq)
    have hp := hs p List.mem_cons_self
    simp only [linearizedCost, List.map_cons, List.sum_cons] at ih ⊢
    rw [ih]
    set r := p.2.2 - T.transform p.2.1
    set v := screwVelocity (head3 xi) (tail3 xi) (T.transform p.2.1)
    have e0 : screwVelocity 0 0 (T.transform p.2.1) = 0 := by simp [screwVelocity]
    have e3 : v ⬝ᵥ (p.1 *ᵥ r) = r ⬝ᵥ (p.1 *ᵥ v) := by
      rw [dotProduct_mulVec, ← mulVec_transpose, hp, dotProduct_comm]
    rw [e0, sub_zero, mulVec_sub, sub_dotProduct, dotProduct_sub, dotProduct_sub, e3, mulVec_neg, dotProduct_neg]
    ring

/-- The quadratic form of the system. -/
theorem regTerms_symm (T : SE3) (terms : List (Mat3 × Vec3 × Vec3)) (hs : ∀ p ∈ terms, p.1ᵀ = p.1) (xi zeta : Vec6) :
    zeta ⬝ᵥ ((terms.map fun p => regTerm p.1 (T.transform p.2.1) p.2.2).sum.2 *ᵥ xi) =
      xi ⬝ᵥ ((terms.map fun p => regTerm p.1 (T.transform p.2.1) p.2.2).sum.2 *ᵥ zeta) := by
  rw [(regTerms_sum T terms xi).2, (regTerms_sum T terms zeta).2]
  refine congrArg List.sum (List.map_congr_left fun p hp => ?_)
  rw [dotProduct_mulVec, ← mulVec_transpose, hs p hp, dotProduct_comm]

theorem regTerms_nonneg (T : SE3) (terms : List (Mat3 × Vec3 × Vec3)) (hs : ∀ p ∈ terms, p.1.PosSemidef) (xi : Vec6) :
    0 ≤ xi ⬝ᵥ ((terms.map fun p => regTerm p.1 (T.transform p.2.1) p.2.2).sum.2 *ᵥ xi) := by
  rw [(regTerms_sum T terms xi).2]
  refine List.sum_nonneg fun c hc => ?_
  obtain ⟨p, hp, rfl⟩ := List.mem_map.mp hc
  have := (hs p hp).dotProduct_mulVec_nonneg (screwVelocity (head3 xi) (tail3 xi) (T.transform p.2.1))
  rwa [star_trivial] at this

theorem PosSemidef.symm' {A : Mat3} (h : A.PosSemidef) : Aᵀ = A := by
  have := h.isHermitian
  rwa [IsHermitian, conjTranspose_eq_transpose_of_trivial] at this

/-- What one increment does: it minimises the linearised cost, and it is a strict descent direction of the cost with the
weights kept fixed, unless it vanishes and the cost is stationary. -/
theorem regStep_spec {T : SE3} (hT : LastRow T.T) {terms : List (Mat3 × Vec3 × Vec3)} (hs : ∀ p ∈ terms, p.1.PosSemidef)
    {dx : Vec6} (hu : IsUnit ((terms.map fun p => regTerm p.1 (T.transform p.2.1) p.2.2).sum.2).det)
    (hd : (terms.map fun p => regTerm p.1 (T.transform p.2.1) p.2.2).sum.2 *ᵥ dx =
        -(terms.map fun p => regTerm p.1 (T.transform p.2.1) p.2.2).sum.1) :
    (∀ w v, linearizedCost (head3 dx) (tail3 dx) (terms.map fun p => (p.1, movePoint T.T p.2.1, p.2.2)) ≤
      linearizedCost w v (terms.map fun p => (p.1, movePoint T.T p.2.1, p.2.2))) ∧
    ∃ g, HasDerivAt (fun h : ℝ => weightedAlignCost (T.updateLhs (h • dx)).T terms) g 0 ∧
      (g < 0 ∨ dx = 0 ∧ ∀ xi : Vec6, HasDerivAt (fun h : ℝ => weightedAlignCost (T.updateLhs (h • xi)).T terms) 0 0) := by
  have hsy : ∀ p ∈ terms, p.1ᵀ = p.1 := fun p hp => PosSemidef.symm' (hs p hp)
  simp only [← transform_eq_movePoint]
  refine ⟨fun w v => ?_, _, weightedAlignCost_deriv hT terms hsy dx, ?_⟩
  · have e : ∃ xi : Vec6, head3 xi = w ∧ tail3 xi = v := ⟨vec6 w v, head3_vec6 _ _, tail3_vec6 _ _⟩
    obtain ⟨xi, rfl, rfl⟩ := e
    rw [linearizedCost_eq T terms hsy dx, linearizedCost_eq T terms hsy xi]
    set s := (terms.map fun p => regTerm p.1 (T.transform p.2.1) p.2.2).sum with hsdef
    have hn : 0 ≤ (xi - dx) ⬝ᵥ (s.2 *ᵥ (xi - dx)) := regTerms_nonneg T terms hs (xi - dx)
    have hsy2 : dx ⬝ᵥ (s.2 *ᵥ xi) = xi ⬝ᵥ (s.2 *ᵥ dx) := regTerms_symm T terms hsy xi dx
    rw [mulVec_sub, sub_dotProduct, dotProduct_sub, dotProduct_sub, hsy2] at hn
    have h1 : xi ⬝ᵥ (s.2 *ᵥ dx) = -(s.1 ⬝ᵥ xi) := by rw [hd, dotProduct_neg, dotProduct_comm]
    have h2 : dx ⬝ᵥ (s.2 *ᵥ dx) = -(s.1 ⬝ᵥ dx) := by rw [hd, dotProduct_neg, dotProduct_comm]
    linarith
  · set s := (terms.map fun p => regTerm p.1 (T.transform p.2.1) p.2.2).sum with hsdef
    have h2 : s.1 ⬝ᵥ dx = -(dx ⬝ᵥ (s.2 *ᵥ dx)) := by rw [hd, dotProduct_neg, dotProduct_comm, neg_neg]
    have hps : s.2.PosSemidef := by
      refine Matrix.PosSemidef.of_dotProduct_mulVec_nonneg ?_ fun x => ?_
      · rw [IsHermitian, conjTranspose_eq_transpose_of_trivial]
        ext i j
        have := regTerms_symm T terms hsy (Pi.single i 1) (Pi.single j 1)
        simpa using this
      · rw [star_trivial]; exact regTerms_nonneg T terms hs x
    rcases (regTerms_nonneg T terms hs dx).lt_or_eq with hp | hz
    · left
      rw [h2]
      have : 0 < dx ⬝ᵥ (s.2 *ᵥ dx) := hp
      linarith
    · right
      have h3 : s.2 *ᵥ dx = 0 := (hps.dotProduct_mulVec_zero_iff dx).mp (by rw [star_trivial]; exact hz.symm)
      have h4 : dx = 0 := by
        have := congrArg (s.2⁻¹ *ᵥ ·) h3
        simpa [mulVec_mulVec, nonsing_inv_mul _ hu] using this
      refine ⟨h4, fun xi => ?_⟩
      have h5 : s.1 = 0 := by
        rw [h4, mulVec_zero] at hd
        exact neg_eq_zero.mp hd.symm
      have := weightedAlignCost_deriv hT terms hsy xi
      rwa [← hsdef, h5, zero_dotProduct, mul_zero] at this

end Mrob
