import Verif.Spec.CovLayout
import Verif.Props.RegistrationPy

/-! # C85: the layout of the covariances handed to `gicp` -/

open Matrix

namespace Mrob

open Spec

theorem block3_eq {m : MatX} {r c : ℕ} {A : Mat3}
    (h : ∀ i j : Fin 3, m.data[(r + i) + (c + j) * m.rows]? = some (A i j)) : m.block3 r c = .ok A := by
  have e : ∀ i j : Fin 3, m.coeff (r + i) (c + j) = .ok (A i j) := fun i j => Out.index_eq_ok.mpr (h i j)
  have e00 := e 0 0; have e10 := e 1 0; have e20 := e 2 0
  have e01 := e 0 1; have e11 := e 1 1; have e21 := e 2 1
  have e02 := e 0 2; have e12 := e 1 2; have e22 := e 2 2
  simp only [Fin.val_zero, Fin.val_one, Fin.val_two, add_zero] at e00 e10 e20 e01 e11 e21 e02 e12 e22
  rw [MatX.block3, e00, e10, e20, e01, e11, e21, e02, e12, e22]
  simp only [Out.ok_bind]
  congr 1
  ext i j
  fin_cases i <;> fin_cases j <;> rfl

theorem regSystem_congr {W W' : SE3 → ℕ → Out Mat3} {X Y : List Vec3} {T : SE3} (h : ∀ i < X.length, W T i = W' T i) :
    regSystem W X Y T = regSystem W' X Y T := by
  unfold regSystem
  congr 1
  have : ∀ (f g : ℕ → Out (Vec6 × Mat6)) (l : List ℕ), (∀ i ∈ l, f i = g i) → Out.traverse f l = Out.traverse g l := by
    intro f g l hl
    induction l with
    | nil => rfl
    | cons a l ih =>
      rw [Out.traverse, Out.traverse, hl a List.mem_cons_self, ih fun i hi => hl i (List.mem_cons_of_mem _ hi)]
  refine this _ _ _ fun i hi => ?_
  rw [h i (List.mem_range.mp hi)]

/-- C85: with the covariances below each other `gicp` uses the covariance of the `i`-th point for the `i`-th correspondence.
Missing: the documented layout. -/
theorem C85_stacked_partial (X Y : List Vec3) (mX mY : MatX) (covX covY : List Mat3) (hX : Stacked mX covX) (hY : Stacked mY covY)
    (hlX : X.length ≤ covX.length) (hlY : X.length ≤ covY.length) (tol : ℝ) (T : SE3) :
    gicpX X Y mX mY tol T = gicp X Y covX covY tol T := by
  have key : ∀ {m : MatX} {S : List Mat3}, Stacked m S → ∀ i, i < S.length → m.block3 (3 * i) 0 = Out.index S i := by
    intro m S h i hi
    rw [Out.index_eq_ok.mpr (List.getElem?_eq_getElem hi)]
    refine block3_eq fun r c => ?_
    rw [zero_add]
    exact h.2.2.2 i hi r c
  unfold gicpX gicp
  congr 1
  funext S
  unfold regStep
  rw [regSystem_congr fun i hi => ?_]
  rw [gicpWeightX, gicpWeight, key hY i (by omega), key hX i (by omega)]

/-- With the documented layout the matrix read for the `i`-th correspondence consists of the columns `i`, `i + 1` and `i + 2`
of `[Cov_1, Cov_2, ...]`, not of the columns `3 i`, `3 i + 1` and `3 i + 2`; all reads stay inside the argument. -/
theorem C85_documented (m : MatX) (S : List Mat3) (h : SideBySide m S) (i : ℕ) (hi : i < S.length) :
    ∃ A, m.block3 (3 * i) 0 = .ok A ∧ ∀ (r c k : Fin 3) (q : ℕ) (hq : q < S.length), i + c = 3 * q + k → A r c = S[q] r k := by
  refine ⟨Matrix.of fun r c => (S[(i + c) / 3]'(by omega)) r ⟨(i + c) % 3, Nat.mod_lt _ (by norm_num)⟩, block3_eq fun r c => ?_,
    fun r c k q hq e => ?_⟩
  · have := h.2.2.2 ((i + c) / 3) (by omega) r ⟨(i + c) % 3, Nat.mod_lt _ (by norm_num)⟩
    rw [Matrix.of_apply, ← this]
    congr 1
    simp only [h.1]
    omega
  · obtain rfl : q = (i + c) / 3 := by omega
    obtain rfl : k = ⟨(i + c) % 3, Nat.mod_lt _ (by norm_num)⟩ := Fin.ext (by simp only; omega)
    rfl

/-! ## The witness -/

/-- Covariances of six points. -/
def demoCov : List Mat3 := [!![2, 1, 0; 1, 2, 0; 0, 0, 1], !![1, 2, 0; 2, 5, 0; 0, 0, 1], 1, 1, 1, 1]

/-- The covariances beside each other. -/
def demoSide : MatX := ⟨3, 18, [2, 1, 0, 1, 2, 0, 0, 0, 1, 1, 2, 0, 2, 5, 0, 0, 0, 1, 1, 0, 0, 0, 1, 0, 0, 0, 1,
  1, 0, 0, 0, 1, 0, 0, 0, 1, 1, 0, 0, 0, 1, 0, 0, 0, 1, 1, 0, 0, 0, 1, 0, 0, 0, 1]⟩

theorem demoSide_layout : SideBySide demoSide demoCov := by
  refine ⟨rfl, rfl, rfl, fun k hk r c => ?_⟩
  have hk' : k < 6 := hk
  have key : ∀ (A : Mat3), demoCov[k] = A → demoSide.data[r + (3 * k + c) * 3]? = some (A r c) := by
    intro A hA
    subst hA
    interval_cases k
    · change _ = some ((!![2, 1, 0; 1, 2, 0; 0, 0, 1] : Mat3) r c)
      fin_cases r <;> fin_cases c <;> simp [demoSide]
    · change _ = some ((!![1, 2, 0; 2, 5, 0; 0, 0, 1] : Mat3) r c)
      fin_cases r <;> fin_cases c <;> simp [demoSide]
    all_goals
      change _ = some ((1 : Mat3) r c)
      fin_cases r <;> fin_cases c <;> simp [demoSide]
  exact key _ rfl

theorem demoCov_posDef : ∀ C ∈ demoCov, C.PosDef := by
  intro C hC
  simp only [demoCov, List.mem_cons, List.not_mem_nil, or_false] at hC
  have h1 : (!![2, 1, 0; 1, 2, 0; 0, 0, 1] : Mat3).PosDef := by
    refine Matrix.PosDef.of_dotProduct_mulVec_pos ?_ fun x hx => ?_
    · ext i j; fin_cases i <;> fin_cases j <;> simp
    · have hpos : x 0 ≠ 0 ∨ x 1 ≠ 0 ∨ x 2 ≠ 0 := by
        by_contra hc
        push Not at hc
        exact hx (by ext i; fin_cases i <;> simp [hc])
      have e : star x ⬝ᵥ ((!![2, 1, 0; 1, 2, 0; 0, 0, 1] : Mat3) *ᵥ x) = x 0 ^ 2 + x 1 ^ 2 + (x 0 + x 1) ^ 2 + x 2 ^ 2 := by
        simp [dotProduct, mulVec, Fin.sum_univ_three]; ring
      rw [e]
      rcases hpos with h | h | h <;> positivity
  have h2 : (!![1, 2, 0; 2, 5, 0; 0, 0, 1] : Mat3).PosDef := by
    refine Matrix.PosDef.of_dotProduct_mulVec_pos ?_ fun x hx => ?_
    · ext i j; fin_cases i <;> fin_cases j <;> simp
    · have hpos : x 0 + 2 * x 1 ≠ 0 ∨ x 1 ≠ 0 ∨ x 2 ≠ 0 := by
        by_contra hc
        push Not at hc
        obtain ⟨a, b, c⟩ := hc
        rw [b, mul_zero, add_zero] at a
        exact hx (by ext i; fin_cases i <;> simp [a, b, c])
      have e : star x ⬝ᵥ ((!![1, 2, 0; 2, 5, 0; 0, 0, 1] : Mat3) *ᵥ x) = (x 0 + 2 * x 1) ^ 2 + x 1 ^ 2 + x 2 ^ 2 := by
        simp [dotProduct, mulVec, Fin.sum_univ_three]; ring
      rw [e]
      rcases hpos with h | h | h <;> positivity
  rcases hC with rfl | rfl | rfl | rfl | rfl | rfl
  exacts [h1, h2, PosDef.one, PosDef.one, PosDef.one, PosDef.one]

theorem demo_step : regStep (gicpWeight demoCov demoCov) octahedron octahedron SE3.default = .ok 0 := by
  have hR : SE3.default.R = 1 := by
    change tl3 (1 : Mat4) = 1
    rw [← homog_one]; simp
  have htr : ∀ x, SE3.default.transform x = x := fun x => by
    rw [transform_eq_movePoint]; exact movePoint_one x
  have hw : ∀ (i : ℕ) (hi : i < 6), ∃ (L : Mat3) (x : Vec3), L.PosDef ∧ octahedron[i]? = some x ∧
      gicpWeight demoCov demoCov SE3.default i = .ok L := by
    intro i hi
    obtain ⟨C, hC⟩ : ∃ C, demoCov[i]? = some C := ⟨_, List.getElem?_eq_getElem hi⟩
    have hp := demoCov_posDef C (List.mem_of_getElem? hC)
    have hp2 : (C + C).PosDef := hp.add hp
    refine ⟨(C + C)⁻¹, octahedron[i]'hi, hp2.inv, List.getElem?_eq_getElem hi, ?_⟩
    rw [gicpWeight, Out.index_eq_ok.mpr hC, Out.ok_bind, Out.ok_bind, hR, Matrix.one_mul, transpose_one, Matrix.mul_one, if_pos]
    exact (isUnit_iff_isUnit_det _).mp hp2.isUnit
  choose L x hL hx hW using hw
  let terms : List (Mat3 × Vec3 × Vec3) := (List.finRange 6).map fun i => (L i.1 i.2, x i.1 i.2, x i.1 i.2)
  have hsys : regSystem (gicpWeight demoCov demoCov) octahedron octahedron SE3.default =
      .ok (terms.map fun p => regTerm p.1 (SE3.default.transform p.2.1) p.2.2).sum := by
    have e : Out.traverse (fun i => Out.index octahedron i >>= fun x => Out.index octahedron i >>= fun y =>
        gicpWeight demoCov demoCov SE3.default i >>= fun L => .ok (regTerm L (SE3.default.transform x) y)) (List.range 6) =
        Out.traverse (fun p : Mat3 × Vec3 × Vec3 => .ok (regTerm p.1 (SE3.default.transform p.2.1) p.2.2)) terms := by
      have hlen : terms.length = 6 := by simp [terms]
      rw [← hlen]
      refine traverse_range terms fun i hi => ?_
      have hi' : i < 6 := by omega
      rw [Out.index_eq_ok.mpr (hx i hi'), Out.ok_bind, Out.ok_bind, hW i hi', Out.ok_bind]
      have ht : terms[i]'hi = (L i hi', x i hi', x i hi') := by
        have h1 : (List.finRange 6)[i]'(by simpa using hi') = ⟨i, hi'⟩ := by simp
        exact (List.getElem_map _).trans (by rw [h1])
      rw [ht]
    rw [regSystem, show octahedron.length = 6 from rfl, e, Out.traverse_ok fun _ _ => rfl, Out.ok_bind]
  have hJ : (terms.map fun p => regTerm p.1 (SE3.default.transform p.2.1) p.2.2).sum.1 = 0 := by
    have : ∀ xi : Vec6, (terms.map fun p => regTerm p.1 (SE3.default.transform p.2.1) p.2.2).sum.1 ⬝ᵥ xi = 0 := by
      intro xi
      rw [(regTerms_sum SE3.default terms xi).1]
      refine List.sum_eq_zero fun c hc => ?_
      obtain ⟨p, hp, rfl⟩ := List.mem_map.mp hc
      obtain ⟨i, -, rfl⟩ := List.mem_map.mp hp
      rw [htr, sub_self, zero_dotProduct]
    exact dotProduct_eq_zero _ this
  have hdet : IsUnit (terms.map fun p => regTerm p.1 (SE3.default.transform p.2.1) p.2.2).sum.2.det := by
    rw [isUnit_iff_ne_zero]
    intro h0
    obtain ⟨v, hv, hz⟩ := exists_mulVec_eq_zero_iff.mpr h0
    refine hv ?_
    have h1 := (regTerms_sum SE3.default terms v).2 v
    rw [hz, dotProduct_zero] at h1
    have hnn : ∀ c ∈ terms.map (fun p => screwVelocity (head3 v) (tail3 v) (SE3.default.transform p.2.1) ⬝ᵥ
        (p.1 *ᵥ screwVelocity (head3 v) (tail3 v) (SE3.default.transform p.2.1))), 0 ≤ c := by
      intro c hc
      obtain ⟨p, hp, rfl⟩ := List.mem_map.mp hc
      obtain ⟨i, -, rfl⟩ := List.mem_map.mp hp
      have := (hL i.1 i.2).posSemidef.dotProduct_mulVec_nonneg
        (screwVelocity (head3 v) (tail3 v) (SE3.default.transform (x i.1 i.2)))
      rwa [star_trivial] at this
    have hall : ∀ (i : ℕ) (hi : i < 6), screwVelocity (head3 v) (tail3 v) (x i hi) = 0 := by
      intro i hi
      have hmem : (L i hi, x i hi, x i hi) ∈ terms := List.mem_map.mpr ⟨(⟨i, hi⟩ : Fin 6), List.mem_finRange _, rfl⟩
      have hle := List.single_le_sum hnn _ (List.mem_map.mpr ⟨_, hmem, rfl⟩)
      rw [← h1] at hle
      by_contra hne
      have := (hL i hi).dotProduct_mulVec_pos hne
      rw [star_trivial] at this
      rw [htr] at hle
      exact absurd hle (not_le.mpr this)
    have hx0 : x 0 (by norm_num) = ![1, 0, 0] := (Option.some.inj (hx 0 (by norm_num))).symm
    have hx1 : x 1 (by norm_num) = ![-1, 0, 0] := (Option.some.inj (hx 1 (by norm_num))).symm
    have hx2 : x 2 (by norm_num) = ![0, 1, 0] := (Option.some.inj (hx 2 (by norm_num))).symm
    have a0 := hall 0 (by norm_num)
    have a1 := hall 1 (by norm_num)
    have a2 := hall 2 (by norm_num)
    rw [hx0] at a0; rw [hx1] at a1; rw [hx2] at a2
    have b := fun k => congrFun a0 k
    have c := fun k => congrFun a1 k
    have d := fun k => congrFun a2 k
    have b0 := b 0; have b1 := b 1; have b2 := b 2
    have c0 := c 0; have c1 := c 1; have c2 := c 2
    have d0 := d 0; have d1 := d 1; have d2 := d 2
    simp [screwVelocity, crossProduct, head3, tail3] at b0 b1 b2 c0 c1 c2 d0 d1 d2
    ext k
    rcases k with k | k <;> fin_cases k <;> simp <;> linarith
  rw [regStep, hsys, Out.ok_bind]
  dsimp only
  rw [if_pos hdet, hJ, mulVec_zero, neg_zero]

theorem demo_step_side : regStep (gicpWeightX demoSide demoSide) octahedron octahedron SE3.default = .nan := by
  have hb0 : demoSide.block3 (3 * 0) 0 = .ok !![2, 1, 0; 1, 2, 0; 0, 0, 1] := rfl
  have hb1 : demoSide.block3 (3 * 1) 0 = .ok !![1, 0, 1; 2, 0, 2; 0, 1, 0] := rfl
  have hR : SE3.default.R = 1 := by
    change tl3 (1 : Mat4) = 1
    rw [← homog_one]; simp
  have hw0 : ∃ L, gicpWeightX demoSide demoSide SE3.default 0 = .ok L := by
    rw [gicpWeightX, hb0, Out.ok_bind, Out.ok_bind, hR, if_pos]
    · exact ⟨_, rfl⟩
    · simp [det_fin_three]
      norm_num
  have hw1 : gicpWeightX demoSide demoSide SE3.default 1 = .nan := by
    rw [gicpWeightX, hb1, Out.ok_bind, Out.ok_bind, hR, if_neg]
    simp [det_fin_three]
  obtain ⟨L, hL⟩ := hw0
  have h0 : Out.index octahedron 0 = .ok ![1, 0, 0] := rfl
  have h1 : Out.index octahedron 1 = .ok ![-1, 0, 0] := rfl
  rw [regStep, regSystem, show List.range octahedron.length = [0, 1, 2, 3, 4, 5] from rfl, Out.traverse, Out.traverse, h0, h1,
    hL, hw1]
  rfl

/-- C85 is false: with positive definite covariances in the documented layout, registering the octahedron to itself from the
identity yields not-a-number; `gicp` with each point's own covariance returns the identity after one iteration. -/
theorem C85_fails : ∃ (X : List Vec3) (S : List Mat3) (m : MatX), S.length = X.length ∧ (∀ C ∈ S, C.PosDef) ∧ SideBySide m S ∧
    ∀ tol, 0 ≤ tol → gicp X X S S tol SE3.default = .ok (1, SE3.default) ∧ gicpX X X m m tol SE3.default = .nan := by
  refine ⟨octahedron, demoCov, demoSide, rfl, demoCov_posDef, demoSide_layout, fun tol htol => ⟨?_, ?_⟩⟩
  · rw [gicp, regLoop, demo_step, Out.ok_bind, if_neg]
    · have := updateLhs_zero_smul SE3.default 0
      rw [zero_smul] at this
      rw [this]
    · rintro ⟨h, -⟩
      simp [vnorm, sqNorm] at h
      linarith
  · rw [gicpX, regLoop, demo_step_side]
    rfl

/-- With the documented layout even identity covariances are misread: the second matrix is a cyclic permutation. -/
example : ∃ m : MatX, SideBySide m [1, 1] ∧ m.block3 (3 * 0) 0 = .ok 1 ∧ m.block3 (3 * 1) 0 = .ok !![0, 0, 1; 1, 0, 0; 0, 1, 0] := by
  refine ⟨⟨3, 6, [1, 0, 0, 0, 1, 0, 0, 0, 1, 1, 0, 0, 0, 1, 0, 0, 0, 1]⟩, ⟨rfl, rfl, rfl, fun k hk r c => ?_⟩, ?_, rfl⟩
  · have hk' : k < 2 := hk
    have key : ∀ A : Mat3, ([1, 1] : List Mat3)[k] = A → A = 1 := by
      intro A hA
      subst hA
      interval_cases k <;> rfl
    rw [key _ rfl]
    interval_cases k <;> fin_cases r <;> fin_cases c <;> simp
  · refine block3_eq fun i j => ?_
    fin_cases i <;> fin_cases j <;> simp

/-- A matrix with two covariances below each other. -/
example : ∃ m : MatX, Stacked m [1, !![2, 0, 0; 0, 1, 0; 0, 0, 1]] := by
  refine ⟨⟨6, 3, [1, 0, 0, 2, 0, 0, 0, 1, 0, 0, 1, 0, 0, 0, 1, 0, 0, 1]⟩, rfl, rfl, rfl, fun k hk r c => ?_⟩
  have hk' : k < 2 := hk
  interval_cases k
  · change _ = some ((1 : Mat3) r c)
    fin_cases r <;> fin_cases c <;> simp
  · change _ = some ((!![2, 0, 0; 0, 1, 0; 0, 0, 1] : Mat3) r c)
    fin_cases r <;> fin_cases c <;> simp

end Mrob
