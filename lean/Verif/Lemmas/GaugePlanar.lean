import Verif.Lemmas.Gauge
import Verif.Props.Factor
import Verif.Spec.WorldFrame

/-!
# Planar motions of a graph
-/

open Matrix

namespace Mrob

open World Spec

/-- Entries of `turn`. -/
noncomputable def turnFn (g : Vec3) (k j : ℕ) : ℝ :=
  if h : k < 3 ∧ j < 3 then turn g ⟨k, h.1⟩ ⟨j, h.2⟩ else 0

noncomputable def planarSym (g : Vec3) : Sym where
  rel := PlanarMoved g
  A _ := turnFn g
  Ai _ k j := turnFn g j k
  ok _ := FarLandmarks
  kind := by
    rintro ⟨k, x⟩ ⟨k', x'⟩ h
    cases k <;> cases k' <;> first | rfl | exact absurd h id

variable {g : Vec3}

theorem turnFn_val (k j : Fin 3) : turnFn g k j = turn g k j := by rw [turnFn, dif_pos ⟨k.2, j.2⟩]

theorem turn_transpose_mul : (turn g)ᵀ * turn g = 1 := by
  have h := Real.sin_sq_add_cos_sq (g 2)
  ext i j
  fin_cases i <;> fin_cases j <;> simp [turn, Matrix.mul_apply, Fin.sum_univ_three] <;> grind

theorem turn_mul_transpose : turn g * (turn g)ᵀ = 1 := mul_eq_one_comm.mp turn_transpose_mul

theorem turn2 {i j : Fin 2} : ∑ k : Fin 2, turnFn g i k * turnFn g j k = if (i : ℕ) = j then 1 else 0 := by
  have h := Real.sin_sq_add_cos_sq (g 2)
  fin_cases i <;> fin_cases j <;> simp [turnFn, turn] <;> grind

theorem turn2' {i j : Fin 2} : ∑ k : Fin 2, turnFn g k i * turnFn g k j = if (i : ℕ) = j then 1 else 0 := by
  have h := Real.sin_sq_add_cos_sq (g 2)
  fin_cases i <;> fin_cases j <;> simp [turnFn, turn] <;> grind

theorem turn3 {i j : Fin 3} : ∑ k : Fin 3, turnFn g i k * turnFn g j k = if (i : ℕ) = j then 1 else 0 := by
  have h := congrFun (congrFun (turn_mul_transpose (g := g)) i) j
  rw [Matrix.mul_apply, Matrix.one_apply] at h
  simp only [turnFn_val, transpose_apply] at h ⊢
  rw [h]
  exact if_congr Fin.ext_iff rfl rfl

theorem turn3' {i j : Fin 3} : ∑ k : Fin 3, turnFn g k i * turnFn g k j = if (i : ℕ) = j then 1 else 0 := by
  have h := congrFun (congrFun (turn_transpose_mul (g := g)) i) j
  rw [Matrix.mul_apply, Matrix.one_apply] at h
  simp only [turnFn_val, transpose_apply] at h ⊢
  rw [h]
  exact if_congr Fin.ext_iff rfl rfl

theorem planar_wrap (x : Vec3) : planar (wrap2 x) = planar x := by
  have h := sameAngle_wrap (x 2)
  have e0 : wrap2 x 0 = x 0 := rfl
  have e1 : wrap2 x 1 = x 1 := rfl
  have e2 : wrap2 x 2 = wrapAngle (x 2) := rfl
  rw [planar, planar, e0, e1, e2, h.cos, h.sin]

theorem planar_moves (κ : NodeKind) (hκ : κ = .pose2d ∨ κ = .landmark2d) : (planarSym g).Moves κ := by
  constructor
  · rintro ⟨k, x⟩ ⟨k', x'⟩ - h
    cases k <;> cases k' <;> first | exact absurd h id | skip
    · change planar (wrap2 x') = planar g * planar (wrap2 x)
      rw [planar_wrap, planar_wrap]; exact h
    · exact h
  · intro i hi j hj
    rcases hκ with rfl | rfl
    · change ∑ k ∈ Finset.range 3, turnFn g i k * turnFn g j k = _
      rw [← Fin.sum_univ_eq_sum_range (fun k => turnFn g i k * turnFn g j k)]
      exact turn3 (i := ⟨i, hi⟩) (j := ⟨j, hj⟩)
    · change ∑ k ∈ Finset.range 2, turnFn g i k * turnFn g j k = _
      rw [← Fin.sum_univ_eq_sum_range (fun k => turnFn g i k * turnFn g j k)]
      exact turn2 (i := ⟨i, hi⟩) (j := ⟨j, hj⟩)

theorem planar_orth (κ : NodeKind) (hκ : κ = .pose2d ∨ κ = .landmark2d) : (planarSym g).Orth κ := by
  intro i hi j hj
  rcases hκ with rfl | rfl
  · change ∑ k ∈ Finset.range 3, turnFn g k i * turnFn g k j = _
    rw [← Fin.sum_univ_eq_sum_range (fun k => turnFn g k i * turnFn g k j)]
    exact turn3' (i := ⟨i, hi⟩) (j := ⟨j, hj⟩)
  · change ∑ k ∈ Finset.range 2, turnFn g k i * turnFn g k j = _
    rw [← Fin.sum_univ_eq_sum_range (fun k => turnFn g k i * turnFn g k j)]
    exact turn2' (i := ⟨i, hi⟩) (j := ⟨j, hj⟩)

theorem planar_follows (κ : NodeKind) (δ : ℕ → ℝ) : (planarSym g).Follows κ δ := by
  rintro ⟨k, x⟩ ⟨k', x'⟩ rfl h
  cases k <;> cases k' <;> first | exact absurd h id | skip
  · change planar (wrap2 ((x' : Vec3) + fun i : Fin 3 => (planarSym g).lin .pose2d δ i)) = planar g * planar (wrap2 ((x : Vec3) + fun i : Fin 3 => δ i))
    rw [planar_wrap, planar_wrap, planar_eq_mul_iff]
    have h' := (planar_eq_mul_iff _ _ _).mp h
    obtain ⟨h0, h1, h2⟩ := h'
    have l0 : (planarSym g).lin .pose2d δ 0 = Real.cos (g 2) * δ 0 - Real.sin (g 2) * δ 1 := by
      simp [Sym.lin, planarSym, NodeKind.dim, Finset.sum_range_succ, turnFn, turn]; ring
    have l1 : (planarSym g).lin .pose2d δ 1 = Real.sin (g 2) * δ 0 + Real.cos (g 2) * δ 1 := by
      simp [Sym.lin, planarSym, NodeKind.dim, Finset.sum_range_succ, turnFn, turn]
    have l2 : (planarSym g).lin .pose2d δ 2 = δ 2 := by
      simp [Sym.lin, planarSym, NodeKind.dim, Finset.sum_range_succ, turnFn, turn]
    refine ⟨?_, ?_, ?_⟩
    · change x' 0 + (planarSym g).lin .pose2d δ 0 = Real.cos (g 2) * (x 0 + δ 0) - Real.sin (g 2) * (x 1 + δ 1) + g 0
      rw [h0, l0]; ring
    · change x' 1 + (planarSym g).lin .pose2d δ 1 = Real.sin (g 2) * (x 0 + δ 0) + Real.cos (g 2) * (x 1 + δ 1) + g 1
      rw [h1, l1]; ring
    · change SameAngle (x' 2 + (planarSym g).lin .pose2d δ 2) (g 2 + (x 2 + δ 2))
      rw [l2, ← add_assoc]
      exact h2.add (.refl _)
  · change ((x' : Vec2) + fun i : Fin 2 => (planarSym g).lin .landmark2d δ i) = planarPoint g ((x : Vec2) + fun i : Fin 2 => δ i)
    have h' : x' = planarPoint g x := h
    rw [h']
    funext i
    fin_cases i
    · simp [planarPoint, Sym.lin, planarSym, NodeKind.dim, Finset.sum_range_succ, turnFn, turn]; ring
    · simp [planarPoint, Sym.lin, planarSym, NodeKind.dim, Finset.sum_range_succ, turnFn, turn]; ring

/-- Two blocks side by side. -/
theorem jacRel_blk2 {S : Sym} {m' m n k : ℕ} {B : Matrix (Fin m') (Fin m) ℝ} {M' : Matrix (Fin m') (Fin n) ℝ}
    {K' : Matrix (Fin m') (Fin k) ℝ} {M : Matrix (Fin m) (Fin n) ℝ} {K : Matrix (Fin m) (Fin k) ℝ} {κ μ : NodeKind}
    (hn : κ.dim = n) (hk : μ.dim = k) (h1 : M' * Matrix.of (fun i j : Fin n => S.A κ i j) = B * M)
    (h2 : K' * Matrix.of (fun i j : Fin k => S.A μ i j) = B * K) : S.JacRel B (blk2 M' K') (blk2 M K) 0 [κ, μ] := by
  subst hn hk
  refine ⟨fun l' j hj => ?_, fun l' j hj => ?_, trivial⟩
  · have := congrFun (congrFun h1 l') ⟨j, hj⟩
    rw [Matrix.mul_apply, Matrix.mul_apply] at this
    rw [← Fin.sum_univ_eq_sum_range (fun i => blk2 M' K' l' (0 + i) * S.A κ i j)]
    refine Eq.trans (Finset.sum_congr rfl fun i _ => ?_) (this.trans (Finset.sum_congr rfl fun l _ => ?_))
    · rw [zero_add]; unfold blk2 blk; rw [if_pos i.2, dif_pos i.2]; rfl
    · rw [zero_add]; unfold blk2 blk; rw [if_pos hj, dif_pos hj]
  · have := congrFun (congrFun h2 l') ⟨j, hj⟩
    rw [Matrix.mul_apply, Matrix.mul_apply] at this
    rw [← Fin.sum_univ_eq_sum_range (fun i => blk2 M' K' l' (0 + κ.dim + i) * S.A μ i j)]
    refine Eq.trans (Finset.sum_congr rfl fun i _ => ?_) (this.trans (Finset.sum_congr rfl fun l _ => ?_))
    · rw [zero_add]; unfold blk2 blk; rw [if_neg (by omega), Nat.add_sub_cancel_left, dif_pos i.2]; rfl
    · rw [zero_add]; unfold blk2 blk; rw [if_neg (by omega), Nat.add_sub_cancel_left, dif_pos hj]

/-- One block. -/
theorem jacRel_blk {S : Sym} {m' m n : ℕ} {B : Matrix (Fin m') (Fin m) ℝ} {M' : Matrix (Fin m') (Fin n) ℝ}
    {M : Matrix (Fin m) (Fin n) ℝ} {κ : NodeKind}
    (hn : κ.dim = n) (h1 : M' * Matrix.of (fun i j : Fin n => S.A κ i j) = B * M) : S.JacRel B (blk M') (blk M) 0 [κ] := by
  subst hn
  refine ⟨fun l' j hj => ?_, trivial⟩
  have := congrFun (congrFun h1 l') ⟨j, hj⟩
  rw [Matrix.mul_apply, Matrix.mul_apply] at this
  rw [← Fin.sum_univ_eq_sum_range (fun i => blk M' l' (0 + i) * S.A κ i j)]
  refine Eq.trans (Finset.sum_congr rfl fun i _ => ?_) (this.trans (Finset.sum_congr rfl fun l _ => ?_))
  · rw [zero_add]; unfold blk; rw [dif_pos i.2]; rfl
  · rw [zero_add]; unfold blk; rw [dif_pos hj]

theorem rel_one {S : Sym} {κ : NodeKind} {vals vals' : List NodeVal} (ht : vals.map Sigma.fst = [κ])
    (hr : List.Forall₂ S.rel vals vals') : ∃ x x' : κ.State, vals = [⟨κ, x⟩] ∧ vals' = [⟨κ, x'⟩] ∧ S.rel ⟨κ, x⟩ ⟨κ, x'⟩ := by
  obtain ⟨⟨k, x⟩, rfl⟩ := List.length_eq_one_iff.mp (by simpa using congrArg List.length ht)
  obtain rfl : k = κ := by simpa using ht
  cases hr with
  | cons h t =>
    cases t
    rename_i v'
    obtain ⟨k', x'⟩ := v'
    obtain rfl : k' = k := S.kind h
    exact ⟨x, x', rfl, rfl, h⟩

theorem rel_two {S : Sym} {κ μ : NodeKind} {vals vals' : List NodeVal} (ht : vals.map Sigma.fst = [κ, μ])
    (hr : List.Forall₂ S.rel vals vals') : ∃ (x x' : κ.State) (y y' : μ.State), vals = [⟨κ, x⟩, ⟨μ, y⟩] ∧
      vals' = [⟨κ, x'⟩, ⟨μ, y'⟩] ∧ S.rel ⟨κ, x⟩ ⟨κ, x'⟩ ∧ S.rel ⟨μ, y⟩ ⟨μ, y'⟩ := by
  cases hr with
  | nil => simp at ht
  | @cons v v' vs vs' h t =>
    obtain ⟨k, x⟩ := v
    obtain ⟨k', x'⟩ := v'
    rw [List.map_cons, List.cons.injEq] at ht
    obtain ⟨rfl, ht⟩ := ht
    obtain rfl : k' = k := S.kind h
    obtain ⟨y, y', rfl, rfl, h2⟩ := rel_one ht t
    exact ⟨x, x', y, y', rfl, rfl, h, h2⟩

theorem matA3 : (Matrix.of fun i j : Fin 3 => (planarSym g).A .pose2d i j) = turn g := by
  ext i j; exact turnFn_val i j

theorem matA2 : (Matrix.of fun i j : Fin 2 => (planarSym g).A .landmark2d i j) =
    !![Real.cos (g 2), -Real.sin (g 2); Real.sin (g 2), Real.cos (g 2)] := by
  ext i j; fin_cases i <;> fin_cases j <;> simp [planarSym, turnFn, turn]

theorem rel2dJac_moved {xo xt xo' xt' : Vec3} (ho : planar xo' = planar g * planar xo) (ht : planar xt' = planar g * planar xt) :
    (rel2dJac xo' xt').1 * turn g = (rel2dJac xo xt).1 ∧ (rel2dJac xo' xt').2 * turn g = (rel2dJac xo xt).2 := by
  rw [planar_eq_mul_iff] at ho ht
  obtain ⟨o0, o1, o2⟩ := ho
  obtain ⟨t0, t1, t2⟩ := ht
  have hc := o2.cos
  have hs := o2.sin
  rw [Real.cos_add] at hc
  rw [Real.sin_add] at hs
  have hg := sq_trig (g 2)
  simp only [rel2dJac, o0, o1, t0, t1, hc, hs]
  constructor <;> ext i j <;> fin_cases i <;> fin_cases j <;>
    simp [turn, Matrix.mul_apply, Fin.sum_univ_three] <;> grind

theorem land2dJac_moved {x x' : Vec3} {l : Vec2} (hx : planar x' = planar g * planar x)
    (hq : ¬ (l 0 - x 0) * (l 0 - x 0) + (l 1 - x 1) * (l 1 - x 1) < 1e-6) :
    (land2dJac x' (planarPoint g l)).1 * turn g = (land2dJac x l).1 ∧
    (land2dJac x' (planarPoint g l)).2 * !![Real.cos (g 2), -Real.sin (g 2); Real.sin (g 2), Real.cos (g 2)] =
      (land2dJac x l).2 := by
  rw [planar_eq_mul_iff] at hx
  obtain ⟨x0, x1, x2⟩ := hx
  have hg := sq_trig (g 2)
  have d0 : planarPoint g l 0 - x' 0 = Real.cos (g 2) * (l 0 - x 0) - Real.sin (g 2) * (l 1 - x 1) := by
    rw [x0]; simp [planarPoint]; ring
  have d1 : planarPoint g l 1 - x' 1 = Real.sin (g 2) * (l 0 - x 0) + Real.cos (g 2) * (l 1 - x 1) := by
    rw [x1]; simp [planarPoint]; ring
  have hqq : (planarPoint g l 0 - x' 0) * (planarPoint g l 0 - x' 0) +
      (planarPoint g l 1 - x' 1) * (planarPoint g l 1 - x' 1) =
      (l 0 - x 0) * (l 0 - x 0) + (l 1 - x 1) * (l 1 - x 1) := by
    rw [d0, d1]
    linear_combination ((l 0 - x 0) ^ 2 + (l 1 - x 1) ^ 2) * hg
  have hq0 : 0 < (l 0 - x 0) * (l 0 - x 0) + (l 1 - x 1) * (l 1 - x 1) := by
    have : (0 : ℝ) < 1e-6 := by norm_num
    linarith [not_lt.mp hq]
  simp only [land2dJac, hqq, if_neg hq]
  simp only [d0, d1]
  have hs := Real.sqrt_pos.mpr hq0
  generalize Real.sqrt _ = s at hs ⊢
  generalize (l 0 - x 0) * (l 0 - x 0) + (l 1 - x 1) * (l 1 - x 1) = q at hq0 ⊢
  generalize l 0 - x 0 = a
  generalize l 1 - x 1 = b
  constructor <;> ext i j <;> fin_cases i <;> fin_cases j <;>
    simp [turn, Matrix.mul_apply, Fin.sum_univ_three] <;> field_simp <;> grind

theorem odomJac_moved (obs : Vec3) {x x' : Vec3} (x2 : SameAngle (x' 2) (g 2 + x 2)) :
    (odomJac obs x').1 * turn g = turn g * (odomJac obs x).1 ∧ (odomJac obs x').2 * turn g = turn g * (odomJac obs x).2 := by
  have hc := x2.cos
  have hs := x2.sin
  rw [Real.cos_add] at hc
  rw [Real.sin_add] at hs
  simp only [odomJac, hc, hs]
  constructor <;> ext i j <;> fin_cases i <;> fin_cases j <;>
    simp [turn, Matrix.mul_apply, Fin.sum_univ_three] <;> ring

theorem turn_mulVec_wrap {a b : Vec3} (h0 : a 0 = Real.cos (g 2) * b 0 - Real.sin (g 2) * b 1)
    (h1 : a 1 = Real.sin (g 2) * b 0 + Real.cos (g 2) * b 1) (h2 : SameAngle (a 2) (b 2)) :
    wrap2 a = turn g *ᵥ wrap2 b := by
  funext i
  fin_cases i
  · change a 0 = _
    rw [h0]; simp [turn, wrap2, mulVec, dotProduct, Fin.sum_univ_three]; ring
  · change a 1 = _
    rw [h1]; simp [turn, wrap2, mulVec, dotProduct, Fin.sum_univ_three]
  · change wrapAngle (a 2) = _
    rw [wrapAngle_congr h2]; simp [turn, wrap2, mulVec, dotProduct, Fin.sum_univ_three]

theorem factor_moved {v v' : FactorVirt} (h : FactorMoved g v v') : (planarSym g).Factors v v' := by
  cases h with
  | rel2d obs W ty =>
    refine ⟨rfl, (1 : Mat3), ?_, ?_⟩
    · change W = (1 : Mat3)ᵀ * W * (1 : Mat3)
      rw [transpose_one, Matrix.one_mul, Matrix.mul_one]
    · intro vals vals' ht hr _
      obtain ⟨x, x', y, y', rfl, rfl, hx, hy⟩ := rel_two (κ := .pose2d) (μ := .pose2d) ht hr
      refine ⟨?_, ?_⟩
      · change rel2dRes obs x' y' = (1 : Mat3) *ᵥ rel2dRes obs x y
        rw [one_mulVec]
        exact C30_rel2d obs g x y x' y' hx hy
      · obtain ⟨j1, j2⟩ := rel2dJac_moved hx hy
        refine jacRel_blk2 (κ := .pose2d) (μ := .pose2d) rfl rfl ?_ ?_
        · rw [matA3]; exact j1.trans (Matrix.one_mul _).symm
        · rw [matA3]; exact j2.trans (Matrix.one_mul _).symm
  | land2d obs W rev ty =>
    refine ⟨rfl, (1 : Matrix (Fin 2) (Fin 2) ℝ), ?_, ?_⟩
    · change W = (1 : Matrix (Fin 2) (Fin 2) ℝ)ᵀ * W * (1 : Matrix (Fin 2) (Fin 2) ℝ)
      rw [transpose_one, Matrix.one_mul, Matrix.mul_one]
    · intro vals vals' ht hr hok
      cases rev with
      | false =>
        obtain ⟨x, x', y, y', rfl, rfl, hx, hy⟩ := rel_two (κ := .pose2d) (μ := .landmark2d) ht hr
        obtain rfl : y' = planarPoint g y := hy
        refine ⟨?_, ?_⟩
        · change land2dRes obs x' (planarPoint g y) = (1 : Matrix (Fin 2) (Fin 2) ℝ) *ᵥ land2dRes obs x y
          rw [one_mulVec]
          exact C30_land2d obs g x x' y hx
        · obtain ⟨j1, j2⟩ := land2dJac_moved (l := y) hx (not_lt.mpr (hok x y (by simp) (by simp)))
          refine jacRel_blk2 (κ := .pose2d) (μ := .landmark2d) rfl rfl ?_ ?_
          · rw [matA3]; exact j1.trans (Matrix.one_mul _).symm
          · rw [matA2]; exact j2.trans (Matrix.one_mul _).symm
      | true =>
        obtain ⟨y, y', x, x', rfl, rfl, hy, hx⟩ := rel_two (κ := .landmark2d) (μ := .pose2d) ht hr
        obtain rfl : y' = planarPoint g y := hy
        refine ⟨?_, ?_⟩
        · change land2dRes obs x' (planarPoint g y) = (1 : Matrix (Fin 2) (Fin 2) ℝ) *ᵥ land2dRes obs x y
          rw [one_mulVec]
          exact C30_land2d obs g x x' y hx
        · obtain ⟨j1, j2⟩ := land2dJac_moved (l := y) hx (not_lt.mpr (hok x y (by simp) (by simp)))
          refine jacRel_blk2 (κ := .landmark2d) (μ := .pose2d) rfl rfl ?_ ?_
          · rw [matA2]; exact j2.trans (Matrix.one_mul _).symm
          · rw [matA3]; exact j1.trans (Matrix.one_mul _).symm
  | prior2d obs obs' W W' ty ho hW =>
    refine ⟨rfl, turn g, hW, ?_⟩
    intro vals vals' ht hr _
    obtain ⟨x, x', rfl, rfl, hx⟩ := rel_one (κ := .pose2d) ht hr
    have hx' := (planar_eq_mul_iff _ _ _).mp hx
    have ho' := (planar_eq_mul_iff _ _ _).mp ho
    refine ⟨turn_mulVec_wrap ?_ ?_ ?_, jacRel_blk (κ := .pose2d) rfl ?_⟩
    · rw [Pi.sub_apply, Pi.sub_apply, Pi.sub_apply, hx'.1, ho'.1]; ring
    · rw [Pi.sub_apply, Pi.sub_apply, Pi.sub_apply, hx'.2.1, ho'.2.1]; ring
    · have := hx'.2.2.sub ho'.2.2
      rw [add_sub_add_left_eq_sub] at this
      exact this
    · rw [matA3]; exact (Matrix.one_mul (turn g)).trans (Matrix.mul_one (turn g)).symm
  | odom obs W W' ty hW =>
    refine ⟨rfl, turn g, hW, ?_⟩
    intro vals vals' ht hr _
    obtain ⟨x, x', y, y', rfl, rfl, hx, hy⟩ := rel_two (κ := .pose2d) (μ := .pose2d) ht hr
    obtain ⟨x0, x1, x2⟩ := (planar_eq_mul_iff _ _ _).mp hx
    obtain ⟨y0, y1, y2⟩ := (planar_eq_mul_iff _ _ _).mp hy
    have hc : Real.cos (x' 2 + obs 0) =
        Real.cos (g 2) * Real.cos (x 2 + obs 0) - Real.sin (g 2) * Real.sin (x 2 + obs 0) := by
      rw [(x2.add (.refl (obs 0))).cos, add_assoc, Real.cos_add]
    have hs : Real.sin (x' 2 + obs 0) =
        Real.sin (g 2) * Real.cos (x 2 + obs 0) + Real.cos (g 2) * Real.sin (x 2 + obs 0) := by
      rw [(x2.add (.refl (obs 0))).sin, add_assoc, Real.sin_add]
    refine ⟨turn_mulVec_wrap ?_ ?_ ?_, jacRel_blk2 (κ := .pose2d) (μ := .pose2d) rfl rfl ?_ ?_⟩
    · change x' 0 + obs 1 * Real.cos (x' 2 + obs 0) - y' 0 =
        Real.cos (g 2) * (x 0 + obs 1 * Real.cos (x 2 + obs 0) - y 0) -
        Real.sin (g 2) * (x 1 + obs 1 * Real.sin (x 2 + obs 0) - y 1)
      rw [hc, x0, y0]; ring
    · change x' 1 + obs 1 * Real.sin (x' 2 + obs 0) - y' 1 =
        Real.sin (g 2) * (x 0 + obs 1 * Real.cos (x 2 + obs 0) - y 0) +
        Real.cos (g 2) * (x 1 + obs 1 * Real.sin (x 2 + obs 0) - y 1)
      rw [hs, x1, y1]; ring
    · change SameAngle (x' 2 + obs 0 + obs 2 - y' 2) (x 2 + obs 0 + obs 2 - y 2)
      have := (x2.add (.refl (obs 0 + obs 2))).sub y2
      ring_nf at this ⊢
      exact this
    · rw [matA3]; exact (odomJac_moved obs x2).1
    · rw [matA3]; exact (odomJac_moved obs x2).2

/-- The involved nodes are planar. -/
theorem planarMoved_kind {v v' : NodeVal} (h : PlanarMoved g v v') : v.1 = .pose2d ∨ v.1 = .landmark2d := by
  obtain ⟨k, x⟩ := v
  obtain ⟨k', x'⟩ := v'
  cases k <;> cases k' <;> first | exact absurd h id | simp

end Mrob
