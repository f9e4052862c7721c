import Verif.Lemmas.GaugePlanar
import Verif.Spec.Turns

/-!
# Full turns
-/

open Matrix

namespace Mrob

open World Spec

/-- Headings up to full turns as a change of coordinates. -/
noncomputable def turnSym : Sym where
  rel := Turned
  A _ k j := if k = j then 1 else 0
  Ai _ k j := if k = j then 1 else 0
  ok _ _ := True
  kind := by
    rintro ⟨k, x⟩ ⟨k', x'⟩ h
    cases k <;> cases k' <;> first | rfl | exact absurd h id

theorem turn_lin {κ : NodeKind} {δ : ℕ → ℝ} {k : ℕ} (hk : k < κ.dim) : turnSym.lin κ δ k = δ k := by
  rw [Sym.lin, Finset.sum_eq_single k]
  · change (if k = k then 1 else 0) * _ = _
    rw [if_pos rfl, one_mul]
  · intro j _ hj
    change (if k = j then (1 : ℝ) else 0) * _ = _
    rw [if_neg (Ne.symm hj), zero_mul]
  · intro h; exact absurd (Finset.mem_range.mpr hk) h

theorem turn_orth (κ : NodeKind) : turnSym.Orth κ := by
  intro i hi j _
  change ∑ k ∈ Finset.range κ.dim, (if k = i then (1 : ℝ) else 0) * (if k = j then 1 else 0) = _
  rw [Finset.sum_eq_single i]
  · rw [if_pos rfl, one_mul]
  · intro k _ hk
    rw [if_neg hk, zero_mul]
  · intro h; exact absurd (Finset.mem_range.mpr hi) h

theorem turned_stored {v v' : NodeVal} (h : Turned v v') : Turned v.stored v'.stored := by
  obtain ⟨k, x⟩ := v
  obtain ⟨k', x'⟩ := v'
  cases k <;> cases k' <;> first | exact absurd h id | skip
  · obtain ⟨h0, h1, h2⟩ : x' 0 = x 0 ∧ x' 1 = x 1 ∧ SameAngle (x' 2) (x 2) := h
    exact ⟨h0, h1, (sameAngle_wrap _).trans (h2.trans (sameAngle_wrap _).symm)⟩
  all_goals
    obtain rfl : x' = x := h
    rfl

theorem turn_moves (κ : NodeKind) : turnSym.Moves κ := by
  constructor
  · intro v v' _ h
    exact turned_stored h
  · intro i hi j _
    change ∑ k ∈ Finset.range κ.dim, (if i = k then (1 : ℝ) else 0) * (if k = j then 1 else 0) = _
    rw [Finset.sum_eq_single i]
    · rw [if_pos rfl, one_mul]
    · intro k _ hk
      rw [if_neg (Ne.symm hk), zero_mul]
    · intro h; exact absurd (Finset.mem_range.mpr hi) h

theorem turned_refl (v : NodeVal) : Turned v v := by
  obtain ⟨k, x⟩ := v
  cases k
  · exact ⟨rfl, rfl, SameAngle.refl _⟩
  all_goals rfl

/-- The same update. -/
theorem turned_upd {v v' : NodeVal} (h : Turned v v') {δ δ' : ℕ → ℝ} (hδ : ∀ k < v.1.dim, δ' k = δ k) : v'.upd δ' = v.upd δ := by
  obtain ⟨k, x⟩ := v
  obtain ⟨k', x'⟩ := v'
  have key : ∀ κ : NodeKind, (∀ i < κ.dim, δ' i = δ i) → κ.ofFlat δ' = κ.ofFlat δ := by
    intro κ hκ
    cases κ
    · funext i; exact hκ i i.2
    · funext i
      rcases i with i | i
      · exact hκ i (by change (i : ℕ) < 6; omega)
      · exact hκ (3 + i) (by change 3 + (i : ℕ) < 6; omega)
    · funext i; exact hκ i i.2
    · funext i; exact hκ i i.2
    · funext i
      rcases i with i | i
      · exact hκ i (by change (i : ℕ) < 4; omega)
      · exact hκ 3 (by change 3 < 4; omega)
  cases k <;> cases k' <;> first | exact absurd h id | skip
  · obtain ⟨h0, h1, h2⟩ : x' 0 = x 0 ∧ x' 1 = x 1 ∧ SameAngle (x' 2) (x 2) := h
    change (⟨.pose2d, wrap2 ((x' : Vec3) + fun i : Fin 3 => δ' i)⟩ : NodeVal) = ⟨.pose2d, wrap2 ((x : Vec3) + fun i : Fin 3 => δ i)⟩
    congr 1
    apply wrap2_congr
    · change x' 0 + δ' 0 = x 0 + δ 0
      rw [h0, hδ 0 (by change 0 < 3; omega)]
    · change x' 1 + δ' 1 = x 1 + δ 1
      rw [h1, hδ 1 (by change 1 < 3; omega)]
    · change SameAngle (x' 2 + δ' 2) (x 2 + δ 2)
      rw [hδ 2 (by change 2 < 3; omega)]
      exact h2.add (SameAngle.refl _)
  all_goals
    obtain rfl : x' = x := h
    rw [NodeVal.upd, NodeVal.upd]
    dsimp only
    rw [key _ hδ]

theorem turn_follows (κ : NodeKind) (δ : ℕ → ℝ) : turnSym.Follows κ δ := by
  intro v v' hk h
  have : v'.upd (turnSym.lin κ δ) = v.upd δ := turned_upd h fun k hlt => turn_lin (by rw [← hk]; exact hlt)
  rw [this]
  exact turned_refl _

theorem turn_eval {m : ℕ} {r r' : Fin m → ℝ} {J J' : Fin m → ℕ → ℝ} (hr : r' = r) (hJ : J' = J) (ks : List NodeKind) :
    r' = (1 : Matrix (Fin m) (Fin m) ℝ) *ᵥ r ∧ turnSym.JacRel 1 J' J 0 ks := by
  subst hr hJ
  refine ⟨(one_mulVec _).symm, ?_⟩
  generalize 0 = tk
  induction ks generalizing tk with
  | nil => trivial
  | cons κ ks ih =>
    refine ⟨fun l' j hj => ?_, ih _⟩
    rw [Finset.sum_eq_single j, Finset.sum_eq_single l']
    · rw [one_apply_eq, one_mul]
      change _ * (if j = j then (1 : ℝ) else 0) = _
      rw [if_pos rfl, mul_one]
    · intro b _ hb
      rw [one_apply_ne (Ne.symm hb), zero_mul]
    · intro h; exact absurd (Finset.mem_univ _) h
    · intro k _ hk
      change _ * (if k = j then (1 : ℝ) else 0) = _
      rw [if_neg hk, mul_zero]
    · intro h; exact absurd (Finset.mem_range.mpr hj) h

theorem turn_W {m : ℕ} (W : Matrix (Fin m) (Fin m) ℝ) : W = (1 : Matrix (Fin m) (Fin m) ℝ)ᵀ * W * 1 := by
  rw [transpose_one, Matrix.one_mul, Matrix.mul_one]

section

variable {obs obs' x x' y y' : Vec3}

theorem prior2dRes_turned (o0 : obs' 0 = obs 0) (o1 : obs' 1 = obs 1) (o2 : SameAngle (obs' 2) (obs 2))
    (h : Turned ⟨.pose2d, x⟩ ⟨.pose2d, x'⟩) : prior2dRes obs' x' = prior2dRes obs x := by
  obtain ⟨h0, h1, h2⟩ : x' 0 = x 0 ∧ x' 1 = x 1 ∧ SameAngle (x' 2) (x 2) := h
  refine wrap2_congr ?_ ?_ (h2.sub o2)
  · rw [Pi.sub_apply, Pi.sub_apply, h0, o0]
  · rw [Pi.sub_apply, Pi.sub_apply, h1, o1]

theorem rel2d_turned (o0 : obs' 0 = obs 0) (o1 : obs' 1 = obs 1) (o2 : SameAngle (obs' 2) (obs 2))
    (h : Turned ⟨.pose2d, x⟩ ⟨.pose2d, x'⟩) (k : Turned ⟨.pose2d, y⟩ ⟨.pose2d, y'⟩) :
    rel2dRes obs' x' y' = rel2dRes obs x y ∧ rel2dJac x' y' = rel2dJac x y := by
  obtain ⟨h0, h1, h2⟩ : x' 0 = x 0 ∧ x' 1 = x 1 ∧ SameAngle (x' 2) (x 2) := h
  obtain ⟨k0, k1, k2⟩ : y' 0 = y 0 ∧ y' 1 = y 1 ∧ SameAngle (y' 2) (y 2) := k
  constructor
  · refine wrap2_congr ?_ ?_ ?_
    · simp [h0, h1, k0, k1, o0, h2.cos, h2.sin]
    · simp [h0, h1, k0, k1, o1, h2.cos, h2.sin]
    · exact (k2.sub h2).sub o2
  · simp only [rel2dJac, h0, h1, k0, k1, h2.cos, h2.sin]

theorem odom_turned (o0 : SameAngle (obs' 0) (obs 0)) (o1 : obs' 1 = obs 1) (o2 : SameAngle (obs' 2) (obs 2))
    (h : Turned ⟨.pose2d, x⟩ ⟨.pose2d, x'⟩) (k : Turned ⟨.pose2d, y⟩ ⟨.pose2d, y'⟩) :
    odomRes obs' x' y' = odomRes obs x y ∧ odomJac obs' x' = odomJac obs x := by
  obtain ⟨h0, h1, h2⟩ : x' 0 = x 0 ∧ x' 1 = x 1 ∧ SameAngle (x' 2) (x 2) := h
  obtain ⟨k0, k1, k2⟩ : y' 0 = y 0 ∧ y' 1 = y 1 ∧ SameAngle (y' 2) (y 2) := k
  have ht := h2.add o0
  constructor
  · refine wrap2_congr ?_ ?_ ?_
    · simp [odomPredict, h0, k0, o1, ht.cos]
    · simp [odomPredict, h1, k1, o1, ht.sin]
    · exact (ht.add o2).sub k2
  · simp only [odomJac, o1, h2.cos, h2.sin]

theorem land2d_turned {obs obs' l : Vec2} (o0 : obs' 0 = obs 0) (o1 : SameAngle (obs' 1) (obs 1))
    (h : Turned ⟨.pose2d, x⟩ ⟨.pose2d, x'⟩) : land2dRes obs' x' l = land2dRes obs x l ∧ land2dJac x' l = land2dJac x l := by
  obtain ⟨h0, h1, h2⟩ : x' 0 = x 0 ∧ x' 1 = x 1 ∧ SameAngle (x' 2) (x 2) := h
  constructor
  · simp only [land2dRes, h0, h1, o0]
    rw [wrapAngle_congr (((SameAngle.refl (catan2 (l 1 - x 1) (l 0 - x 0))).sub h2).sub o1)]
  · simp only [land2dJac, h0, h1]

end

theorem turned_eq_of_ne {v v' : NodeVal} (h : Turned v v') (hk : v.1 ≠ .pose2d) : v' = v := by
  obtain ⟨k, x⟩ := v
  obtain ⟨k', x'⟩ := v'
  cases k <;> cases k' <;> first | exact absurd h id | exact absurd rfl hk | skip
  all_goals
    obtain rfl : x' = x := h
    rfl

theorem turned_one {κ : NodeKind} {x : κ.State} {vals : List NodeVal} (h : List.Forall₂ Turned [⟨κ, x⟩] vals) :
    ∃ x' : κ.State, vals = [⟨κ, x'⟩] ∧ Turned ⟨κ, x⟩ ⟨κ, x'⟩ := by
  cases h with
  | cons h t =>
    rename_i v vs
    cases t
    obtain ⟨k', x'⟩ := v
    obtain rfl : k' = κ := turnSym.kind h
    exact ⟨x', rfl, h⟩

theorem turned_two {κ μ : NodeKind} {x : κ.State} {y : μ.State} {vals : List NodeVal}
    (h : List.Forall₂ Turned [⟨κ, x⟩, ⟨μ, y⟩] vals) :
    ∃ (x' : κ.State) (y' : μ.State), vals = [⟨κ, x'⟩, ⟨μ, y'⟩] ∧ Turned ⟨κ, x⟩ ⟨κ, x'⟩ ∧ Turned ⟨μ, y⟩ ⟨μ, y'⟩ := by
  cases h with
  | cons h t =>
    rename_i v vs
    obtain ⟨y', rfl, hy⟩ := turned_one t
    obtain ⟨k', x'⟩ := v
    obtain rfl : k' = κ := turnSym.kind h
    exact ⟨x', y', rfl, h, hy⟩

theorem factor_turned {v v' : FactorVirt} (h : FactorTurned v v') : turnSym.Factors v v' := by
  cases h with
  | prior2d obs obs' W ty o0 o1 o2 =>
    refine ⟨rfl, (1 : Matrix (Fin 3) (Fin 3) ℝ), turn_W (m := 3) W, fun vals vals' hk hr _ => ?_⟩
    obtain ⟨x, rfl⟩ := vals_one hk
    obtain ⟨x', rfl, hx⟩ := turned_one hr
    exact turn_eval (m := 3) (prior2dRes_turned o0 o1 o2 hx) rfl _
  | rel2d obs obs' W ty o0 o1 o2 =>
    refine ⟨rfl, (1 : Matrix (Fin 3) (Fin 3) ℝ), turn_W (m := 3) W, fun vals vals' hk hr _ => ?_⟩
    obtain ⟨x, y, rfl⟩ := vals_two hk
    obtain ⟨x', y', rfl, hx, hy⟩ := turned_two hr
    obtain ⟨e1, e2⟩ := rel2d_turned o0 o1 o2 hx hy
    exact turn_eval (m := 3) e1 (congrArg (fun p : Mat3 × Mat3 => blk2 p.1 p.2) e2) _
  | odom obs obs' W ty o0 o1 o2 =>
    refine ⟨rfl, (1 : Matrix (Fin 3) (Fin 3) ℝ), turn_W (m := 3) W, fun vals vals' hk hr _ => ?_⟩
    obtain ⟨x, y, rfl⟩ := vals_two hk
    obtain ⟨x', y', rfl, hx, hy⟩ := turned_two hr
    obtain ⟨e1, e2⟩ := odom_turned o0 o1 o2 hx hy
    exact turn_eval (m := 3) e1 (congrArg (fun p : Mat3 × Mat3 => blk2 p.1 p.2) e2) _
  | land2d obs obs' W rev ty o0 o1 =>
    refine ⟨rfl, (1 : Matrix (Fin 2) (Fin 2) ℝ), turn_W (m := 2) W, fun vals vals' hk hr _ => ?_⟩
    cases rev
    · obtain ⟨x, l, rfl⟩ := vals_two (k := .pose2d) (l := .landmark2d) hk
      obtain ⟨x', l', rfl, hx, hl⟩ := turned_two hr
      obtain rfl : l' = l := hl
      obtain ⟨e1, e2⟩ := land2d_turned (l := l') o0 o1 hx
      exact turn_eval (m := 2) e1 (congrArg (fun p : Matrix (Fin 2) (Fin 3) ℝ × Matrix (Fin 2) (Fin 2) ℝ => blk2 p.1 p.2) e2) _
    · obtain ⟨l, x, rfl⟩ := vals_two (k := .landmark2d) (l := .pose2d) hk
      obtain ⟨l', x', rfl, hl, hx⟩ := turned_two hr
      obtain rfl : l' = l := hl
      obtain ⟨e1, e2⟩ := land2d_turned (l := l') o0 o1 hx
      exact turn_eval (m := 2) e1 (congrArg (fun p : Matrix (Fin 2) (Fin 3) ℝ × Matrix (Fin 2) (Fin 2) ℝ => blk2 p.2 p.1) e2) _
  | other _ hv =>
    refine ⟨rfl, 1, turn_W v.W, fun vals vals' hk hr _ => ?_⟩
    have : vals' = vals := by
      have hne : ∀ u ∈ vals, u.1 ≠ NodeKind.pose2d := by
        intro u hu he
        exact hv (by rw [← hk, ← he]; exact List.mem_map_of_mem hu)
      clear hk
      induction hr with
      | nil => rfl
      | cons h _ ih =>
        rw [turned_eq_of_ne h (hne _ List.mem_cons_self), ih trivial fun u hu => hne u (List.mem_cons_of_mem _ hu)]
    subst this
    exact turn_eval rfl rfl _

end Mrob
