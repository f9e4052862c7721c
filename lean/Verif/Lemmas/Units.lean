import Verif.Lemmas.GaugePlanar
import Verif.Lemmas.SE3
import Verif.Spec.Units

/-!
# Another unit of length
-/

open Matrix

namespace Mrob

open World Spec

/-- Which coordinates of an increment are lengths. -/
noncomputable def unitOf (s : ℝ) : NodeKind → ℕ → ℝ
  | .pose2d, i => if i < 2 then s else 1
  | .pose3d, i => if i < 3 then 1 else s
  | .landmark2d, _ => s
  | .landmark3d, _ => s
  | .plane4d, i => if i < 3 then 1 else s

theorem unitOf_ne {s : ℝ} (hs : s ≠ 0) (κ : NodeKind) (i : ℕ) : unitOf s κ i ≠ 0 := by
  cases κ <;> unfold unitOf <;> first | exact hs | (dsimp only; split <;> first | exact hs | exact one_ne_zero)

/-- Landmarks far enough in both units. -/
def FarBoth (s : ℝ) (vals : List NodeVal) : Prop :=
  ∀ x l, (⟨.pose2d, x⟩ : NodeVal) ∈ vals → (⟨.landmark2d, l⟩ : NodeVal) ∈ vals →
    1e-6 ≤ (l 0 - x 0) * (l 0 - x 0) + (l 1 - x 1) * (l 1 - x 1) ∧
    1e-6 ≤ s ^ 2 * ((l 0 - x 0) * (l 0 - x 0) + (l 1 - x 1) * (l 1 - x 1))

noncomputable def unitSym (s : ℝ) : Sym where
  rel := Rescaled s
  A κ k j := if k = j then unitOf s κ k else 0
  Ai κ k j := if k = j then (unitOf s κ k)⁻¹ else 0
  ok _ := FarBoth s
  kind := by
    rintro ⟨k, x⟩ ⟨k', x'⟩ h
    cases k <;> cases k' <;> first | rfl | exact absurd h id

variable {s : ℝ}

theorem unit_lin {κ : NodeKind} {δ : ℕ → ℝ} {k : ℕ} (hk : k < κ.dim) : (unitSym s).lin κ δ k = unitOf s κ k * δ k := by
  rw [Sym.lin, Finset.sum_eq_single k]
  · exact congrArg (· * _) (if_pos rfl)
  · intro j _ hj
    change (if k = j then _ else _) * _ = _
    rw [if_neg (Ne.symm hj), zero_mul]
  · intro h; exact absurd (Finset.mem_range.mpr hk) h

theorem unit_moves (hs : s ≠ 0) (κ : NodeKind) : (unitSym s).Moves κ := by
  constructor
  · rintro ⟨k, x⟩ ⟨k', x'⟩ - h
    cases k <;> cases k' <;> first | exact absurd h id | exact h | skip
    obtain ⟨h0, h1, h2⟩ : x' 0 = s * x 0 ∧ x' 1 = s * x 1 ∧ x' 2 = x 2 := h
    change wrap2 x' 0 = s * wrap2 x 0 ∧ wrap2 x' 1 = s * wrap2 x 1 ∧ wrap2 x' 2 = wrap2 x 2
    exact ⟨h0, h1, congrArg wrapAngle h2⟩
  · intro i hi j _
    change ∑ k ∈ Finset.range κ.dim, (if i = k then unitOf s κ i else 0) * (if k = j then (unitOf s κ k)⁻¹ else 0) = _
    rw [Finset.sum_eq_single i]
    · rw [if_pos rfl]
      by_cases h : i = j
      · rw [if_pos h, if_pos h, mul_inv_cancel₀ (unitOf_ne hs κ i)]
      · rw [if_neg h, if_neg h, mul_zero]
    · intro k _ hk
      rw [if_neg (Ne.symm hk), zero_mul]
    · intro h; exact absurd (Finset.mem_range.mpr hi) h

/-! ### Group operations -/

/-- The same rotation, and the translation in the other unit. -/
def Same (s : ℝ) (X X' : SE3) : Prop := ∃ R t, X.T = homog R t 1 ∧ X'.T = homog R (s • t) 1

theorem Same.ofRt (R : Mat3) (t : Vec3) : Same s (.ofRt R t) (.ofRt R (s • t)) := ⟨R, t, rfl, rfl⟩

theorem Same.R {X X' : SE3} (h : Same s X X') : X'.R = X.R := by
  obtain ⟨R, t, h1, h2⟩ := h
  rw [SE3.R, SE3.R, h1, h2, tl3_homog, tl3_homog]

theorem Same.t {X X' : SE3} (h : Same s X X') : X'.t = s • X.t := by
  obtain ⟨R, t, h1, h2⟩ := h
  rw [SE3.t, SE3.t, h1, h2, tr3_homog, tr3_homog]

theorem Same.mul {X X' Y Y' : SE3} (h : Same s X X') (k : Same s Y Y') : Same s (X.mul Y) (X'.mul Y') := by
  obtain ⟨R, t, h1, h2⟩ := h
  obtain ⟨Q, u, k1, k2⟩ := k
  refine ⟨R * Q, R *ᵥ u + t, ?_, ?_⟩
  · rw [SE3.mul, h1, k1, homog_mul]; simp
  · rw [SE3.mul, h2, k2, homog_mul]; simp [mulVec_smul]

theorem Same.inv {X X' : SE3} (h : Same s X X') : Same s X.inv X'.inv := by
  refine ⟨X.Rᵀ, (-X.Rᵀ) *ᵥ X.t, rfl, ?_⟩
  rw [SE3.inv, h.R, h.t, mulVec_smul]

theorem Same.lnVee {X X' : SE3} (h : Same s X X') : head3 X'.lnVee = head3 X.lnVee ∧ tail3 X'.lnVee = s • tail3 X.lnVee := by
  obtain ⟨R, t, h1, h2⟩ := h
  rw [SE3.lnVee, SE3.lnVee, SE3.ln, SE3.ln, h1, h2, se3Ln, se3Ln]
  simp only [tl3_homog, tr3_homog, vee6_homog, head3_vec6, tail3_vec6, mulVec_smul]
  exact ⟨trivial, trivial⟩

theorem same_expHat (W : Mat3) (u : Vec3) (c : ℝ) : Same s ⟨se3ExpHat (homog W u c)⟩ ⟨se3ExpHat (homog W (s • u) c)⟩ := by
  refine ⟨_, _, rfl, ?_⟩
  simp only [se3ExpHat, tl3_homog, vee6_homog, head3_vec6, tail3_vec6, mulVec_smul]

theorem Same.regenerate {X X' : SE3} (h : Same s X X') : Same s X.regenerate X'.regenerate := by
  obtain ⟨R, t, h1, h2⟩ := h
  rw [SE3.regenerate, SE3.regenerate, SE3.ln, SE3.ln, h1, h2, se3Ln, se3Ln]
  simp only [tl3_homog, tr3_homog, mulVec_smul]
  exact same_expHat _ _ _

theorem same_ofVec {xi xi' : Vec6} (h1 : head3 xi' = head3 xi) (h2 : tail3 xi' = s • tail3 xi) :
    Same s (.ofVec xi) (.ofVec xi') := by
  rw [SE3.ofVec, SE3.ofVec, hat6_eq, hat6_eq, h1, h2]
  exact same_expHat _ _ _

theorem Same.transform {X X' : SE3} (h : Same s X X') (p : Vec3) : X'.transform (s • p) = s • X.transform p := by
  rw [SE3.transform, SE3.transform, h.R, h.t, mulVec_smul, smul_add]

/-! ### Updates -/

theorem normalizeHead_units {p p' : Vec4} (h1 : ∀ i, p' (Sum.inl i) = p (Sum.inl i)) (h2 : p' (Sum.inr ()) = s * p (Sum.inr ())) :
    (∀ i, normalizeHead p' (Sum.inl i) = normalizeHead p (Sum.inl i)) ∧
      normalizeHead p' (Sum.inr ()) = s * normalizeHead p (Sum.inr ()) := by
  have e : (fun i : Fin 3 => p' (Sum.inl i)) = fun i => p (Sum.inl i) := funext h1
  simp only [normalizeHead, e]
  split
  · exact ⟨fun i => congrArg (· / _) (h1 i), h2⟩
  · exact ⟨h1, h2⟩

theorem unit_follows (κ : NodeKind) (δ : ℕ → ℝ) : (unitSym s).Follows κ δ := by
  rintro ⟨k, x⟩ ⟨k', x'⟩ rfl h
  cases k <;> cases k' <;> first | exact absurd h id | skip
  · obtain ⟨h0, h1, h2⟩ : x' 0 = s * x 0 ∧ x' 1 = s * x 1 ∧ x' 2 = x 2 := h
    change x' 0 + (unitSym s).lin .pose2d δ 0 = s * (x 0 + δ 0) ∧ x' 1 + (unitSym s).lin .pose2d δ 1 = s * (x 1 + δ 1) ∧
      wrapAngle (x' 2 + (unitSym s).lin .pose2d δ 2) = wrapAngle (x 2 + δ 2)
    rw [unit_lin (by decide), unit_lin (by decide), unit_lin (by decide), h0, h1, h2]
    simp [unitOf, mul_add]
  · have h' : Same s x x' := h
    refine Same.regenerate (Same.mul (same_ofVec ?_ ?_) h')
    · funext i
      change (unitSym s).lin .pose3d δ i = δ i
      rw [unit_lin (by change (i : ℕ) < 6; omega)]
      simp [unitOf]
    · funext i
      change (unitSym s).lin .pose3d δ (3 + i) = s * δ (3 + i)
      rw [unit_lin (by change 3 + (i : ℕ) < 6; omega)]
      simp [unitOf]
  · obtain rfl : x' = s • x := h
    change ((s • x : Vec2) + fun i : Fin 2 => (unitSym s).lin .landmark2d δ i) = s • ((x : Vec2) + fun i : Fin 2 => δ i)
    funext i
    change s * x i + (unitSym s).lin .landmark2d δ i = s * (x i + δ i)
    rw [unit_lin i.2, mul_add]; rfl
  · obtain rfl : x' = s • x := h
    change ((s • x : Vec3) + fun i : Fin 3 => (unitSym s).lin .landmark3d δ i) = s • ((x : Vec3) + fun i : Fin 3 => δ i)
    funext i
    change s * x i + (unitSym s).lin .landmark3d δ i = s * (x i + δ i)
    rw [unit_lin i.2, mul_add]; rfl
  · obtain ⟨h1, h2⟩ : (∀ i, x' (Sum.inl i) = x (Sum.inl i)) ∧ x' (Sum.inr ()) = s * x (Sum.inr ()) := h
    refine normalizeHead_units (fun i => ?_) ?_
    · change x' (Sum.inl i) + (unitSym s).lin .plane4d δ i = x (Sum.inl i) + δ i
      rw [unit_lin (by change (i : ℕ) < 4; omega), h1]
      simp [unitOf]
    · change x' (Sum.inr ()) + (unitSym s).lin .plane4d δ 3 = s * (x (Sum.inr ()) + δ 3)
      rw [unit_lin (by decide), h2, mul_add]
      simp [unitOf]

/-! ### Factors -/

theorem matUnit (κ : NodeKind) {n : ℕ} :
    (Matrix.of fun i j : Fin n => (unitSym s).A κ i j) = diagonal fun i : Fin n => unitOf s κ i := by
  ext i j
  change (if (i : ℕ) = j then _ else _) = _
  rw [diagonal_apply]
  exact if_congr Fin.ext_iff.symm rfl rfl

theorem unit_blk {m n : ℕ} {b : Fin m → ℝ} {M' M : Matrix (Fin m) (Fin n) ℝ} {κ : NodeKind} (hn : κ.dim = n)
    (h : ∀ i (j : Fin n), M' i j * unitOf s κ j = b i * M i j) : (unitSym s).JacRel (diagonal b) (blk M') (blk M) 0 [κ] := by
  refine jacRel_blk hn ?_
  rw [matUnit]
  ext i j
  rw [mul_diagonal, diagonal_mul, h]

theorem unit_blk2 {m n k : ℕ} {b : Fin m → ℝ} {M' M : Matrix (Fin m) (Fin n) ℝ} {K' K : Matrix (Fin m) (Fin k) ℝ}
    {κ μ : NodeKind} (hn : κ.dim = n) (hk : μ.dim = k) (h : ∀ i (j : Fin n), M' i j * unitOf s κ j = b i * M i j)
    (h' : ∀ i (j : Fin k), K' i j * unitOf s μ j = b i * K i j) :
    (unitSym s).JacRel (diagonal b) (blk2 M' K') (blk2 M K) 0 [κ, μ] := by
  refine jacRel_blk2 hn hk ?_ ?_
  · rw [matUnit]
    ext i j
    rw [mul_diagonal, diagonal_mul, h]
  · rw [matUnit]
    ext i j
    rw [mul_diagonal, diagonal_mul, h']

/-- Position and heading in the other unit. -/
def Same2 (s : ℝ) (x x' : Vec3) : Prop := x' 0 = s * x 0 ∧ x' 1 = s * x 1 ∧ x' 2 = x 2

theorem wrap2_units {a b : Vec3} (h : Same2 s b a) : wrap2 a = diagonal ![s, s, 1] *ᵥ wrap2 b := by
  obtain ⟨h0, h1, h2⟩ := h
  funext i
  rw [mulVec_diagonal]
  fin_cases i
  · exact h0
  · exact h1
  · change wrapAngle (a 2) = 1 * wrapAngle (b 2)
    rw [h2, one_mul]

theorem prior2d_units (i j : Fin 3) : prior2dJac i j * unitOf s .pose2d j = ![s, s, 1] i * prior2dJac i j := by
  rw [prior2dJac]
  fin_cases i <;> fin_cases j <;> simp [unitOf]

theorem rel2d_units {obs xo xt xo' xt' : Vec3} (ho : Same2 s xo xo') (ht : Same2 s xt xt') :
    rel2dRes ![s * obs 0, s * obs 1, obs 2] xo' xt' = diagonal ![s, s, 1] *ᵥ rel2dRes obs xo xt ∧
    (∀ i j, (rel2dJac xo' xt').1 i j * unitOf s .pose2d j = ![s, s, 1] i * (rel2dJac xo xt).1 i j) ∧
    ∀ i j, (rel2dJac xo' xt').2 i j * unitOf s .pose2d j = ![s, s, 1] i * (rel2dJac xo xt).2 i j := by
  obtain ⟨o0, o1, o2⟩ := ho
  obtain ⟨t0, t1, t2⟩ := ht
  refine ⟨?_, ?_, ?_⟩
  · refine wrap2_units ⟨?_, ?_, ?_⟩
    · simp [o0, o1, o2, t0, t1]; ring
    · simp [o0, o1, o2, t0, t1]; ring
    · simp [o2, t2]
  · intro i j
    simp only [rel2dJac, o0, o1, o2, t0, t1]
    fin_cases i <;> fin_cases j <;> simp [unitOf] <;> ring
  · intro i j
    simp only [rel2dJac, o2]
    fin_cases i <;> fin_cases j <;> simp [unitOf] <;> ring

theorem odom_units {obs xo xt xo' xt' : Vec3} (ho : Same2 s xo xo') (ht : Same2 s xt xt') :
    odomRes ![obs 0, s * obs 1, obs 2] xo' xt' = diagonal ![s, s, 1] *ᵥ odomRes obs xo xt ∧
    (∀ i j, (odomJac ![obs 0, s * obs 1, obs 2] xo').1 i j * unitOf s .pose2d j = ![s, s, 1] i * (odomJac obs xo).1 i j) ∧
    ∀ i j, (odomJac ![obs 0, s * obs 1, obs 2] xo').2 i j * unitOf s .pose2d j = ![s, s, 1] i * (odomJac obs xo).2 i j := by
  obtain ⟨o0, o1, o2⟩ := ho
  obtain ⟨t0, t1, t2⟩ := ht
  refine ⟨?_, ?_, ?_⟩
  · refine wrap2_units ⟨?_, ?_, ?_⟩
    · simp [odomPredict, o0, o2, t0]; ring
    · simp [odomPredict, o1, o2, t1]; ring
    · simp [odomPredict, o2, t2]
  · intro i j
    simp only [odomJac, o2]
    fin_cases i <;> fin_cases j <;> simp [unitOf] <;> ring
  · intro i j
    simp only [odomJac]
    fin_cases i <;> fin_cases j <;> simp [unitOf]

theorem land2d_units (hs : 0 < s) {obs : Vec2} {x x' : Vec3} {l : Vec2} (hx : Same2 s x x')
    (hq : 1e-6 ≤ (l 0 - x 0) * (l 0 - x 0) + (l 1 - x 1) * (l 1 - x 1))
    (hq' : 1e-6 ≤ s ^ 2 * ((l 0 - x 0) * (l 0 - x 0) + (l 1 - x 1) * (l 1 - x 1))) :
    land2dRes ![s * obs 0, obs 1] x' (s • l) = diagonal ![s, 1] *ᵥ land2dRes obs x l ∧
    (∀ i j, (land2dJac x' (s • l)).1 i j * unitOf s .pose2d j = ![s, 1] i * (land2dJac x l).1 i j) ∧
    ∀ i j, (land2dJac x' (s • l)).2 i j * unitOf s .landmark2d j = ![s, 1] i * (land2dJac x l).2 i j := by
  obtain ⟨x0, x1, x2⟩ := hx
  have d0 : (s • l) 0 - x' 0 = s * (l 0 - x 0) := by rw [x0]; simp; ring
  have d1 : (s • l) 1 - x' 1 = s * (l 1 - x 1) := by rw [x1]; simp; ring
  have hqq : s * (l 0 - x 0) * (s * (l 0 - x 0)) + s * (l 1 - x 1) * (s * (l 1 - x 1)) =
      s ^ 2 * ((l 0 - x 0) * (l 0 - x 0) + (l 1 - x 1) * (l 1 - x 1)) := by ring
  have hsq : Real.sqrt (s ^ 2 * ((l 0 - x 0) * (l 0 - x 0) + (l 1 - x 1) * (l 1 - x 1))) =
      s * Real.sqrt ((l 0 - x 0) * (l 0 - x 0) + (l 1 - x 1) * (l 1 - x 1)) := by
    rw [Real.sqrt_mul (sq_nonneg s), Real.sqrt_sq hs.le]
  have hat : catan2 (s * (l 1 - x 1)) (s * (l 0 - x 0)) = catan2 (l 1 - x 1) (l 0 - x 0) := by
    rw [catan2, catan2, show (⟨s * (l 0 - x 0), s * (l 1 - x 1)⟩ : ℂ) = (s : ℂ) * ⟨l 0 - x 0, l 1 - x 1⟩ by
      apply Complex.ext <;> simp, Complex.arg_real_mul _ hs]
  have hq0 : 0 < (l 0 - x 0) * (l 0 - x 0) + (l 1 - x 1) * (l 1 - x 1) := lt_of_lt_of_le (by norm_num) hq
  refine ⟨?_, ?_, ?_⟩
  · simp only [land2dRes, d0, d1, hqq, hsq, hat, x2, if_neg (not_lt.mpr hq), if_neg (not_lt.mpr hq')]
    funext i
    rw [mulVec_diagonal]
    fin_cases i
    · simp; ring
    · simp
  · intro i j
    simp only [land2dJac, d0, d1, hqq, hsq, if_neg (not_lt.mpr hq), if_neg (not_lt.mpr hq')]
    have hr := Real.sqrt_pos.mpr hq0
    generalize Real.sqrt _ = r at hr ⊢
    generalize (l 0 - x 0) * (l 0 - x 0) + (l 1 - x 1) * (l 1 - x 1) = q at hq0 ⊢
    fin_cases i <;> fin_cases j <;> simp [unitOf] <;> field_simp <;> try ring
  · intro i j
    simp only [land2dJac, d0, d1, hqq, hsq, if_neg (not_lt.mpr hq), if_neg (not_lt.mpr hq')]
    have hr := Real.sqrt_pos.mpr hq0
    generalize Real.sqrt _ = r at hr ⊢
    generalize (l 0 - x 0) * (l 0 - x 0) + (l 1 - x 1) * (l 1 - x 1) = q at hq0 ⊢
    fin_cases i <;> fin_cases j <;> simp [unitOf] <;> field_simp <;> try ring

/-- Scale of a component of a twist. -/
def scale6 (s : ℝ) : I6 → ℝ := Sum.elim (fun _ => 1) fun _ => s

theorem scale6_at (i : Fin 6) : ![1, 1, 1, s, s, s] i = scale6 s (at6 i) := by
  fin_cases i <;> rfl

theorem unitOf_at6 (i : Fin 6) : unitOf s .pose3d i = scale6 s (at6 i) := by
  fin_cases i <;> simp [unitOf, scale6, at6]

/-- Scale of a component of a plane. -/
def scale4 (s : ℝ) : I4 → ℝ := Sum.elim (fun _ => 1) fun _ => s

theorem scale4_at (i : Fin 4) : ![1, 1, 1, s] i = scale4 s (at4 i) := by
  fin_cases i <;> rfl

theorem unitOf_at4 (i : Fin 4) : unitOf s .plane4d i = scale4 s (at4 i) := by
  fin_cases i <;> simp [unitOf, scale4, at4]

theorem lnVee_units {X X' : SE3} (h : Same s X X') (i : I6) : X'.lnVee i = scale6 s i * X.lnVee i := by
  rcases i with i | i
  · exact (congrFun h.lnVee.1 i).trans (one_mul _).symm
  · exact congrFun h.lnVee.2 i

theorem adj_units {X X' : SE3} (h : Same s X X') (i j : I6) : X'.adj i j * scale6 s j = scale6 s i * X.adj i j := by
  rw [SE3.adj, SE3.adj, h.R, h.t]
  rcases i with i | i <;> rcases j with j | j <;> simp [scale6, hat3_smul, Matrix.smul_mul, mul_comm]

theorem ln6_units {X X' : SE3} (h : Same s X X') :
    (fun i : Fin 6 => X'.lnVee (at6 i)) = diagonal ![1, 1, 1, s, s, s] *ᵥ fun i : Fin 6 => X.lnVee (at6 i) := by
  funext i
  rw [mulVec_diagonal, scale6_at]
  exact lnVee_units h (at6 i)

theorem one6_units (i j : Fin 6) :
    ((1 : Mat6).submatrix at6 at6) i j * unitOf s .pose3d j = ![1, 1, 1, s, s, s] i * ((1 : Mat6).submatrix at6 at6) i j := by
  rw [scale6_at, unitOf_at6, submatrix_apply, one_apply]
  split
  · rename_i h; rw [h, mul_comm]
  · rw [zero_mul, mul_zero]

theorem adj6_units {X X' : SE3} (h : Same s X X') (i j : Fin 6) : ((-X'.adj).submatrix at6 at6) i j * unitOf s .pose3d j =
    ![1, 1, 1, s, s, s] i * ((-X.adj).submatrix at6 at6) i j := by
  rw [scale6_at, unitOf_at6, submatrix_apply, submatrix_apply]
  change -_ * _ = _ * -_
  rw [neg_mul, mul_neg, adj_units h]

theorem land3d_units {X X' : SE3} (h : Same s X X') (l : Vec3) :
    (∀ i j, (land3dJac X' (s • l)).1 i j * scale6 s j = s * (land3dJac X l).1 i j) ∧
      ∀ i j, (land3dJac X' (s • l)).2 i j * s = s * (land3dJac X l).2 i j := by
  constructor
  · intro i j
    change (X'.inv.T * land3dJr (s • l)) (Sum.inl i) j * _ = s * (X.inv.T * land3dJr l) (Sum.inl i) j
    rw [SE3.inv, SE3.inv, homog, homog, land3dJr, land3dJr, fromBlocks_multiply, fromBlocks_multiply, h.R, hat3_smul]
    rcases j with j | j
    · simp [scale6]
    · simp [scale6, mul_comm]
  · intro i j
    rw [land3dJac, land3dJac]
    dsimp only
    rw [h.inv.R, mul_comm]

theorem plane_units {X X' : SE3} (h : Same s X X') {p p' : Vec4} (h1 : ∀ i, p' (Sum.inl i) = p (Sum.inl i))
    (h2 : p' (Sum.inr ()) = s * p (Sum.inr ())) : 
    (∀ i, planeLocal X' p' i = scale4 s i * planeLocal X p i) ∧
    (∀ i j, (planeJac X' p').1 i j * scale6 s j = scale4 s i * (planeJac X p).1 i j) ∧
      ∀ i j, (planeJac X' p').2 i j * scale4 s j = scale4 s i * (planeJac X p).2 i j := by
  obtain ⟨R, t, hX, hX'⟩ := h
  have e : (fun i : Fin 3 => p' (Sum.inl i)) = fun i => p (Sum.inl i) := funext h1
  refine ⟨fun i => ?_, fun i j => ?_, fun i j => ?_⟩
  · rw [planeLocal, planeLocal, hX, hX']
    rcases i with i | i
    · simp [mulVec, dotProduct, homog, scale4, h1]
    · simp [mulVec, dotProduct, homog, scale4, h1, h2, Fin.sum_univ_three]; ring
  · rw [planeJac, planeJac]
    dsimp only
    rw [e, hX, hX', homog, homog, planeJr, fromBlocks_transpose, fromBlocks_transpose, fromBlocks_multiply, fromBlocks_multiply]
    rcases i with i | i <;> rcases j with j | j
    · simp [scale4, scale6]
    · simp [scale4, scale6]
    · simp [scale4, scale6, Matrix.mul_apply, Fin.sum_univ_three]; ring
    · simp [scale4, scale6, Matrix.mul_apply, mul_comm]
  · rw [planeJac, planeJac]
    dsimp only
    rw [hX, hX', homog, homog]
    rcases i with i | i <;> rcases j with j | j <;> simp [scale4]

theorem planeObs_units (n : Vec3) (d : ℝ) (i : I4) :
    planeObs (Sum.elim n fun _ => s * d) i = scale4 s i * planeObs (Sum.elim n fun _ => d) i := by
  obtain ⟨h1, h2⟩ := normalizeHead_units (s := s) (p := Sum.elim n fun _ => d) (p' := Sum.elim n fun _ => s * d) (fun _ => rfl) rfl
  rcases i with i | i
  · exact (h1 i).trans (one_mul _).symm
  · exact h2

theorem planeRes_units (hs : 0 < s) {X X' : SE3} (h : Same s X X') {n : Vec3} {d : ℝ} {p p' : Vec4}
    (h1 : ∀ i, p' (Sum.inl i) = p (Sum.inl i)) (h2 : p' (Sum.inr ()) = s * p (Sum.inr ())) (i : I4) :
    planeRes (planeObs (Sum.elim n fun _ => s * d)) X' p' i = scale4 s i * planeRes (planeObs (Sum.elim n fun _ => d)) X p i := by
  have hl := (plane_units h h1 h2).1
  have hc : planeLocal X' p' (Sum.inr ()) < 0 ↔ planeLocal X p (Sum.inr ()) < 0 := by
    rw [hl]
    change s * _ < 0 ↔ _
    constructor
    · intro h; by_contra hn; exact absurd h (not_lt.mpr (mul_nonneg hs.le (not_lt.mp hn)))
    · exact mul_neg_of_pos_of_neg hs
  rw [planeRes, planeRes]
  by_cases h0 : planeLocal X p (Sum.inr ()) < 0
  · rw [if_pos h0, if_pos (hc.mpr h0), Pi.add_apply, Pi.add_apply, hl, planeObs_units, mul_add]
  · rw [if_neg h0, if_neg fun k => h0 (hc.mp k), Pi.sub_apply, Pi.sub_apply, hl, planeObs_units, mul_sub]

theorem p2plane_units {X X' : SE3} (h : Same s X X') (px py ny : Vec3) :
    p2planeRes (s • px) (s • py) ny X' = s * p2planeRes px py ny X ∧
    ∀ j, p2planeJac (s • px) ny X' j * scale6 s j = s * p2planeJac px ny X j := by
  constructor
  · rw [p2planeRes, p2planeRes, h.transform, ← smul_sub, dotProduct_smul, smul_eq_mul]
  · intro j
    rw [p2planeJac, p2planeJac, h.transform, pointJr, pointJr, hat3_smul]
    rcases j with j | j
    · simp [vecMul, dotProduct, scale6, Fin.sum_univ_three]; ring
    · simp [vecMul, dotProduct, scale6, Fin.sum_univ_three]; ring

theorem diag_info {m : ℕ} {W W' : Matrix (Fin m) (Fin m) ℝ} {b : Fin m → ℝ} (h : W = diagonal b * W' * diagonal b) :
    W = (diagonal b)ᵀ * W' * diagonal b := by rw [diagonal_transpose]; exact h

theorem smul_info {m : ℕ} {W W' : Matrix (Fin m) (Fin m) ℝ} (h : W = s ^ 2 • W') :
    W = (diagonal fun _ => s)ᵀ * W' * diagonal fun _ => s := by
  rw [diagonal_transpose, h]
  ext i j
  rw [mul_diagonal, diagonal_mul, Matrix.smul_apply, smul_eq_mul]
  ring

theorem factor_rescaled (hs : 0 < s) {v v' : FactorVirt} (h : FactorRescaled s v v') : (unitSym s).Factors v v' := by
  cases h with
  | prior2d obs W W' ty hW =>
    refine ⟨rfl, diagonal ![s, s, 1], diag_info hW, fun vals vals' ht hr _ => ?_⟩
    obtain ⟨x, x', rfl, rfl, hx⟩ := rel_one (κ := .pose2d) ht hr
    obtain ⟨h0, h1, h2⟩ : Same2 s x x' := hx
    refine ⟨wrap2_units ⟨?_, ?_, ?_⟩, unit_blk (κ := .pose2d) rfl ?_⟩
    · simp [h0]; ring
    · simp [h1]; ring
    · simp [h2]
    · exact prior2d_units
  | rel2d obs W W' ty hW =>
    refine ⟨rfl, diagonal ![s, s, 1], diag_info hW, fun vals vals' ht hr _ => ?_⟩
    obtain ⟨x, x', y, y', rfl, rfl, hx, hy⟩ := rel_two (κ := .pose2d) (μ := .pose2d) ht hr
    obtain ⟨k1, k2, k3⟩ := rel2d_units (obs := obs) (show Same2 s x x' from hx) (show Same2 s y y' from hy)
    exact ⟨k1, unit_blk2 (κ := .pose2d) (μ := .pose2d) rfl rfl k2 k3⟩
  | odom obs W W' ty hW =>
    refine ⟨rfl, diagonal ![s, s, 1], diag_info hW, fun vals vals' ht hr _ => ?_⟩
    obtain ⟨x, x', y, y', rfl, rfl, hx, hy⟩ := rel_two (κ := .pose2d) (μ := .pose2d) ht hr
    obtain ⟨k1, k2, k3⟩ := odom_units (obs := obs) (show Same2 s x x' from hx) (show Same2 s y y' from hy)
    exact ⟨k1, unit_blk2 (κ := .pose2d) (μ := .pose2d) rfl rfl k2 k3⟩
  | prior3d R t W W' ty hW =>
    refine ⟨rfl, diagonal ![1, 1, 1, s, s, s], diag_info hW, fun vals vals' ht hr _ => ?_⟩
    obtain ⟨X, X', rfl, rfl, hX⟩ := rel_one (κ := .pose3d) ht hr
    exact ⟨ln6_units (Same.mul hX (Same.ofRt R t).inv), unit_blk (κ := .pose3d) rfl one6_units⟩
  | rel3d R t W W' ty hW =>
    refine ⟨rfl, diagonal ![1, 1, 1, s, s, s], diag_info hW, fun vals vals' ht hr _ => ?_⟩
    obtain ⟨X, X', Y, Y', rfl, rfl, hX, hY⟩ := rel_two (κ := .pose3d) (μ := .pose3d) ht hr
    have hT : Same s (rel3dTr (.ofRt R t) X Y) (rel3dTr (.ofRt R (s • t)) X' Y') :=
      Same.mul (Same.mul hX (Same.ofRt R t)) (Same.inv hY)
    exact ⟨ln6_units hT, unit_blk2 (κ := .pose3d) (μ := .pose3d) rfl rfl one6_units (adj6_units hT)⟩
  | land2d obs W W' rev ty hW =>
    refine ⟨rfl, diagonal ![s, 1], diag_info hW, fun vals vals' ht hr hok => ?_⟩
    cases rev with
    | false =>
      obtain ⟨x, x', y, y', rfl, rfl, hx, hy⟩ := rel_two (κ := .pose2d) (μ := .landmark2d) ht hr
      obtain rfl : y' = s • y := hy
      obtain ⟨q, q'⟩ := hok x y (by simp) (by simp)
      obtain ⟨k1, k2, k3⟩ := land2d_units hs (obs := obs) (show Same2 s x x' from hx) q q'
      exact ⟨k1, unit_blk2 (κ := .pose2d) (μ := .landmark2d) rfl rfl k2 k3⟩
    | true =>
      obtain ⟨y, y', x, x', rfl, rfl, hy, hx⟩ := rel_two (κ := .landmark2d) (μ := .pose2d) ht hr
      obtain rfl : y' = s • y := hy
      obtain ⟨q, q'⟩ := hok x y (by simp) (by simp)
      obtain ⟨k1, k2, k3⟩ := land2d_units hs (obs := obs) (show Same2 s x x' from hx) q q'
      exact ⟨k1, unit_blk2 (κ := .landmark2d) (μ := .pose2d) rfl rfl k3 k2⟩
  | land3d obs W W' rev ty hW =>
    refine ⟨rfl, diagonal fun _ => s, smul_info hW, fun vals vals' ht hr _ => ?_⟩
    have res : ∀ {X X' : SE3} (_ : Same s X X') (l : Vec3), land3dRes (s • obs) X' (s • l) =
        (diagonal fun _ => s) *ᵥ land3dRes obs X l := by
      intro X X' h l
      funext i
      rw [mulVec_diagonal, land3dRes, land3dRes, h.inv.transform, ← smul_sub]
      rfl
    have jac : ∀ {X X' : SE3} (_ : Same s X X') (l : Vec3) (i : Fin 3) (j : Fin 6),
        ((land3dJac X' (s • l)).1.submatrix id at6) i j * unitOf s .pose3d j = s * ((land3dJac X l).1.submatrix id at6) i j := by
      intro X X' h l i j
      rw [unitOf_at6]
      exact (land3d_units h l).1 i (at6 j)
    cases rev with
    | false =>
      obtain ⟨X, X', y, y', rfl, rfl, hX, hy⟩ := rel_two (κ := .pose3d) (μ := .landmark3d) ht hr
      obtain rfl : y' = s • y := hy
      exact ⟨res hX y, unit_blk2 (κ := .pose3d) (μ := .landmark3d) rfl rfl (jac hX y) (land3d_units hX y).2⟩
    | true =>
      obtain ⟨y, y', X, X', rfl, rfl, hy, hX⟩ := rel_two (κ := .landmark3d) (μ := .pose3d) ht hr
      obtain rfl : y' = s • y := hy
      exact ⟨res hX y, unit_blk2 (κ := .landmark3d) (μ := .pose3d) rfl rfl (land3d_units hX y).2 (jac hX y)⟩
  | plane4d n d W W' rev ty hW =>
    refine ⟨rfl, diagonal ![1, 1, 1, s], diag_info hW, fun vals vals' ht hr _ => ?_⟩
    have res : ∀ {X X' : SE3} (_ : Same s X X') {p p' : Vec4} (_ : ∀ i, p' (Sum.inl i) = p (Sum.inl i))
        (_ : p' (Sum.inr ()) = s * p (Sum.inr ())), (fun i : Fin 4 => planeRes (planeObs (Sum.elim n fun _ => s * d)) X' p' (at4 i)) =
        diagonal ![1, 1, 1, s] *ᵥ fun i : Fin 4 => planeRes (planeObs (Sum.elim n fun _ => d)) X p (at4 i) := by
      intro X X' h p p' h1 h2
      funext i
      rw [mulVec_diagonal, scale4_at]
      exact planeRes_units hs h h1 h2 (at4 i)
    have jx : ∀ {X X' : SE3} (_ : Same s X X') {p p' : Vec4} (_ : ∀ i, p' (Sum.inl i) = p (Sum.inl i))
        (_ : p' (Sum.inr ()) = s * p (Sum.inr ())) (i : Fin 4) (j : Fin 6),
        ((planeJac X' p').1.submatrix at4 at6) i j * unitOf s .pose3d j =
          ![1, 1, 1, s] i * ((planeJac X p).1.submatrix at4 at6) i j := by
      intro X X' h p p' h1 h2 i j
      rw [unitOf_at6, scale4_at]
      exact (plane_units h h1 h2).2.1 (at4 i) (at6 j)
    have jp : ∀ {X X' : SE3} (_ : Same s X X') {p p' : Vec4} (_ : ∀ i, p' (Sum.inl i) = p (Sum.inl i))
        (_ : p' (Sum.inr ()) = s * p (Sum.inr ())) (i j : Fin 4),
        ((planeJac X' p').2.submatrix at4 at4) i j * unitOf s .plane4d j =
          ![1, 1, 1, s] i * ((planeJac X p).2.submatrix at4 at4) i j := by
      intro X X' h p p' h1 h2 i j
      rw [unitOf_at4, scale4_at]
      exact (plane_units h h1 h2).2.2 (at4 i) (at4 j)
    cases rev with
    | false =>
      obtain ⟨X, X', y, y', rfl, rfl, hX, hy⟩ := rel_two (κ := .pose3d) (μ := .plane4d) ht hr
      obtain ⟨h1, h2⟩ : (∀ i, y' (Sum.inl i) = y (Sum.inl i)) ∧ y' (Sum.inr ()) = s * y (Sum.inr ()) := hy
      exact ⟨res hX h1 h2, unit_blk2 (κ := .pose3d) (μ := .plane4d) rfl rfl (jx hX h1 h2) (jp hX h1 h2)⟩
    | true =>
      obtain ⟨y, y', X, X', rfl, rfl, hy, hX⟩ := rel_two (κ := .plane4d) (μ := .pose3d) ht hr
      obtain ⟨h1, h2⟩ : (∀ i, y' (Sum.inl i) = y (Sum.inl i)) ∧ y' (Sum.inr ()) = s * y (Sum.inr ()) := hy
      exact ⟨res hX h1 h2, unit_blk2 (κ := .plane4d) (μ := .pose3d) rfl rfl (jp hX h1 h2) (jx hX h1 h2)⟩
  | p2plane px py ny W W' ty hW =>
    refine ⟨rfl, diagonal fun _ => s, smul_info hW, fun vals vals' ht hr _ => ?_⟩
    obtain ⟨X, X', rfl, rfl, hX⟩ := rel_one (κ := .pose3d) ht hr
    obtain ⟨k1, k2⟩ := p2plane_units hX px py ny
    refine ⟨funext fun i => ?_, unit_blk (κ := .pose3d) rfl fun i j => ?_⟩
    · refine Eq.trans ?_ (mulVec_diagonal _ _ i).symm
      exact k1
    · rw [unitOf_at6]
      exact k2 (at6 j)

end Mrob
