import Verif.Lemmas.Determined

/-!
# Graphs that contain another graph
-/

open Matrix

namespace Mrob

open World Spec

namespace World

variable {w w' : World}

/-- The bilinear form of the information matrix. -/
theorem infoMatrix_bilin (hr : NoRansac w) (x y : Cols w → ℝ) :
    x ⬝ᵥ (infoMatrix (graphTerms w) *ᵥ y) =
      w.quadSum (fun n => (w.nh n).val) (jacStep (fun n => (w.nh n).val) (w.spread x))
        (jacStep (fun n => (w.nh n).val) (w.spread y)) := by
  have key : ∀ ts : List (Term (Cols w)),
      x ⬝ᵥ (infoMatrix ts *ᵥ y) = (ts.map fun t => (t.J *ᵥ x) ⬝ᵥ (t.W *ᵥ (t.J *ᵥ y))).sum := by
    intro ts
    unfold infoMatrix
    induction ts with
    | nil => simp
    | cons t ts ih =>
      rw [List.map_cons, List.sum_cons, List.map_cons, List.sum_cons, add_mulVec, dotProduct_add, ih]
      congr 1
      rw [Matrix.mul_assoc, ← mulVec_mulVec, ← mulVec_mulVec, dotProduct_mulVec, vecMul_transpose]
  rw [key, graphTerms, List.map_map, quadSum]
  refine congrArg List.sum (List.map_congr_left fun f hf => ?_)
  rw [Function.comp_apply]
  have hwt : factorWeight w f = robustWeight (w.fh f).virt.robust 0
        (Real.sqrt (factorChi2 (w.fh f).virt.W ((w.fh f).virt.res ((w.fh f).nbrs.map fun n => (w.nh n).val)))) :=
    robustWeight_old (hr f hf) _ _ _
  rw [← hwt]
  have hJ : ∀ z : Cols w → ℝ, (factorTerm w f).J *ᵥ z =
      jacStep (fun n => (w.nh n).val) (w.spread z) (w.fh f).virt.core (w.fh f).nbrs := by
    intro z
    funext l
    exact (term_mulVec f z l).trans (rowApply_eq w z _ _ 0)
  rw [hJ, hJ]
  exact weighted_form (factorWeight w f) (w.fh f).virt.W
    (jacStep (fun n => (w.nh n).val) (w.spread x) (w.fh f).virt.core (w.fh f).nbrs)
    (jacStep (fun n => (w.nh n).val) (w.spread y) (w.fh f).virt.core (w.fh f).nbrs)

/-- `w'` has the nodes and factors of `w`, at the same values, further nodes, and the further factors `extra`. -/
structure Grown (w w' : World) (extra : List FactorCell) : Prop where
  /-- unknowns -/
  mem : ∀ n ∈ w.g.active, n ∈ w'.g.active
  /-- values -/
  val : ∀ n, (w'.nh n).val = (w.nh n).val
  /-- the factors of `w` do not see the further nodes -/
  closed : ∀ f ∈ w.g.factors, ∀ n ∈ (w.fh f).nbrs, n ∈ w'.g.active → n ∈ w.g.active
  /-- information -/
  quad : ∀ V x y, w'.quadSum V x y = w.quadSum V x y + (extra.map (quadTerm V x y)).sum

theorem quadSum_congr {V : NRef → NodeVal} {x x' y y' : (v : FactorVirt) → List NRef → Fin v.dim → ℝ}
    (h : ∀ f ∈ w.g.factors, x' (w.fh f).virt.core (w.fh f).nbrs = x (w.fh f).virt.core (w.fh f).nbrs ∧
      y' (w.fh f).virt.core (w.fh f).nbrs = y (w.fh f).virt.core (w.fh f).nbrs) :
    w.quadSum V x' y' = w.quadSum V x y := by
  rw [quadSum, quadSum]
  refine congrArg List.sum (List.map_congr_left fun f hf => ?_)
  rw [(h f hf).1, (h f hf).2]

theorem quadTerm_nonneg {V : NRef → NodeVal} {x : (v : FactorVirt) → List NRef → Fin v.dim → ℝ} {c : FactorCell}
    (h : c.virt.W.PosSemidef) : 0 ≤ quadTerm V x x c := by
  rw [quadTerm]
  refine mul_nonneg (robustWeight_nonneg _ le_rfl (Real.sqrt_nonneg _)) ?_
  have key : ∀ y : Fin c.virt.dim → ℝ, 0 ≤ y ⬝ᵥ (c.virt.W *ᵥ y) := by
    intro y
    have := h.dotProduct_mulVec_nonneg y
    rwa [star_trivial] at this
  exact key _

namespace Grown

variable {extra : List FactorCell} (h : Grown w w' extra)
include h

theorem dim (n : NRef) : (w'.nh n).dim = (w.nh n).dim := congrArg (fun v : NodeVal => v.1.dim) (h.val n)

theorem vals : (fun n => (w'.nh n).val) = fun n => (w.nh n).val := funext h.val

/-- The unknowns of the first graph among those of the second. -/
def emb (c : Cols w) : Cols w' := ⟨⟨c.1.1, h.mem _ c.1.2⟩, ⟨c.2, by rw [h.dim]; exact c.2.2⟩⟩

theorem emb_injective : Function.Injective h.emb := by
  rintro ⟨⟨a, ha⟩, k⟩ ⟨⟨b, hb⟩, j⟩ hab
  have h1 := congrArg (fun c : Cols w' => c.1.1) hab
  dsimp only [emb] at h1
  subst h1
  have h2 : HEq (⟨(k : ℕ), _⟩ : Fin (w'.nh a).dim) (⟨(j : ℕ), _⟩ : Fin (w'.nh a).dim) := (Sigma.mk.inj hab).2
  have h3 : (k : ℕ) = j := by
    have := congrArg Fin.val (eq_of_heq h2)
    exact this
  obtain rfl : k = j := Fin.ext h3
  rfl

theorem spread_emb (x' : Cols w' → ℝ) {n : NRef} (hn : n ∈ w'.g.active → n ∈ w.g.active) (k : ℕ) :
    w.spread (x' ∘ h.emb) n k = w'.spread x' n k := by
  by_cases hm : n ∈ w.g.active ∧ k < (w.nh n).dim
  · rw [World.spread, dif_pos hm, World.spread, dif_pos ⟨h.mem n hm.1, by rw [h.dim]; exact hm.2⟩]
    rfl
  · rw [World.spread, dif_neg hm, World.spread, dif_neg]
    rintro ⟨h1, h2⟩
    rw [h.dim] at h2
    exact hm ⟨hn h1, h2⟩

theorem jacStep_emb (V : NRef → NodeVal) (x' : Cols w' → ℝ) {f : FRef} (hf : f ∈ w.g.factors) :
    jacStep V (w'.spread x') (w.fh f).virt.core (w.fh f).nbrs = jacStep V (w.spread (x' ∘ h.emb)) (w.fh f).virt.core (w.fh f).nbrs :=
  jacStep_congr (fun _ _ => rfl) (fun n hn k _ => (h.spread_emb x' (h.closed f hf n hn) k).symm) _

/-- The quadratic form. -/
theorem form (hr : NoRansac w) (hr' : NoRansac w') (x' : Cols w' → ℝ) :
    x' ⬝ᵥ (infoMatrix (graphTerms w') *ᵥ x') =
      (x' ∘ h.emb) ⬝ᵥ (infoMatrix (graphTerms w) *ᵥ (x' ∘ h.emb)) +
        (extra.map (quadTerm (fun n => (w.nh n).val) (jacStep (fun n => (w.nh n).val) (w'.spread x'))
          (jacStep (fun n => (w.nh n).val) (w'.spread x')))).sum := by
  rw [infoMatrix_bilin hr, infoMatrix_bilin hr', h.vals, h.quad]
  congr 1
  exact quadSum_congr fun f hf => ⟨h.jacStep_emb _ _ hf, h.jacStep_emb _ _ hf⟩

/-- Rows of the information matrix at the nodes of the first graph. -/
theorem row (hr : NoRansac w) (hr' : NoRansac w') (x' : Cols w' → ℝ) (c : Cols w) :
    (infoMatrix (graphTerms w') *ᵥ x') (h.emb c) = (infoMatrix (graphTerms w) *ᵥ (x' ∘ h.emb)) c +
      (extra.map (quadTerm (fun n => (w.nh n).val) (jacRow (fun n => (w.nh n).val) c.1 c.2)
          (jacStep (fun n => (w.nh n).val) (w'.spread x')))).sum := by
  rw [infoMatrix_mulVec_quad hr, infoMatrix_mulVec_quad hr', h.vals, h.quad]
  congr 1
  exact quadSum_congr fun f hf => ⟨rfl, h.jacStep_emb _ _ hf⟩

/-- Right hand sides at the nodes of the first graph. -/
theorem rhs (hr : NoRansac w) (hr' : NoRansac w') (c : Cols w) :
    infoVector (graphTerms w') (h.emb c) = infoVector (graphTerms w) c +
      (extra.map (quadTerm (fun n => (w.nh n).val) (jacRow (fun n => (w.nh n).val) c.1 c.2)
          (fun v nbrs => v.res (nbrs.map fun n => (w.nh n).val)))).sum := by
  rw [infoVector_quad hr, infoVector_quad hr', h.vals, h.quad]
  rfl

theorem dot_emb (c : Cols w → ℝ) (x' : Cols w' → ℝ) :
    (fun i => ∑ j, if h.emb j = i then c j else 0) ⬝ᵥ x' = c ⬝ᵥ (x' ∘ h.emb) := by
  classical
  rw [dotProduct, dotProduct]
  simp only [Finset.sum_mul, ite_mul, zero_mul]
  rw [Finset.sum_comm]
  refine Finset.sum_congr rfl fun j _ => ?_
  rw [Finset.sum_ite_eq, if_pos (Finset.mem_univ _)]
  rfl

/-- More measurements, also of more nodes, never make the marginal covariance larger. -/
theorem cov_le (hr : NoRansac w) (hr' : NoRansac w') (hex : ∀ c ∈ extra, c.virt.W.PosSemidef)
    (hpd : (infoMatrix (graphTerms w)).PosDef) (hpd' : (infoMatrix (graphTerms w')).PosDef) :
    ((infoMatrix (graphTerms w))⁻¹ - ((infoMatrix (graphTerms w'))⁻¹).submatrix h.emb h.emb).PosSemidef := by
  classical
  set L := infoMatrix (graphTerms w) with hL
  set L' := infoMatrix (graphTerms w') with hL'
  have hu : IsUnit L.det := isUnit_iff_ne_zero.mpr hpd.det_pos.ne'
  have hu' : IsUnit L'.det := isUnit_iff_ne_zero.mpr hpd'.det_pos.ne'
  have hH : (L⁻¹).IsHermitian := hpd.inv.isHermitian
  have hH' : ((L'⁻¹).submatrix h.emb h.emb).IsHermitian := hpd'.inv.isHermitian.submatrix _
  refine Matrix.PosSemidef.of_dotProduct_mulVec_nonneg (hH.sub hH') fun c => ?_
  rw [star_trivial, sub_mulVec, dotProduct_sub]
  set c' : Cols w' → ℝ := fun i => ∑ j, if h.emb j = i then c j else 0 with hc'
  set z := L'⁻¹ *ᵥ c' with hz
  set x := L⁻¹ *ᵥ c with hx
  have e1 : L'⁻¹.submatrix h.emb h.emb *ᵥ c = z ∘ h.emb := by
    funext i
    rw [Function.comp_apply, hz, mulVec, mulVec, dotProduct_comm _ c', h.dot_emb, dotProduct_comm]
    rfl
  have e2 : L *ᵥ x = c := by rw [hx, mulVec_mulVec, mul_nonsing_inv _ hu, one_mulVec]
  have e3 : L' *ᵥ z = c' := by rw [hz, mulVec_mulVec, mul_nonsing_inv _ hu', one_mulVec]
  have h1 := h.form hr hr' z
  rw [← hL, ← hL', e3, dotProduct_comm, h.dot_emb] at h1
  have h2 : 0 ≤ (extra.map (quadTerm (fun n => (w.nh n).val) (jacStep (fun n => (w.nh n).val) (w'.spread z))
          (jacStep (fun n => (w.nh n).val) (w'.spread z)))).sum := by
    refine List.sum_nonneg fun a ha => ?_
    obtain ⟨cell, hcell, rfl⟩ := List.mem_map.mp ha
    exact quadTerm_nonneg (hex cell hcell)
  have h3 := hpd.posSemidef.dotProduct_mulVec_nonneg (x - z ∘ h.emb)
  rw [star_trivial, mulVec_sub, e2, sub_dotProduct, dotProduct_sub, dotProduct_sub] at h3
  have h4 : x ⬝ᵥ (L *ᵥ (z ∘ h.emb)) = c ⬝ᵥ (z ∘ h.emb) := by
    have hs : Lᵀ = L := (isSymm_of_psd hpd.posSemidef)
    rw [dotProduct_mulVec, ← mulVec_transpose, hs, e2]
  have h5 : (z ∘ h.emb) ⬝ᵥ c = c ⬝ᵥ (z ∘ h.emb) := dotProduct_comm _ _
  have h6 : x ⬝ᵥ c = c ⬝ᵥ x := dotProduct_comm _ _
  rw [e1]
  linarith

end Grown

/-! ### One further node with one measurement -/

/-- `w'` has one node `m` more than `w`, and one measurement `c` more, which fixes `m` from the others. -/
structure Leaf (w w' : World) (m : NRef) (c : FactorCell) : Prop where
  /-- growth -/
  grown : Grown w w' [c]
  /-- nodes -/
  only : ∀ n ∈ w'.g.active, n = m ∨ n ∈ w.g.active
  /-- the node is new -/
  fresh : m ∉ w.g.active
  /-- the node is an unknown -/
  new : m ∈ w'.g.active
  /-- the old measurements do not see it -/
  unseen : ∀ f ∈ w.g.factors, m ∉ (w.fh f).nbrs
  /-- the Jacobian of the measurement with respect to the node is invertible -/
  inj : ∀ u : Fin c.virt.dim → ℝ,
    (∀ k < (w.nh m).dim, jacRow (fun n => (w.nh n).val) m k c.virt.core c.nbrs ⬝ᵥ u = 0) → u = 0
  /-- the measurement fixes the node from the others -/
  fixed : ∀ δ : Cols w' → ℝ, jacStep (fun n => (w.nh n).val) (w'.spread δ) c.virt.core c.nbrs = 0 →
    (∀ n, n ≠ m → ∀ k, w'.spread δ n k = 0) → ∀ k, w'.spread δ m k = 0

namespace Leaf

variable {m : NRef} {c : FactorCell} (h : Leaf w w' m c)
include h

/-- The rows of `m` say that the further measurement pulls at no node. -/
theorem pull (y : (v : FactorVirt) → List NRef → Fin v.dim → ℝ)
    (h0 : ∀ k < (w.nh m).dim, w'.quadSum (fun n => (w.nh n).val) (jacRow (fun n => (w.nh n).val) m k) y = 0)
    (x : (v : FactorVirt) → List NRef → Fin v.dim → ℝ) : quadTerm (fun n => (w.nh n).val) x y c = 0 := by
  have hz : ∀ k < (w.nh m).dim, quadTerm (fun n => (w.nh n).val) (jacRow (fun n => (w.nh n).val) m k) y c = 0 := by
    intro k hk
    have h1 := h0 k hk
    rw [h.grown.quad, quadSum_eq] at h1
    have h2 : (w.g.factors.map fun f => quadTerm (fun n => (w.nh n).val) (jacRow (fun n => (w.nh n).val) m k) y (w.fh f)).sum = 0 := by
      refine List.sum_eq_zero fun a ha => ?_
      obtain ⟨f, hf, rfl⟩ := List.mem_map.mp ha
      exact quadTerm_jac_zero (h.unseen f hf) y
    rw [h2, zero_add, List.map_singleton, List.sum_singleton] at h1
    exact h1
  set a := robustWeight c.virt.robust 0 (Real.sqrt (factorChi2 c.virt.W (c.virt.res (c.nbrs.map fun n => (w.nh n).val)))) with ha
  have hu := h.inj (a • (c.virt.W *ᵥ y c.virt.core c.nbrs)) fun k hk => by
    have := hz k hk
    rw [quadTerm, ← ha] at this
    exact (dotProduct_smul _ _ _).trans this
  rw [quadTerm, ← ha]
  have h3 : x c.virt.core c.nbrs ⬝ᵥ (a • (c.virt.W *ᵥ y c.virt.core c.nbrs)) = 0 := by
    rw [hu]; exact dotProduct_zero _
  exact (dotProduct_smul _ _ _).symm.trans h3

theorem quadSum_sub (V : NRef → NodeVal) (x y y' : (v : FactorVirt) → List NRef → Fin v.dim → ℝ) :
    w'.quadSum V x (fun v nbrs => y v nbrs - y' v nbrs) = w'.quadSum V x y - w'.quadSum V x y' := by
  rw [quadSum_eq, quadSum_eq, quadSum_eq]
  induction w'.g.factors with
  | nil => simp
  | cons f fs ih =>
    rw [List.map_cons, List.sum_cons, List.map_cons, List.sum_cons, List.map_cons, List.sum_cons, ih]
    have : quadTerm V x (fun v nbrs => y v nbrs - y' v nbrs) (w'.fh f) = quadTerm V x y (w'.fh f) - quadTerm V x y' (w'.fh f) := by
      rw [quadTerm, quadTerm, quadTerm, ← mul_sub]
      refine congrArg _ ?_
      exact (congrArg _ (mulVec_sub _ _ _)).trans (dotProduct_sub _ _ _)
    rw [this]
    ring

/-- A solution of the larger problem solves the smaller one. -/
theorem solution (hr : NoRansac w) (hr' : NoRansac w') {x' : Cols w' → ℝ}
    (hx' : infoMatrix (graphTerms w') *ᵥ x' = infoVector (graphTerms w')) :
    infoMatrix (graphTerms w) *ᵥ (x' ∘ h.grown.emb) = infoVector (graphTerms w) := by
  have h0 : ∀ k < (w.nh m).dim, w'.quadSum (fun n => (w.nh n).val) (jacRow (fun n => (w.nh n).val) m k)
      (fun v nbrs => jacStep (fun n => (w.nh n).val) (w'.spread x') v nbrs - v.res (nbrs.map fun n => (w.nh n).val)) = 0 := by
    intro k hk
    have e := congrFun hx' ⟨⟨m, h.new⟩, ⟨k, by rw [h.grown.dim]; exact hk⟩⟩
    rw [infoMatrix_mulVec_quad hr', infoVector_quad hr', h.grown.vals] at e
    have := h.quadSum_sub (fun n => (w.nh n).val) (jacRow (fun n => (w.nh n).val) m k)
      (jacStep (fun n => (w.nh n).val) (w'.spread x')) (fun v nbrs => v.res (nbrs.map fun n => (w.nh n).val))
    rw [this]
    exact sub_eq_zero.mpr e
  funext i
  have e := congrFun hx' (h.grown.emb i)
  rw [h.grown.row hr hr', h.grown.rhs hr hr', List.map_singleton, List.map_singleton, List.sum_singleton, List.sum_singleton] at e
  have hp := h.pull _ h0 (jacRow (fun n => (w.nh n).val) i.1 i.2)
  have hs : quadTerm (fun n => (w.nh n).val) (jacRow (fun n => (w.nh n).val) i.1 i.2)
      (fun v nbrs => jacStep (fun n => (w.nh n).val) (w'.spread x') v nbrs - v.res (nbrs.map fun n => (w.nh n).val)) c =
      quadTerm (fun n => (w.nh n).val) (jacRow (fun n => (w.nh n).val) i.1 i.2)
        (jacStep (fun n => (w.nh n).val) (w'.spread x')) c -
      quadTerm (fun n => (w.nh n).val) (jacRow (fun n => (w.nh n).val) i.1 i.2)
        (fun v nbrs => v.res (nbrs.map fun n => (w.nh n).val)) c := by
    rw [quadTerm, quadTerm, quadTerm, ← mul_sub]
    refine congrArg _ ?_
    exact (congrArg _ (mulVec_sub _ _ _)).trans (dotProduct_sub _ _ _)
  rw [hs] at hp
  linarith

/-- The marginal covariance of the old nodes is the covariance in the smaller graph. -/
theorem cov (hr : NoRansac w) (hr' : NoRansac w') (hpd : (infoMatrix (graphTerms w)).PosDef)
    (hpd' : (infoMatrix (graphTerms w')).PosDef) :
    ((infoMatrix (graphTerms w'))⁻¹).submatrix h.grown.emb h.grown.emb = (infoMatrix (graphTerms w))⁻¹ := by
  classical
  set L := infoMatrix (graphTerms w) with hL
  set L' := infoMatrix (graphTerms w') with hL'
  have hu : IsUnit L.det := isUnit_iff_ne_zero.mpr hpd.det_pos.ne'
  have hu' : IsUnit L'.det := isUnit_iff_ne_zero.mpr hpd'.det_pos.ne'
  symm
  refine Matrix.inv_eq_right_inv ?_
  ext i j
  set z : Cols w' → ℝ := fun a => L'⁻¹ a (h.grown.emb j) with hz
  have e3 : ∀ a, (L' *ᵥ z) a = (1 : Matrix (Cols w') (Cols w') ℝ) a (h.grown.emb j) := by
    intro a
    rw [← mul_nonsing_inv _ hu', Matrix.mul_apply]
    rfl
  have h0 : ∀ k < (w.nh m).dim, w'.quadSum (fun n => (w.nh n).val) (jacRow (fun n => (w.nh n).val) m k)
      (jacStep (fun n => (w.nh n).val) (w'.spread z)) = 0 := by
    intro k hk
    have e := e3 ⟨⟨m, h.new⟩, ⟨k, by rw [h.grown.dim]; exact hk⟩⟩
    rw [hL', infoMatrix_mulVec_quad hr', h.grown.vals, Matrix.one_apply_ne] at e
    · exact e
    · intro hab
      have h1 := congrArg (fun c : Cols w' => c.1.1) hab
      dsimp only [Grown.emb] at h1
      exact h.fresh (h1 ▸ j.1.2)
  have e := e3 (h.grown.emb i)
  rw [hL', h.grown.row hr hr', List.map_singleton, List.sum_singleton, h.pull _ h0, add_zero] at e
  rw [Matrix.mul_apply]
  refine Eq.trans ?_ (e.trans ?_)
  · rfl
  · by_cases hij : i = j
    · rw [hij, Matrix.one_apply_eq, Matrix.one_apply_eq]
    · rw [Matrix.one_apply_ne hij, Matrix.one_apply_ne fun e => hij (h.grown.emb_injective e)]

/-- The larger problem is determined when the smaller one is. -/
theorem posDef (hr : NoRansac w) (hr' : NoRansac w') (hpd : (infoMatrix (graphTerms w)).PosDef)
    (hsym : (infoMatrix (graphTerms w')).IsHermitian) (hW : c.virt.W.PosDef) (hc : c.virt.robust ≠ .ransac) :
    (infoMatrix (graphTerms w')).PosDef := by
  refine Matrix.PosDef.of_dotProduct_mulVec_pos hsym fun {x'} hx' => ?_
  rw [star_trivial, h.grown.form hr hr', List.map_singleton, List.sum_singleton]
  have h1 := hpd.posSemidef.dotProduct_mulVec_nonneg (x' ∘ h.grown.emb)
  rw [star_trivial] at h1
  have h2 := quadTerm_nonneg (V := fun n => (w.nh n).val) (x := jacStep (fun n => (w.nh n).val) (w'.spread x')) hW.posSemidef
  rcases h1.lt_or_eq with h3 | h3
  · linarith
  rcases h2.lt_or_eq with h4 | h4
  · linarith
  refine absurd ?_ hx'
  have hz : x' ∘ h.grown.emb = 0 := by
    by_contra hne
    have := hpd.dotProduct_mulVec_pos hne
    rw [star_trivial] at this
    exact this.ne h3
  have hJ : jacStep (fun n => (w.nh n).val) (w'.spread x') c.virt.core c.nbrs = 0 := by
    by_contra hne
    rw [quadTerm] at h4
    have hpos : 0 < robustWeight c.virt.robust 0 (Real.sqrt (factorChi2 c.virt.W (c.virt.res (c.nbrs.map fun n => (w.nh n).val)))) :=
      (C24_weight_partial _ hc _ _ _ (Real.sqrt_nonneg _) le_rfl).1
    have key : ∀ y : Fin c.virt.dim → ℝ, y ≠ 0 → 0 < y ⬝ᵥ (c.virt.W *ᵥ y) := by
      intro y hy
      have := hW.dotProduct_mulVec_pos hy
      rwa [star_trivial] at this
    exact (mul_pos hpos (key _ hne)).ne h4
  have hoff : ∀ n, n ≠ m → ∀ k, w'.spread x' n k = 0 := by
    intro n hn k
    rw [← h.grown.spread_emb x' (fun hm => (h.only n hm).resolve_left hn), hz, World.spread]
    split <;> rfl
  funext i
  rw [← spread_apply x' i]
  by_cases hi : i.1.1 = m
  · have := h.fixed x' hJ hoff i.2
    rw [← hi] at this
    exact this
  · exact hoff _ hi _

theorem moved_val {n : NRef} (hn : n ≠ m) {δ δ' : NRef → ℕ → ℝ} (hδ : δ' n = δ n) :
    ((w'.moved δ').nh n).val = ((w.moved δ).nh n).val := by
  change (if n ∈ w'.g.active then (w'.nh n).update (δ' n) else w'.nh n).val =
    (if n ∈ w.g.active then (w.nh n).update (δ n) else w.nh n).val
  rw [hδ]
  by_cases hm : n ∈ w.g.active
  · rw [if_pos hm, if_pos (h.grown.mem n hm)]
    have key : ∀ c : NodeCell, (c.update (δ n)).val = ⟨c.val.1, c.val.1.upd c.val.2 (c.val.1.ofFlat (δ n))⟩ := fun _ => rfl
    rw [key, key, h.grown.val n]
  · rw [if_neg hm, if_neg fun h' => hm ((h.only n h').resolve_left hn), h.grown.val n]

end Leaf

end World

/-- A Gauss-Newton step. -/
theorem FGraphSolve.gn_leaf {env env' : Env} (henv : env.Sound) (henv' : env'.Sound) {s s' s1 s1' : FGraphSolve} {m : NRef} {c : FactorCell}
    (h : World.Leaf s.w s'.w m c) (hw : WellPosed s.w) (hw' : WellPosed s'.w) (hr : NoRansac s.w) (hr' : NoRansac s'.w)
    (hpd : (Spec.infoMatrix (graphTerms s.w)).PosDef) {k k' : ℕ} {l l' t t' : ℝ} (h1 : s.solve env .GN k l t = .ok s1)
    (h1' : s'.solve env' .GN k' l' t' = .ok s1') {n : NRef} (hn : n ≠ m) : (s1'.w.nh n).val = (s1.w.nh n).val := by
  obtain ⟨dx, hdx, hw1⟩ := gn_ok hw h1
  obtain ⟨dx', hdx', hw1'⟩ := gn_ok hw' h1'
  have hx := normal_solution henv hw hdx
  have hx' := normal_solution henv' hw' hdx'
  have e : ∀ (w : World) δ n, ((w.built.moved δ).nh n).val = ((w.moved δ).nh n).val := fun _ _ _ => rfl
  rw [hw1, hw1', e, e, moved_step hw.wired, moved_step hw'.wired]
  refine h.moved_val hn ?_
  have hs := h.solution hr hr' hx'
  have key : (fun c => dx' (colEquiv hw'.wired c)) ∘ h.grown.emb = fun c => dx (colEquiv hw.wired c) := by
    rw [← sub_eq_zero]
    by_contra hne
    have h0 := hpd.dotProduct_mulVec_pos hne
    rw [mulVec_sub, hs, hx, sub_self, dotProduct_zero] at h0
    exact lt_irrefl _ h0
  have e1 : World.step hw.wired dx = -fun c => dx (colEquiv hw.wired c) := rfl
  have e2 : World.step hw'.wired dx' = -fun c => dx' (colEquiv hw'.wired c) := rfl
  rw [e1, e2, World.spread_neg, World.spread_neg, ← key]
  refine congrArg _ (funext fun k => ?_)
  exact (h.grown.spread_emb _ (fun hm => (h.only n hm).resolve_left hn) k).symm

/-! ### Histories -/

theorem World.mem_run_active {w₀ : World} (h₀ : w₀.g = emptyGraph) {ops : List GraphOp} (hno : NoSetMode ops) (n : NRef) :
    n ∈ (World.run ops w₀).g.active ↔ n ∈ addedNodes ops ∧ (w₀.nh n).mode = .standard := by
  rw [run_active ops hno, h₀]
  simp only [emptyGraph, List.nil_append, List.mem_filter, decide_eq_true_eq]

theorem World.grown_run {w₀ : World} (h₀ : w₀.g = emptyGraph) {ops ops' : List GraphOp} (hp : Proper w₀ ops)
    (hp' : Proper w₀ ops') (hN : ∀ n ∈ addedNodes ops, n ∈ addedNodes ops') {more : List FRef}
    (hF : (addedFactors ops').Perm (addedFactors ops ++ more)) :
    Grown (World.run ops w₀) (World.run ops' w₀) (more.map w₀.fh) := by
  have hfac : ∀ ops : List GraphOp, (World.run ops w₀).g.factors = addedFactors ops := by
    intro ops; rw [run_factors, h₀]; rfl
  refine ⟨fun n hn => ?_, fun n => ?_, fun f hf n hn ha => ?_, fun V x y => ?_⟩
  · rw [mem_run_active h₀ hp.noSetMode] at hn
    rw [mem_run_active h₀ hp'.noSetMode]
    exact ⟨hN n hn.1, hn.2⟩
  · rw [(run_nh_static ops w₀ n).1, (run_nh_static ops' w₀ n).1]
  · rw [hfac] at hf
    rw [(run_fh_static ops w₀ f).2] at hn
    rw [mem_run_active h₀ hp'.noSetMode] at ha
    rw [mem_run_active h₀ hp.noSetMode]
    refine ⟨(hp.registered f hf n hn).resolve_right fun h => ?_, ha.2⟩
    rw [ha.2] at h
    exact absurd h (by decide)
  · rw [run_quad _ h₀, run_quad _ h₀, (hF.map _).sum_eq, List.map_append, List.sum_append, List.map_map]
    rfl

/-! ### The measurement of the further node -/

theorem fixes_dim {w : World} {V : FactorVirt} {nbrs known : List NRef} {m : NRef} (h : Fixes V nbrs known m)
    (ht : nbrs.map (fun n => (w.nh n).kind) = V.kinds) : V.dim = (w.nh m).dim := by
  cases h
  case prior2d | prior3d | rel2dBack | odomBack | rel3dBack | land2dRev | land3dRev | plane4dRev =>
    exact (congrArg NodeKind.dim (List.cons.inj ht).1).symm
  case rel2d | odom | rel3d | land2d | land3d | plane4d =>
    exact (congrArg NodeKind.dim (List.cons.inj (List.cons.inj ht).2).1).symm

theorem fixes_known {P : NRef → Bool} {V : FactorVirt} {nbrs known : List NRef} {m : NRef} (h : Fixes V nbrs known m)
    (hn : (nbrs.filter P).Nodup) (hm : P m) : m ∉ known := by
  cases h
  case prior2d | prior3d => simp
  case rel2dBack | odomBack | rel3dBack | land2dRev | land3dRev | plane4dRev =>
    intro h
    rw [List.mem_singleton] at h
    subst h
    simp [hm] at hn
  case rel2d | odom | rel3d | land2d | land3d | plane4d =>
    intro h
    rw [List.mem_singleton] at h
    subst h
    simp [hm] at hn

/-- An increment of one node through the Jacobian. -/
theorem World.rowApply_single {w : World} {m : NRef} (hm : m ∈ w.g.active) (e : Fin (w.nh m).dim → ℝ) (Jl : ℕ → ℝ)
    (nbrs : List NRef) (tk : ℕ) :
    w.rowApply (fun c => if h : c.1.1 = m then e ⟨c.2, by rw [← h]; exact c.2.2⟩ else 0) Jl tk nbrs =
      ∑ k : Fin (w.nh m).dim, blockEntry (fun n => (w.nh n).dim) Jl m k tk nbrs * e k := by
  rw [← sum_blockEntry, Fintype.sum_sigma, Finset.sum_eq_single ⟨m, hm⟩]
  · refine Finset.sum_congr rfl fun k _ => ?_
    rw [dif_pos rfl]
  · intro b _ hb
    refine Finset.sum_eq_zero fun k _ => ?_
    rw [dif_neg fun h => hb (Subtype.ext h), mul_zero]
  · exact fun h => absurd (Finset.mem_univ _) h

theorem World.fixes_inj {w : World} {c : FactorCell} {known : List NRef} {m : NRef} (h : Fixes c.virt c.nbrs known m)
    (ht : c.wellTyped w.nh) (hs : ∀ n ∈ c.nbrs, ∀ X : SE3, (w.nh n).val = ⟨.pose3d, X⟩ → Solid X) (hm : m ∈ w.g.active)
    (hk : m ∉ known) (u : Fin c.virt.dim → ℝ)
    (hu : ∀ k < (w.nh m).dim, jacRow (fun n => (w.nh n).val) m k c.virt.core c.nbrs ⬝ᵥ u = 0) : u = 0 := by
  have hd : c.virt.dim = (w.nh m).dim := fixes_dim h ht
  set K : Matrix (Fin (w.nh m).dim) (Fin (w.nh m).dim) ℝ :=
    Matrix.of fun l k => jacRow (fun n => (w.nh n).val) m k c.virt.core c.nbrs (Fin.cast hd.symm l) with hK
  have hdet : K.det ≠ 0 := by
    intro h0
    obtain ⟨e, he, hKe⟩ := Matrix.exists_mulVec_eq_zero_iff.mpr h0
    refine he (funext fun k => ?_)
    have := fixes_zero h ht hs (fun c => if h : c.1.1 = m then e ⟨c.2, by rw [← h]; exact c.2.2⟩ else 0) (fun l => ?_) (fun n hn k => ?_) k
    · rw [World.spread, dif_pos ⟨hm, k.2⟩] at this
      dsimp only at this
      rw [dif_pos rfl] at this
      exact this
    · rw [rowApply_single hm]
      have := congrFun hKe (Fin.cast hd l)
      rw [mulVec, dotProduct] at this
      exact this
    · rw [World.spread]
      split
      · dsimp only
        rw [dif_neg]
        rintro rfl
        exact hk hn
      · rfl
  have hv : (fun l => u (Fin.cast hd.symm l)) ᵥ* K = 0 := by
    funext k
    refine Eq.trans ?_ (hu k k.2)
    refine Fintype.sum_equiv (finCongr hd.symm) _ _ fun l => ?_
    rw [mul_comm]
    rfl
  have h0 := Matrix.eq_zero_of_vecMul_eq_zero hdet hv
  funext l
  exact congrFun h0 (Fin.cast hd l)

theorem World.leaf_run {w₀ : World} (h₀ : w₀.g = emptyGraph) {ops ops' : List GraphOp} (hp : Proper w₀ ops)
    (hp' : Proper w₀ ops') {m : NRef} {f : FRef} (hm : (w₀.nh m).mode = .standard) (hN : (addedNodes ops').Perm (m :: addedNodes ops))
    (hF : (addedFactors ops').Perm (f :: addedFactors ops)) {known : List NRef} (hfix : Fixes (w₀.fh f).virt (w₀.fh f).nbrs known m)
    (hR : ∀ n ∈ (w₀.fh f).nbrs, ∀ X : SE3, (w₀.nh n).val = ⟨.pose3d, X⟩ → IsRigid X.T) :
    Leaf (World.run ops w₀) (World.run ops' w₀) m (w₀.fh f) := by
  have hfac : ∀ ops : List GraphOp, (World.run ops w₀).g.factors = addedFactors ops := by
    intro ops; rw [run_factors, h₀]; rfl
  have hnd : (m :: addedNodes ops).Nodup := hN.nodup_iff.mp hp'.nodup
  have hmn : m ∉ addedNodes ops := (List.nodup_cons.mp hnd).1
  have hff : f ∈ addedFactors ops' := hF.mem_iff.mpr List.mem_cons_self
  have hv : (fun n => ((World.run ops w₀).nh n).val) = fun n => ((World.run ops' w₀).nh n).val := by
    funext n
    rw [(run_nh_static ops w₀ n).1, (run_nh_static ops' w₀ n).1]
  have ht : (w₀.fh f).wellTyped (World.run ops' w₀).nh := by
    have := hp'.typed f hff
    have e : (fun n => ((World.run ops' w₀).nh n).kind) = fun n => (w₀.nh n).kind := by
      funext n
      exact congrArg Sigma.fst (run_nh_static ops' w₀ n).1
    rw [FactorCell.wellTyped, e]
    exact this
  have hs : ∀ n ∈ (w₀.fh f).nbrs, ∀ X : SE3, ((World.run ops' w₀).nh n).val = ⟨.pose3d, X⟩ → Solid X := by
    intro n hn X hX
    rw [(run_nh_static ops' w₀ n).1] at hX
    exact .of_rigid (hR n hn X hX)
  have hact : m ∈ (World.run ops' w₀).g.active :=
    (mem_run_active h₀ hp'.noSetMode m).mpr ⟨hN.mem_iff.mpr List.mem_cons_self, hm⟩
  have hk : m ∉ known := fixes_known hfix (hp'.noLoop f hff) (by rw [hm]; rfl)
  refine ⟨?_, fun n hn => ?_, fun hn => ?_, hact, fun g hg hn => ?_, fun u hu => ?_, fun δ hδ ho => ?_⟩
  · exact World.grown_run h₀ hp hp' (fun n hn => hN.mem_iff.mpr (List.mem_cons_of_mem _ hn)) (more := [f])
      (hF.trans (List.perm_append_singleton f _).symm)
  · rw [mem_run_active h₀ hp'.noSetMode, hN.mem_iff, List.mem_cons] at hn
    rw [mem_run_active h₀ hp.noSetMode]
    tauto
  · rw [mem_run_active h₀ hp.noSetMode] at hn
    exact hmn hn.1
  · rw [hfac] at hg
    rw [(run_fh_static ops w₀ g).2] at hn
    rcases hp.registered g hg m hn with h | h
    · exact hmn h
    · rw [hm] at h; exact absurd h (by decide)
  · refine World.fixes_inj hfix ht hs hact hk u fun k hk => ?_
    rw [← hv]
    refine hu k ?_
    have e : ((World.run ops w₀).nh m).dim = ((World.run ops' w₀).nh m).dim := congrArg (fun v : NodeVal => v.1.dim) (congrFun hv m)
    rw [e]; exact hk
  · refine fixes_zero hfix ht hs δ (fun l => ?_) (fun n hn => ho n fun e => hk (e ▸ hn))
    rw [rowApply_eq]
    rw [hv] at hδ
    exact congrFun hδ l

end Mrob
