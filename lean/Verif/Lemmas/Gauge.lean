import Verif.Lemmas.Weights

/-!
# Graphs that pose the same problem in other coordinates
-/

open Matrix

namespace Mrob

open World Spec

/-- `update` on values. -/
noncomputable def NodeVal.upd (v : NodeVal) (δ : ℕ → ℝ) : NodeVal := ⟨v.1, v.1.upd v.2 (v.1.ofFlat δ)⟩

/-- A change of coordinates: how the values correspond, and a matrix for the increments of every class of nodes. -/
structure Sym where
  /-- corresponding values -/
  rel : NodeVal → NodeVal → Prop
  /-- matrices of the increments -/
  A : NodeKind → ℕ → ℕ → ℝ
  /-- their inverses -/
  Ai : NodeKind → ℕ → ℕ → ℝ
  /-- states of the nodes of a factor at which the evaluation of the factor follows -/
  ok : FactorVirt → List NodeVal → Prop
  kind : ∀ {v v'}, rel v v' → v'.1 = v.1

namespace Sym

variable (S : Sym)

/-- The increment in the other coordinates. -/
noncomputable def lin (κ : NodeKind) (δ : ℕ → ℝ) (k : ℕ) : ℝ := ∑ j ∈ Finset.range κ.dim, S.A κ k j * δ j

/-- The class of nodes behaves well. -/
structure Moves (κ : NodeKind) : Prop where
  stored : ∀ {v v' : NodeVal}, v.1 = κ → S.rel v v' → S.rel v.stored v'.stored
  right : ∀ i < κ.dim, ∀ j < κ.dim, ∑ k ∈ Finset.range κ.dim, S.A κ i k * S.Ai κ k j = if i = j then 1 else 0

/-- The increment is followed. -/
def Follows (κ : NodeKind) (δ : ℕ → ℝ) : Prop :=
  ∀ {v v' : NodeVal}, v.1 = κ → S.rel v v' → S.rel (v.upd δ) (v'.upd (S.lin κ δ))

/-- The matrices are orthogonal. -/
def Orth (κ : NodeKind) : Prop :=
  ∀ i < κ.dim, ∀ j < κ.dim, ∑ k ∈ Finset.range κ.dim, S.A κ k i * S.A κ k j = if i = j then 1 else 0

/-- Jacobians by blocks. -/
def JacRel {m n : ℕ} (B : Matrix (Fin m) (Fin n) ℝ) (J' : Fin m → ℕ → ℝ) (J : Fin n → ℕ → ℝ) : ℕ → List NodeKind → Prop
  | _, [] => True
  | tk, κ :: ks => (∀ l' : Fin m, ∀ j < κ.dim,
      ∑ k ∈ Finset.range κ.dim, J' l' (tk + k) * S.A κ k j = ∑ l, B l' l * J l (tk + j)) ∧ JacRel B J' J (tk + κ.dim) ks

/-- A factor and its counterpart. -/
structure Factors (v v' : FactorVirt) : Prop where
  robust : v'.robust = v.robust
  eval : ∃ B : Matrix (Fin v'.dim) (Fin v.dim) ℝ, v.W = Bᵀ * v'.W * B ∧
    ∀ vals vals' : List NodeVal, vals.map Sigma.fst = v.kinds → List.Forall₂ S.rel vals vals' → S.ok v vals →
      v'.res vals' = B *ᵥ v.res vals ∧ S.JacRel B (v'.jac vals') (v.jac vals) 0 v.kinds

end Sym

namespace World

/-- Two graphs with the same structure, in different coordinates. -/
structure Gauge (S : Sym) (w w' : World) : Prop where
  active : w'.g.active = w.g.active
  factors : w'.g.factors = w.g.factors
  nbrs : ∀ f ∈ w.g.factors, (w'.fh f).nbrs = (w.fh f).nbrs
  val : ∀ n, (n ∈ w.g.active ∨ ∃ f ∈ w.g.factors, n ∈ (w.fh f).nbrs) → S.rel (w.nh n).val (w'.nh n).val
  virt : ∀ f ∈ w.g.factors, S.Factors (w.fh f).virt (w'.fh f).virt
  moves : ∀ n ∈ w.g.active, S.Moves (w.nh n).kind
  ok : ∀ f ∈ w.g.factors, S.ok (w.fh f).virt ((w.fh f).nbrs.map fun n => (w.nh n).val)

theorem chi2_eq {m n : ℕ} {W : Matrix (Fin n) (Fin n) ℝ} {W' : Matrix (Fin m) (Fin m) ℝ} {B : Matrix (Fin m) (Fin n) ℝ}
    (hW : W = Bᵀ * W' * B) (x y : Fin n → ℝ) : (B *ᵥ x) ⬝ᵥ (W' *ᵥ (B *ᵥ y)) = x ⬝ᵥ (W *ᵥ y) := by
  rw [hW, ← mulVec_mulVec, ← mulVec_mulVec, dotProduct_mulVec x, vecMul_transpose]

theorem form_sum {ι : Type} [Fintype ι] {m : ℕ} (wt : ℝ) (a b : ι → ℝ) (u : ι → Fin m → ℝ) (W : Matrix (Fin m) (Fin m) ℝ) :
    wt * ((fun l => ∑ i, a i * u i l) ⬝ᵥ (W *ᵥ fun l => ∑ j, b j * u j l)) =
      ∑ j, (∑ i, a i * (wt * (u i ⬝ᵥ (W *ᵥ u j)))) * b j := by
  have e : ∀ a : ι → ℝ, (fun l => ∑ i, a i * u i l) = ∑ i, a i • u i := by
    intro a; funext l; simp [Finset.sum_apply]
  rw [e, e, mulVec_sum, dotProduct_sum, Finset.mul_sum]
  refine Finset.sum_congr rfl fun j _ => ?_
  rw [sum_dotProduct, Finset.mul_sum, Finset.sum_mul]
  refine Finset.sum_congr rfl fun i _ => ?_
  rw [mulVec_smul, smul_dotProduct, dotProduct_smul, smul_eq_mul, smul_eq_mul]
  ring

theorem form_sum_left {ι : Type} [Fintype ι] {m : ℕ} (wt : ℝ) (a : ι → ℝ) (u : ι → Fin m → ℝ) (W : Matrix (Fin m) (Fin m) ℝ)
    (y : Fin m → ℝ) : wt * ((fun l => ∑ i, a i * u i l) ⬝ᵥ (W *ᵥ y)) = ∑ i, a i * (wt * (u i ⬝ᵥ (W *ᵥ y))) := by
  have e : (fun l => ∑ i, a i * u i l) = ∑ i, a i • u i := by
    funext l; simp [Finset.sum_apply]
  rw [e, sum_dotProduct, Finset.mul_sum]
  refine Finset.sum_congr rfl fun i _ => ?_
  rw [smul_dotProduct, smul_eq_mul]
  ring

theorem list_sum_form {ι α : Type} [Fintype ι] (l : List α) (a b : ι → ℝ) (T : α → ι → ι → ℝ) :
    (l.map fun f => ∑ j, (∑ i, a i * T f i j) * b j).sum = ∑ j, (∑ i, a i * (l.map fun f => T f i j).sum) * b j := by
  induction l with
  | nil => simp
  | cons f l ih =>
    rw [List.map_cons, List.sum_cons, ih, ← Finset.sum_add_distrib]
    refine Finset.sum_congr rfl fun j _ => ?_
    rw [← add_mul, ← Finset.sum_add_distrib]
    refine congrArg (· * _) (Finset.sum_congr rfl fun i _ => ?_)
    rw [List.map_cons, List.sum_cons, mul_add]

theorem list_sum_form_left {ι α : Type} [Fintype ι] (l : List α) (a : ι → ℝ) (T : α → ι → ℝ) :
    (l.map fun f => ∑ i, a i * T f i).sum = ∑ i, a i * (l.map fun f => T f i).sum := by
  induction l with
  | nil => simp
  | cons f l ih =>
    rw [List.map_cons, List.sum_cons, ih, ← Finset.sum_add_distrib]
    refine Finset.sum_congr rfl fun j _ => ?_
    rw [List.map_cons, List.sum_cons, mul_add]

namespace Gauge

variable {S : Sym} {w w' : World} (h : Gauge S w w')
include h

theorem dim {n : NRef} (hn : n ∈ w.g.active ∨ ∃ f ∈ w.g.factors, n ∈ (w.fh f).nbrs) : (w'.nh n).dim = (w.nh n).dim :=
  congrArg NodeKind.dim (S.kind (h.val n hn))

/-- The unknowns correspond to each other. -/
def cols : Cols w ≃ Cols w' where
  toFun c := ⟨⟨c.1.1, by rw [h.active]; exact c.1.2⟩, ⟨c.2, by rw [h.dim (Or.inl c.1.2)]; exact c.2.2⟩⟩
  invFun c := ⟨⟨c.1.1, h.active ▸ c.1.2⟩, ⟨c.2, by
    have : (w'.nh c.1).dim = (w.nh c.1).dim := h.dim (Or.inl (h.active ▸ c.1.2))
    rw [← this]; exact c.2.2⟩⟩
  left_inv _ := rfl
  right_inv _ := rfl

omit h in
/-- The matrix of all increments. -/
noncomputable def mat (S : Sym) (w : World) : Matrix (Cols w) (Cols w) ℝ := Matrix.of fun c d =>
  if (c.1 : NRef) = d.1 then S.A (w.nh c.1).kind c.2 d.2 else 0

omit h in
/-- The inverse matrix. -/
noncomputable def imat (S : Sym) (w : World) : Matrix (Cols w) (Cols w) ℝ := Matrix.of fun c d =>
  if (c.1 : NRef) = d.1 then S.Ai (w.nh c.1).kind c.2 d.2 else 0

omit h in
theorem sum_node (a : {a : NRef // a ∈ w.g.active}) (F : ℕ → ℝ) (G : Cols w → ℝ)
    (hG : ∀ k : Fin (w.nh a).dim, G ⟨a, k⟩ = F k)
    (h0 : ∀ d : Cols w, (d.1 : NRef) ≠ a → G d = 0) : ∑ d, G d = ∑ k ∈ Finset.range (w.nh a).dim, F k := by
  rw [Fintype.sum_sigma, Finset.sum_eq_single a]
  · rw [← Fin.sum_univ_eq_sum_range]
    exact Finset.sum_congr rfl fun k _ => hG k
  · intro b _ hb
    exact Finset.sum_eq_zero fun k _ => h0 ⟨b, k⟩ fun e => hb (Subtype.ext e)
  · intro hc; exact absurd (Finset.mem_univ _) hc

omit h in
theorem one_block (a : {a : NRef // a ∈ w.g.active}) (i j : Fin (w.nh a).dim) :
    (1 : Matrix (Cols w) (Cols w) ℝ) ⟨a, i⟩ ⟨a, j⟩ = if (i : ℕ) = j then 1 else 0 := by
  rw [Matrix.one_apply]
  refine if_congr ⟨fun e => ?_, fun e => by rw [Fin.ext e]⟩ rfl rfl
  have := congrArg (fun c : Cols w => (c.2 : ℕ)) e
  exact this

theorem mat_mul_imat : mat S w * imat S w = 1 := by
  ext ⟨a, i⟩ ⟨b, j⟩
  rw [Matrix.mul_apply]
  by_cases hab : a = b
  · subst hab
    rw [one_block, sum_node a (fun k => S.A (w.nh a).kind i k * S.Ai (w.nh a).kind k j)]
    · exact (h.moves _ a.2).right _ i.2 _ j.2
    · intro k
      simp only [mat, imat, Matrix.of_apply, if_true]
    · intro e he
      simp only [mat, Matrix.of_apply]
      rw [if_neg fun x => he x.symm, zero_mul]
  · rw [Matrix.one_apply_ne fun e => hab (congrArg Sigma.fst e)]
    refine Finset.sum_eq_zero fun e _ => ?_
    simp only [mat, imat, Matrix.of_apply]
    by_cases he : (a : NRef) = e.1
    · rw [if_neg (c := (e.1 : NRef) = b) fun x => hab (Subtype.ext (he.trans x)), mul_zero]
    · rw [if_neg he, zero_mul]

omit h in
theorem transpose_mul_mat (ho : ∀ n ∈ w.g.active, S.Orth (w.nh n).kind) : (mat S w)ᵀ * mat S w = 1 := by
  ext ⟨a, i⟩ ⟨b, j⟩
  rw [Matrix.mul_apply]
  by_cases hab : a = b
  · subst hab
    rw [one_block, sum_node a (fun k => S.A (w.nh a).kind k i * S.A (w.nh a).kind k j)]
    · exact ho _ a.2 _ i.2 _ j.2
    · intro k
      simp only [mat, Matrix.of_apply, Matrix.transpose_apply, if_true]
    · intro e he
      simp only [mat, Matrix.of_apply, Matrix.transpose_apply]
      rw [if_neg he, zero_mul]
  · rw [Matrix.one_apply_ne fun e => hab (congrArg Sigma.fst e)]
    refine Finset.sum_eq_zero fun e _ => ?_
    simp only [mat, Matrix.of_apply, Matrix.transpose_apply]
    by_cases he : (e.1 : NRef) = a
    · rw [if_neg (c := (e.1 : NRef) = b) fun x => hab (Subtype.ext (he.symm.trans x)), mul_zero]
    · rw [if_neg he, zero_mul]

omit h in
theorem mat_mulVec (x : Cols w → ℝ) (c : Cols w) : (mat S w *ᵥ x) c = S.lin (w.nh c.1).kind (w.spread x c.1) c.2 := by
  rw [mulVec, dotProduct, Sym.lin]
  refine (sum_node c.1 (fun k => S.A (w.nh c.1).kind c.2 k * w.spread x c.1 k) _ ?_ ?_)
  · intro k
    rw [← spread_apply x ⟨c.1, k⟩, mat, Matrix.of_apply, if_pos rfl]
  · intro d hd
    rw [mat, Matrix.of_apply, if_neg fun e => hd e.symm, zero_mul]

/-- The Jacobian of a factor in the other coordinates. -/
theorem blockEntry_rel {m n : ℕ} {B : Matrix (Fin m) (Fin n) ℝ} {J' : Fin m → ℕ → ℝ} {J : Fin n → ℕ → ℝ} {a : NRef}
    (ha : a ∈ w.g.active) : ∀ (nbrs : List NRef) (tk : ℕ),
    (∀ n ∈ nbrs, n ∈ w.g.active ∨ ∃ f ∈ w.g.factors, n ∈ (w.fh f).nbrs) →
    S.JacRel B J' J tk (nbrs.map fun n => (w.nh n).kind) → ∀ (l' : Fin m), ∀ j < (w.nh a).dim,
    ∑ k ∈ Finset.range (w.nh a).dim, blockEntry (fun n => ((w'.nh n).val).1.dim) (J' l') a k tk nbrs * S.A (w.nh a).kind k j =
      ∑ l, B l' l * blockEntry (fun n => ((w.nh n).val).1.dim) (J l) a j tk nbrs := by
  intro nbrs
  induction nbrs with
  | nil => intro tk _ _ l' j _; simp [blockEntry]
  | cons n ns ih =>
    intro tk hm hJ l' j hj
    simp only [List.map_cons, Sym.JacRel] at hJ
    have hd : ((w'.nh n).val).1.dim = ((w.nh n).val).1.dim := h.dim (hm n List.mem_cons_self)
    have := ih (tk + (w.nh n).kind.dim) (fun m hm' => hm m (List.mem_cons_of_mem _ hm')) hJ.2 l' j hj
    simp only [blockEntry, hd, add_mul, mul_add, Finset.sum_add_distrib]
    refine congrArg₂ _ ?_ this
    by_cases hn : n = a
    · subst hn
      simp only [if_true]
      exact hJ.1 l' j hj
    · simp only [if_neg hn, zero_mul, mul_zero, Finset.sum_const_zero]

theorem vals_rel {f : FRef} (hf : f ∈ w.g.factors) :
    List.Forall₂ S.rel ((w.fh f).nbrs.map fun n => (w.nh n).val) ((w'.fh f).nbrs.map fun n => (w'.nh n).val) := by
  rw [h.nbrs f hf, List.forall₂_map_left_iff, List.forall₂_map_right_iff, List.forall₂_same]
  exact fun n hn => h.val n (Or.inr ⟨f, hf, hn⟩)

theorem factor (hw : Wired w) {f : FRef} (hf : f ∈ w.g.factors) : (w'.fh f).virt.robust = (w.fh f).virt.robust ∧
    ∃ B : Matrix (Fin (w'.fh f).virt.dim) (Fin (w.fh f).virt.dim) ℝ, (w.fh f).virt.W = Bᵀ * (w'.fh f).virt.W * B ∧
      (w'.fh f).virt.res ((w'.fh f).nbrs.map fun n => (w'.nh n).val) =
        B *ᵥ (w.fh f).virt.res ((w.fh f).nbrs.map fun n => (w.nh n).val) ∧
      ∀ c : Cols w, (fun l' => ∑ d, mat S w d c *
        jacRow (fun n => (w'.nh n).val) (h.cols d).1 (h.cols d).2 (w'.fh f).virt.core (w'.fh f).nbrs l') =
        B *ᵥ jacRow (fun n => (w.nh n).val) c.1 c.2 (w.fh f).virt.core (w.fh f).nbrs := by
  obtain ⟨h1, B, h2, h3⟩ := h.virt f hf
  have ht : (w.fh f).nbrs.map (fun n => (w.nh n).kind) = (w.fh f).virt.kinds := hw.typed f hf
  have ht' : ((w.fh f).nbrs.map fun n => (w.nh n).val).map Sigma.fst = (w.fh f).virt.kinds := by
    rw [List.map_map]; exact ht
  obtain ⟨h4, h5⟩ := h3 _ _ ht' (h.vals_rel hf) (h.ok f hf)
  refine ⟨h1, B, h2, h4, fun c => ?_⟩
  funext l'
  rw [← ht] at h5
  have := h.blockEntry_rel (a := c.1) c.1.2 _ 0 (fun n hn => Or.inr ⟨f, hf, hn⟩) h5 l' c.2 c.2.2
  refine Eq.trans ?_ this
  refine sum_node c.1 _ _ ?_ ?_
  · intro k
    rw [mat, Matrix.of_apply, if_pos rfl, mul_comm]
    refine congrArg (· * _) ?_
    change blockEntry _ ((w'.fh f).virt.jac ((w'.fh f).nbrs.map fun n => (w'.nh n).val) l') _ _ _ (w'.fh f).nbrs =
      blockEntry _ ((w'.fh f).virt.jac ((w'.fh f).nbrs.map fun n => (w'.nh n).val) l') _ _ _ (w.fh f).nbrs
    rw [h.nbrs f hf]
    rfl
  · intro d hd
    rw [mat, Matrix.of_apply, if_neg hd, zero_mul]

theorem chi2 (hw : Wired w) {f : FRef} (hf : f ∈ w.g.factors) :
    factorChi2 (w'.fh f).virt.W ((w'.fh f).virt.res ((w'.fh f).nbrs.map fun n => (w'.nh n).val)) =
      factorChi2 (w.fh f).virt.W ((w.fh f).virt.res ((w.fh f).nbrs.map fun n => (w.nh n).val)) := by
  obtain ⟨-, B, h1, h2, -⟩ := h.factor hw hf
  rw [factorChi2, factorChi2, h2, chi2_eq h1]

theorem cost_eq (hw : Wired w) : w'.cost = w.cost := by
  rw [cost_eq_costAt, cost_eq_costAt, costAt, costAt, h.factors]
  exact congrArg List.sum (List.map_congr_left fun f hf => h.chi2 hw hf)

/-- The information matrix in the other coordinates. -/
theorem infoMatrix (hw : Wired w) (hr : NoRansac w) (hr' : NoRansac w') :
    Spec.infoMatrix (graphTerms w) = (mat S w)ᵀ * (Spec.infoMatrix (graphTerms w')).submatrix h.cols h.cols * mat S w := by
  ext c d
  have key : ∀ i j, (Spec.infoMatrix (graphTerms w')).submatrix h.cols h.cols i j =
      w'.quadSum (fun n => (w'.nh n).val) (jacRow (fun n => (w'.nh n).val) (h.cols i).1 (h.cols i).2)
        (jacRow (fun n => (w'.nh n).val) (h.cols j).1 (h.cols j).2) := fun i j => infoMatrix_quad hr' _ _
  rw [infoMatrix_quad hr, Matrix.mul_apply]
  simp only [Matrix.mul_apply, key, transpose_apply]
  unfold quadSum
  rw [h.factors]
  refine Eq.trans (congrArg List.sum (List.map_congr_left fun f hf => ?_)) (list_sum_form _ _ _ _)
  obtain ⟨h1, B, h2, -, h4⟩ := h.factor hw hf
  rw [h.chi2 hw hf, h1]
  have e := form_sum (robustWeight (w.fh f).virt.robust 0
    (Real.sqrt (factorChi2 (w.fh f).virt.W ((w.fh f).virt.res ((w.fh f).nbrs.map fun n => (w.nh n).val)))))
    (fun i => mat S w i c) (fun i => mat S w i d)
    (fun i => jacRow (fun n => (w'.nh n).val) (h.cols i).1 (h.cols i).2 (w'.fh f).virt.core (w'.fh f).nbrs) (w'.fh f).virt.W
  refine Eq.trans ?_ e
  refine congrArg (HMul.hMul (robustWeight _ _ _)) ?_
  rw [h4 c, h4 d]
  exact (chi2_eq h2 _ _).symm

/-- The right hand side in the other coordinates. -/
theorem infoVector (hw : Wired w) (hr : NoRansac w) (hr' : NoRansac w') :
    Spec.infoVector (graphTerms w) = (mat S w)ᵀ *ᵥ (Spec.infoVector (graphTerms w') ∘ h.cols) := by
  funext c
  have key : ∀ i, (Spec.infoVector (graphTerms w') ∘ h.cols) i =
      w'.quadSum (fun n => (w'.nh n).val) (jacRow (fun n => (w'.nh n).val) (h.cols i).1 (h.cols i).2)
        (fun v nbrs => v.res (nbrs.map fun n => (w'.nh n).val)) := fun i => infoVector_quad hr' _
  rw [infoVector_quad hr, mulVec, dotProduct]
  simp only [key, transpose_apply]
  unfold quadSum
  rw [h.factors]
  refine Eq.trans (congrArg List.sum (List.map_congr_left fun f hf => ?_)) (list_sum_form_left _ _ _)
  obtain ⟨h1, B, h2, h3, h4⟩ := h.factor hw hf
  rw [h.chi2 hw hf, h1]
  have e := form_sum_left (robustWeight (w.fh f).virt.robust 0
    (Real.sqrt (factorChi2 (w.fh f).virt.W ((w.fh f).virt.res ((w.fh f).nbrs.map fun n => (w.nh n).val)))))
    (fun i => mat S w i c)
    (fun i => jacRow (fun n => (w'.nh n).val) (h.cols i).1 (h.cols i).2 (w'.fh f).virt.core (w'.fh f).nbrs) (w'.fh f).virt.W
    ((w'.fh f).virt.res ((w'.fh f).nbrs.map fun n => (w'.nh n).val))
  refine Eq.trans ?_ e
  refine congrArg (HMul.hMul (robustWeight _ _ _)) ?_
  rw [h4 c, h3]
  exact (chi2_eq h2 _ _).symm

theorem spread_mat (x : Cols w' → ℝ) (z : Cols w → ℝ) (hx : x ∘ h.cols = mat S w *ᵥ z) {n : NRef} (hn : n ∈ w.g.active) {k : ℕ}
    (hk : k < (w.nh n).dim) : w'.spread x n k = S.lin (w.nh n).kind (w.spread z n) k := by
  have h1 := spread_apply x (h.cols ⟨⟨n, hn⟩, ⟨k, hk⟩⟩)
  have h2 := congrFun hx ⟨⟨n, hn⟩, ⟨k, hk⟩⟩
  rw [mat_mulVec] at h2
  exact h1.trans h2

/-- The values after corresponding increments that are followed at the current values. -/
theorem moved_val_at (x : Cols w' → ℝ) (z : Cols w → ℝ) (hx : x ∘ h.cols = mat S w *ᵥ z)
    (hf : ∀ n ∈ w.g.active, S.rel ((w.nh n).val.upd (w.spread z n)) ((w'.nh n).val.upd (S.lin (w.nh n).kind (w.spread z n))))
    {n : NRef} (hn : n ∈ w.g.active ∨ ∃ f ∈ w.g.factors, n ∈ (w.fh f).nbrs) :
    S.rel ((w.moved (w.spread z)).nh n).val ((w'.moved (w'.spread x)).nh n).val := by
  change S.rel (if n ∈ w.g.active then (w.nh n).update (w.spread z n) else w.nh n).val
    (if n ∈ w'.g.active then (w'.nh n).update (w'.spread x n) else w'.nh n).val
  rw [h.active]
  by_cases ha : n ∈ w.g.active
  · rw [if_pos ha, if_pos ha]
    have e : (w'.nh n).update (w'.spread x n) = (w'.nh n).update (S.lin (w.nh n).kind (w.spread z n)) :=
      NodeCell.update_congr _ fun k hk => h.spread_mat x z hx ha (by rw [← h.dim hn]; exact hk)
    rw [e]
    exact hf n ha
  · rw [if_neg ha, if_neg ha]
    exact h.val n hn

/-- The values after corresponding increments. -/
theorem moved_val (x : Cols w' → ℝ) (z : Cols w → ℝ) (hx : x ∘ h.cols = mat S w *ᵥ z)
    (hf : ∀ n ∈ w.g.active, S.Follows (w.nh n).kind (w.spread z n)) {n : NRef}
    (hn : n ∈ w.g.active ∨ ∃ f ∈ w.g.factors, n ∈ (w.fh f).nbrs) :
    S.rel ((w.moved (w.spread z)).nh n).val ((w'.moved (w'.spread x)).nh n).val :=
  h.moved_val_at x z hx (fun n ha => hf n ha (v := (w.nh n).val) (v' := (w'.nh n).val) rfl (h.val n (.inl ha))) hn

/-- After calls that change states only. -/
theorem of_frames {w1 w1' : World} (hF : Frame w w1) (hF' : Frame w' w1')
    (hv : ∀ n, (n ∈ w.g.active ∨ ∃ f ∈ w.g.factors, n ∈ (w.fh f).nbrs) → S.rel (w1.nh n).val (w1'.nh n).val)
    (hok : ∀ f ∈ w.g.factors, S.ok (w.fh f).virt ((w.fh f).nbrs.map fun n => (w1.nh n).val)) :
    Gauge S w1 w1' := by
  refine ⟨?_, ?_, fun f hf => ?_, fun n hn => ?_, fun f hf => ?_, fun n hn => ?_, fun f hf => ?_⟩
  · rw [hF.factors.g, hF'.factors.g]; exact h.active
  · rw [hF.factors.g, hF'.factors.g]; exact h.factors
  · rw [hF.factors.g] at hf
    rw [hF.factors.nbrs, hF'.factors.nbrs]; exact h.nbrs f hf
  · rw [hF.factors.g] at hn
    refine hv n (hn.imp id ?_)
    rintro ⟨f, h1, h2⟩
    exact ⟨f, h1, by rwa [hF.factors.nbrs] at h2⟩
  · rw [hF.factors.g] at hf
    rw [hF.factors.virt, hF'.factors.virt]; exact h.virt f hf
  · rw [hF.factors.g] at hn
    rw [(hF.active n).kind]; exact h.moves n hn
  · rw [hF.factors.g] at hf
    rw [hF.factors.nbrs, hF.factors.virt]; exact hok f hf

/-- The solution of the normal equations in the other coordinates. -/
theorem solution (hw : Wired w) (hr : NoRansac w) (hr' : NoRansac w') {l : ℝ}
    (hl : l = 0 ∨ ∀ n ∈ w.g.active, S.Orth (w.nh n).kind) (x' : Cols w' → ℝ)
    (hx' : Spec.infoMatrix (graphTerms w') *ᵥ x' + l • x' = Spec.infoVector (graphTerms w')) : ∃ z,
    x' ∘ h.cols = mat S w *ᵥ z ∧ Spec.infoMatrix (graphTerms w) *ᵥ z + l • z = Spec.infoVector (graphTerms w) ∧
    x' ⬝ᵥ Spec.infoVector (graphTerms w') = z ⬝ᵥ Spec.infoVector (graphTerms w) := by
  have e1 : mat S w *ᵥ (imat S w *ᵥ (x' ∘ h.cols)) = x' ∘ h.cols := by rw [mulVec_mulVec, h.mat_mul_imat, one_mulVec]
  have e2 : l • (imat S w *ᵥ (x' ∘ h.cols)) = (mat S w)ᵀ *ᵥ (l • (x' ∘ h.cols)) := by
    rcases hl with rfl | ho
    · simp
    · have := congrArg ((mat S w)ᵀ *ᵥ ·) e1
      rw [mulVec_mulVec, transpose_mul_mat ho, one_mulVec] at this
      rw [mulVec_smul, ← this]
  have e3 : (Spec.infoMatrix (graphTerms w')).submatrix h.cols h.cols *ᵥ (x' ∘ h.cols) =
      (Spec.infoMatrix (graphTerms w') *ᵥ x') ∘ h.cols := by
    rw [submatrix_mulVec_equiv]
    simp [Function.comp_assoc]
  refine ⟨imat S w *ᵥ (x' ∘ h.cols), e1.symm, ?_, ?_⟩
  · rw [h.infoMatrix hw hr hr', h.infoVector hw hr hr', ← mulVec_mulVec, ← mulVec_mulVec, e1, e3, e2, ← mulVec_add, ← hx']
    rfl
  · rw [h.infoVector hw hr hr', dotProduct_mulVec, vecMul_transpose, e1]
    exact (h.cols.sum_comp (fun c => x' c * Spec.infoVector (graphTerms w') c)).symm

/-- Solvable in one frame, solvable in the other. -/
theorem posDef (hw : Wired w) (hr : NoRansac w) (hr' : NoRansac w') (hs : (Spec.infoMatrix (graphTerms w')).PosSemidef)
    (hpd : (Spec.infoMatrix (graphTerms w)).PosDef) : (Spec.infoMatrix (graphTerms w')).PosDef := by
  refine Matrix.PosDef.of_dotProduct_mulVec_pos hs.isHermitian fun {y} hy => ?_
  have e1 : mat S w *ᵥ (imat S w *ᵥ (y ∘ h.cols)) = y ∘ h.cols := by rw [mulVec_mulVec, h.mat_mul_imat, one_mulVec]
  have hz : imat S w *ᵥ (y ∘ h.cols) ≠ 0 := by
    intro h0
    rw [h0, mulVec_zero] at e1
    refine hy (funext fun c => ?_)
    have := congrFun e1 (h.cols.symm c)
    simpa using this.symm
  have e3 : (Spec.infoMatrix (graphTerms w')).submatrix h.cols h.cols *ᵥ (y ∘ h.cols) =
      (Spec.infoMatrix (graphTerms w') *ᵥ y) ∘ h.cols := by
    rw [submatrix_mulVec_equiv]
    simp [Function.comp_assoc]
  have := hpd.dotProduct_mulVec_pos hz
  rw [h.infoMatrix hw hr hr', ← mulVec_mulVec, ← mulVec_mulVec, e1, e3, star_trivial, dotProduct_mulVec, vecMul_transpose, e1]
    at this
  rw [star_trivial]
  refine this.trans_eq ?_
  exact h.cols.sum_comp (fun c => y c * (Spec.infoMatrix (graphTerms w') *ᵥ y) c)

end Gauge

end World

namespace FGraphSolve

/-- What the loop depends on: the problem in other coordinates, the same damping and tolerance. -/
structure Gauge (S : Sym) (s s' : FGraphSolve) : Prop where
  /-- graph -/
  w : World.Gauge S s.w s'.w
  /-- damping -/
  lambda : s'.lambda = s.lambda
  /-- tolerance -/
  tol : s'.tol = s.tol
  /-- the increments are followed -/
  follows : ∀ n ∈ s.w.g.active, ∀ δ, S.Follows (s.w.nh n).kind δ
  /-- orthogonal changes of coordinates -/
  orth : ∀ n ∈ s.w.g.active, S.Orth (s.w.nh n).kind
  /-- all states are fine for the factors -/
  always : ∀ f ∈ s.w.g.factors, ∀ vals : List NodeVal, vals.map Sigma.fst = (s.w.fh f).virt.kinds → S.ok (s.w.fh f).virt vals

variable {S : Sym}

theorem Gauge.of_frames {s s' s1 s1' : FGraphSolve} (h : Gauge S s s') (hF : Frame s.w s1.w) (hw : World.Gauge S s1.w s1'.w)
    (hl : s1'.lambda = s1.lambda) (ht : s1'.tol = s1.tol) : Gauge S s1 s1' := by
  refine ⟨hw, hl, ht, fun n hn => ?_, fun n hn => ?_, fun f hf => ?_⟩
  · rw [hF.factors.g] at hn
    rw [(hF.active n).kind]; exact h.follows n hn
  · rw [hF.factors.g] at hn
    rw [(hF.active n).kind]; exact h.orth n hn
  · rw [hF.factors.g] at hf
    rw [hF.factors.virt]; exact h.always f hf

theorem Gauge.ok_at {s s' : FGraphSolve} (h : Gauge S s s') (hw : Wired s.w) {w1 : World} (hF : Frame s.w w1) :
    ∀ f ∈ s.w.g.factors, S.ok (s.w.fh f).virt ((s.w.fh f).nbrs.map fun n => (w1.nh n).val) := by
  intro f hf
  refine h.always f hf _ ?_
  rw [List.map_map, ← hw.typed f hf]
  exact List.map_congr_left fun n _ => (hF.active n).kind

/-- One iteration. -/
theorem trial_gauge {env env' : Env} (henv : env.Sound) (henv' : env'.Sound) {s s' s1 s1' : FGraphSolve}
    {d d' : ℝ} (h : Gauge S s s') (hw : WellPosed s.w) (hw' : WellPosed s'.w) (hr : NoRansac s.w) (hr' : NoRansac s'.w)
    (hl : 0 < s.lambda) (h1 : s.trial env = .ok (d, s1)) (h1' : s'.trial env' = .ok (d', s1')) :
    d' = d ∧ Gauge S s1 s1' ∧ Gauge S (s1.adapt d) (s1'.adapt d') ∧ Gauge S s1.reject s1'.reject ∧ WellPosed s1.w ∧
      WellPosed s1'.w := by
  obtain ⟨x, hx, hv, hden, hw1⟩ := trial_model henv hw h1
  obtain ⟨x', hx', hv', hden', hw1'⟩ := trial_model henv' hw' h1'
  rw [h.lambda] at hx'
  obtain ⟨z, hz1, hz2, hz3⟩ := h.w.solution hw.wired hr hr' (Or.inr h.orth) x' hx'
  have hzx : z = x := unique_step (terms_psd hw) hl (hz2.trans hx.symm)
  subst hzx
  have hvv : ∀ n, (n ∈ s.w.g.active ∨ ∃ f ∈ s.w.g.factors, n ∈ (s.w.fh f).nbrs) →
      S.rel (s1.w.nh n).val (s1'.w.nh n).val := by
    intro n hn
    rw [hv', hv]
    refine h.w.moved_val (-x') (-z) ?_ (fun n hn => h.follows n hn _) hn
    rw [mulVec_neg, ← hz1]; rfl
  have ha1 := h.w.of_frames (trial_frame h1) (trial_frame h1') hvv (h.ok_at hw.wired (trial_frame h1))
  have hlam : s1.lambda = s.lambda := (trial_ok h1).2.1
  have hlam' : s1'.lambda = s'.lambda := (trial_ok h1').2.1
  have htol : s1.tol = s.tol := (trial_ok h1).2.2.1
  have htol' : s1'.tol = s'.tol := (trial_ok h1').2.2.1
  have hd : d' = d := by
    rw [(trial_ok h1).2.2.2.2.2.1, (trial_ok h1').2.2.2.2.2.1, h.w.cost_eq hw.wired, ha1.cost_eq hw1.wired]
  have e1 : s1'.lambda = s1.lambda := by rw [hlam, hlam', h.lambda]
  have e2 : s1'.tol = s1.tol := by rw [htol, htol', h.tol]
  have hF := trial_frame h1
  refine ⟨hd, h.of_frames hF ha1 e1 e2, h.of_frames (s1 := s1.adapt d) (s1' := s1'.adapt d') hF ha1 ?_ e2,
    h.of_frames (s1 := s1.reject) (s1' := s1'.reject) (hF.trans (reject_frame s1)) ?_ ?_ e2, hw1, hw1'⟩
  · change nextLambda _ _ _ = nextLambda _ _ _
    rw [hden, hden', e1, hd, hz3]
  · refine ha1.of_frames (reject_frame s1) (reject_frame s1') (fun n hn => ?_)
      ((h.of_frames hF ha1 e1 e2).ok_at hw1.wired (reject_frame s1))
    rw [reject_val h1, reject_val h1', h.w.active]
    have hn' : n ∈ s.w.g.active ∨ ∃ f ∈ s.w.g.factors, n ∈ (s.w.fh f).nbrs := by
      rw [hF.factors.g] at hn
      refine hn.imp id ?_
      rintro ⟨f, k1, k2⟩
      exact ⟨f, k1, by rwa [hF.factors.nbrs] at k2⟩
    by_cases ha : n ∈ s.w.g.active
    · rw [if_pos ha, if_pos ha]
      exact (h.w.moves n ha).stored rfl (h.w.val n hn')
    · rw [if_neg ha, if_neg ha]
      exact h.w.val n hn'
  · change s1'.lambda * 2 = s1.lambda * 2
    rw [e1]

/-- The whole loop. -/
theorem lmLoop_gauge {env env' : Env} (henv : env.Sound) (henv' : env'.Sound) {maxIters : ℕ} :
    ∀ (k iter : ℕ) {s s' : FGraphSolve} {r r' : LMResult}, maxIters - iter = k →
    Gauge S s s' → WellPosed s.w → WellPosed s'.w → NoRansac s.w → NoRansac s'.w → 0 < s.lambda →
    lmLoop env maxIters iter s = .ok r → lmLoop env' maxIters iter s' = .ok r' →
    r'.ret = r.ret ∧ r'.iters = r.iters ∧ Gauge S r.s r'.s ∧ WellPosed r.s.w := by
  intro k
  induction k using Nat.strong_induction_on with
  | _ k ih =>
    intro iter s s' r r' hk h hw hw' hr hr' hl hrun hrun'
    rw [lmLoop] at hrun hrun'
    obtain ⟨⟨d, s1⟩, h1, hrun⟩ := Out.bind_eq_ok.mp hrun
    obtain ⟨⟨d', s1'⟩, h1', hrun'⟩ := Out.bind_eq_ok.mp hrun'
    obtain ⟨rfl, m1, m2, m3, m4, m5⟩ := trial_gauge henv henv' h hw hw' hr hr' hl h1 h1'
    have hl1 : s1.lambda = s.lambda := (trial_ok h1).2.1
    have hr1 := hr.of_factors (trial_frame h1).factors
    have hr1' := hr'.of_factors (trial_frame h1').factors
    dsimp only at hrun hrun'
    rw [m1.tol] at hrun'
    by_cases hd : d' < 0
    · rw [if_pos hd] at hrun hrun'
      by_cases hi : iter + 1 < maxIters
      · rw [if_pos hi] at hrun hrun'
        refine ih _ (by omega) (iter + 1) rfl m3 (wellPosed_reject m4) (wellPosed_reject m5)
          (hr1.of_factors (reject_frame _).factors) (hr1'.of_factors (reject_frame _).factors) ?_ hrun hrun'
        change 0 < s1.lambda * 2
        rw [hl1]; linarith
      · rw [if_neg hi, Out.ok.injEq] at hrun hrun'
        subst hrun hrun'
        exact ⟨rfl, rfl, m3, wellPosed_reject m4⟩
    · rw [if_neg hd] at hrun hrun'
      by_cases ht : d' < s1.tol
      · rw [if_pos ht, Out.ok.injEq] at hrun hrun'
        subst hrun hrun'
        exact ⟨rfl, rfl, m1, m4⟩
      · rw [if_neg ht] at hrun hrun'
        by_cases hi : iter + 1 < maxIters
        · rw [if_pos hi] at hrun hrun'
          exact ih _ (by omega) (iter + 1) rfl m2 m4 m5 hr1 hr1' (nextLambda_pos (by rw [hl1]; exact hl)) hrun hrun'
        · rw [if_neg hi, Out.ok.injEq] at hrun hrun'
          subst hrun hrun'
          exact ⟨rfl, rfl, m2, m4⟩

/-- A Gauss-Newton step; the increments that occur must be followed at the current values. -/
theorem gn_gauge_at {env env' : Env} (henv : env.Sound) (henv' : env'.Sound) {s s' s1 s1' : FGraphSolve}
    (h : World.Gauge S s.w s'.w) (hw : WellPosed s.w) (hw' : WellPosed s'.w) (hr : NoRansac s.w) (hr' : NoRansac s'.w)
    (hpd : (Spec.infoMatrix (graphTerms s.w)).PosDef) {k k' : ℕ} {l l' t t' : ℝ} (h1 : s.solve env .GN k l t = .ok s1)
    (h1' : s'.solve env' .GN k' l' t' = .ok s1')
    (hf : ∀ x : Cols s.w → ℝ, Spec.infoMatrix (graphTerms s.w) *ᵥ x = Spec.infoVector (graphTerms s.w) →
      ∀ n ∈ s.w.g.active, S.rel ((s.w.nh n).val.upd (s.w.spread (-x) n))
        ((s'.w.nh n).val.upd (S.lin (s.w.nh n).kind (s.w.spread (-x) n)))) :
    ∀ n, (n ∈ s.w.g.active ∨ ∃ f ∈ s.w.g.factors, n ∈ (s.w.fh f).nbrs) → S.rel (s1.w.nh n).val (s1'.w.nh n).val := by
  obtain ⟨dx, hdx, hw1⟩ := gn_ok hw h1
  obtain ⟨dx', hdx', hw1'⟩ := gn_ok hw' h1'
  have hx := normal_solution henv hw hdx
  have hx' := normal_solution henv' hw' hdx'
  set x := fun c => dx (colEquiv hw.wired c) with hxd
  set x' := fun c => dx' (colEquiv hw'.wired c) with hxd'
  obtain ⟨z, hz1, hz2, -⟩ := h.solution hw.wired hr hr' (l := 0) (Or.inl rfl) x' (by rw [hx']; simp)
  rw [zero_smul, add_zero] at hz2
  have hzx : z = x := by
    by_contra hne
    have := hpd.dotProduct_mulVec_pos (sub_ne_zero.mpr hne)
    rw [mulVec_sub, hz2, hx, sub_self, dotProduct_zero] at this
    exact lt_irrefl _ this
  subst hzx
  intro n hn
  rw [hw1, hw1']
  have e : ∀ (w : World) δ n, ((w.built.moved δ).nh n).val = ((w.moved δ).nh n).val := fun _ _ _ => rfl
  rw [e, e, moved_step hw.wired, moved_step hw'.wired]
  refine h.moved_val_at _ _ ?_ (hf _ hx) hn
  change (-x') ∘ h.cols = World.Gauge.mat S s.w *ᵥ (-_)
  rw [mulVec_neg, ← hz1]; rfl

/-- A Gauss-Newton step; the increments that occur must be followed. -/
theorem gn_gauge {env env' : Env} (henv : env.Sound) (henv' : env'.Sound) {s s' s1 s1' : FGraphSolve}
    (h : World.Gauge S s.w s'.w) (hw : WellPosed s.w) (hw' : WellPosed s'.w) (hr : NoRansac s.w) (hr' : NoRansac s'.w)
    (hpd : (Spec.infoMatrix (graphTerms s.w)).PosDef) {k k' : ℕ} {l l' t t' : ℝ} (h1 : s.solve env .GN k l t = .ok s1)
    (h1' : s'.solve env' .GN k' l' t' = .ok s1')
    (hf : ∀ x : Cols s.w → ℝ, Spec.infoMatrix (graphTerms s.w) *ᵥ x = Spec.infoVector (graphTerms s.w) →
      ∀ n ∈ s.w.g.active, S.Follows (s.w.nh n).kind (s.w.spread (-x) n)) :
    ∀ n, (n ∈ s.w.g.active ∨ ∃ f ∈ s.w.g.factors, n ∈ (s.w.fh f).nbrs) → S.rel (s1.w.nh n).val (s1'.w.nh n).val :=
  gn_gauge_at henv henv' h hw hw' hr hr' hpd h1 h1' fun x hx n hn =>
    hf x hx n hn (v := (s.w.nh n).val) (v' := (s'.w.nh n).val) rfl (h.val n (.inl hn))

end FGraphSolve

end Mrob
