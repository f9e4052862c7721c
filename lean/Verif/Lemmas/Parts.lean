import Verif.Lemmas.Weights

/-!
# Parts of a graph that no factor joins to the rest
-/

open Matrix

namespace Spec

variable {C : Type} [Fintype C]

theorem infoMatrix_mulVec_apply (ts : List (Term C)) (x : C → ℝ) (i : C) :
    (infoMatrix ts *ᵥ x) i = (ts.map fun t => (t.Jᵀ *ᵥ (t.W *ᵥ (t.J *ᵥ x))) i).sum := by
  unfold infoMatrix
  induction ts with
  | nil => simp
  | cons t ts ih =>
    simp only [List.map_cons, List.sum_cons, add_mulVec, Pi.add_apply, ih]
    rw [← mulVec_mulVec, ← mulVec_mulVec]

end Spec

namespace Mrob

open World Spec

namespace World

/-- Blocks of a row applied to increments, from the states. -/
noncomputable def rowSum (V : NRef → NodeVal) (σ : NRef → ℕ → ℝ) (Jl : ℕ → ℝ) : ℕ → List NRef → ℝ
  | _, [] => 0
  | tk, n :: ns => ∑ k : Fin (V n).1.dim, Jl (tk + k) * σ n k + rowSum V σ Jl (tk + (V n).1.dim) ns

theorem rowApply_eq (w : World) (δ : Cols w → ℝ) (Jl : ℕ → ℝ) (nbrs : List NRef) : ∀ tk,
    w.rowApply δ Jl tk nbrs = rowSum (fun n => (w.nh n).val) (w.spread δ) Jl tk nbrs := by
  induction nbrs with
  | nil => intro tk; rfl
  | cons n ns ih => intro tk; rw [rowApply, rowSum, ih]; rfl

theorem rowSum_congr {V V' : NRef → NodeVal} {σ σ' : NRef → ℕ → ℝ} (Jl : ℕ → ℝ) (nbrs : List NRef)
    (hV : ∀ n ∈ nbrs, V' n = V n) (hσ : ∀ n ∈ nbrs, ∀ k < (V n).1.dim, σ' n k = σ n k) : ∀ tk,
    rowSum V' σ' Jl tk nbrs = rowSum V σ Jl tk nbrs := by
  induction nbrs with
  | nil => intro tk; rfl
  | cons n ns ih =>
    intro tk
    rw [rowSum, rowSum, hV n List.mem_cons_self,
      ih (fun m hm => hV m (List.mem_cons_of_mem _ hm)) fun m hm => hσ m (List.mem_cons_of_mem _ hm)]
    congr 1
    exact Finset.sum_congr rfl fun k _ => by rw [hσ n List.mem_cons_self k k.2]

theorem blockEntry_congr {dim dim' : NRef → ℕ} (Jl : ℕ → ℝ) (a : NRef) (k : ℕ) (nbrs : List NRef)
    (h : ∀ n ∈ nbrs, dim' n = dim n) : ∀ tk, blockEntry dim' Jl a k tk nbrs = blockEntry dim Jl a k tk nbrs := by
  induction nbrs with
  | nil => intro tk; rfl
  | cons n ns ih =>
    intro tk
    rw [blockEntry, blockEntry, h n List.mem_cons_self, ih fun m hm => h m (List.mem_cons_of_mem _ hm)]

theorem blockEntry_of_notMem {dim : NRef → ℕ} (Jl : ℕ → ℝ) (a : NRef) (k : ℕ) (nbrs : List NRef)
    (h : a ∉ nbrs) : ∀ tk, blockEntry dim Jl a k tk nbrs = 0 := by
  induction nbrs with
  | nil => intro tk; rfl
  | cons n ns ih =>
    intro tk
    rw [blockEntry, if_neg (fun e => h (by rw [← e]; exact List.mem_cons_self)), zero_add,
      ih fun hm => h (List.mem_cons_of_mem _ hm)]

/-- The increments through the Jacobian. -/
noncomputable def jacStep (V : NRef → NodeVal) (σ : NRef → ℕ → ℝ) (v : FactorVirt) (nbrs : List NRef) (l : Fin v.dim) : ℝ :=
  rowSum V σ (v.jac (nbrs.map V) l) 0 nbrs

theorem quadSum_eq (w : World) (V x y) : w.quadSum V x y = (w.g.factors.map fun f => quadTerm V x y (w.fh f)).sum := rfl

theorem infoMatrix_mulVec_quad {w : World} (hr : NoRansac w) (x : Cols w → ℝ) (c : Cols w) :
    (infoMatrix (graphTerms w) *ᵥ x) c =
      w.quadSum (fun n => (w.nh n).val) (jacRow (fun n => (w.nh n).val) c.1 c.2)
        (jacStep (fun n => (w.nh n).val) (w.spread x)) := by
  rw [infoMatrix_mulVec_apply, graphTerms, List.map_map, quadSum]
  refine congrArg List.sum (List.map_congr_left fun f hf => ?_)
  rw [Function.comp_apply]
  have hwt : factorWeight w f = robustWeight (w.fh f).virt.robust 0
        (Real.sqrt (factorChi2 (w.fh f).virt.W ((w.fh f).virt.res ((w.fh f).nbrs.map fun n => (w.nh n).val)))) :=
    robustWeight_old (hr f hf) _ _ _
  rw [← hwt]
  have hJ : (factorTerm w f).J *ᵥ x = jacStep (fun n => (w.nh n).val) (w.spread x) (w.fh f).virt.core (w.fh f).nbrs := by
    funext l
    exact (term_mulVec f x l).trans (rowApply_eq w x _ _ 0)
  rw [hJ]
  exact weighted_form (factorWeight w f) (w.fh f).virt.W
    (jacRow (fun n => (w.nh n).val) c.1 c.2 (w.fh f).virt.core (w.fh f).nbrs)
    (jacStep (fun n => (w.nh n).val) (w.spread x) (w.fh f).virt.core (w.fh f).nbrs)

/-- The factor has a node in `S` that is not in `F`. -/
def Touches (S F : NRef → Prop) (c : FactorCell) : Prop := ∃ n ∈ c.nbrs, S n ∧ ¬ F n

open Classical in
/-- The part of `quadSum` that comes from the factors at `S`. -/
noncomputable def partSum (S F : NRef → Prop) (w : World) (V : NRef → NodeVal)
    (x y : (v : FactorVirt) → List NRef → Fin v.dim → ℝ) : ℝ :=
  ((w.g.factors.filter fun f => Touches S F (w.fh f)).map fun f => quadTerm V x y (w.fh f)).sum

/-- The nodes `S`, with the factors at them, are the same in both graphs, and no factor joins them to the rest; the nodes
`F` are fixed. -/
structure Part (S F : NRef → Prop) (w w' : World) : Prop where
  /-- unknowns -/
  mem : ∀ n, S n → (n ∈ w'.g.active ↔ n ∈ w.g.active)
  /-- fixed nodes -/
  fixed : ∀ n, F n → n ∉ w.g.active ∧ n ∉ w'.g.active
  /-- values -/
  val : ∀ n, S n ∨ F n → (w'.nh n).val = (w.nh n).val
  /-- factors at `S` -/
  closed : ∀ f ∈ w.g.factors, Touches S F (w.fh f) → ∀ n ∈ (w.fh f).nbrs, S n ∨ F n
  /-- factors at `S` -/
  closed' : ∀ f ∈ w'.g.factors, Touches S F (w'.fh f) → ∀ n ∈ (w'.fh f).nbrs, S n ∨ F n
  /-- information -/
  quad : ∀ V x y, partSum S F w' V x y = partSum S F w V x y

variable {S F : NRef → Prop} {w w' : World}

theorem quadTerm_jac_zero {V : NRef → NodeVal} {a : NRef} {k : ℕ} {c : FactorCell} (h : a ∉ c.nbrs) (y) :
    quadTerm V (jacRow V a k) y c = 0 := by
  have : jacRow V a k c.virt.core c.nbrs = 0 := by
    funext l
    exact blockEntry_of_notMem _ _ _ _ h 0
  rw [quadTerm, this]
  exact (congrArg _ (zero_dotProduct _)).trans (mul_zero _)

theorem quadSum_part (V : NRef → NodeVal) {a : NRef} (hS : S a) (hF : ¬ F a) (k : ℕ) (y) :
    w.quadSum V (jacRow V a k) y = partSum S F w V (jacRow V a k) y := by
  classical
  rw [quadSum_eq, partSum]
  induction w.g.factors with
  | nil => rfl
  | cons f fs ih =>
    rw [List.map_cons, List.sum_cons, ih, List.filter_cons]
    by_cases hf : Touches S F (w.fh f)
    · rw [if_pos (by simpa using hf), List.map_cons, List.sum_cons]
    · rw [if_neg (by simpa using hf), quadTerm_jac_zero fun hm => hf ⟨a, hm, hS, hF⟩, zero_add]

theorem partSum_congr {V V' : NRef → NodeVal} {x x' y y' : (v : FactorVirt) → List NRef → Fin v.dim → ℝ}
    (h : ∀ f ∈ w.g.factors, Touches S F (w.fh f) → (∀ n ∈ (w.fh f).nbrs, V' n = V n) ∧
      x' (w.fh f).virt.core (w.fh f).nbrs = x (w.fh f).virt.core (w.fh f).nbrs ∧
      y' (w.fh f).virt.core (w.fh f).nbrs = y (w.fh f).virt.core (w.fh f).nbrs) :
    partSum S F w V' x' y' = partSum S F w V x y := by
  classical
  rw [partSum, partSum]
  refine congrArg List.sum (List.map_congr_left fun f hf => ?_)
  rw [List.mem_filter] at hf
  obtain ⟨h1, h2, h3⟩ := h f hf.1 (by simpa using hf.2)
  rw [quadTerm, quadTerm, h2, h3, List.map_congr_left h1]

theorem jacRow_congr {V V' : NRef → NodeVal} {nbrs : List NRef} (h : ∀ n ∈ nbrs, V' n = V n) (a : NRef) (k : ℕ) (v : FactorVirt) :
    jacRow V' a k v nbrs = jacRow V a k v nbrs := by
  funext l
  rw [jacRow, jacRow, List.map_congr_left h]
  exact blockEntry_congr _ _ _ _ (fun n hn => by rw [h n hn]) 0

theorem jacStep_congr {V V' : NRef → NodeVal} {σ σ' : NRef → ℕ → ℝ} {nbrs : List NRef} (h : ∀ n ∈ nbrs, V' n = V n)
    (hσ : ∀ n ∈ nbrs, ∀ k < (V n).1.dim, σ' n k = σ n k) (v : FactorVirt) :
    jacStep V' σ' v nbrs = jacStep V σ v nbrs := by
  funext l
  rw [jacStep, jacStep, List.map_congr_left h]
  exact rowSum_congr _ _ h hσ 0

namespace Part

variable (h : Part S F w w')
include h

theorem dim {n : NRef} (hn : S n ∨ F n) : (w'.nh n).dim = (w.nh n).dim := congrArg (fun v : NodeVal => v.1.dim) (h.val n hn)

/-- Rows of the information matrix at `S`. -/
theorem row (hr : NoRansac w) (hr' : NoRansac w') {y : Cols w → ℝ} {x' : Cols w' → ℝ}
    (hyx : ∀ n, S n ∨ F n → ∀ k, w.spread y n k = w'.spread x' n k) {a : NRef} (hS : S a) (ha : a ∈ w.g.active)
    (ha' : a ∈ w'.g.active) (k : Fin (w.nh a).dim) (k' : Fin (w'.nh a).dim) (hk : (k' : ℕ) = k) :
    (infoMatrix (graphTerms w) *ᵥ y) ⟨⟨a, ha⟩, k⟩ = (infoMatrix (graphTerms w') *ᵥ x') ⟨⟨a, ha'⟩, k'⟩ := by
  have hV : ∀ f ∈ w.g.factors, Touches S F (w.fh f) → ∀ n ∈ (w.fh f).nbrs, (w.nh n).val = (w'.nh n).val :=
    fun f hf ht n hn => (h.val n (h.closed f hf ht n hn)).symm
  have hF : ¬ F a := fun hF => (h.fixed a hF).1 ha
  rw [infoMatrix_mulVec_quad hr, infoMatrix_mulVec_quad hr']
  dsimp only
  rw [hk, quadSum_part _ hS hF, quadSum_part _ hS hF, h.quad]
  exact partSum_congr fun f hf ht => ⟨hV f hf ht, jacRow_congr (hV f hf ht) _ _ _,
    jacStep_congr (hV f hf ht) (fun n hn k _ => hyx n (h.closed f hf ht n hn) k) _⟩

/-- Right hand sides at `S`. -/
theorem rhs (hr : NoRansac w) (hr' : NoRansac w') {a : NRef} (hS : S a) (ha : a ∈ w.g.active)
    (ha' : a ∈ w'.g.active) (k : Fin (w.nh a).dim) (k' : Fin (w'.nh a).dim) (hk : (k' : ℕ) = k) :
    infoVector (graphTerms w) ⟨⟨a, ha⟩, k⟩ = infoVector (graphTerms w') ⟨⟨a, ha'⟩, k'⟩ := by
  have hV : ∀ f ∈ w.g.factors, Touches S F (w.fh f) → ∀ n ∈ (w.fh f).nbrs, (w.nh n).val = (w'.nh n).val :=
    fun f hf ht n hn => (h.val n (h.closed f hf ht n hn)).symm
  have hF : ¬ F a := fun hF => (h.fixed a hF).1 ha
  rw [infoVector_quad hr, infoVector_quad hr']
  dsimp only
  rw [hk, quadSum_part _ hS hF, quadSum_part _ hS hF, h.quad]
  exact partSum_congr fun f hf ht => ⟨hV f hf ht, jacRow_congr (hV f hf ht) _ _ _, by
    rw [List.map_congr_left (hV f hf ht)]⟩

open Classical in
/-- The increments of the second graph at `S`, others elsewhere. -/
noncomputable def patch (S : NRef → Prop) (x : Cols w → ℝ) (x' : Cols w' → ℝ) : Cols w → ℝ :=
  fun c => if S c.1 then w'.spread x' c.1 c.2 else x c

theorem spread_patch (x : Cols w → ℝ) (x' : Cols w' → ℝ) (n : NRef) (hn : S n ∨ F n) (k : ℕ) :
    w.spread (patch S x x') n k = w'.spread x' n k := by
  rcases hn with hn | hn
  · by_cases hm : n ∈ w.g.active ∧ k < (w.nh n).dim
    · rw [World.spread, dif_pos hm, patch]
      dsimp only
      rw [if_pos hn]
    · rw [World.spread, dif_neg hm, World.spread, dif_neg]
      rintro ⟨h1, h2⟩
      rw [h.dim (Or.inl hn)] at h2
      exact hm ⟨(h.mem n hn).mp h1, h2⟩
  · rw [spread_of_notMem _ (h.fixed n hn).1, spread_of_notMem _ (h.fixed n hn).2]

/-- The increments at `S` are the same when the linear problems have unique solutions. -/
theorem spread_eq (hr : NoRansac w) (hr' : NoRansac w') {l : ℝ} {x : Cols w → ℝ} {x' : Cols w' → ℝ}
    (hx : infoMatrix (graphTerms w) *ᵥ x + l • x = infoVector (graphTerms w))
    (hx' : infoMatrix (graphTerms w') *ᵥ x' + l • x' = infoVector (graphTerms w'))
    (huniq : ∀ z : Cols w → ℝ, z ⬝ᵥ (infoMatrix (graphTerms w) *ᵥ z + l • z) = 0 → z = 0) {n : NRef} (hn : S n) :
    w'.spread x' n = w.spread x n := by
  have hspread := h.spread_patch x x'
  obtain ⟨y, hy⟩ : ∃ y, y = patch S x x' := ⟨_, rfl⟩
  rw [← hy] at hspread
  -- the rows at `S`
  have hrow : ∀ c : Cols w, S c.1 → (infoMatrix (graphTerms w) *ᵥ y + l • y) c = (infoMatrix (graphTerms w) *ᵥ x + l • x) c := by
    rintro ⟨⟨a, ha⟩, k⟩ hS
    dsimp only at hS
    have ha' : a ∈ w'.g.active := (h.mem a hS).mpr ha
    have hk' : (k : ℕ) < (w'.nh a).dim := by rw [h.dim (Or.inl hS)]; exact k.2
    have e' := congrFun hx' ⟨⟨a, ha'⟩, ⟨k, hk'⟩⟩
    rw [congrFun hx ⟨⟨a, ha⟩, k⟩, h.rhs hr hr' hS ha ha' k ⟨k, hk'⟩ rfl, ← e']
    rw [Pi.add_apply, Pi.add_apply, h.row hr hr' hspread hS ha ha' k ⟨k, hk'⟩ rfl]
    congr 1
    rw [Pi.smul_apply, Pi.smul_apply]
    congr 1
    refine (spread_apply y ⟨⟨a, ha⟩, k⟩).symm.trans ?_
    exact (hspread a (Or.inl hS) k).trans (spread_apply x' ⟨⟨a, ha'⟩, ⟨k, hk'⟩⟩)
  have hz : y - x = 0 := by
    refine huniq _ ?_
    rw [dotProduct]
    refine Finset.sum_eq_zero fun c _ => ?_
    by_cases hc : S c.1
    · have e : (infoMatrix (graphTerms w) *ᵥ (y - x) + l • (y - x)) c =
          (infoMatrix (graphTerms w) *ᵥ y + l • y) c - (infoMatrix (graphTerms w) *ᵥ x + l • x) c := by
        rw [mulVec_sub]
        simp only [Pi.add_apply, Pi.sub_apply, Pi.smul_apply, smul_eq_mul]
        ring
      rw [e, hrow c hc, sub_self, mul_zero]
    · have e : (y - x) c = 0 := by
        rw [Pi.sub_apply, hy, patch, if_neg hc, sub_self]
      rw [e, zero_mul]
  have : y = x := sub_eq_zero.mp hz
  funext k
  rw [← hspread n (Or.inl hn) k, this]

/-- A graph that consists of the part only is determined when the whole graph is. -/
theorem posDef (hr : NoRansac w) (hr' : NoRansac w') (hall : ∀ n ∈ w'.g.active, S n)
    (hsym : (infoMatrix (graphTerms w')).IsHermitian) (hpd : (infoMatrix (graphTerms w)).PosDef) :
    (infoMatrix (graphTerms w')).PosDef := by
  refine Matrix.PosDef.of_dotProduct_mulVec_pos hsym fun {x'} hx' => ?_
  have hspread := h.spread_patch 0 x'
  obtain ⟨y, hy⟩ : ∃ y : Cols w → ℝ, y = patch S 0 x' := ⟨_, rfl⟩
  rw [← hy] at hspread
  have hyx : ∀ c : Cols w', ∀ (ha : c.1.1 ∈ w.g.active) (k : Fin (w.nh c.1.1).dim), (k : ℕ) = c.2 → y ⟨⟨c.1.1, ha⟩, k⟩ = x' c := by
    intro c ha k hk
    rw [← spread_apply y ⟨⟨c.1.1, ha⟩, k⟩, ← spread_apply x' c]
    dsimp only
    rw [hk]
    exact hspread _ (Or.inl (hall _ c.1.2)) _
  have hy0 : y ≠ 0 := by
    rintro rfl
    refine hx' (funext fun c => ?_)
    have hS := hall _ c.1.2
    have := hyx c ((h.mem _ hS).mp c.1.2) ⟨c.2, by rw [← h.dim (Or.inl hS)]; exact c.2.2⟩ rfl
    exact this.symm
  have hpos := hpd.dotProduct_mulVec_pos hy0
  rw [star_trivial] at hpos ⊢
  have : x' ⬝ᵥ (infoMatrix (graphTerms w') *ᵥ x') = y ⬝ᵥ (infoMatrix (graphTerms w) *ᵥ y) := by
    rw [dotProduct, dotProduct]
    refine Finset.sum_of_injOn (fun c => ⟨⟨c.1.1, (h.mem _ (hall _ c.1.2)).mp c.1.2⟩,
      ⟨c.2, by rw [← h.dim (Or.inl (hall _ c.1.2))]; exact c.2.2⟩⟩) ?_ ?_ ?_ ?_
    · rintro ⟨⟨a, ha⟩, k⟩ - ⟨⟨b, hb⟩, j⟩ - hab
      have h1 := congrArg (fun c : Cols w => c.1.1) hab
      dsimp only at h1
      subst h1
      have h2 : HEq (⟨(k : ℕ), _⟩ : Fin (w.nh a).dim) (⟨(j : ℕ), _⟩ : Fin (w.nh a).dim) := (Sigma.mk.inj hab).2
      have h3 : (k : ℕ) = j := by
        have := congrArg Fin.val (eq_of_heq h2)
        exact this
      obtain rfl : k = j := Fin.ext h3
      rfl
    · exact fun _ _ => Finset.mem_coe.mpr (Finset.mem_univ _)
    · rintro ⟨⟨a, ha⟩, k⟩ - hc
      have : ¬ S a := by
        intro hS
        refine hc ⟨⟨⟨a, (h.mem a hS).mpr ha⟩, ⟨k, by rw [h.dim (Or.inl hS)]; exact k.2⟩⟩, Finset.mem_coe.mpr (Finset.mem_univ _), rfl⟩
      rw [hy, patch, if_neg this]
      exact zero_mul _
    · intro c _
      have hS := hall _ c.1.2
      dsimp only
      rw [hyx c _ _ rfl, h.row hr hr' hspread hS _ c.1.2 _ c.2 rfl]
  rw [this]
  exact hpos

theorem moved_val {n : NRef} (hn : S n) {δ δ' : NRef → ℕ → ℝ} (hδ : δ' n = δ n) :
    ((w'.moved δ').nh n).val = ((w.moved δ).nh n).val := by
  change (if n ∈ w'.g.active then (w'.nh n).update (δ' n) else w'.nh n).val =
    (if n ∈ w.g.active then (w.nh n).update (δ n) else w.nh n).val
  rw [hδ]
  by_cases hm : n ∈ w.g.active
  · rw [if_pos hm, if_pos ((h.mem n hn).mpr hm)]
    have key : ∀ c : NodeCell, (c.update (δ n)).val = ⟨c.val.1, c.val.1.upd c.val.2 (c.val.1.ofFlat (δ n))⟩ := fun _ => rfl
    rw [key, key, h.val n (Or.inl hn)]
  · rw [if_neg hm, if_neg fun h' => hm ((h.mem n hn).mp h'), h.val n (Or.inl hn)]

end Part

theorem spread_neg (x : Cols w → ℝ) (n : NRef) : w.spread (-x) n = -w.spread x n := by
  funext k
  rw [Pi.neg_apply, World.spread, World.spread]
  split
  · rfl
  · exact neg_zero.symm

end World

namespace FGraphSolve

variable {S F : NRef → Prop}

/-- A Gauss-Newton step. -/
theorem gn_part {env env' : Env} (henv : env.Sound) (henv' : env'.Sound) {s s' s1 s1' : FGraphSolve}
    (h : World.Part S F s.w s'.w) (hw : WellPosed s.w) (hw' : WellPosed s'.w) (hr : NoRansac s.w) (hr' : NoRansac s'.w)
    (hpd : (Spec.infoMatrix (graphTerms s.w)).PosDef) {k k' : ℕ} {l l' t t' : ℝ} (h1 : s.solve env .GN k l t = .ok s1)
    (h1' : s'.solve env' .GN k' l' t' = .ok s1') {n : NRef} (hn : S n) : (s1'.w.nh n).val = (s1.w.nh n).val := by
  obtain ⟨dx, hdx, hw1⟩ := gn_ok hw h1
  obtain ⟨dx', hdx', hw1'⟩ := gn_ok hw' h1'
  have hx := normal_solution henv hw hdx
  have hx' := normal_solution henv' hw' hdx'
  have e : ∀ (w : World) δ n, ((w.built.moved δ).nh n).val = ((w.moved δ).nh n).val := fun _ _ _ => rfl
  rw [hw1, hw1', e, e, moved_step hw.wired, moved_step hw'.wired]
  refine h.moved_val hn ?_
  have key := h.spread_eq hr hr' (l := 0) (by rw [zero_smul, add_zero]; exact hx) (by rw [zero_smul, add_zero]; exact hx')
    (fun z hz => by
      by_contra hne
      have := hpd.dotProduct_mulVec_pos hne
      rw [star_trivial] at this
      rw [zero_smul, add_zero] at hz
      exact lt_irrefl _ (hz ▸ this)) hn
  have e1 : World.step hw.wired dx = -fun c => dx (colEquiv hw.wired c) := rfl
  have e2 : World.step hw'.wired dx' = -fun c => dx' (colEquiv hw'.wired c) := rfl
  rw [e1, e2, World.spread_neg, World.spread_neg, key]

/-- One iteration of Levenberg-Marquardt with the same damping. -/
theorem trial_part {env env' : Env} (henv : env.Sound) (henv' : env'.Sound) {s s' s1 s1' : FGraphSolve} {d d' : ℝ}
    (h : World.Part S F s.w s'.w) (hw : WellPosed s.w) (hw' : WellPosed s'.w) (hr : NoRansac s.w) (hr' : NoRansac s'.w)
    (hl : 0 < s.lambda) (hl' : s'.lambda = s.lambda) (h1 : s.trial env = .ok (d, s1))
    (h1' : s'.trial env' = .ok (d', s1')) {n : NRef} (hn : S n) : (s1'.w.nh n).val = (s1.w.nh n).val := by
  obtain ⟨x, hx, hv, -, -⟩ := trial_model henv hw h1
  obtain ⟨x', hx', hv', -, -⟩ := trial_model henv' hw' h1'
  rw [hl'] at hx'
  rw [hv, hv']
  refine h.moved_val hn ?_
  rw [World.spread_neg, World.spread_neg, h.spread_eq hr hr' hx hx' (fun z hz => ?_) hn]
  have h2 : 0 ≤ z ⬝ᵥ (Spec.infoMatrix (graphTerms s.w) *ᵥ z) := by
    have := (terms_psd hw).dotProduct_mulVec_nonneg z
    rwa [star_trivial] at this
  rw [dotProduct_add, dotProduct_smul, smul_eq_mul] at hz
  have h3 : z ⬝ᵥ z = 0 := by
    rcases (dot_self_nonneg z).lt_or_eq with h5 | h5
    · have := mul_pos hl h5
      linarith
    · exact h5.symm
  exact dotProduct_self_eq_zero.mp h3

end FGraphSolve

/-! ### Histories -/

/-- Of the nodes of a factor that are not anchors, all or none are in `S`. -/
def Separate (S : NRef → Prop) (w₀ : World) (fs : List FRef) : Prop :=
  ∀ f ∈ fs, ∀ n ∈ (w₀.fh f).nbrs, ∀ m ∈ (w₀.fh f).nbrs, (w₀.nh n).mode ≠ .anchor → (w₀.nh m).mode ≠ .anchor → S n → S m

open Classical in
/-- The factors with a node in `S` that is not an anchor. -/
noncomputable def factorsAt (S : NRef → Prop) (w₀ : World) (fs : List FRef) : List FRef :=
  fs.filter fun f => ∃ n ∈ (w₀.fh f).nbrs, S n ∧ (w₀.nh n).mode ≠ .anchor

theorem World.part_run {S : NRef → Prop} {w₀ : World} (h₀ : w₀.g = emptyGraph) {ops ops' : List GraphOp} (hno : NoSetMode ops)
    (hno' : NoSetMode ops') (hN : ∀ n, S n → (n ∈ addedNodes ops' ↔ n ∈ addedNodes ops))
    (hsep : Separate S w₀ (addedFactors ops)) (hsep' : Separate S w₀ (addedFactors ops'))
    (hF : (factorsAt S w₀ (addedFactors ops')).Perm (factorsAt S w₀ (addedFactors ops))) :
    Part S (fun n => (w₀.nh n).mode = .anchor) (World.run ops w₀) (World.run ops' w₀) := by
  classical
  have hact : ∀ ops : List GraphOp, NoSetMode ops → ∀ n, n ∈ (World.run ops w₀).g.active ↔
      n ∈ addedNodes ops ∧ (w₀.nh n).mode = .standard := by
    intro ops hno n
    rw [run_active ops hno, h₀]
    simp only [emptyGraph, List.nil_append, List.mem_filter, decide_eq_true_eq]
  have hfac : ∀ ops : List GraphOp, (World.run ops w₀).g.factors = addedFactors ops := by
    intro ops; rw [run_factors, h₀]; rfl
  have hcl : ∀ ops : List GraphOp, Separate S w₀ (addedFactors ops) → ∀ f ∈ (World.run ops w₀).g.factors,
      Touches S (fun n => (w₀.nh n).mode = .anchor) ((World.run ops w₀).fh f) →
      ∀ n ∈ ((World.run ops w₀).fh f).nbrs, S n ∨ (w₀.nh n).mode = .anchor := by
    rintro ops hs f hf ⟨m, hm, hS, hA⟩ n hn
    rw [hfac] at hf
    rw [(run_fh_static ops w₀ f).2] at hm hn
    by_cases ha : (w₀.nh n).mode = .anchor
    · exact Or.inr ha
    · exact Or.inl (hs f hf m hm n hn hA ha hS)
  have hsum : ∀ (ops : List GraphOp) (V x y), partSum S (fun n => (w₀.nh n).mode = .anchor) (World.run ops w₀) V x y =
      ((factorsAt S w₀ (addedFactors ops)).map fun f => quadTerm V x y (w₀.fh f)).sum := by
    intro ops V x y
    rw [partSum, hfac, factorsAt]
    have e : (fun f => decide (Touches S (fun n => (w₀.nh n).mode = .anchor) ((World.run ops w₀).fh f))) =
        fun f => decide (∃ n ∈ (w₀.fh f).nbrs, S n ∧ (w₀.nh n).mode ≠ .anchor) := by
      funext f
      unfold Touches
      rw [(run_fh_static ops w₀ f).2]
      exact decide_eq_decide.mpr Iff.rfl
    rw [e]
    refine congrArg List.sum (List.map_congr_left fun f _ => ?_)
    unfold quadTerm
    rw [(run_fh_static ops w₀ f).1, (run_fh_static ops w₀ f).2]
  refine ⟨fun n hn => ?_, fun n hn => ?_, fun n _ => ?_, hcl ops hsep, hcl ops' hsep', fun V x y => ?_⟩
  · rw [hact _ hno, hact _ hno', hN n hn]
  · rw [hact _ hno, hact _ hno', hn]
    simp
  · rw [(run_nh_static ops w₀ n).1, (run_nh_static ops' w₀ n).1]
  · rw [hsum, hsum]
    exact (hF.map _).sum_eq

end Mrob
