import Verif.Lemmas.Wiring
import Verif.Spec.LeastSquares
import Mathlib.Data.Fintype.EquivFin

/-!
# The assembled problem in terms of the factors
-/

open Matrix

namespace Spec

variable {C : Type} [Fintype C]

theorem infoMatrix_apply (ts : List (Term C)) (i j : C) :
    infoMatrix ts i j = (ts.map fun t => (t.Jᵀ * t.W * t.J) i j).sum := by
  unfold infoMatrix
  induction ts with
  | nil => rfl
  | cons t ts ih => simp [Matrix.add_apply, ih]

theorem infoVector_apply (ts : List (Term C)) (i : C) :
    infoVector ts i = (ts.map fun t => ((t.Jᵀ * t.W) *ᵥ t.r) i).sum := by
  unfold infoVector
  induction ts with
  | nil => rfl
  | cons t ts ih => simp [ih]

end Spec

namespace Mrob

/-- The scalar unknowns of the problem: components of the active nodes. -/
abbrev Cols (w : World) : Type := (a : {a : NRef // a ∈ w.g.active}) × Fin (w.nh a).dim

/-- Weight of a factor at the current states, from the robust type, the last weight and `chi2`. -/
noncomputable def factorWeight (w : World) (f : FRef) : ℝ :=
  robustWeight (w.fh f).virt.robust (w.fh f).weight
    (Real.sqrt (factorChi2 (w.fh f).virt.W ((w.fh f).virt.res ((w.fh f).vals w.nh))))

/-- The measurement term of a factor at the current states: its residual, its Jacobian with one block per active node
(anchors have none), and its weighted information matrix. -/
noncomputable abbrev factorTerm (w : World) (f : FRef) : Spec.Term (Cols w) where
  m := (w.fh f).virt.dim
  r := (w.fh f).virt.res ((w.fh f).vals w.nh)
  J := Matrix.of fun l c =>
    blockEntry (fun n => (w.nh n).dim) ((w.fh f).virt.jac ((w.fh f).vals w.nh) l) c.1 c.2 0 (w.fh f).nbrs
  W := factorWeight w f • (w.fh f).virt.W

/-- All terms of the graph. -/
noncomputable def graphTerms (w : World) : List (Spec.Term (Cols w)) := w.g.factors.map (factorTerm w)

/-- Columns of the assembled matrices. -/
noncomputable def colEquiv {w : World} (hw : Wired w) : Cols w ≃ Fin w.g.stateDim :=
  Equiv.ofBijective
    (fun c => ⟨offset (fun n => (w.nh n).dim) w.g.active c.1 + c.2, by
      rw [hw.stateDim]; exact offset_lt c.1.2 c.2.2⟩) (by
    constructor
    · rintro ⟨⟨a, ha⟩, k⟩ ⟨⟨b, hb⟩, l⟩ h
      simp only [Fin.mk.injEq] at h
      obtain ⟨rfl, hkl⟩ := offset_inj ha hb k.2 l.2 h
      obtain rfl : k = l := Fin.ext hkl
      rfl
    · rintro ⟨i, hi⟩
      rw [hw.stateDim] at hi
      obtain ⟨a, ha, k, hk, e⟩ := exists_offset hw.active_nodup hi
      exact ⟨⟨⟨a, ha⟩, ⟨k, hk⟩⟩, Fin.ext e⟩)

theorem colEquiv_val {w : World} (hw : Wired w) (c : Cols w) :
    (colEquiv hw c : ℕ) = offset (fun n => (w.nh n).dim) w.g.active c.1 + c.2 := rfl

namespace World

/-- The world after `build_adjacency`. -/
noncomputable def built (w : World) : World := mapF (·.weighted) w.g.factors (mapF (·.full w.nh) w.g.factors w)

theorem built_fh {w : World} {f : FRef} (hf : f ∈ w.g.factors) : w.built.fh f = ((w.fh f).full w.nh).weighted := by
  rw [built, mapF_fh, if_pos hf, mapF_fh, if_pos hf]

theorem built_fh_of_notMem {w : World} {f : FRef} (hf : f ∉ w.g.factors) : w.built.fh f = w.fh f := by
  rw [built, mapF_fh, if_neg hf, mapF_fh, if_neg hf]

theorem total_congr {α : Type*} {d d' : α → ℕ} (as : List α) (h : ∀ a ∈ as, d a = d' a) : total d as = total d' as := by
  rw [total, total, List.map_congr_left h]

theorem _root_.Mrob.Wired.mapF {w : World} (hw : Wired w) {φ : FactorCell → FactorCell} (hv : ∀ c, (φ c).virt = c.virt)
    (hn : ∀ c, (φ c).nbrs = c.nbrs) (l : List FRef) : Wired (mapF φ l w) := by
  have hv' : ∀ f, ((World.mapF φ l w).fh f).virt = (w.fh f).virt := by
    intro f; rw [mapF_fh]; split
    · exact hv _
    · rfl
  have hn' : ∀ f, ((World.mapF φ l w).fh f).nbrs = (w.fh f).nbrs := by
    intro f; rw [mapF_fh]; split
    · exact hn _
    · rfl
  constructor
  · exact hw.active_nodup
  · exact hw.ids
  · exact hw.modes
  · intro f hf n hnn; rw [hn'] at hnn; exact hw.nbrs_active f hf n hnn
  · intro f hf; rw [hn']; exact hw.nbrs_nodup f hf
  · intro f hf
    have := hw.typed f hf
    rw [FactorCell.wellTyped] at this ⊢
    rw [hn', hv']; exact this
  · exact hw.stateDim
  · have : total (fun f => ((World.mapF φ l w).fh f).virt.dim) w.g.factors =
        total (fun f => (w.fh f).virt.dim) w.g.factors := total_congr _ fun f _ => by rw [hv']
    rw [mapF_g, this]; exact hw.obsDim

theorem _root_.Mrob.Wired.built {w : World} (hw : Wired w) : Wired w.built :=
  (hw.mapF (φ := (·.full w.nh)) (fun _ => rfl) (fun _ => rfl) w.g.factors).mapF (φ := (·.weighted))
    (fun _ => rfl) (fun _ => rfl) w.g.factors

theorem aIns_weighted (w : World) (l : List FRef) (ps : List (ℕ × ℕ)) (row : ℕ) (fs : List FRef) :
    (mapF (·.weighted) l w).aIns ps row fs = w.aIns ps row fs := by
  induction fs generalizing row with
  | nil => rfl
  | cons f fs ih =>
    have e1 : factorIns w.nh ps row ((mapF (·.weighted) l w).fh f) = factorIns w.nh ps row (w.fh f) := by
      rw [mapF_fh]; split <;> rfl
    have e2 : ((mapF (·.weighted) l w).fh f).virt.dim = (w.fh f).virt.dim := by
      rw [mapF_fh]; split <;> rfl
    rw [aIns, aIns, mapF_nh, e1, e2, ih]

/-- The matrices of a wired graph, by blocks. -/
noncomputable abbrev assembly (env : Env) (w : World) : Assembly :=
  ⟨w.g.obsDim, w.g.stateDim,
    Matrix.of fun i j => stack (fun f => (w.built.fh f).virt.dim)
      (fun f l => rowVal w.nh (colPairs w.nh 0 w.g.active) ((w.built.fh f).J l) (w.built.fh f).nbrs j) 0 w.g.factors i,
    Matrix.of fun i j => diagB (fun f => (w.built.fh f).virt.dim)
      (fun f l k => if l ≤ k then (w.built.fh f).weight * (w.built.fh f).virt.W l k else 0) 0 w.g.factors i j,
    fun i => w.built.rVec env.junk 0 w.g.factors i⟩

theorem insertA_ok {w : World} (hw : Wired w) : ∃ A, (SMat.empty w.g.obsDim w.g.stateDim).insertAll
    ((mapF (·.full w.nh) w.g.factors w).aIns (colPairs w.nh 0 w.g.active) 0 w.g.factors) = .ok A := by
  set w1 := mapF (·.full w.nh) w.g.factors w with hw1
  have hW1 : Wired w1 := hw.mapF (φ := (·.full w.nh)) (fun _ => rfl) (fun _ => rfl) w.g.factors
  rw [SMat.insertAll_empty_iff]
  refine ⟨fun e he => ⟨?_, aIns_bounds hW1 0 w.g.factors (fun _ h => h) e he⟩,
    aIns_nodup hW1 0 w.g.factors (fun _ h => h)⟩
  have := aIns_row _ _ _ _ e he
  have h2 := hW1.obsDim
  change total (fun f => (w1.fh f).virt.dim) w.g.factors ≤ w.g.obsDim at h2
  omega

theorem forAll_evalWeight_cases (l : List FRef) (w : World) :
    forAll evalWeight l w = .nan ∨ ∃ w', forAll evalWeight l w = .ok w' := by
  induction l generalizing w with
  | nil => exact Or.inr ⟨w, rfl⟩
  | cons f l ih =>
    rw [forAll, evalWeight]
    split
    · exact ih _
    · exact Or.inl rfl

theorem buildAdjacency_nan {w : World} (hw : Wired w)
    (hwt : ¬ ∀ f ∈ w.g.factors, ((w.fh f).full w.nh).weightable) (env : Env) : w.buildAdjacency env = .nan := by
  set w1 := mapF (·.full w.nh) w.g.factors w with hw1
  obtain ⟨A, hA⟩ := insertA_ok hw
  rw [buildAdjacency, forAll_evalFull _ _ hw.typed, Out.ok_bind]
  change ((SMat.empty w.g.obsDim w.g.stateDim).insertAll
      (w1.aIns (colPairs w.nh 0 w.g.active) 0 w.g.factors) >>= _) = _
  rw [hA, Out.ok_bind]
  change (forAll evalWeight w1.g.factors w1 >>= _) = _
  rcases forAll_evalWeight_cases w1.g.factors w1 with h | ⟨w', h⟩
  · rw [h, Out.nan_bind]
  · exfalso
    apply hwt
    intro f hf
    have := forAll_evalWeight_ok _ _ _ h f hf
    rwa [hw1, mapF_fh, if_pos hf] at this

/-- What `build_adjacency` produces for a wired graph. -/
theorem buildAdjacency_wired {w : World} (hw : Wired w)
    (hwt : ∀ f ∈ w.g.factors, ((w.fh f).full w.nh).weightable) (env : Env) :
    w.buildAdjacency env = .ok (w.built, w.assembly env) := by
  set w1 := mapF (·.full w.nh) w.g.factors w with hw1
  have hwb : w.built = mapF (·.weighted) w.g.factors w1 := rfl
  have hWb : Wired w.built := hw.built
  have hWm : ∃ W, (SMat.empty w.g.obsDim w.g.obsDim).insertAll (w.built.wIns 0 w.g.factors) = .ok W := by
    rw [SMat.insertAll_empty_iff]
    refine ⟨fun e he => ?_, wIns_nodup _ _ _⟩
    have := wIns_row _ _ _ e he
    have h2 := hWb.obsDim
    change total (fun f => (w.built.fh f).virt.dim) w.g.factors ≤ w.g.obsDim at h2
    omega
  obtain ⟨A, hA⟩ := insertA_ok hw
  obtain ⟨W, hWm⟩ := hWm
  have hwt1 : ∀ f ∈ w1.g.factors, (w1.fh f).weightable := by
    intro f hf
    have hf' : f ∈ w.g.factors := hf
    rw [hw1, mapF_fh, if_pos hf']
    exact hwt f hf'
  have eA : A.toMatrix w.g.obsDim w.g.stateDim = Matrix.of fun (i : Fin w.g.obsDim) (j : Fin w.g.stateDim) => stack (fun f => (w.built.fh f).virt.dim)
        (fun f l => rowVal w.nh (colPairs w.nh 0 w.g.active) ((w.built.fh f).J l) (w.built.fh f).nbrs j)
        0 w.g.factors i := by
    ext i j
    rw [SMat.toMatrix, Matrix.of_apply, Matrix.of_apply, SMat.insertAll_empty_get hA,
      ← aIns_weighted w1 w.g.factors, ← hwb, aIns_sum]
    rfl
  have eW : W.toMatrix w.g.obsDim w.g.obsDim = Matrix.of fun (i j : Fin w.g.obsDim) => diagB (fun f => (w.built.fh f).virt.dim)
        (fun f l k => if l ≤ k then (w.built.fh f).weight * (w.built.fh f).virt.W l k else 0) 0 w.g.factors i j := by
    ext i j
    rw [SMat.toMatrix, Matrix.of_apply, Matrix.of_apply, SMat.insertAll_empty_get hWm, wIns_sum]
  rw [buildAdjacency, forAll_evalFull _ _ hw.typed, Out.ok_bind]
  change ((SMat.empty w.g.obsDim w.g.stateDim).insertAll
      (w1.aIns (colPairs w.nh 0 w.g.active) 0 w.g.factors) >>= _) = _
  rw [hA, Out.ok_bind]
  change (forAll evalWeight w1.g.factors w1 >>= _) = _
  rw [forAll_evalWeight _ _ hwt1, Out.ok_bind]
  change ((SMat.empty w.g.obsDim w.g.obsDim).insertAll (w.built.wIns 0 w.g.factors) >>= _) = _
  rw [hWm, Out.ok_bind]
  change Out.ok (w.built, (⟨w.g.obsDim, w.g.stateDim, A.toMatrix w.g.obsDim w.g.stateDim,
    W.toMatrix w.g.obsDim w.g.obsDim, fun i => w.built.rVec env.junk 0 w.g.factors i⟩ : Assembly)) = _
  rw [eA, eW]

/-- Product of two rows through the symmetrised weight of a factor object. -/
noncomputable def contrib (c : FactorCell) (x y : (c : FactorCell) → Fin c.virt.dim → ℝ) : ℝ :=
  ∑ l, x c l * ∑ k, (if l ≤ k then c.weight * c.virt.W l k else c.weight * c.virt.W k l) * y c k

theorem assembled_quad {w : World} (hw : Wired w) (x y : (c : FactorCell) → Fin c.virt.dim → ℝ) (z : ℕ → ℝ)
    (hz : ∀ i, i < total (fun f => (w.built.fh f).virt.dim) w.g.factors →
      z i = stack (fun f => (w.built.fh f).virt.dim) (fun f => y (w.built.fh f)) 0 w.g.factors i) :
    ∑ i ∈ Finset.range w.g.obsDim,
      stack (fun f => (w.built.fh f).virt.dim) (fun f => x (w.built.fh f)) 0 w.g.factors i *
        ∑ j ∈ Finset.range w.g.obsDim,
          (if i ≤ j then diagB (fun f => (w.built.fh f).virt.dim)
            (fun f l k => if l ≤ k then (w.built.fh f).weight * (w.built.fh f).virt.W l k else 0) 0 w.g.factors i j
          else diagB (fun f => (w.built.fh f).virt.dim)
            (fun f l k => if l ≤ k then (w.built.fh f).weight * (w.built.fh f).virt.W l k else 0) 0 w.g.factors j i)
          * z j =
      (w.g.factors.map fun f => contrib ((w.fh f).full w.nh).weighted x y).sum := by
  have hS := fun i j => diagB_symm (dim := fun f => (w.built.fh f).virt.dim)
    (fun f l k => (w.built.fh f).weight * (w.built.fh f).virt.W l k) w.g.factors 0 i j
  simp only [hS]
  have hM : total (fun f => (w.built.fh f).virt.dim) w.g.factors ≤ w.g.obsDim := hw.built.obsDim
  rw [quad_stack _ _ _ _ _ hM z hz]
  congr 1
  apply List.map_congr_left
  intro f hf
  change contrib (w.built.fh f) x y = _
  rw [built_fh hf]

/-- Column `j` of the block of rows of a factor object. -/
noncomputable def rowAt (w : World) (j : ℕ) (c : FactorCell) (l : Fin c.virt.dim) : ℝ :=
  rowVal w.nh (colPairs w.nh 0 w.g.active) (c.J l) c.nbrs j

theorem assembly_L {w : World} (hw : Wired w) (env : Env) (i j : Fin w.g.stateDim) :
    (w.assembly env).L i j =
      (w.g.factors.map fun f => contrib ((w.fh f).full w.nh).weighted (w.rowAt i) (w.rowAt j)).sum := by
  rw [← assembled_quad hw (w.rowAt i) (w.rowAt j) _ (fun _ _ => rfl), Assembly.L, Matrix.mul_assoc, Matrix.mul_apply,
    Finset.sum_range]
  refine Finset.sum_congr rfl fun k _ => ?_
  rw [Matrix.mul_apply, Finset.sum_range]
  rfl

theorem assembly_b {w : World} (hw : Wired w) (env : Env) (i : Fin w.g.stateDim) :
    (w.assembly env).b i =
      (w.g.factors.map fun f => contrib ((w.fh f).full w.nh).weighted (w.rowAt i) (fun c l => c.r l)).sum := by
  rw [← assembled_quad hw (w.rowAt i) (fun c l => c.r l) (fun i => w.built.rVec env.junk 0 w.g.factors i)
    (fun i hi => rVec_eq_stack _ _ _ _ _ (Nat.zero_le _) (by rwa [Nat.zero_add])), Assembly.b, ← mulVec_mulVec,
    Finset.sum_range]
  change ∑ k : Fin w.g.obsDim, (assembly env w).A k i * ∑ l : Fin w.g.obsDim,
    symUpper (assembly env w).W k l * (assembly env w).r l = _
  refine Finset.sum_congr rfl fun k _ => ?_
  rw [Finset.sum_range]
  rfl

theorem rowAt_col {w : World} (hw : Wired w) (c : Cols w) {f : FRef} (hf : f ∈ w.g.factors)
    (l : Fin (w.fh f).virt.dim) :
    w.rowAt (colEquiv hw c) ((w.fh f).full w.nh).weighted l = (factorTerm w f).J l c := by
  rw [colEquiv_val]
  exact rowVal_eq hw _ _ (hw.nbrs_active f hf) c.1.2 c.2.2

/-- With a symmetric information matrix the symmetrised weight is the weight. -/
theorem contrib_eq {w : World} (f : FRef) (hs : ((w.fh f).virt.W).IsSymm)
    (x y : (c : FactorCell) → Fin c.virt.dim → ℝ) :
    contrib ((w.fh f).full w.nh).weighted x y =
      x ((w.fh f).full w.nh).weighted ⬝ᵥ ((factorTerm w f).W *ᵥ y ((w.fh f).full w.nh).weighted) := by
  rw [contrib, dotProduct]
  refine Finset.sum_congr rfl fun l _ => ?_
  congr 1
  change _ = ∑ k : Fin (w.fh f).virt.dim, (factorTerm w f).W l k * y ((w.fh f).full w.nh).weighted k
  refine Finset.sum_congr rfl fun k _ => ?_
  congr 1
  have e : (w.fh f).virt.W k l = (w.fh f).virt.W l k := hs.apply l k
  change (if l ≤ k then factorWeight w f * (w.fh f).virt.W l k else factorWeight w f * (w.fh f).virt.W k l) =
    factorWeight w f * (w.fh f).virt.W l k
  rw [e, ite_self]

theorem assembly_L_terms {w : World} (hw : Wired w) (env : Env) (hs : ∀ f ∈ w.g.factors, ((w.fh f).virt.W).IsSymm) :
    (w.assembly env).L.submatrix (colEquiv hw) (colEquiv hw) = Spec.infoMatrix (graphTerms w) := by
  ext c d
  rw [Matrix.submatrix_apply, assembly_L hw, Spec.infoMatrix_apply, graphTerms, List.map_map]
  congr 1
  refine List.map_congr_left fun f hf => ?_
  rw [contrib_eq f (hs f hf), Function.comp_apply, Matrix.mul_assoc, Matrix.mul_apply, dotProduct]
  refine Finset.sum_congr rfl fun l _ => ?_
  rw [rowAt_col hw c hf l]
  change _ = (factorTerm w f).J l c * ∑ k : Fin (w.fh f).virt.dim, (factorTerm w f).W l k * (factorTerm w f).J k d
  congr 1
  change ∑ k : Fin (w.fh f).virt.dim, (factorTerm w f).W l k *
    w.rowAt (colEquiv hw d) ((w.fh f).full w.nh).weighted k = _
  refine Finset.sum_congr rfl fun k _ => ?_
  rw [rowAt_col hw d hf k]

theorem assembly_b_terms {w : World} (hw : Wired w) (env : Env) (hs : ∀ f ∈ w.g.factors, ((w.fh f).virt.W).IsSymm) :
    (fun c => (w.assembly env).b (colEquiv hw c)) = Spec.infoVector (graphTerms w) := by
  ext c
  rw [assembly_b hw, Spec.infoVector_apply, graphTerms, List.map_map]
  congr 1
  refine List.map_congr_left fun f hf => ?_
  rw [contrib_eq f (hs f hf), Function.comp_apply, ← mulVec_mulVec, dotProduct]
  refine Finset.sum_congr rfl fun l _ => ?_
  rw [rowAt_col hw c hf l]
  rfl

/-- The weighted squared error of the graph at the current states. -/
noncomputable def cost (w : World) : ℝ :=
  (w.g.factors.map fun f => factorChi2 (w.fh f).virt.W ((w.fh f).virt.res ((w.fh f).vals w.nh))).sum

theorem chi2Stored_eq_sum (w : World) : w.chi2Stored = (w.g.factors.map fun f => (w.fh f).chi2).sum := by
  rw [chi2Stored, List.sum_eq_foldl]

theorem chi2Stored_built (w : World) : w.built.chi2Stored = w.cost := by
  rw [chi2Stored_eq_sum, cost]
  congr 1
  refine List.map_congr_left fun f hf => ?_
  have hf' : f ∈ w.g.factors := hf
  rw [built_fh hf']
  rfl

theorem chi2Eval_eq (w : World) (ht : ∀ f ∈ w.g.factors, (w.fh f).wellTyped w.nh) :
    w.chi2Eval = .ok (w.cost, mapF (·.resd w.nh) w.g.factors w) := by
  rw [chi2Eval, forAll_evalRes _ _ ht, Out.ok_bind, chi2Stored_eq_sum, cost]
  congr 2
  congr 1
  refine List.map_congr_left fun f hf => ?_
  have hf' : f ∈ w.g.factors := hf
  rw [mapF_fh, if_pos hf']
  rfl

end World

end Mrob
