import Verif.Lemmas.SolveStep
import Mathlib.Tactic.Module

/-!
# The Gauss-Newton step
-/

open Matrix

namespace Spec

variable {C : Type} [Fintype C]

theorem sum_mulVec (ts : List (Term C)) (f : Term C → Matrix C C ℝ) (x : C → ℝ) :
    (ts.map f).sum *ᵥ x = (ts.map fun t => f t *ᵥ x).sum := by
  induction ts with
  | nil => simp
  | cons t ts ih => simp [add_mulVec, ih]

theorem dotProduct_list_sum {α : Type*} (ts : List α) (f : α → C → ℝ) (x : C → ℝ) :
    x ⬝ᵥ (ts.map f).sum = (ts.map fun t => x ⬝ᵥ f t).sum := by
  induction ts with
  | nil => simp
  | cons t ts ih => simp [dotProduct_add, ih]

/-- Expansion at the increment `-x`. -/
theorem linearCost_at (ts : List (Term C)) (hs : ∀ t ∈ ts, t.W.IsSymm) (x δ : C → ℝ) :
    linearCost ts δ = linearCost ts (-x) + (δ + x) ⬝ᵥ (infoVector ts - infoMatrix ts *ᵥ x) +
      (δ + x) ⬝ᵥ (infoMatrix ts *ᵥ (δ + x)) / 2 := by
  unfold linearCost infoVector infoMatrix
  rw [sum_mulVec, sum_mulVec, dotProduct_sub, dotProduct_list_sum, dotProduct_list_sum, dotProduct_list_sum]
  induction ts with
  | nil => simp
  | cons t ts ih =>
    simp only [List.map_cons, List.sum_cons]
    rw [ih fun t ht => hs t (List.mem_cons_of_mem _ ht)]
    have ht := hs t List.mem_cons_self
    have key : (t.r + t.J *ᵥ δ) ⬝ᵥ (t.W *ᵥ (t.r + t.J *ᵥ δ)) / 2 =
        (t.r + t.J *ᵥ (-x)) ⬝ᵥ (t.W *ᵥ (t.r + t.J *ᵥ (-x))) / 2 + ((δ + x) ⬝ᵥ ((t.Jᵀ * t.W) *ᵥ t.r) -
          (δ + x) ⬝ᵥ ((t.Jᵀ * t.W * t.J) *ᵥ x)) + (δ + x) ⬝ᵥ ((t.Jᵀ * t.W * t.J) *ᵥ (δ + x)) / 2 := by
      have e1 : ∀ v : Fin t.m → ℝ, (δ + x) ⬝ᵥ ((t.Jᵀ * t.W) *ᵥ v) = (t.J *ᵥ (δ + x)) ⬝ᵥ (t.W *ᵥ v) := by
        intro v
        rw [← mulVec_mulVec, dotProduct_mulVec, vecMul_transpose]
      have e2 : ∀ v : C → ℝ, (δ + x) ⬝ᵥ ((t.Jᵀ * t.W * t.J) *ᵥ v) = (t.J *ᵥ (δ + x)) ⬝ᵥ (t.W *ᵥ (t.J *ᵥ v)) := by
        intro v
        rw [← mulVec_mulVec, e1]
      have e3 : t.r + t.J *ᵥ δ = (t.r + t.J *ᵥ (-x)) + t.J *ᵥ (δ + x) := by
        rw [mulVec_neg, mulVec_add]; abel
      have e4 : ∀ u v : Fin t.m → ℝ, u ⬝ᵥ (t.W *ᵥ v) = v ⬝ᵥ (t.W *ᵥ u) := by
        intro u v
        rw [dotProduct_mulVec, ← mulVec_transpose, ht.eq, dotProduct_comm]
      rw [e1, e2, e2, e3]
      set a := t.r + t.J *ᵥ (-x) with ha
      set d := t.J *ᵥ (δ + x) with hd
      have e5 : t.r = a + t.J *ᵥ x := by rw [ha, mulVec_neg]; abel
      have e6 : d ⬝ᵥ (t.W *ᵥ t.r) = d ⬝ᵥ (t.W *ᵥ a) + d ⬝ᵥ (t.W *ᵥ (t.J *ᵥ x)) := by
        rw [← dotProduct_add, ← mulVec_add, ← e5]
      clear_value a
      rw [e6, mulVec_add, add_dotProduct, dotProduct_add, dotProduct_add, e4 a d]
      ring
    rw [key]
    ring

/-- Completing the square. -/
theorem linearCost_eq (ts : List (Term C)) (hs : ∀ t ∈ ts, t.W.IsSymm) (x : C → ℝ)
    (hx : infoMatrix ts *ᵥ x = infoVector ts) (δ : C → ℝ) :
    linearCost ts δ = linearCost ts (-x) + (δ + x) ⬝ᵥ (infoMatrix ts *ᵥ (δ + x)) / 2 := by
  rw [linearCost_at ts hs x δ, hx, sub_self, dotProduct_zero, add_zero]

/-- A damped step does not increase the linearised cost. -/
theorem linearCost_damped (ts : List (Term C)) (hs : ∀ t ∈ ts, t.W.IsSymm) (hp : (infoMatrix ts).PosSemidef) {l : ℝ}
    (hl : 0 ≤ l) (x : C → ℝ) (hx : infoMatrix ts *ᵥ x + l • x = infoVector ts) :
    linearCost ts (-x) ≤ linearCost ts 0 := by
  rw [linearCost_at ts hs x 0, ← hx, zero_add, add_sub_cancel_left, dotProduct_smul, smul_eq_mul]
  have h1 := hp.dotProduct_mulVec_nonneg x
  rw [star_trivial] at h1
  have h2 : 0 ≤ x ⬝ᵥ x := Finset.sum_nonneg fun i _ => mul_self_nonneg _
  have h3 := mul_nonneg hl h2
  linarith

end Spec

namespace Mrob

namespace World

variable {w : World}

/-- Increments by node and component; zero for nodes that are not active. -/
noncomputable def spread (w : World) (δ : Cols w → ℝ) (n : NRef) (k : ℕ) : ℝ :=
  if h : n ∈ w.g.active ∧ k < (w.nh n).dim then δ ⟨⟨n, h.1⟩, ⟨k, h.2⟩⟩ else 0

theorem spread_apply (δ : Cols w → ℝ) (c : Cols w) : w.spread δ c.1 c.2 = δ c := by
  rw [spread, dif_pos ⟨c.1.2, c.2.2⟩]

theorem spread_of_notMem (δ : Cols w → ℝ) {n : NRef} (h : n ∉ w.g.active) (k : ℕ) : w.spread δ n k = 0 := by
  rw [spread, dif_neg fun h' => h h'.1]

theorem _root_.Mrob.NodeCell.update_congr (c : NodeCell) {v v' : ℕ → ℝ} (h : ∀ k < c.dim, v k = v' k) :
    c.update v = c.update v' := by
  obtain ⟨k, o, i, m, l⟩ := c
  have : k.ofFlat v = k.ofFlat v' := by
    cases k with
    | pose2d => exact funext fun i => h _ i.2
    | pose3d =>
      funext i
      rcases i with i | i
      · exact h _ (by change (i : ℕ) < 6; omega)
      · exact h (3 + i) (by change 3 + (i : ℕ) < 6; omega)
    | landmark2d => exact funext fun i => h _ i.2
    | landmark3d => exact funext fun i => h _ i.2
    | plane4d =>
      funext i
      rcases i with i | i
      · exact h _ (by change (i : ℕ) < 4; omega)
      · exact h 3 (by change 3 < 4; omega)
  rw [NodeCell.update, NodeCell.update]
  dsimp only
  rw [this]

/-- The step of the solver, by columns. -/
noncomputable def step (hw : Wired w) (dx : Fin w.g.stateDim → ℝ) : Cols w → ℝ := fun c => -dx (colEquiv hw c)

theorem moved_step (hw : Wired w) (dx : Fin w.g.stateDim → ℝ) :
    w.moved (w.unstack dx) = w.moved (w.spread (step hw dx)) := by
  rw [moved, moved]
  congr 1
  funext n
  by_cases hn : n ∈ w.g.active
  · rw [if_pos hn, if_pos hn]
    refine NodeCell.update_congr _ fun k hk => ?_
    rw [spread, dif_pos ⟨hn, hk⟩, unstack, dxBlock, dif_pos (by rw [hw.stateDim]; exact offset_lt hn hk), step]
    rfl
  · rw [if_neg hn, if_neg hn]

/-- Blocks of a row applied to an increment. -/
noncomputable def rowApply (w : World) (δ : Cols w → ℝ) (Jl : ℕ → ℝ) : ℕ → List NRef → ℝ
  | _, [] => 0
  | tk, n :: ns => ∑ k : Fin (w.nh n).dim, Jl (tk + k) * w.spread δ n k + rowApply w δ Jl (tk + (w.nh n).dim) ns

theorem sum_blockEntry (δ : Cols w → ℝ) (Jl : ℕ → ℝ) (nbrs : List NRef) : ∀ tk,
    ∑ c : Cols w, blockEntry (fun n => (w.nh n).dim) Jl c.1 c.2 tk nbrs * δ c = w.rowApply δ Jl tk nbrs := by
  induction nbrs with
  | nil => intro tk; simp [blockEntry, rowApply]
  | cons n ns ih =>
    intro tk
    simp only [blockEntry, add_mul, Finset.sum_add_distrib, ih, rowApply]
    congr 1
    rw [Fintype.sum_sigma]
    by_cases hn : n ∈ w.g.active
    · rw [Finset.sum_eq_single ⟨n, hn⟩]
      · refine Finset.sum_congr rfl fun k _ => ?_
        rw [if_pos rfl, ← spread_apply δ ⟨⟨n, hn⟩, k⟩]
      · intro a _ ha
        refine Finset.sum_eq_zero fun k _ => ?_
        rw [if_neg (fun h => ha (Subtype.ext h.symm)), zero_mul]
      · intro h; exact absurd (Finset.mem_univ _) h
    · rw [Finset.sum_eq_zero, Finset.sum_eq_zero]
      · intro k _; rw [spread_of_notMem δ hn, mul_zero]
      · intro a _
        refine Finset.sum_eq_zero fun k _ => ?_
        rw [if_neg (fun h : n = a.1 => hn (h ▸ a.2)), zero_mul]

theorem term_mulVec (f : FRef) (δ : Cols w → ℝ) (l : Fin (w.fh f).virt.dim) :
    ((factorTerm w f).J *ᵥ δ) l = w.rowApply δ ((w.fh f).virt.jac ((w.fh f).vals w.nh) l) 0 (w.fh f).nbrs :=
  sum_blockEntry δ _ _ 0

/-- The residuals are affine functions of the increments. -/
def Affine (w : World) : Prop := ∀ f ∈ w.g.factors, ∀ δ : Cols w → ℝ,
  (w.fh f).virt.res ((w.fh f).nbrs.map fun n => ((w.moved (w.spread δ)).nh n).val) =
    (factorTerm w f).r + (factorTerm w f).J *ᵥ δ

theorem cost_moved (ha : Affine w) (hq : ∀ f ∈ w.g.factors, (w.fh f).virt.robust = .quadratic) (δ : Cols w → ℝ) :
    (w.moved (w.spread δ)).cost = Spec.linearCost (graphTerms w) δ := by
  rw [cost, Spec.linearCost, graphTerms, List.map_map]
  change (List.map _ w.g.factors).sum = _
  congr 1
  refine List.map_congr_left fun f hf => ?_
  have h1 : factorChi2 (w.fh f).virt.W
      ((w.fh f).virt.res ((w.fh f).nbrs.map fun n => ((w.moved (w.spread δ)).nh n).val)) = _ :=
    congrArg (factorChi2 (w.fh f).virt.W) (ha f hf δ)
  have h2 : factorWeight w f = 1 := by rw [factorWeight, hq f hf]; rfl
  have h3 : (factorTerm w f).W = (w.fh f).virt.W := by change factorWeight w f • (w.fh f).virt.W = _; rw [h2, one_smul]
  rw [Function.comp_apply, h3]
  refine h1.trans ?_
  rw [factorChi2]
  ring

end World

namespace FGraphSolve

open World

/-- What `solve(GN)` leaves behind. -/
theorem gn_ok {env : Env} {s s' : FGraphSolve} (hw : WellPosed s.w) {k : ℕ} {l t : ℝ}
    (h : s.solve env .GN k l t = .ok s') : ∃ dx : Fin s.w.g.stateDim → ℝ,
      env.chol _ (s.w.assembly env).L (s.w.assembly env).b = some dx ∧
      s'.w = s.w.built.moved (s.w.unstack dx) := by
  change (FGraphSolve.gaussNewton env false _ >>= fun s => s.update) = _ at h
  obtain ⟨s1, h1, h⟩ := Out.bind_eq_ok.mp h
  obtain ⟨a, dx, h2, h3, -, rfl⟩ := gaussNewton_ok h1
  have h2' : s.w.buildAdjacency env = .ok (s.w.built, a) := h2
  rw [buildAdjacency_wired hw.wired hw.weightable env, Out.ok.injEq, Prod.mk.injEq] at h2'
  obtain ⟨-, rfl⟩ := h2'
  obtain ⟨w, h4, rfl⟩ := update_ok h
  change updateNodes dx 0 s.w.built.g.active s.w.built = .ok w at h4
  have h5 := updateNodes_wired ((frame_built s.w).wired hw.wired) (N := (s.w.assembly env).N) rfl dx
  rw [h5, Out.ok.injEq] at h4
  exact ⟨dx, h3, h4.symm⟩

theorem gn_eq {env : Env} {s : FGraphSolve} (hw : WellPosed s.w) {k : ℕ} {l t : ℝ} {dx : Fin s.w.g.stateDim → ℝ}
    (h : env.chol _ (s.w.assembly env).L (s.w.assembly env).b = some dx) : ∃ s', s.solve env .GN k l t = .ok s' := by
  have hg := gaussNewton_eq (s := { s with lambda := l, tol := t }) (ul := false)
    (buildAdjacency_wired hw.wired hw.weightable env) h
  refine ⟨⟨s.w.built.moved (s.w.unstack dx), l, t, ⟨_, (s.w.assembly env).L, (s.w.assembly env).b, dx⟩, s.w.assembly env⟩, ?_⟩
  change (FGraphSolve.gaussNewton env false _ >>= fun s => s.update) = _
  rw [hg, Out.ok_bind, update]
  change (updateNodes dx 0 s.w.built.g.active s.w.built >>= _) = _
  rw [updateNodes_wired ((frame_built s.w).wired hw.wired) (N := (s.w.assembly env).N) rfl dx]
  rfl

theorem normal_solution {env : Env} (henv : env.Sound) {w : World} (hw : WellPosed w) {dx : Fin w.g.stateDim → ℝ}
    (h : env.chol _ (w.assembly env).L (w.assembly env).b = some dx) :
    Spec.infoMatrix (graphTerms w) *ᵥ (fun c => dx (colEquiv hw.wired c)) = Spec.infoVector (graphTerms w) := by
  have h1 := henv _ _ _ _ h
  rw [← assembly_L_terms hw.wired env hw.symm, ← assembly_b_terms hw.wired env hw.symm]
  funext c
  rw [← h1, mulVec, mulVec, dotProduct, dotProduct]
  exact (colEquiv hw.wired).sum_comp (fun i => (w.assembly env).L (colEquiv hw.wired c) i * dx i)

theorem damped_solution {env : Env} (henv : env.Sound) {w : World} (hw : WellPosed w) {l : ℝ}
    {dx : Fin w.g.stateDim → ℝ} (h : env.chol _ (damped true l (w.assembly env).L) (w.assembly env).b = some dx) :
    Spec.infoMatrix (graphTerms w) *ᵥ (fun c => dx (colEquiv hw.wired c)) + l • (fun c => dx (colEquiv hw.wired c)) =
      Spec.infoVector (graphTerms w) := by
  have h1 := henv _ _ _ _ h
  rw [← assembly_L_terms hw.wired env hw.symm, ← assembly_b_terms hw.wired env hw.symm]
  funext c
  have h2 := congrFun h1 (colEquiv hw.wired c)
  rw [damped, if_pos rfl, add_mulVec, smul_mulVec, one_mulVec] at h2
  rw [← h2, Pi.add_apply, Pi.add_apply]
  congr 1
  rw [mulVec, mulVec, dotProduct, dotProduct]
  exact (colEquiv hw.wired).sum_comp (fun i => (w.assembly env).L (colEquiv hw.wired c) i * dx i)

end FGraphSolve

end Mrob
