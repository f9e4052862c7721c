import Mathlib.Analysis.Matrix.Order
import Verif.Lemmas.DenseStep
import Verif.Lemmas.Damping
import Verif.Props.Dense
import Verif.Props.GaussNewton

/-!
# C80: the step of the dense solver
-/

open Matrix

namespace Mrob

open World

/-- C80: an iteration of the dense solver adds to the nodes a step that solves the normal equations, with the damping of
the method, in which every factor counts once for each of its nodes on the right-hand side. -/
theorem C80_step (s s' : OptDense World) (b : Bool) (hw : DenseWired s.obj) (h : s.oneIteration denseGraph b = .ok s') :
    ∃ step : Cols s.obj → ℝ,
      (∀ n, (s'.obj.nh n).val = if n ∈ s.obj.g.nodes then
        ⟨(s.obj.nh n).kind, (s.obj.nh n).kind.upd (s.obj.nh n).obj.state ((s.obj.nh n).kind.ofFlat (s.obj.spread step n))⟩
        else (s.obj.nh n).val) ∧
      (b = false ∨ s.method = .newtonRaphson →
        Spec.infoMatrix (s.obj.g.factors.map (plainTerm s.obj)) *ᵥ step = -denseVector s.obj) ∧
      (b = true → s.method = .lmSpher →
        Spec.infoMatrix (s.obj.g.factors.map (plainTerm s.obj)) *ᵥ step + s.lambda • step = -denseVector s.obj) ∧
      (b = true → s.method = .lmEllip →
        Spec.infoMatrix (s.obj.g.factors.map (plainTerm s.obj)) *ᵥ step + s.lambda •
          (fun c => Spec.infoMatrix (s.obj.g.factors.map (plainTerm s.obj)) c c * step c) = -denseVector s.obj) := by
  obtain ⟨H, dx, h1, -, h3, -, h5⟩ := OptDense.oneIteration_step hw h
  have hM := OptDense.submatrix_mulVec' (colEquiv hw.wired) H dx
  rw [h1] at hM
  refine ⟨-fun c => dx (colEquiv hw.wired c), fun n => ?_, fun hb => ?_, fun hb hm => ?_, fun hb hm => ?_⟩
  · rw [h5, hw.nodes]
    change (if n ∈ s.obj.g.active then (s.obj.nh n).update _ else s.obj.nh n).val = _
    split_ifs <;> rfl
  · have e : (if b then OptDense.damp s.method s.lambda H else H) = H := by
      rcases hb with rfl | hb
      · rfl
      · rw [hb]; split_ifs <;> rfl
    rw [e] at h3
    rw [mulVec_neg, hM, h3]
  · subst hb
    rw [if_pos rfl, hm] at h3
    rw [← h3, mulVec_neg, hM]
    funext c
    have e : OptDense.damp .lmSpher s.lambda H = H + s.lambda • (1 : Matrix _ _ ℝ) := by
      ext i j
      by_cases hij : i = j
      · subst hij; simp [OptDense.damp]
      · simp [OptDense.damp, hij]
    rw [e, add_mulVec, smul_mulVec, one_mulVec]
    simp only [Pi.add_apply, Pi.neg_apply, Pi.smul_apply, smul_eq_mul]
    ring
  · subst hb
    rw [if_pos rfl, hm] at h3
    rw [← h3, mulVec_neg, hM]
    funext c
    have e : OptDense.damp .lmEllip s.lambda H = H + s.lambda • Matrix.diagonal H.diag := by
      ext i j
      by_cases hij : i = j
      · subst hij; simp [OptDense.damp]; ring
      · simp [OptDense.damp, hij]
    have e2 : ∀ c, Spec.infoMatrix (s.obj.g.factors.map (plainTerm s.obj)) c c = H (colEquiv hw.wired c) (colEquiv hw.wired c) :=
      fun c => by rw [← h1]; rfl
    rw [e, add_mulVec, smul_mulVec]
    simp only [Pi.add_apply, Pi.neg_apply, Pi.smul_apply, smul_eq_mul, mulVec_diagonal, e2, Matrix.diag_apply]
    ring

/-- The iteration of Newton-Raphson on graphs of one-node factors, in terms of the linearised problem. -/
theorem newton_model {s s' : OptDense World} (hw : DenseWired s.obj) (hp : WellPosed s.obj)
    (hq : ∀ f ∈ s.obj.g.factors, (s.obj.fh f).virt.robust = .quadratic)
    (hn : ∀ f ∈ s.obj.g.factors, (s.obj.fh f).nbrs.length = 1) (h : s.oneIteration denseGraph false = .ok s') :
    ∃ x : Cols s.obj → ℝ, Spec.infoMatrix (graphTerms s.obj) *ᵥ x = Spec.infoVector (graphTerms s.obj) ∧
      (Spec.infoMatrix (graphTerms s.obj)).PosDef ∧
      ∀ n, (s'.obj.nh n).val = ((s.obj.moved (s.obj.spread (-x))).nh n).val := by
  obtain ⟨H, dx, h1, h2, h3, -, h5⟩ := OptDense.oneIteration_step hw h
  have ht : s.obj.g.factors.map (plainTerm s.obj) = graphTerms s.obj := List.map_congr_left fun f hf => plainTerm_eq (hq f hf)
  rw [ht] at h1
  have hg : denseVector s.obj = Spec.infoVector (graphTerms s.obj) := by
    rw [denseVector, Spec.infoVector, graphTerms, List.map_map]
    congr 1
    refine List.map_congr_left fun f hf => ?_
    rw [hn f hf, Nat.cast_one, one_smul, plainTerm_eq (hq f hf)]
    rfl
  refine ⟨fun c => dx (colEquiv hw.wired c), ?_, ?_, h5⟩
  · rw [← h1, OptDense.submatrix_mulVec', ← hg]
    exact h3
  · have hpsd := FGraphSolve.terms_psd hp
    refine Matrix.PosDef.of_dotProduct_mulVec_pos hpsd.isHermitian fun {x} hx => ?_
    refine lt_of_le_of_ne (hpsd.dotProduct_mulVec_nonneg x) fun h0 => hx ?_
    have h6 : Spec.infoMatrix (graphTerms s.obj) *ᵥ x = 0 := (Matrix.PosSemidef.dotProduct_mulVec_zero_iff hpsd x).mp h0.symm
    have h7 : H *ᵥ (fun i => x ((colEquiv hw.wired).symm i)) = 0 := by
      funext i
      have := congrFun (OptDense.submatrix_mulVec' (colEquiv hw.wired) H fun i => x ((colEquiv hw.wired).symm i))
        ((colEquiv hw.wired).symm i)
      rw [h1] at this
      simp only [Equiv.symm_apply_apply, Equiv.apply_symm_apply] at this
      rw [← this, h6]
      rfl
    have h8 : IsUnit H.det := h2
    have h9 : (fun i => x ((colEquiv hw.wired).symm i)) = 0 := by
      have := congrArg (fun v => H⁻¹ *ᵥ v) h7
      simpa [mulVec_mulVec, Matrix.nonsing_inv_mul _ h8] using this
    funext c
    have := congrFun h9 (colEquiv hw.wired c)
    simpa using this

/-- C80 on graphs of one-node factors without robust weights: an iteration of Newton-Raphson moves the nodes by the unique
minimiser of the linearised cost, and leaves them where `solve(GN)` of the other solver leaves them.  Missing: graphs with
other factors, where this is false. -/
theorem C80_one_node_partial (s s' : OptDense World) (hw : DenseWired s.obj) (hp : WellPosed s.obj)
    (hq : ∀ f ∈ s.obj.g.factors, (s.obj.fh f).virt.robust = .quadratic)
    (hn : ∀ f ∈ s.obj.g.factors, (s.obj.fh f).nbrs.length = 1) (h : s.oneIteration denseGraph false = .ok s') :
    (∃ step : Cols s.obj → ℝ,
      (∀ n, (s'.obj.nh n).val = if n ∈ s.obj.g.nodes then
        ⟨(s.obj.nh n).kind, (s.obj.nh n).kind.upd (s.obj.nh n).obj.state ((s.obj.nh n).kind.ofFlat (s.obj.spread step n))⟩
        else (s.obj.nh n).val) ∧
      ∀ δ, δ ≠ step → Spec.linearCost (graphTerms s.obj) step < Spec.linearCost (graphTerms s.obj) δ) ∧
    ∀ (env : Env), env.Sound → ∀ (t t' : FGraphSolve) (k : ℕ) (l tol : ℝ), t.w = s.obj → t.solve env .GN k l tol = .ok t' →
      ∀ n, (t'.w.nh n).val = (s'.obj.nh n).val := by
  obtain ⟨x, h1, h2, h3⟩ := newton_model hw hp hq hn h
  refine ⟨⟨-x, fun n => ?_, fun δ hδ => ?_⟩, fun env henv t t' k l tol ht hs n => ?_⟩
  · rw [h3, hw.nodes]
    change (if n ∈ s.obj.g.active then (s.obj.nh n).update _ else s.obj.nh n).val = _
    split_ifs <;> rfl
  · rw [Spec.linearCost_eq _ (FGraphSolve.terms_symm hp) x h1 δ]
    have h4 : δ + x ≠ 0 := fun h0 => hδ (eq_neg_of_add_eq_zero_left h0)
    have := h2.dotProduct_mulVec_pos h4
    rw [star_trivial] at this
    linarith
  · obtain ⟨w, l₀, t₀, sys₀⟩ := t
    change w = s.obj at ht
    subst ht
    obtain ⟨dx, k1, k2⟩ := FGraphSolve.gn_ok hp hs
    have k3 := FGraphSolve.normal_solution henv hp k1
    have k4 : (fun c => dx (colEquiv hp.wired c)) = x := by
      have h5 : Spec.infoMatrix (graphTerms s.obj) *ᵥ ((fun c => dx (colEquiv hp.wired c)) - x) = 0 := by
        rw [mulVec_sub, k3, h1, sub_self]
      by_contra hne
      have := h2.dotProduct_mulVec_pos (sub_ne_zero.mpr hne)
      rw [h5, dotProduct_zero] at this
      exact lt_irrefl _ this
    rw [k2, h3]
    have e : (s.obj.built.moved (s.obj.unstack dx)).nh n = (s.obj.moved (s.obj.unstack dx)).nh n := rfl
    rw [e, moved_step hp.wired, ← k4]
    rfl

/-! ### The two poses at the minimum -/

namespace Demo

theorem best_dim (n : NRef) : (best.nh n).dim = 3 := by
  have h2 : (best.nh n).kind = .pose2d := run_kind _ _ _
  rw [NodeCell.dim, h2]; rfl

theorem best_sum (n : NRef) (F : ℕ → ℝ) : ∑ k : Fin (best.nh n).dim, F k = ∑ k : Fin 3, F k := by
  rw [best_dim]

theorem best_row0 (x : Cols best → ℝ) (l : Fin 3) : ((plainTerm best 0).J *ᵥ x) l = best.spread x 0 l := by
  refine (term_mulVec (w := best) 0 x l).trans ?_
  change ∑ k : Fin (best.nh 0).dim, blk prior2dJac l (0 + k) * best.spread x 0 k + 0 = _
  rw [best_sum 0 fun k => blk prior2dJac l (0 + k) * best.spread x 0 k]
  fin_cases l <;> simp [Fin.sum_univ_three, blk, prior2dJac] <;>
    exact (congrArg (· * _) (Matrix.one_apply_eq (_ : Fin 3))).trans (one_mul _)

theorem best_row1 (x : Cols best → ℝ) (l : Fin 3) : ((plainTerm best 1).J *ᵥ x) l = best.spread x 1 l := by
  refine (term_mulVec (w := best) 1 x l).trans ?_
  change ∑ k : Fin (best.nh 1).dim, blk prior2dJac l (0 + k) * best.spread x 1 k + 0 = _
  rw [best_sum 1 fun k => blk prior2dJac l (0 + k) * best.spread x 1 k]
  fin_cases l <;> simp [Fin.sum_univ_three, blk, prior2dJac] <;>
    exact (congrArg (· * _) (Matrix.one_apply_eq (_ : Fin 3))).trans (one_mul _)

theorem best_row2 (x : Cols best → ℝ) (l : Fin 3) (h1 : best.spread x 0 1 = 0) (h2 : best.spread x 0 2 = 0)
    (h3 : best.spread x 1 1 = 0) (h4 : best.spread x 1 2 = 0) :
    ((plainTerm best 2).J *ᵥ x) l = (![best.spread x 1 0 - best.spread x 0 0, 0, 0] : Vec3) l := by
  refine (term_mulVec (w := best) 2 x l).trans ?_
  change ∑ k : Fin (best.nh 0).dim, blk2 (rel2dJac ![1, 0, 0] ![2, 0, 0]).1 (rel2dJac ![1, 0, 0] ![2, 0, 0]).2 l (0 + k) *
    best.spread x 0 k + (∑ k : Fin (best.nh 1).dim,
      blk2 (rel2dJac ![1, 0, 0] ![2, 0, 0]).1 (rel2dJac ![1, 0, 0] ![2, 0, 0]).2 l (0 + (best.nh 0).dim + k) *
        best.spread x 1 k + 0) = _
  rw [best_sum 0 fun k => blk2 (rel2dJac ![1, 0, 0] ![2, 0, 0]).1 (rel2dJac ![1, 0, 0] ![2, 0, 0]).2 l (0 + k) *
    best.spread x 0 k, best_sum 1 fun k => blk2 (rel2dJac ![1, 0, 0] ![2, 0, 0]).1 (rel2dJac ![1, 0, 0] ![2, 0, 0]).2 l
      (0 + (best.nh 0).dim + k) * best.spread x 1 k, best_dim]
  fin_cases l <;> simp [Fin.sum_univ_three, blk, blk2, rel2dJac, h1, h2, h3, h4] <;> ring

/-- `Jᵀ J x` of a factor. -/
theorem best_quad (f : FRef) (hf : f ∈ best.g.factors) (x : Cols best → ℝ) :
    ((plainTerm best f).Jᵀ * (plainTerm best f).W * (plainTerm best f).J) *ᵥ x =
      ((plainTerm best f).Jᵀ * (plainTerm best f).W) *ᵥ ((plainTerm best f).J *ᵥ x) := by
  rw [mulVec_mulVec]

theorem best_info (x : Cols best → ℝ) : Spec.infoMatrix (best.g.factors.map (plainTerm best)) *ᵥ x =
    ((plainTerm best 0).Jᵀ * (plainTerm best 0).W) *ᵥ ((plainTerm best 0).J *ᵥ x) +
    (((plainTerm best 1).Jᵀ * (plainTerm best 1).W) *ᵥ ((plainTerm best 1).J *ᵥ x) +
    ((plainTerm best 2).Jᵀ * (plainTerm best 2).W) *ᵥ ((plainTerm best 2).J *ᵥ x)) := by
  rw [Spec.infoMatrix, List.map_map, show best.g.factors = [0, 1, 2] from rfl]
  simp only [List.map_cons, List.map_nil, List.sum_cons, List.sum_nil, Function.comp_apply, add_zero, add_mulVec,
    ← mulVec_mulVec]

theorem best_dot (f : FRef) (hf : (plainTerm best f).W = 1) (x : Cols best → ℝ) :
    x ⬝ᵥ (((plainTerm best f).Jᵀ * (plainTerm best f).W) *ᵥ ((plainTerm best f).J *ᵥ x)) =
      ((plainTerm best f).J *ᵥ x) ⬝ᵥ ((plainTerm best f).J *ᵥ x) := by
  rw [hf, Matrix.mul_one, dotProduct_mulVec, vecMul_transpose]

/-- The information matrix is injective. -/
theorem best_inj (x : Cols best → ℝ) (h : Spec.infoMatrix (best.g.factors.map (plainTerm best)) *ᵥ x = 0) : x = 0 := by
  have h1 : x ⬝ᵥ (Spec.infoMatrix (best.g.factors.map (plainTerm best)) *ᵥ x) = x ⬝ᵥ 0 := by rw [h]
  rw [best_info, dotProduct_add, dotProduct_add, dotProduct_zero, best_dot 0 rfl, best_dot 1 rfl, best_dot 2 rfl] at h1
  have n0 := Spec.dot_self_nonneg ((plainTerm best 0).J *ᵥ x)
  have n1 := Spec.dot_self_nonneg ((plainTerm best 1).J *ᵥ x)
  have n2 := Spec.dot_self_nonneg ((plainTerm best 2).J *ᵥ x)
  have z0 := dotProduct_self_eq_zero.mp (show ((plainTerm best 0).J *ᵥ x) ⬝ᵥ ((plainTerm best 0).J *ᵥ x) = 0 by linarith)
  have z1 := dotProduct_self_eq_zero.mp (show ((plainTerm best 1).J *ᵥ x) ⬝ᵥ ((plainTerm best 1).J *ᵥ x) = 0 by linarith)
  funext c
  rw [← spread_apply x c]
  obtain ⟨⟨n, hn⟩, k⟩ := c
  have hk : (k : ℕ) < 3 := by rw [← best_dim n]; exact k.2
  rcases (by simpa using (show n ∈ [0, 1] from hn) : n = 0 ∨ n = 1) with rfl | rfl
  · exact (best_row0 x ⟨k, hk⟩).symm.trans (congrFun z0 ⟨k, hk⟩)
  · exact (best_row1 x ⟨k, hk⟩).symm.trans (congrFun z1 ⟨k, hk⟩)

/-- The negative of the step of the dense solver at the minimum. -/
noncomputable def bestDx : Cols best → ℝ := fun c => if (c.2 : ℕ) = 0 then (if (c.1 : NRef) = 0 then -1 / 3 else 1 / 3) else 0

theorem best_spread (n : NRef) (hn : n = 0 ∨ n = 1) (k : ℕ) (hk : k < 3) : best.spread bestDx n k =
    if k = 0 then (if n = 0 then -1 / 3 else 1 / 3) else 0 := by
  have ha : n ∈ best.g.active := by change n ∈ [0, 1]; simpa using hn
  rw [spread, dif_pos ⟨ha, by rw [best_dim]; exact hk⟩]
  rfl

theorem best_r0 : (plainTerm best 0).J *ᵥ bestDx = (-1 / 3 : ℝ) • (plainTerm best 0).r := by
  have w0 : wrapAngle 0 = 0 := wrapAngle_of_mem (by linarith [Real.pi_pos]) Real.pi_pos
  have key : ∀ l : Fin 3, (if (l : ℕ) = 0 then -1 / 3 else 0) = -1 / 3 * prior2dRes 0 ![1, 0, 0] l := by
    intro l
    fin_cases l <;> simp [prior2dRes, wrap2, w0]
  funext l
  refine (best_row0 bestDx l).trans ?_
  rw [best_spread 0 (Or.inl rfl) _ l.2]
  exact key l

theorem best_r1 : (plainTerm best 1).J *ᵥ bestDx = (-1 / 3 : ℝ) • (plainTerm best 1).r := by
  have w0 : wrapAngle 0 = 0 := wrapAngle_of_mem (by linarith [Real.pi_pos]) Real.pi_pos
  have key : ∀ l : Fin 3, (if (l : ℕ) = 0 then 1 / 3 else 0) = -1 / 3 * prior2dRes ![3, 0, 0] ![2, 0, 0] l := by
    intro l
    fin_cases l <;> simp [prior2dRes, wrap2, w0]
    norm_num
  funext l
  refine (best_row1 bestDx l).trans ?_
  rw [best_spread 1 (Or.inr rfl) _ l.2]
  exact key l

theorem best_r2 : (plainTerm best 2).J *ᵥ bestDx = (2 / 3 : ℝ) • (plainTerm best 2).r := by
  have w0 : wrapAngle 0 = 0 := wrapAngle_of_mem (by linarith [Real.pi_pos]) Real.pi_pos
  have key : ∀ l : Fin 3, (![1 / 3 - -1 / 3, 0, 0] : Vec3) l = 2 / 3 * rel2dRes 0 ![1, 0, 0] ![2, 0, 0] l := by
    intro l
    fin_cases l <;> simp [rel2dRes, wrap2, w0] <;> norm_num
  have b := best_spread
  funext l
  refine (best_row2 bestDx l (by rw [b 0 (by simp) _ (by norm_num)]; simp) (by rw [b 0 (by simp) _ (by norm_num)]; simp)
    (by rw [b 1 (by simp) _ (by norm_num)]; simp) (by rw [b 1 (by simp) _ (by norm_num)]; simp)).trans ?_
  rw [b 0 (by simp) 0 (by norm_num), b 1 (by simp) 0 (by norm_num)]
  exact key l

theorem best_solves : Spec.infoMatrix (best.g.factors.map (plainTerm best)) *ᵥ bestDx = denseVector best := by
  have hfs : best.g.factors = [0, 1, 2] := rfl
  rw [best_info, best_r0, best_r1, best_r2, denseVector, hfs]
  have n0 : (best.fh 0).nbrs.length = 1 := rfl
  have n1 : (best.fh 1).nbrs.length = 1 := rfl
  have n2 : (best.fh 2).nbrs.length = 2 := rfl
  simp only [List.map_cons, List.map_nil, List.sum_cons, List.sum_nil, n0, n1, n2, mulVec_smul]
  funext c
  have t := fun f hf => best_terms c f hf
  have t0 := t 0 (by rw [hfs]; simp)
  have t1 := t 1 (by rw [hfs]; simp)
  have t2 := t 2 (by rw [hfs]; simp)
  simp only [Pi.add_apply, Pi.smul_apply, Pi.zero_apply, smul_eq_mul]
  rw [t0, t1, t2]
  have hns : (c.1 : NRef) = 0 ∨ (c.1 : NRef) = 1 := by simpa using (show (c.1 : NRef) ∈ [0, 1] from c.1.2)
  by_cases hc : (c.2 : ℕ) = 0 <;> rcases hns with hn | hn <;> simp [hc, hn] <;> norm_num

end Demo

namespace World

theorem moved_active {w : World} {δ : NRef → ℕ → ℝ} {n : NRef} (h : n ∈ w.g.active) :
    (w.moved δ).nh n = (w.nh n).update (δ n) := if_pos h

/-- The measurement term of a class of factors connected to given nodes. -/
noncomputable def termOf (nh : NRef → NodeCell) (fh : FRef → FactorCell) (g : Graph) (V : FactorVirt) (nbrs : List NRef) :
    Spec.Term (Cols ⟨nh, fh, g⟩) where
  m := V.dim
  r := V.res (nbrs.map fun n => (nh n).val)
  J := Matrix.of fun l c => blockEntry (fun n => (nh n).dim) (V.jac (nbrs.map fun n => (nh n).val) l) c.1 c.2 0 nbrs
  W := V.W

theorem terms_congr {nh : NRef → NodeCell} {fh fh' : FRef → FactorCell} {g : Graph} (hv : ∀ f, (fh' f).virt = (fh f).virt)
    (hn : ∀ f, (fh' f).nbrs = (fh f).nbrs) (f : FRef) :
    plainTerm ⟨nh, fh', g⟩ f = (plainTerm ⟨nh, fh, g⟩ f : Spec.Term (Cols ⟨nh, fh, g⟩)) := by
  have e : ∀ fh f, plainTerm ⟨nh, fh, g⟩ f = termOf nh fh g (fh f).virt (fh f).nbrs := fun _ _ => rfl
  rw [e, e, hv, hn]
  rfl

theorem denseVector_congr {nh : NRef → NodeCell} {fh fh' : FRef → FactorCell} {g : Graph} (hv : ∀ f, (fh' f).virt = (fh f).virt)
    (hn : ∀ f, (fh' f).nbrs = (fh f).nbrs) :
    denseVector ⟨nh, fh', g⟩ = (denseVector ⟨nh, fh, g⟩ : Cols ⟨nh, fh, g⟩ → ℝ) := by
  have e : ∀ fh f, ((plainTerm ⟨nh, fh, g⟩ f).Jᵀ * (plainTerm ⟨nh, fh, g⟩ f).W) *ᵥ (plainTerm ⟨nh, fh, g⟩ f).r =
    ((termOf nh fh g (fh f).virt (fh f).nbrs).Jᵀ * (termOf nh fh g (fh f).virt (fh f).nbrs).W) *ᵥ
      (termOf nh fh g (fh f).virt (fh f).nbrs).r := fun _ _ => rfl
  rw [denseVector, denseVector]
  congr 1
  refine List.map_congr_left fun f _ => ?_
  change ((fh' f).nbrs.length : ℝ) • _ = ((fh f).nbrs.length : ℝ) • _
  rw [e, e, hv, hn]
  rfl

end World

open Demo in
/-- The dense step at the minimum, whatever the factors have stored. -/
theorem Demo.best_iteration (fh' : FRef → FactorCell) (hv : ∀ f, (fh' f).virt = (best.fh f).virt)
    (hn : ∀ f, (fh' f).nbrs = (best.fh f).nbrs) (s : OptDense World) (hs : s.obj = ⟨best.nh, fh', best.g⟩)
    (hw : DenseWired s.obj) : ∃ s', s.oneIteration denseGraph false = .ok s' ∧ DenseFrame s.obj s'.obj ∧
      ∀ n, (s'.obj.nh n).val = ((best.moved (best.spread (-bestDx))).nh n).val := by
  obtain ⟨o, m, t, k, l, sys⟩ := s
  change o = _ at hs
  subst hs
  have ht : (best.g.factors.map (plainTerm ⟨best.nh, fh', best.g⟩)) =
      (best.g.factors.map (plainTerm best) : List (Spec.Term (Cols best))) :=
    List.map_congr_left fun f _ => terms_congr (fh := best.fh) hv hn f
  have hg : denseVector ⟨best.nh, fh', best.g⟩ = (denseVector best : Cols best → ℝ) := denseVector_congr (fh := best.fh) hv hn
  obtain ⟨s', h1, hF⟩ | ⟨-, e, w, h1, h2⟩ := OptDense.oneIteration_dense hw false
  · refine ⟨s', h1, hF, fun n => ?_⟩
    obtain ⟨H, dx, k1, -, k3, -, k5⟩ := OptDense.oneIteration_step hw h1
    have k6 : Spec.infoMatrix (best.g.factors.map (plainTerm best)) *ᵥ (fun c => dx (colEquiv hw.wired c)) = denseVector best := by
      have a : Spec.infoMatrix (best.g.factors.map (plainTerm ⟨best.nh, fh', best.g⟩)) *ᵥ (fun c => dx (colEquiv hw.wired c)) =
          denseVector ⟨best.nh, fh', best.g⟩ :=
        (congrArg (· *ᵥ fun c => dx (colEquiv hw.wired c)) k1.symm).trans ((OptDense.submatrix_mulVec' _ H dx).trans k3)
      exact (congrArg (fun ts => Spec.infoMatrix ts *ᵥ fun c => dx (colEquiv hw.wired c)) ht.symm).trans (a.trans hg)
    have k7 : (fun c => dx (colEquiv hw.wired c)) = bestDx := by
      refine sub_eq_zero.mp (best_inj _ ?_)
      rw [mulVec_sub, k6, best_solves, sub_self]
    rw [k5]
    rw [← k7]
    rfl
  · exfalso
    obtain ⟨H, g, k1, k2, -⟩ := hw.gradHess
    rw [k1, Out.ok.injEq, Prod.mk.injEq] at h1
    obtain ⟨rfl, -⟩ := h1
    have h3 : H.det = 0 := by
      by_contra hne
      exact h2 (isUnit_iff_ne_zero.mpr hne)
    obtain ⟨v, hv0, hHv⟩ := Matrix.exists_mulVec_eq_zero_iff.mpr h3
    have a : Spec.infoMatrix (best.g.factors.map (plainTerm ⟨best.nh, fh', best.g⟩)) *ᵥ (fun c => v (colEquiv hw.wired c)) = 0 := by
      refine (congrArg (· *ᵥ fun c => v (colEquiv hw.wired c)) k2.symm).trans ((OptDense.submatrix_mulVec' _ H v).trans ?_)
      rw [hHv]
      rfl
    have z := best_inj (fun c => v (colEquiv hw.wired c))
      ((congrArg (fun ts => Spec.infoMatrix ts *ᵥ fun c => v (colEquiv hw.wired c)) ht.symm).trans a)
    refine hv0 (funext fun i => ?_)
    have := congrFun z ((colEquiv hw.wired).symm i)
    simpa using this

open Demo in
/-- C80 is false for graphs with two-node factors: two poses have priors at 0 and 3 and a relative factor that says that
they coincide.  At the minimum of the cost, where `chi2` is 3/2, `solve(NEWTON_RAPHSON)` moves away to 11/6. -/
theorem C80_newton_fails : ∃ w : World, DenseWired w ∧ WellPosed w ∧
    (∀ f ∈ w.g.factors, (w.fh f).virt.robust = .quadratic) ∧ w.cost = 3 / 2 ∧
    (∀ δ, Spec.linearCost (graphTerms w) 0 ≤ Spec.linearCost (graphTerms w) δ) ∧
    ∃ s', (OptDense.new w).solve denseGraph .newtonRaphson 1 0 = .ok (1, s') ∧ s'.obj.cost = 11 / 6 := by
  have w0 : wrapAngle 0 = 0 := wrapAngle_of_mem (by linarith [Real.pi_pos]) Real.pi_pos
  have hw : DenseWired best := dense_wired _ _
  have hq : ∀ f, (best.fh f).virt.robust = .quadratic := fun f => by
    rw [(run_fh_static _ _ f).1]; exact (dense_quadratic _ _ f).1
  have hp : WellPosed best := by
    refine ⟨hw.wired, fun f _ => ?_, fun f hf => ?_⟩
    · rw [(run_fh_static _ _ f).1]
      exact (dense_quadratic _ _ f).2.1.posSemidef
    · rcases (by simpa using (show f ∈ [0, 1, 2] from hf) : f = 0 ∨ f = 1 ∨ f = 2) with rfl | rfl | rfl <;>
        exact le_refl (0 : ℝ)
  have hcost : ∀ a b : ℝ, factorChi2 (1 : Mat3) (prior2dRes 0 ![a, 0, 0]) + (factorChi2 (1 : Mat3) (prior2dRes ![3, 0, 0] ![b, 0, 0]) +
      (factorChi2 (1 : Mat3) (rel2dRes 0 ![a, 0, 0] ![b, 0, 0]) + 0)) = (a ^ 2 + (b - 3) ^ 2 + (b - a) ^ 2) / 2 := by
    intro a b
    simp [factorChi2, prior2dRes, rel2dRes, wrap2, w0, dotProduct, Fin.sum_univ_three]
    ring
  have c0 : best.cost = 3 / 2 := by
    have : best.cost = factorChi2 (1 : Mat3) (prior2dRes 0 ![1, 0, 0]) + (factorChi2 (1 : Mat3) (prior2dRes ![3, 0, 0] ![2, 0, 0]) +
      (factorChi2 (1 : Mat3) (rel2dRes 0 ![1, 0, 0] ![2, 0, 0]) + 0)) := rfl
    rw [this, hcost]
    norm_num
  refine ⟨best, hw, hp, fun f _ => hq f, c0, fun δ => ?_, ?_⟩
  · have hb : Spec.infoMatrix (graphTerms best) *ᵥ 0 = Spec.infoVector (graphTerms best) := by
      rw [mulVec_zero]
      funext c
      rw [Spec.infoVector_apply, graphTerms, List.map_map, List.map_congr_left fun f hf =>
        show ((fun t : Spec.Term (Cols best) => ((t.Jᵀ * t.W) *ᵥ t.r) c) ∘ factorTerm best) f = _ by
          rw [Function.comp_apply, ← plainTerm_eq (hq f), best_terms c f hf], show best.g.factors = [0, 1, 2] from rfl]
      have hns : (c.1 : NRef) = 0 ∨ (c.1 : NRef) = 1 := by simpa using (show (c.1 : NRef) ∈ [0, 1] from c.1.2)
      by_cases hc : (c.2 : ℕ) = 0 <;> rcases hns with hn | hn <;> simp [hc, hn]
    have h1 := Spec.linearCost_eq _ (FGraphSolve.terms_symm hp) 0 hb δ
    have h2 := (FGraphSolve.terms_psd hp).dotProduct_mulVec_nonneg (δ + 0)
    rw [star_trivial] at h2
    rw [h1, neg_zero]
    linarith
  · have he := chi2Eval_eq best hw.wired.typed
    obtain ⟨-, -, hnh, hF⟩ := chi2Eval_ok he
    obtain ⟨⟨nh, fh', g⟩, ho⟩ : ∃ o : World, o = World.mapF (·.resd best.nh) best.g.factors best := ⟨_, rfl⟩
    rw [← ho] at he hnh hF
    change nh = best.nh at hnh
    have hg : g = best.g := hF.factors.g
    subst hnh hg
    obtain ⟨t, ht⟩ : ∃ t : OptDense World, t = ⟨⟨best.nh, fh', best.g⟩, .newtonRaphson, 1e-4, 1, 1e-5, ⟨0, 0, 0, 0⟩⟩ := ⟨_, rfl⟩
    have hto : t.obj = ⟨best.nh, fh', best.g⟩ := by rw [ht]
    obtain ⟨s', h1, hF', h2⟩ := best_iteration fh' hF.factors.virt hF.factors.nbrs t hto (by rw [hto]; exact hF.denseWired hw)
    rw [hto] at hF'
    have hFF := hF.trans hF'
    obtain ⟨c, s2, h3, hF2⟩ := OptDense.error_dense (s := s') (hFF.denseWired hw)
    obtain ⟨o2, h4, rfl⟩ := OptDense.error_ok h3
    have h4 : s'.obj.chi2Eval = .ok (c, o2) := h4
    refine ⟨{ s' with obj := o2 }, ?_, ?_⟩
    · change OptDense.newtonRaphson denseGraph { OptDense.new best with method := .newtonRaphson, maxIters := 1 } = _
      rw [OptDense.newtonRaphson, OptDense.error]
      change ((best.chi2Eval >>= _) >>= _) = _
      rw [he]
      change OptDense.nrLoop denseGraph 1 0 _ ⟨⟨best.nh, fh', best.g⟩, .newtonRaphson, 1e-4, 1, 1e-5, ⟨0, 0, 0, 0⟩⟩ = _
      rw [← ht, OptDense.nrLoop, OptDense.nrStep, h1, Out.ok_bind, h3, Out.ok_bind]
      dsimp only
      rw [if_neg (by simp)]
    · obtain ⟨-, -, hnh2, hF3⟩ := chi2Eval_ok h4
      have hF4 := hFF.trans hF3
      have hval : ∀ n, (o2.nh n).val = ((best.moved (best.spread (-bestDx))).nh n).val := fun n => by rw [hnh2, h2]
      have e1 : o2.cost = (best.moved (best.spread (-bestDx))).cost :=
        cost_congr_nh (w := best.moved (best.spread (-bestDx)))
          ⟨hF4.factors.g, hF4.factors.virt, hF4.factors.nbrs, hF4.factors.id⟩ hval
      change o2.cost = _
      have v0 : ((best.moved (best.spread (-bestDx))).nh 0).val = ⟨.pose2d, ![4 / 3, 0, 0]⟩ := by
        have ha : (0 : NRef) ∈ best.g.active := by change (0 : NRef) ∈ [0, 1]; simp
        have e : (best.moved (best.spread (-bestDx))).nh 0 = (best.nh 0).update (best.spread (-bestDx) 0) := moved_active ha
        rw [e]
        have e2 : ((best.nh 0).update (best.spread (-bestDx) 0)).val =
            ⟨.pose2d, wrap2 ((![1, 0, 0] : Vec3) + fun k : Fin 3 => best.spread (-bestDx) 0 k)⟩ := rfl
        rw [e2]
        congr 1
        have e3 : ∀ k : ℕ, k < 3 → best.spread (-bestDx) 0 k = -if k = 0 then -1 / 3 else 0 := fun k hk => by
          rw [spread, dif_pos ⟨ha, by rw [best_dim]; exact hk⟩]
          simp [bestDx]
        ext k
        fin_cases k <;> simp [wrap2, e3, w0] <;> norm_num
      have v1 : ((best.moved (best.spread (-bestDx))).nh 1).val = ⟨.pose2d, ![5 / 3, 0, 0]⟩ := by
        have ha : (1 : NRef) ∈ best.g.active := by change (1 : NRef) ∈ [0, 1]; simp
        have e : (best.moved (best.spread (-bestDx))).nh 1 = (best.nh 1).update (best.spread (-bestDx) 1) := moved_active ha
        rw [e]
        have e2 : ((best.nh 1).update (best.spread (-bestDx) 1)).val =
            ⟨.pose2d, wrap2 ((![2, 0, 0] : Vec3) + fun k : Fin 3 => best.spread (-bestDx) 1 k)⟩ := rfl
        rw [e2]
        congr 1
        have e3 : ∀ k : ℕ, k < 3 → best.spread (-bestDx) 1 k = -if k = 0 then 1 / 3 else 0 := fun k hk => by
          rw [spread, dif_pos ⟨ha, by rw [best_dim]; exact hk⟩]
          simp [bestDx]
        ext k
        fin_cases k <;> simp [wrap2, e3, w0] <;> norm_num
      have e2 : (best.moved (best.spread (-bestDx))).cost =
        factorChi2 (1 : Mat3) ((FactorVirt.prior2d 0 1 .quadratic).res [((best.moved (best.spread (-bestDx))).nh 0).val]) +
        (factorChi2 (1 : Mat3) ((FactorVirt.prior2d ![3, 0, 0] 1 .quadratic).res [((best.moved (best.spread (-bestDx))).nh 1).val]) +
        (factorChi2 (1 : Mat3) ((FactorVirt.rel2d 0 1 .quadratic).res [((best.moved (best.spread (-bestDx))).nh 0).val,
          ((best.moved (best.spread (-bestDx))).nh 1).val]) + 0)) := rfl
      rw [e1, e2, v0, v1]
      refine (hcost (4 / 3) (5 / 3)).trans ?_
      norm_num

/-- Two poses with a prior each meet the hypotheses of `C80_one_node_partial`. -/
example : ∃ s : OptDense World, DenseWired s.obj ∧ WellPosed s.obj ∧
    (∀ f ∈ s.obj.g.factors, (s.obj.fh f).virt.robust = .quadratic) ∧ (∀ f ∈ s.obj.g.factors, (s.obj.fh f).nbrs.length = 1) ∧
    s.obj.g.factors ≠ [] := by
  set ops : List GraphOp := [.addNode 0, .addNode 1, .addFactor 0, .addFactor 1] with hops
  set w₀ := Demo.denseWorld ![1, 0, 0] ![2, 0, 0]
  have hpr : Proper w₀ ops := by
    constructor
    · intro op hop n m; simp [hops] at hop; rcases hop with rfl | rfl | rfl | rfl <;> simp
    · simp [addedNodes, hops]
    · intro n hn; simp [w₀, Demo.denseWorld, NodeCell.new]
    · intro f hf n hn
      simp [addedFactors, hops] at hf
      rcases hf with rfl | rfl <;> simp [w₀, Demo.denseWorld, FactorCell.new] at hn <;> left <;> simp [hn, addedNodes, hops]
    · intro f hf
      simp [addedFactors, hops] at hf
      rcases hf with rfl | rfl <;> simp [w₀, Demo.denseWorld, FactorCell.new, NodeCell.new]
    · intro f hf
      simp [addedFactors, hops] at hf
      rcases hf with rfl | rfl <;>
        simp [w₀, Demo.denseWorld, FactorCell.new, NodeCell.new, FactorCell.wellTyped, FactorVirt.prior2d]
  have hw : DenseWired (World.run ops w₀) := by
    refine C48_history_partial _ rfl _ hpr (fun _ _ => rfl) ?_ (fun _ => rfl) rfl
    intro f hf n hn
    rcases hpr.registered f hf n hn with h | h
    · exact h
    · simp [w₀, Demo.denseWorld, NodeCell.new] at h
  have hfs : (World.run ops w₀).g.factors = [0, 1] := rfl
  refine ⟨OptDense.new (World.run ops w₀), hw, ⟨hw.wired, fun f _ => ?_, fun f hf => ?_⟩, fun f _ => ?_, fun f hf => ?_, ?_⟩
  · change (((World.run ops w₀).fh f).virt.W).PosSemidef
    rw [(run_fh_static _ _ f).1]
    exact (Demo.dense_quadratic _ _ f).2.1.posSemidef
  · rcases (by simpa using (show f ∈ [0, 1] from hf) : f = 0 ∨ f = 1) with rfl | rfl <;> exact le_refl (0 : ℝ)
  · change ((World.run ops w₀).fh f).virt.robust = _
    rw [(run_fh_static _ _ f).1]
    exact (Demo.dense_quadratic _ _ f).1
  · rcases (by simpa using (show f ∈ [0, 1] from hf) : f = 0 ∨ f = 1) with rfl | rfl <;> rfl
  · change (World.run ops w₀).g.factors ≠ []
    rw [hfs]
    simp

/-- The hypotheses of `C80_step`: an iteration returns on the two poses with the relative factor. -/
example : ∃ (s s' : OptDense World), DenseWired s.obj ∧ s.oneIteration denseGraph false = .ok s' := by
  obtain ⟨s', h, -⟩ := Demo.best_iteration Demo.best.fh (fun _ => rfl) (fun _ => rfl) (OptDense.new Demo.best) rfl
    (Demo.dense_wired _ _)
  exact ⟨_, s', Demo.dense_wired _ _, h⟩

end Mrob
