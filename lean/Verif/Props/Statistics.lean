import Verif.Lemmas.StatisticsGraph
import Verif.Props.Getters
import Verif.Lemmas.Demo
import Verif.Lemmas.Damping
import Verif.Lemmas.Determined

/-!
# C98 and C99: the statistics of the estimates

Measurements are the true ones plus random errors whose covariances are the inverses of the information matrices given to the
factors.
-/

open Matrix

namespace Mrob

open World Spec

section

variable {Ω : Type} [Fintype Ω]

theorem movedBy_moved {w : World} (δ : Cols w → ℝ) : MovedBy w δ fun n => ((w.moved (w.spread δ)).nh n).val := by
  refine ⟨fun n hn => ?_, fun n hn => ?_⟩
  · change (if n ∈ w.g.active then (w.nh n).update _ else w.nh n).val = _
    rw [if_neg hn]
  · change (if n ∈ w.g.active then (w.nh n).update _ else w.nh n).val = _
    rw [if_pos hn]
    refine Eq.trans (b := (⟨(w.nh n).kind, (w.nh n).kind.upd (w.nh n).obj.state ((w.nh n).kind.ofFlat (w.spread δ n))⟩ : NodeVal)) rfl ?_
    refine congrArg (fun x : ℕ → ℝ => (⟨(w.nh n).kind, (w.nh n).kind.upd (w.nh n).obj.state ((w.nh n).kind.ofFlat x)⟩ : NodeVal)) ?_
    funext i
    unfold World.spread
    by_cases h : i < (w.nh n).dim
    · rw [dif_pos ⟨hn, h⟩, dif_pos h]
    · rw [dif_neg fun h' => h h'.2, dif_neg h]

/-- What is needed of the graph. -/
theorem white_run {p : Ω → ℝ} {e : Ω → FRef → ℕ → ℝ} {w₀ : World} {wn : Ω → World} {ops : List GraphOp}
    (hp : Proper w₀ ops) (hnd : (addedFactors ops).Nodup) (hM : ∀ ω, Remeasured (e ω) (addedFactors ops) w₀ (wn ω))
    (hE : White p e w₀ (addedFactors ops)) (hpd : ∀ f ∈ addedFactors ops, (w₀.fh f).virt.W.PosDef) {w : World} (hw : w = World.run ops w₀) :
    w.g.factors = addedFactors ops ∧ w.g.factors.Nodup ∧ (∀ f ∈ w.g.factors, (w.fh f).virt.W.PosDef) ∧ White p e w w.g.factors ∧
    infoMatrix (graphTerms w) = w.allJᵀ * w.allW * w.allJ := by
  have hN : ∀ ω, World.Noised (e ω) w (World.run ops (wn ω)) := fun ω => by rw [hw]; exact run_noised (hM ω) hp.noSetMode
  have hΩ : Nonempty Ω := by
    by_contra hne
    rw [not_nonempty_iff] at hne
    have := hE.total.2
    rw [Finset.univ_eq_empty, Finset.sum_empty] at this
    exact zero_ne_one this
  obtain ⟨ω₀⟩ := hΩ
  have hfac : w.g.factors = addedFactors ops := by rw [hw, run_factors, (hM ω₀).empty.1]; rfl
  have hnd' : w.g.factors.Nodup := by rw [hfac]; exact hnd
  have hpd' : ∀ f ∈ w.g.factors, (w.fh f).virt.W.PosDef := fun f hf => by
    rw [hw, (run_fh_static ops w₀ f).1]; exact hpd f (hfac ▸ hf)
  refine ⟨hfac, hnd', hpd', ?_, infoMatrix_all hnd' (hN ω₀).plain⟩
  have h := hE
  rw [← hfac] at h
  refine ⟨h.total, fun f hf => ?_, fun f hf => ?_, fun f hf g hg hfg => ?_⟩
  · rw [hw, (run_fh_static ops w₀ f).1]; exact h.mean f hf
  · rw [hw, (run_fh_static ops w₀ f).1]; exact h.cov f hf
  · rw [hw, (run_fh_static ops w₀ f).1, (run_fh_static ops w₀ g).1]; exact h.apart f hf g hg hfg

theorem dims {w₀ w : World} {ops : List GraphOp} (hw : w = World.run ops w₀) (hfac : w.g.factors = addedFactors ops) :
    (w.g.factors.map fun f => (w.fh f).virt.dim).sum = ((addedFactors ops).map fun f => (w₀.fh f).virt.dim).sum := by
  rw [hfac, hw]
  exact congrArg List.sum (List.map_congr_left fun f _ => by rw [(run_fh_static ops w₀ f).1])

/-- C98: a Gauss-Newton step from the true states, with measurements whose random errors have the covariances that the
information matrices of the factors promise, is unbiased, and the covariance of its error is the inverse of the matrix that
`get_information_matrix` returns.  Missing: factors whose Jacobian depends on the measured values (odometry, relative spatial
poses), robust weights, Levenberg-Marquardt (which is biased by its damping), estimates that started elsewhere. -/
theorem C98_gn_partial (p : Ω → ℝ) (e : Ω → FRef → ℕ → ℝ) (w₀ : World) (wn : Ω → World) (ops : List GraphOp) 
    (hp : Proper w₀ ops) (hnd : (addedFactors ops).Nodup) (hM : ∀ ω, Remeasured (e ω) (addedFactors ops) w₀ (wn ω))
    (hE : White p e w₀ (addedFactors ops)) (hpd : ∀ f ∈ addedFactors ops, (w₀.fh f).virt.W.PosDef)
    (hwt : ∀ ω, ∀ f ∈ addedFactors ops, 0 ≤ ((wn ω).fh f).weight) (env : Env) (henv : env.Sound) (s s1 : Ω → FGraphSolve)
    (hs : ∀ ω, (s ω).w = World.run ops (wn ω)) (hI : (infoMatrix (graphTerms (World.run ops w₀))).PosDef)
    (maxIters : ℕ) (lambda tol : ℝ) (h1 : ∀ ω, (s ω).solve env .GN maxIters lambda tol = .ok (s1 ω)) :
    ∃ δ : Ω → Cols (World.run ops w₀) → ℝ,
      (∀ ω, MovedBy (World.run ops w₀) (δ ω) fun n => ((s1 ω).w.nh n).val) ∧
      (∀ c, ∑ ω, p ω * δ ω c = 0) ∧
      ∀ ω, ∃ b : Cols (World.run ops w₀) ≃ Fin (s1 ω).sys.N,
        (∀ c, (b c : ℕ) = offset (fun n => ((World.run ops w₀).nh n).dim) (World.run ops w₀).g.active c.1 + c.2) ∧
        ∀ c d, ∑ ω, p ω * (δ ω c * δ ω d) = ((s1 ω).sys.L)⁻¹ (b c) (b d) := by
  have hN : ∀ ω, World.Noised (e ω) (World.run ops w₀) (s ω).w := fun ω => by rw [hs]; exact run_noised (hM ω) hp.noSetMode
  have hW : ∀ ω, WellPosed (s ω).w := fun ω => by rw [hs]; exact (hM ω).wellPosed hp hpd (hwt ω)
  set w := World.run ops w₀ with hw
  obtain ⟨hfac, hnd', hpd', hE', hinfo⟩ := white_run hp hnd hM hE hpd hw
  have hdet : IsUnit (w.allJᵀ * w.allW * w.allJ).det := by rw [← hinfo]; exact hI.det_pos.ne'.isUnit
  refine ⟨fun ω => ((infoMatrix (graphTerms w))⁻¹ * (w.allJᵀ * w.allW)) *ᵥ w.allE (e ω), fun ω => ?_, fun c => ?_, fun ω => ?_⟩
  · have := movedBy_moved (((infoMatrix (graphTerms w))⁻¹ * (w.allJᵀ * w.allW)) *ᵥ w.allE (e ω))
    rwa [← funext (FGraphSolve.gn_noised henv (hN ω) (hW ω) hnd' hI (h1 ω))] at this
  · exact mean_mulVec p _ _ (fun k : Rows w => hE'.mean k.1 k.1.2 k.2) c
  · obtain ⟨b, hb1, hb2⟩ := (hN ω).infoAt (C92_gn env (s ω) (s1 ω) (hW ω) maxIters lambda tol (h1 ω)).1
    refine ⟨b, hb1, fun c d => ?_⟩
    have h2 := moment_solution p (moment_all hE') (allW_mul_allV hpd') (allW_transpose hpd') hdet
    rw [← hinfo] at h2
    have h3 := congrFun (congrFun h2 c) d
    have h4 : (infoMatrix (graphTerms w))⁻¹ c d = ((s1 ω).sys.L)⁻¹ (b c) (b d) := by
      rw [← hb2, inv_submatrix_equiv]; rfl
    exact h3.trans h4

/-- C98, Gauss-Markov: among all estimates that are linear in the errors of the measurements and exact for measurements
without errors, the Gauss-Newton step has the least variance, for every linear combination `a` of the unknowns.  Missing: as for
`C98_gn_partial`. -/
theorem C98_best_partial (p : Ω → ℝ) (e : Ω → FRef → ℕ → ℝ) (w₀ : World) (wn : Ω → World) (ops : List GraphOp) 
    (hp : Proper w₀ ops) (hnd : (addedFactors ops).Nodup) (hM : ∀ ω, Remeasured (e ω) (addedFactors ops) w₀ (wn ω))
    (hE : White p e w₀ (addedFactors ops)) (hpd : ∀ f ∈ addedFactors ops, (w₀.fh f).virt.W.PosDef)
    (hwt : ∀ ω, ∀ f ∈ addedFactors ops, 0 ≤ ((wn ω).fh f).weight) (env : Env) (henv : env.Sound) (s s1 : Ω → FGraphSolve)
    (hs : ∀ ω, (s ω).w = World.run ops (wn ω)) (hI : (infoMatrix (graphTerms (World.run ops w₀))).PosDef)
    (maxIters : ℕ) (lambda tol : ℝ) (h1 : ∀ ω, (s ω).solve env .GN maxIters lambda tol = .ok (s1 ω)) :
    ∃ δ : Ω → Cols (World.run ops w₀) → ℝ,
      (∀ ω, MovedBy (World.run ops w₀) (δ ω) fun n => ((s1 ω).w.nh n).val) ∧
      ∀ B : Cols (World.run ops w₀) → (f : FRef) → Fin ((World.run ops w₀).fh f).virt.dim → ℝ,
        (∀ x c, ((addedFactors ops).map fun f => ∑ l, B c f l * ((factorTerm (World.run ops w₀) f).J *ᵥ x) l).sum = x c) →
        ∀ a : Cols (World.run ops w₀) → ℝ,
          ∑ ω, p ω * (∑ c, a c * δ ω c) ^ 2 ≤
            ∑ ω, p ω * (∑ c, a c * ((addedFactors ops).map fun f => ∑ l, B c f l * e ω f l).sum) ^ 2 := by
  have hN : ∀ ω, World.Noised (e ω) (World.run ops w₀) (s ω).w := fun ω => by rw [hs]; exact run_noised (hM ω) hp.noSetMode
  have hW : ∀ ω, WellPosed (s ω).w := fun ω => by rw [hs]; exact (hM ω).wellPosed hp hpd (hwt ω)
  set w := World.run ops w₀ with hw
  obtain ⟨hfac, hnd', hpd', hE', hinfo⟩ := white_run hp hnd hM hE hpd hw
  have hdet : IsUnit (w.allJᵀ * w.allW * w.allJ).det := by rw [← hinfo]; exact hI.det_pos.ne'.isUnit
  refine ⟨fun ω => ((infoMatrix (graphTerms w))⁻¹ * (w.allJᵀ * w.allW)) *ᵥ w.allE (e ω), fun ω => ?_, fun B hB a => ?_⟩
  · have := movedBy_moved (((infoMatrix (graphTerms w))⁻¹ * (w.allJᵀ * w.allW)) *ᵥ w.allE (e ω))
    rwa [← funext (FGraphSolve.gn_noised henv (hN ω) (hW ω) hnd' hI (h1 ω))] at this
  · set B' : Matrix (Cols w) (Rows w) ℝ := Matrix.of fun c k => B c k.1 k.2 with hB'
    have e1 : ∀ (x : Rows w → ℝ) (y : (f : FRef) → Fin (w.fh f).virt.dim → ℝ), (∀ k : Rows w, x k = y k.1 k.2) → ∀ c,
        (B' *ᵥ x) c = ((addedFactors ops).map fun f => ∑ l, B c f l * y f l).sum := by
      intro x y hxy c
      rw [mulVec, dotProduct, Fintype.sum_sigma, ← hfac, ← sum_factors hnd']
      refine Finset.sum_congr rfl fun f _ => Finset.sum_congr rfl fun l _ => ?_
      rw [hxy]; rfl
    have hone : B' * w.allJ = 1 := by
      have h2 : ∀ x, (B' * w.allJ) *ᵥ x = x := by
        intro x
        funext c
        rw [← mulVec_mulVec, e1 (w.allJ *ᵥ x) (fun f => (factorTerm w f).J *ᵥ x) (fun k => rfl) c, hB x c]
      ext c d
      have h3 := congrFun (h2 (Pi.single d 1)) c
      rw [mulVec_single_one] at h3
      rw [Matrix.one_apply]
      refine h3.trans ?_
      rw [Pi.single_apply]
    have h2 := moment_solution p (moment_all hE') (allW_mul_allV hpd') (allW_transpose hpd') hdet
    have h3 := moment_best p hE'.total.1 (moment_all hE') (allW_mul_allV hpd') (allW_transpose hpd') hdet B' hone
    have h4 := h3.dotProduct_mulVec_nonneg a
    rw [star_trivial, ← h2, sub_mulVec, dotProduct_sub, ← hinfo] at h4
    have e2 : ∀ x : Ω → Cols w → ℝ, ∑ ω, p ω * (∑ c, a c * x ω c) ^ 2 = a ⬝ᵥ (moment2 p x *ᵥ a) := by
      intro x
      rw [moment_eq, Matrix.sum_mulVec, dotProduct_sum]
      refine Finset.sum_congr rfl fun ω _ => ?_
      rw [smul_mulVec, dotProduct_smul, vecMulVec_mulVec, smul_eq_mul]
      congr 1
      simp only [dotProduct, Pi.smul_apply, MulOpposite.smul_eq_mul_unop, MulOpposite.unop_op]
      rw [sq, Finset.sum_mul]
      refine Finset.sum_congr rfl fun c _ => ?_
      rw [show ∑ c, x ω c * a c = ∑ c, a c * x ω c from Finset.sum_congr rfl fun c _ => mul_comm _ _]
      ring
    have e3 : ∀ ω c, ((addedFactors ops).map fun f => ∑ l, B c f l * e ω f l).sum = (B' *ᵥ w.allE (e ω)) c := by
      intro ω c
      exact (e1 (w.allE (e ω)) (fun f l => e ω f l) (fun k => rfl) c).symm
    simp only [e3]
    rw [e2 (fun ω => B' *ᵥ w.allE (e ω)), e2]
    linarith

/-- C99: at the true states the expected value of `chi2` is half the number of scalar measurements.  Missing: factors whose Jacobian
depends on the measured values, robust weights. -/
theorem C99_truth_partial (p : Ω → ℝ) (e : Ω → FRef → ℕ → ℝ) (w₀ : World) (wn : Ω → World) (ops : List GraphOp) 
    (hp : Proper w₀ ops) (hnd : (addedFactors ops).Nodup) (hM : ∀ ω, Remeasured (e ω) (addedFactors ops) w₀ (wn ω))
    (hE : White p e w₀ (addedFactors ops)) (hpd : ∀ f ∈ addedFactors ops, (w₀.fh f).virt.W.PosDef)
    (s : Ω → FGraphSolve) (hs : ∀ ω, (s ω).w = World.run ops (wn ω)) :
    ∃ (χ : Ω → ℝ) (u : Ω → World), (∀ ω, (s ω).w.chi2Eval = .ok (χ ω, u ω)) ∧
      ∑ ω, p ω * χ ω = (((addedFactors ops).map fun f => (w₀.fh f).virt.dim).sum : ℕ) / 2 := by
  have hN : ∀ ω, World.Noised (e ω) (World.run ops w₀) (s ω).w := fun ω => by rw [hs]; exact run_noised (hM ω) hp.noSetMode
  have hT : ∀ ω, ∀ f ∈ (s ω).w.g.factors, ((s ω).w.fh f).wellTyped (s ω).w.nh := fun ω => by
    rw [hs]; exact (C44_wired_partial _ (hM ω).empty.2 _ ((hM ω).proper hp)).typed
  set w := World.run ops w₀ with hw
  obtain ⟨hfac, hnd', hpd', hE', hinfo⟩ := white_run hp hnd hM hE hpd hw
  refine ⟨_, _, fun ω => chi2Eval_eq _ (hT ω), ?_⟩
  have h2 := mean_error p (moment_all hE') (allW_mul_allV hpd')
  rw [card_rows hnd'] at h2
  have e1 : ∀ ω, p ω * (s ω).w.cost = 1 / 2 * (p ω * (w.allE (e ω) ⬝ᵥ (w.allW *ᵥ w.allE (e ω)))) := fun ω => by
    rw [(hN ω).cost hnd']; ring
  simp only [e1]
  rw [← Finset.mul_sum, h2, dims hw hfac]
  ring

/-- C99: after `solve(GN)` for landmarks seen from known poses the expected value of `chi2` is half the number of scalar measurements
minus half the number of unknowns, whatever the geometry.  Missing: graphs whose residuals are not affine in the unknowns. -/
theorem C99_solved_partial (p : Ω → ℝ) (e : Ω → FRef → ℕ → ℝ) (w₀ : World) (wn : Ω → World) (ops : List GraphOp) 
    (hp : Proper w₀ ops) (hnd : (addedFactors ops).Nodup) (hM : ∀ ω, Remeasured (e ω) (addedFactors ops) w₀ (wn ω))
    (hE : White p e w₀ (addedFactors ops)) (hpd : ∀ f ∈ addedFactors ops, (w₀.fh f).virt.W.PosDef)
    (hwt : ∀ ω, ∀ f ∈ addedFactors ops, 0 ≤ ((wn ω).fh f).weight) (env : Env) (henv : env.Sound) (s s1 : Ω → FGraphSolve)
    (hs : ∀ ω, (s ω).w = World.run ops (wn ω)) (hI : (infoMatrix (graphTerms (World.run ops w₀))).PosDef)
    (maxIters : ℕ) (lambda tol : ℝ) (hL : ∀ ω, LandmarkGraph (s ω).w)
    (h1 : ∀ ω, (s ω).solve env .GN maxIters lambda tol = .ok (s1 ω)) :
    ∃ (χ : Ω → ℝ) (u : Ω → World), (∀ ω, (s1 ω).w.chi2Eval = .ok (χ ω, u ω)) ∧
      ∑ ω, p ω * χ ω = ((((addedFactors ops).map fun f => (w₀.fh f).virt.dim).sum : ℕ) - ((World.run ops w₀).g.stateDim : ℝ)) / 2 := by
  have hN : ∀ ω, World.Noised (e ω) (World.run ops w₀) (s ω).w := fun ω => by rw [hs]; exact run_noised (hM ω) hp.noSetMode
  have hW : ∀ ω, WellPosed (s ω).w := fun ω => by rw [hs]; exact (hM ω).wellPosed hp hpd (hwt ω)
  set w := World.run ops w₀ with hw
  obtain ⟨hfac, hnd', hpd', hE', hinfo⟩ := white_run hp hnd hM hE hpd hw
  have hdet : IsUnit (w.allJᵀ * w.allW * w.allJ).det := by rw [← hinfo]; exact hI.det_pos.ne'.isUnit
  refine ⟨_, _, fun ω => chi2Eval_eq _ ((FGraphSolve.solve_frame (h1 ω)).wellTyped (hW ω).wired.typed), ?_⟩
  have hcost : ∀ ω, (s1 ω).w.cost = _ := fun ω => by
    refine (FGraphSolve.cost_linear ((hL ω).affine (hW ω).wired) (hL ω).quadratic (FGraphSolve.solve_frame (h1 ω))
      (δ := (((infoMatrix (graphTerms w))⁻¹ * (w.allJᵀ * w.allW)) *ᵥ w.allE (e ω)) ∘ (hN ω).cols.symm) fun n => ?_).trans
      ((hN ω).linearCost hnd' _)
    rw [FGraphSolve.gn_noised henv (hN ω) (hW ω) hnd' hI (h1 ω) n, (hN ω).spread, (hN ω).moved_val]
    congr 4
  have h2 := mean_rest p (moment_all hE') (allW_mul_allV hpd') (allW_transpose hpd') hdet
  have hcard : (Fintype.card (Cols w) : ℝ) = (w.g.stateDim : ℝ) := by
    have hwired : Wired w := by
      have hΩ : Nonempty Ω := by
        by_contra hne
        rw [not_nonempty_iff] at hne
        have := hE.total.2
        rw [Finset.univ_eq_empty, Finset.sum_empty] at this
        exact zero_ne_one this
      rw [hw]; exact C44_wired_partial _ (hM hΩ.some).empty.1 _ hp
    rw [Fintype.card_congr (colEquiv hwired), Fintype.card_fin]
  rw [card_rows hnd', dims hw hfac, hcard, ← hinfo] at h2
  rw [← h2]
  simp only [hcost]
  rw [Finset.sum_div]
  refine Finset.sum_congr rfl fun ω _ => ?_
  ring

end

/-! ### A landmark seen twice from a known pose -/

namespace Demo

/-- Node 0 is the anchored identity pose, the others are landmarks at `(1, 0, 0)`. -/
noncomputable def seNodes : NRef → NodeCell := fun n =>
  if n = 0 then NodeCell.new .pose3d SE3.default .anchor else NodeCell.new .landmark3d (![1, 0, 0] : Vec3) .standard

/-- All factors observe node 1, with the errors `e`. -/
noncomputable def seWorld₀ (e : FRef → ℕ → ℝ) : World :=
  ⟨seNodes, fun f => FactorCell.new (.land3d (![1, 0, 0] + ![e f 0, e f 1, e f 2]) 1 false .quadratic) [0, 1] 0 0, emptyGraph⟩
/-- The calls. -/
def seOps : List GraphOp := [.addNode 0, .addNode 1, .addFactor 0, .addFactor 1]
/-- Twelve outcomes of the same probability: one of the six measured numbers is too large or too small. -/
noncomputable def seErr (ω : Fin 6 × Bool) (f : FRef) (i : ℕ) : ℝ := if 3 * f + i = ω.1 then (if ω.2 then √6 else -√6) else 0
/-- The object. -/
noncomputable def seSolver (e : FRef → ℕ → ℝ) : FGraphSolve :=
  ⟨World.run seOps (seWorld₀ e), 1e-6, 1e-2, ⟨0, 0, 0, 0⟩, ⟨0, 0, 0, 0, 0⟩⟩

theorem se_mem {f : FRef} (h : f ∈ addedFactors seOps) : f = 0 ∨ f = 1 := by
  simpa [addedFactors, seOps] using h

theorem se_proper (e : FRef → ℕ → ℝ) : Proper (seWorld₀ e) seOps := by
  constructor
  · intro op hop n m; simp [seOps] at hop; rcases hop with rfl | rfl | rfl | rfl <;> simp
  · simp [addedNodes, seOps]
  · intro n hn; simp [addedNodes, seOps] at hn; rcases hn with rfl | rfl <;> simp [seWorld₀, seNodes, NodeCell.new]
  · intro f hf n hn
    simp [seWorld₀, FactorCell.new] at hn; left; rcases hn with rfl | rfl <;> simp [addedNodes, seOps]
  · intro f hf
    simp [seWorld₀, seNodes, FactorCell.new, NodeCell.new]
  · intro f hf
    simp [seWorld₀, seNodes, FactorCell.new, NodeCell.new, FactorCell.wellTyped, FactorVirt.land3d]

theorem se_remeasured (e : FRef → ℕ → ℝ) : Remeasured e (addedFactors seOps) (seWorld₀ 0) (seWorld₀ e) where
  empty := ⟨rfl, rfl⟩
  nodes := rfl
  nbrs _ _ := rfl
  observed f _ := by
    have h0 : (![1, 0, 0] + ![(0 : ℝ), 0, 0] : Vec3) = ![1, 0, 0] := by ext i; fin_cases i <;> simp
    have : Observed (fun n => ((seWorld₀ 0).nh n).val) (e f) (.land3d ![1, 0, 0] 1 false .quadratic)
        (.land3d (![1, 0, 0] + ![e f 0, e f 1, e f 2]) 1 false .quadratic) [0, 1] := by
      refine .land3d (A := SE3.default) (l := ![1, 0, 0]) rfl rfl rigid_one ?_
      have hR : SE3.default.R = 1 := by
        ext i j
        change (1 : Mat4) (Sum.inl i) (Sum.inl j) = _
        simp [Matrix.one_apply]
      have ht : SE3.default.t = 0 := by
        ext i
        change (1 : Mat4) (Sum.inl i) (Sum.inr ()) = _
        simp [Matrix.one_apply]
      rw [hR, ht, one_mulVec, add_zero]
    have e2 : ((seWorld₀ 0).fh f).virt = .land3d ![1, 0, 0] 1 false .quadratic := congrArg (fun z => FactorVirt.land3d z 1 false .quadratic) h0
    rw [e2]
    exact this

theorem se_white : White (fun _ => 1 / 12) seErr (seWorld₀ 0) (addedFactors seOps) := by
  have h6 : √6 * √6 = (6 : ℝ) := Real.mul_self_sqrt (by norm_num)
  refine ⟨⟨fun _ => by norm_num, ?_⟩, fun f hf i => ?_, fun f hf i j => ?_, fun f hf g hg hfg i j => ?_⟩
  · simp
  · rw [Fintype.sum_prod_type]
    refine Finset.sum_eq_zero fun k _ => ?_
    rw [Fintype.sum_bool]
    unfold seErr
    split <;> simp
  · change Fin 3 at i j
    change _ = ((1 : Mat3)⁻¹) i j
    rw [inv_one, Fintype.sum_prod_type]
    simp only [Fintype.sum_bool, seErr]
    rcases se_mem hf with rfl | rfl <;> fin_cases i <;> fin_cases j <;> simp [Fin.sum_univ_succ, h6] <;> norm_num [Fin.ext_iff]
  · change Fin 3 at i j
    rw [Fintype.sum_prod_type]
    simp only [Fintype.sum_bool, seErr]
    refine Finset.sum_eq_zero fun k _ => ?_
    have key : ∀ f g : ℕ, f ≠ g → ¬(3 * f + (i : ℕ) = k ∧ 3 * g + (j : ℕ) = k) := by
      rintro f g hfg ⟨h1, h2⟩
      have := i.2
      have := j.2
      omega
    have key := key f g hfg
    by_cases h1 : 3 * f + (i : ℕ) = k
    · have h2 : ¬ 3 * g + (j : ℕ) = k := fun h2 => key ⟨h1, h2⟩
      simp only [if_neg h2, mul_zero, add_zero]
    · simp only [if_neg h1, zero_mul, mul_zero, add_zero]

theorem se_nodup : (addedFactors seOps).Nodup := by simp [addedFactors, seOps]

theorem se_active (e : FRef → ℕ → ℝ) : (World.run seOps (seWorld₀ e)).g.active = [1] := rfl
theorem se_factors (e : FRef → ℕ → ℝ) : (World.run seOps (seWorld₀ e)).g.factors = [0, 1] := rfl

theorem se_wellPosed (e : FRef → ℕ → ℝ) : WellPosed (World.run seOps (seWorld₀ e)) :=
  run_wellPosed rfl (se_proper e) (fun _ _ => Matrix.PosSemidef.one) fun _ _ => le_refl (0 : ℝ)

theorem se_posDef (e : FRef → ℕ → ℝ) : (infoMatrix (graphTerms (World.run seOps (seWorld₀ e)))).PosDef := by
  have key : ∀ n X, (seNodes n).val = ⟨.pose3d, X⟩ → IsRigid X.T := by
    intro n X
    unfold seNodes
    split_ifs
    · intro h; have := eq_of_heq (Sigma.mk.inj h).2; rw [← this]; exact rigid_one
    · intro h; exact absurd (Sigma.mk.inj h).1 NodeKind.noConfusion
  refine posDef_of_tied (se_wellPosed e) (fun f hf n hn X hX => .of_rigid (key n X ?_)) fun n hn => ?_
  · rw [← hX]; exact (run_nh_static seOps (seWorld₀ e) n).1.symm
  · rw [se_active] at hn
    simp at hn
    subst hn
    refine .measured (f := 0) (known := [0]) (by rw [se_factors]; decide) ?_ ?_ ?_ ?_
    · rw [(run_fh_static seOps (seWorld₀ e) 0).1]; exact (Matrix.PosDef.one (n := Fin 3))
    · rw [(run_fh_static seOps (seWorld₀ e) 0).1]; exact fun h => nomatch h
    · rw [(run_fh_static seOps (seWorld₀ e) 0).1, (run_fh_static seOps (seWorld₀ e) 0).2]; exact .land3d
    · have h0 : Tied (World.run seOps (seWorld₀ e)) 0 := .known (by rw [se_active]; decide)
      simpa using h0

theorem se_pd (e : FRef → ℕ → ℝ) (f : FRef) : ((seWorld₀ e).fh f).virt.W.PosDef := Matrix.PosDef.one (n := Fin 3)

theorem se_landmarks (e : FRef → ℕ → ℝ) : LandmarkGraph (seSolver e).w := by
  refine ⟨fun f _ => ⟨![1, 0, 0] + ![e f 0, e f 1, e f 2], 1, false, ?_⟩, fun n hn => ?_⟩
  · exact (run_fh_static seOps (seWorld₀ e) f).1
  · rw [seSolver, se_active] at hn
    simp at hn
    subst hn; rfl

end Demo

/-- Two measurements of the landmark with independent errors of standard deviation one; all calls return. -/
example : (∀ ω, ∃ s1, (Demo.seSolver (Demo.seErr ω)).solve Env.exact .GN 1 0 0 = .ok s1) ∧
    ∀ s1 : Fin 6 × Bool → FGraphSolve, (∀ ω, (Demo.seSolver (Demo.seErr ω)).solve Env.exact .GN 1 0 0 = .ok (s1 ω)) →
      ∃ (χ : Fin 6 × Bool → ℝ) (u : Fin 6 × Bool → World), (∀ ω, (s1 ω).w.chi2Eval = .ok (χ ω, u ω)) ∧ ∑ ω, 1 / 12 * χ ω = 3 / 2 := by
  refine ⟨fun ω => C36_returns _ Env.exact_complete (Demo.seSolver (Demo.seErr ω)) (Demo.se_wellPosed (Demo.seErr ω)) (Demo.se_posDef (Demo.seErr ω)) _ _ _, fun s1 h1 => ?_⟩
  obtain ⟨χ, u, h2, h3⟩ := C99_solved_partial (fun _ => 1 / 12) Demo.seErr (Demo.seWorld₀ 0) (fun ω => Demo.seWorld₀ (Demo.seErr ω)) Demo.seOps
    (Demo.se_proper 0) Demo.se_nodup (fun ω => Demo.se_remeasured (Demo.seErr ω)) Demo.se_white (fun f _ => Demo.se_pd 0 f)
    (fun _ _ _ => le_refl (0 : ℝ)) Env.exact Env.exact_sound (fun ω => Demo.seSolver (Demo.seErr ω)) s1 (fun _ => rfl) (Demo.se_posDef 0)
    1 0 0 (fun ω => Demo.se_landmarks _) h1
  refine ⟨χ, u, h2, h3.trans ?_⟩
  have e1 : ((addedFactors Demo.seOps).map fun f => ((Demo.seWorld₀ 0).fh f).virt.dim).sum = 6 := rfl
  have e2 : (World.run Demo.seOps (Demo.seWorld₀ 0)).g.stateDim = 3 := rfl
  rw [e1, e2]
  norm_num

end Mrob
