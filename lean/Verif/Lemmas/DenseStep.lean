import Verif.Lemmas.DenseLoop
import Verif.Lemmas.GaussNewton

/-! # The step of the dense solver -/

open Matrix

namespace Mrob

open World

/-- The right-hand side of the dense solver: every factor counts once for each of its nodes. -/
noncomputable def denseVector (w : World) : Cols w → ℝ := (w.g.factors.map fun f =>
  ((w.fh f).nbrs.length : ℝ) • (((plainTerm w f).Jᵀ * (plainTerm w f).W) *ᵥ (plainTerm w f).r)).sum

namespace OptDense

/-- What one iteration does to the graph. -/
theorem oneIteration_step {s s' : OptDense World} {b : Bool} (hw : DenseWired s.obj)
    (h : s.oneIteration denseGraph b = .ok s') :
    ∃ (H : Matrix (Fin s.obj.g.stateDim) (Fin s.obj.g.stateDim) ℝ) (dx : Fin s.obj.g.stateDim → ℝ),
      H.submatrix (colEquiv hw.wired) (colEquiv hw.wired) = Spec.infoMatrix (s.obj.g.factors.map (plainTerm s.obj)) ∧
      IsUnit (if b then damp s.method s.lambda H else H).det ∧
      (fun c => ((if b then damp s.method s.lambda H else H) *ᵥ dx) (colEquiv hw.wired c)) = denseVector s.obj ∧
      DenseFrame s.obj s'.obj ∧
      ∀ n, (s'.obj.nh n).val =
        ((s.obj.moved (s.obj.spread (-fun c => dx (colEquiv hw.wired c)))).nh n).val := by
  obtain ⟨e, o, o', sys, h1, h2, h3, rfl⟩ := oneIteration_ok h
  obtain ⟨H, g, k1, k2, k3⟩ := hw.gradHess
  have h1 : s.obj.denseGradHess = .ok (e, o) := h1
  rw [k1, Out.ok.injEq, Prod.mk.injEq] at h1
  obtain ⟨rfl, rfl⟩ := h1
  dsimp only at h2 h3
  set K := if b then damp s.method s.lambda H else H with hK
  have hF := evaled_frame s.obj
  have hw1 := hF.denseWired hw
  refine ⟨H, K⁻¹ *ᵥ g, k2, h3, ?_, hF.trans (denseUpdate_ok h2).1, fun n => ?_⟩
  · rw [mulVec_mulVec, Matrix.mul_nonsing_inv _ h3, one_mulVec]
    exact k3
  · have h2 : updateNodes (fun i => -(-(K⁻¹ *ᵥ g)) i) 0 (DenseWired.evaled s.obj).g.nodes (DenseWired.evaled s.obj) = .ok o' := h2
    have e1 : (fun i => -(-(K⁻¹ *ᵥ g)) i) = K⁻¹ *ᵥ g := by funext i; simp
    rw [e1, hw1.nodes, updateNodes_wired hw1.wired (N := s.obj.g.stateDim) rfl, Out.ok.injEq] at h2
    rw [← h2]
    have e2 : ((DenseWired.evaled s.obj).moved ((DenseWired.evaled s.obj).unstack (K⁻¹ *ᵥ g))).nh n =
        (s.obj.moved (s.obj.unstack (K⁻¹ *ᵥ g))).nh n := rfl
    change (((DenseWired.evaled s.obj).moved ((DenseWired.evaled s.obj).unstack (K⁻¹ *ᵥ g))).nh n).val = _
    rw [e2, moved_step hw.wired]
    rfl

theorem submatrix_mulVec' {C : Type} [Fintype C] {N : ℕ} (ε : C ≃ Fin N) (A : Matrix (Fin N) (Fin N) ℝ) (x : Fin N → ℝ) :
    (A.submatrix ε ε) *ᵥ (fun c => x (ε c)) = fun c => (A *ᵥ x) (ε c) := by
  funext c
  exact ε.sum_comp fun i => A (ε c) i * x i

theorem det_submatrix' {C : Type} [Fintype C] [DecidableEq C] {N : ℕ} (ε : C ≃ Fin N) (A : Matrix (Fin N) (Fin N) ℝ) :
    (A.submatrix ε ε).det = A.det := Matrix.det_submatrix_equiv_self ε A

end OptDense

end Mrob
