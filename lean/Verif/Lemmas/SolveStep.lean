import Verif.Lemmas.SolveLoop
import Mathlib.LinearAlgebra.Matrix.NonsingularInverse
import Mathlib.Analysis.Matrix.PosDef

/-!
# Steps of the solver on consistent graphs
-/

open Matrix

namespace Mrob

open World

/-- Contract of the sparse Cholesky solver: what it returns solves the system. -/
def Env.Sound (env : Env) : Prop := ∀ N L b x, env.chol N L b = some x → L *ᵥ x = b
/-- Contract of the sparse Cholesky solver: positive definite matrices can be factorised. -/
def Env.Complete (env : Env) : Prop := ∀ N L b, L.PosDef → ∃ x, env.chol N L b = some x

open Classical in
/-- An exact solver, for examples and counterexamples. -/
noncomputable def Env.exact : Env where
  chol := fun _ L b => if IsUnit L.det then some (L⁻¹ *ᵥ b) else none
  junk := 0

theorem Env.exact_sound : Env.exact.Sound := by
  intro N L b x h
  simp only [Env.exact] at h
  split at h
  · rename_i hu
    rw [Option.some.injEq] at h
    rw [← h, Matrix.mulVec_mulVec, Matrix.mul_nonsing_inv _ hu, Matrix.one_mulVec]
  · simp at h

theorem Env.exact_complete : Env.exact.Complete := by
  intro N L b h
  exact ⟨L⁻¹ *ᵥ b, if_pos (isUnit_iff_ne_zero.mpr h.det_pos.ne')⟩

open Classical in
theorem Env.exact_of {N : ℕ} {L : Matrix (Fin N) (Fin N) ℝ} {b x : Fin N → ℝ} (hd : L.det ≠ 0) (h : L *ᵥ x = b) :
    Env.exact.chol N L b = some x := by
  have hu := isUnit_iff_ne_zero.mpr hd
  change (if IsUnit L.det then some (L⁻¹ *ᵥ b) else none) = _
  rw [if_pos hu, ← h, Matrix.mulVec_mulVec, Matrix.nonsing_inv_mul _ hu, Matrix.one_mulVec]

namespace World

/-- The states of the active nodes moved by the given increments. -/
noncomputable def moved (w : World) (δ : NRef → ℕ → ℝ) : World :=
  { w with nh := fun n => if n ∈ w.g.active then (w.nh n).update (δ n) else w.nh n }

/-- The increments in a stacked vector. -/
noncomputable def unstack (w : World) {N : ℕ} (dx : Fin N → ℝ) (n : NRef) (k : ℕ) : ℝ :=
  -dxBlock dx (offset (fun n => (w.nh n).dim) w.g.active n) k

theorem updateNodes_wired {w : World} (hw : Wired w) {N : ℕ} (hN : N = w.g.stateDim) (dx : Fin N → ℝ) :
    updateNodes dx 0 w.g.active w = .ok (w.moved (w.unstack dx)) := by
  rw [updateNodes_eq dx _ 0 w hw.active_nodup (by rw [Nat.zero_add, hN, hw.stateDim])]
  simp only [Nat.zero_add]
  rfl

end World

/-- A consistent graph with positive semidefinite information matrices; `robust_weight_` is zero after construction. -/
structure WellPosed (w : World) : Prop where
  /-- consistency -/
  wired : Wired w
  /-- information matrices -/
  psd : ∀ f ∈ w.g.factors, (w.fh f).virt.W.PosSemidef
  /-- robust weights -/
  weight : ∀ f ∈ w.g.factors, 0 ≤ (w.fh f).weight

theorem isSymm_of_psd {n : Type*} {W : Matrix n n ℝ} (h : W.PosSemidef) : W.IsSymm := by
  have := h.isHermitian
  rwa [Matrix.IsHermitian, conjTranspose_eq_transpose_of_trivial] at this

namespace WellPosed

variable {w : World}

theorem weightable (h : WellPosed w) : ∀ f ∈ w.g.factors, ((w.fh f).full w.nh).weightable := by
  intro f hf hc
  exact absurd hc.1 (not_lt.mpr ((C29_factor _ _).1 (h.psd f hf)))

theorem symm (h : WellPosed w) : ∀ f ∈ w.g.factors, (w.fh f).virt.W.IsSymm := fun f hf => isSymm_of_psd (h.psd f hf)

theorem assembly_psd (h : WellPosed w) (env : Env) : (w.assembly env).L.PosSemidef := by
  have h1 : (Spec.infoMatrix (graphTerms w)).PosSemidef := by
    refine infoMatrix_posSemidef _ fun t ht => ?_
    obtain ⟨f, hf, rfl⟩ := List.mem_map.mp ht
    exact (h.psd f hf).smul (robustWeight_nonneg _ (h.weight f hf) (Real.sqrt_nonneg _))
  rw [← assembly_L_terms h.wired env h.symm] at h1
  exact (Matrix.posSemidef_submatrix_equiv _).mp h1

theorem of_frame {w' : World} (h : WellPosed w) (hf : Frame w w')
    (hw : ∀ f ∈ w.g.factors, 0 ≤ (w'.fh f).weight) : WellPosed w' := by
  refine ⟨hf.wired h.wired, fun f hm => ?_, fun f hm => ?_⟩ <;> rw [hf.factors.g] at hm
  · rw [hf.factors.virt]; exact h.psd f hm
  · exact hw f hm

theorem built_weight (h : WellPosed w) : ∀ f ∈ w.g.factors, 0 ≤ (w.built.fh f).weight := by
  intro f hf
  rw [built_fh hf]
  exact robustWeight_nonneg _ (h.weight f hf) (Real.sqrt_nonneg _)

end WellPosed

namespace FGraphSolve

theorem damped_posDef {N : ℕ} {L : Matrix (Fin N) (Fin N) ℝ} (h : L.PosSemidef) {lambda : ℝ} (hl : 0 < lambda) :
    (damped true lambda L).PosDef := by
  rw [damped, if_pos rfl]
  exact Matrix.PosDef.posSemidef_add h ((Matrix.PosDef.one (n := Fin N) (R := ℝ)).smul hl)

/-- A trial step on a consistent graph, in closed form. -/
theorem trial_eq {env : Env} {s : FGraphSolve} (hw : WellPosed s.w) {dx : Fin s.w.g.stateDim → ℝ}
    (hc : env.chol _ (damped true s.lambda (s.w.assembly env).L) (s.w.assembly env).b = some dx) :
    ∃ s', s.trial env = .ok (s.w.cost - s'.w.cost, s') ∧
      (∀ n, (s'.w.nh n).val = ((s.w.moved (s.w.unstack dx)).nh n).val) ∧
      (∀ f, (s'.w.fh f).weight = (s.w.built.fh f).weight) ∧
      s'.sys = ⟨_, damped true s.lambda (s.w.assembly env).L, (s.w.assembly env).b, dx⟩ := by
  have hb := buildAdjacency_wired hw.wired hw.weightable env
  have hg := gaussNewton_eq (ul := true) hb hc
  set s1 : FGraphSolve := { s with mats := s.w.assembly env, w := s.w.built, sys := ⟨(s.w.assembly env).N,
    damped true s.lambda (s.w.assembly env).L, (s.w.assembly env).b, dx⟩ } with hs1
  have hF2 : Frame s.w s1.w.syncAux := by
    refine (frame_built s.w).trans ?_
    rw [syncAux_eq]
    refine ⟨⟨rfl, fun _ => rfl, fun _ => rfl, fun _ => rfl⟩, fun n hn => if_neg hn, fun n => ?_⟩
    change NodeCell.SameButObj _ (if n ∈ _ then _ else _)
    split
    · exact ⟨_, rfl⟩
    · exact .refl _
  have hu := updateNodes_wired (hF2.wired hw.wired) (N := (s.w.assembly env).N) (by rw [hF2.factors.g]) dx
  set w2 := s1.w.syncAux.moved (s1.w.syncAux.unstack dx) with hw2
  have hF3 : Frame s.w w2 := by
    refine hF2.trans ⟨⟨rfl, fun _ => rfl, fun _ => rfl, fun _ => rfl⟩, fun n hn => if_neg hn, fun n => ?_⟩
    change NodeCell.SameButObj _ (if n ∈ _ then _ else _)
    split
    · exact ⟨_, rfl⟩
    · exact .refl _
  have he := chi2Eval_eq w2 (hF3.wellTyped hw.wired.typed)
  refine ⟨{ s1 with w := mapF (·.resd w2.nh) w2.g.factors w2 }, ?_, fun n => ?_, fun f => ?_, rfl⟩
  · rw [trial, hg, Out.ok_bind]
    change (FGraphSolve.update { s1 with w := s1.w.syncAux } >>= _) = _
    rw [update]
    change ((updateNodes dx 0 s1.w.syncAux.g.active s1.w.syncAux >>= fun w => pure { s1 with w := w }) >>= _) = _
    rw [hu, Out.ok_bind, Out.pure_eq, Out.ok_bind]
    change (w2.chi2Eval >>= _) = _
    rw [he, Out.ok_bind]
    have hcc : (mapF (·.resd w2.nh) w2.g.factors w2).cost = w2.cost :=
      cost_congr_nh (sameFactors_mapF (φ := (·.resd w2.nh)) (fun _ => rfl) (fun _ => rfl) (fun _ => rfl) _ _) fun _ => rfl
    rw [hcc, ← chi2Stored_built (w := s.w)]
    rfl
  · change (w2.nh n).val = _
    have hoff : s1.w.syncAux.unstack dx = s.w.unstack dx := by
      funext m k
      rw [unstack, unstack, hF2.factors.g]
      congr 2
      congr 1
      funext m
      exact (hF2.active m).dim
    rw [hw2, hoff]
    change (if n ∈ s1.w.syncAux.g.active then _ else _ : NodeCell).val = (if n ∈ s.w.g.active then _ else _ : NodeCell).val
    rw [hF2.factors.g]
    split
    · rename_i hn
      have : s1.w.syncAux.nh n = (s.w.nh n).bookkeep := by
        rw [syncAux_eq]; exact if_pos hn
      rw [this]; rfl
    · rename_i hn
      rw [hF2.inactive n hn]
  · have e : w2.fh = s.w.built.fh := by
      rw [hw2]
      change s1.w.syncAux.fh = _
      rw [syncAux_eq]
    change ((mapF (·.resd w2.nh) w2.g.factors w2).fh f).weight = _
    rw [mapF_fh, e]
    split <;> rfl

theorem trial_total {env : Env} (henv : env.Complete) {s : FGraphSolve} (hw : WellPosed s.w) (hl : 0 < s.lambda) :
    ∃ delta s', s.trial env = .ok (delta, s') ∧ WellPosed s'.w := by
  obtain ⟨dx, hdx⟩ := henv _ _ (s.w.assembly env).b (damped_posDef (hw.assembly_psd env) hl)
  obtain ⟨s', h1, -, h3, -⟩ := trial_eq hw hdx
  exact ⟨_, s', h1, hw.of_frame (trial_frame h1) fun f hf => by rw [h3]; exact hw.built_weight f hf⟩

theorem lmLoop_total {env : Env} (henv : env.Complete) (maxIters : ℕ) : ∀ (k iter : ℕ) (s : FGraphSolve),
    maxIters - iter = k → WellPosed s.w → 0 < s.lambda → ∃ r, lmLoop env maxIters iter s = .ok r := by
  intro k
  induction k using Nat.strong_induction_on with
  | _ k ih =>
    intro iter s hk hw hl
    obtain ⟨delta, s', h1, hw'⟩ := trial_total henv hw hl
    have hl' : s'.lambda = s.lambda := (trial_ok h1).2.1
    rw [lmLoop, h1, Out.ok_bind]
    dsimp only
    split_ifs
    · refine ih _ (by omega) (iter + 1) s'.reject rfl (hw'.of_frame (reject_frame _) ?_) ?_
      · intro f hf
        have : s'.reject.w.fh f = s'.w.fh f := by
          change s'.w.syncState.fh f = _
          rw [syncState_eq]
        rw [this]; exact hw'.weight f hf
      · change 0 < s'.lambda * 2
        rw [hl']; linarith
    · exact ⟨_, rfl⟩
    · exact ⟨_, rfl⟩
    · exact ih _ (by omega) (iter + 1) (s'.adapt delta) rfl hw' (nextLambda_pos (by rw [hl']; exact hl))
    · exact ⟨_, rfl⟩

end FGraphSolve

end Mrob
