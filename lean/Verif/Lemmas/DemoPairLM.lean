import Verif.Lemmas.DemoPair
import Verif.Lemmas.Damping
import Verif.Lemmas.DemoLandmarks

/-!
# One landmark, measured twice from anchors: one iteration of Levenberg-Marquardt
-/

open Matrix

namespace Mrob.Demo

open World Spec

variable {a : NRef → NodeVal} {x : NodeVal} {v : FRef → FactorVirt}

theorem twice_dot (h : Measured a x v) (δ z : Cols (twiceWorld a x v) → ℝ) : δ ⬝ᵥ z =
    (fun k : Fin x.1.dim => (twiceWorld a x v).spread δ 2 k) ⬝ᵥ fun k : Fin x.1.dim => (twiceWorld a x v).spread z 2 k := by
  have hmem : (2 : NRef) ∈ (twiceWorld a x v).g.active := by rw [twice_active]; simp
  have d2 : ((twiceWorld a x v).nh 2).dim = x.1.dim := by rw [← (twice_val h).2.2]; rfl
  rw [dotProduct, Gauge.sum_node ⟨2, hmem⟩ (fun k => (twiceWorld a x v).spread δ 2 k * (twiceWorld a x v).spread z 2 k)]
  · rw [d2, dotProduct, ← Fin.sum_univ_eq_sum_range (fun k => (twiceWorld a x v).spread δ 2 k * (twiceWorld a x v).spread z 2 k)]
  · intro k
    rw [← spread_apply δ ⟨⟨2, hmem⟩, k⟩, ← spread_apply z ⟨⟨2, hmem⟩, k⟩]
  · intro d hd
    refine absurd ?_ hd
    obtain ⟨⟨n, hn⟩, k⟩ := d
    rw [twice_active, List.mem_singleton] at hn
    exact hn

/-- The result of one iteration, from the damped normal equations of the node. -/
theorem twice_lm (h : Measured a x v) (hL : LandmarkGraph (twiceWorld a x v)) (y : Fin x.1.dim → ℝ)
    (hy : ((twiceJac (a 0) x (v 0))ᵀ * (v 0).W * twiceJac (a 0) x (v 0) +
        (twiceJac (a 1) x (v 1))ᵀ * (v 1).W * twiceJac (a 1) x (v 1)) *ᵥ y + (1e-5 : ℝ) • y =
      (twiceJac (a 0) x (v 0))ᵀ *ᵥ ((v 0).W *ᵥ (v 0).res [a 0, x]) + (twiceJac (a 1) x (v 1))ᵀ *ᵥ ((v 1).W *ᵥ (v 1).res [a 1, x]))
    (s : FGraphSolve) (hs : s.w = twiceWorld a x v) :
    ∃ s1, s.solve Env.exact .LM 1 1e-6 1e-2 = .ok s1 ∧
      (s1.w.nh 2).val = x.upd fun k => if hk : k < x.1.dim then -y ⟨k, hk⟩ else 0 := by
  have hw := twice_wellPosed h
  have hmem : (2 : NRef) ∈ (twiceWorld a x v).g.active := by rw [twice_active]; simp
  have d2 : ((twiceWorld a x v).nh 2).dim = x.1.dim := by rw [← (twice_val h).2.2]; rfl
  obtain ⟨w, lambda, tol, sys, mats⟩ := s
  dsimp only at hs
  subst hs
  obtain ⟨delta, s2, h1, -⟩ := FGraphSolve.trial_total Env.exact_complete
    (s := ⟨twiceWorld a x v, 1e-5, 1e-2, sys, mats⟩) hw (by norm_num)
  obtain ⟨k1, k2, -⟩ := FGraphSolve.trial_kept Env.exact_sound hw (hL.affine hw.wired) hL.quadratic (by norm_num) h1
  have hd : ¬ delta < 0 := not_lt.mpr (k2.trans k1)
  have hres : ∃ s1 : FGraphSolve, FGraphSolve.solve Env.exact .LM 1 1e-6 1e-2 ⟨twiceWorld a x v, lambda, tol, sys, mats⟩ = .ok s1 ∧
      s1.w = s2.w := by
    have e : FGraphSolve.solve Env.exact .LM 1 1e-6 1e-2 ⟨twiceWorld a x v, lambda, tol, sys, mats⟩ =
      (FGraphSolve.lmLoop Env.exact 1 0 ⟨twiceWorld a x v, 1e-5, 1e-2, sys, mats⟩ >>= fun r => .ok r.s) := rfl
    rw [e, FGraphSolve.lmLoop, h1]
    change ∃ s1, ((if delta < 0 then _ else _ : Out FGraphSolve.LMResult) >>= fun r => Out.ok r.s) = _ ∧ _
    rw [if_neg hd]
    by_cases ht : delta < s2.tol
    · rw [if_pos ht]
      exact ⟨_, rfl, rfl⟩
    · rw [if_neg ht, if_neg (by norm_num)]
      exact ⟨_, rfl, rfl⟩
  obtain ⟨s1, hs1, hsw⟩ := hres
  refine ⟨s1, hs1, ?_⟩
  rw [hsw]
  obtain ⟨X, hX, hv, -, -⟩ := FGraphSolve.trial_model Env.exact_sound hw h1
  change infoMatrix (graphTerms (twiceWorld a x v)) *ᵥ X + (1e-5 : ℝ) • X = infoVector (graphTerms (twiceWorld a x v)) at hX
  have hsol : (fun k : Fin x.1.dim => (twiceWorld a x v).spread X 2 k) = y := by
    set u := (fun k : Fin x.1.dim => (twiceWorld a x v).spread X 2 k) - y with hu
    let U : Cols (twiceWorld a x v) → ℝ := fun c => if hk : (c.2 : ℕ) < x.1.dim then u ⟨c.2, hk⟩ else 0
    have hU : (fun k : Fin x.1.dim => (twiceWorld a x v).spread U 2 k) = u := by
      funext k
      rw [spread, dif_pos ⟨hmem, by rw [d2]; exact k.2⟩]
      exact dif_pos k.2
    have f1 := (twice_forms h U X).1
    have f2 := (twice_forms h U X).2
    have f3 := twice_dot h U X
    have f4 := congrArg (U ⬝ᵥ ·) hX
    simp only [dotProduct_add, dotProduct_smul] at f4
    rw [f1, f2, f3, hU, ← hy] at f4
    set M := (twiceJac (a 0) x (v 0))ᵀ * (v 0).W * twiceJac (a 0) x (v 0) +
        (twiceJac (a 1) x (v 1))ᵀ * (v 1).W * twiceJac (a 1) x (v 1) with hM
    have hpsd : M.PosSemidef := by
      refine Matrix.PosSemidef.add ?_ ?_
      · have := h.psd0.conjTranspose_mul_mul_same (twiceJac (a 0) x (v 0))
        rwa [conjTranspose_eq_transpose_of_trivial] at this
      · have := h.psd1.conjTranspose_mul_mul_same (twiceJac (a 1) x (v 1))
        rwa [conjTranspose_eq_transpose_of_trivial] at this
    have hsub : (fun k : Fin x.1.dim => (twiceWorld a x v).spread X 2 k) = u + y := by rw [hu]; abel
    rw [hsub, mulVec_add, dotProduct_add, dotProduct_add, dotProduct_add, dotProduct_smul] at f4
    have h2 := hpsd.dotProduct_mulVec_nonneg u
    rw [star_trivial] at h2
    simp only [smul_eq_mul] at f4
    have h3 : u ⬝ᵥ u = 0 := by
      have : 0 ≤ u ⬝ᵥ u := Finset.sum_nonneg fun i _ => mul_self_nonneg _
      nlinarith
    exact sub_eq_zero.mp (dotProduct_self_eq_zero.mp h3)
  rw [hv]
  change (((twiceWorld a x v).moved ((twiceWorld a x v).spread (-X))).nh 2).val = _
  have hv2 : ((((twiceWorld a x v).moved ((twiceWorld a x v).spread (-X))).nh 2).val) =
      (((twiceWorld a x v).nh 2).val).upd ((twiceWorld a x v).spread (-X) 2) := by
    rw [moved]
    simp only [if_pos hmem]
    rfl
  rw [hv2, (twice_val h).2.2]
  congr 1
  funext k
  by_cases hk : k < x.1.dim
  · rw [dif_pos hk, ← congrFun hsol ⟨k, hk⟩, spread, spread, dif_pos ⟨hmem, by rw [d2]; exact hk⟩,
      dif_pos ⟨hmem, by rw [d2]; exact hk⟩]
    rfl
  · rw [dif_neg hk, spread, dif_neg (by rw [d2]; exact fun h => hk h.2)]

end Mrob.Demo
