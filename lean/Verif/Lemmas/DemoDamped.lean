import Verif.Lemmas.DemoPair

/-!
# One node, measured twice from anchors: a damped step
-/

open Matrix

namespace Mrob.Demo

open World Spec

variable {a : NRef → NodeVal} {x : NodeVal} {v : FRef → FactorVirt}

/-- The value after a trial of Levenberg-Marquardt, if the information of the node is `m • 1`. -/
theorem twice_trial (h : Measured a x v) {m : ℝ} {g : Fin x.1.dim → ℝ}
    (hH : (twiceJac (a 0) x (v 0))ᵀ * (v 0).W * twiceJac (a 0) x (v 0) +
      (twiceJac (a 1) x (v 1))ᵀ * (v 1).W * twiceJac (a 1) x (v 1) = m • 1)
    (hg : (twiceJac (a 0) x (v 0))ᵀ *ᵥ ((v 0).W *ᵥ (v 0).res [a 0, x]) +
      (twiceJac (a 1) x (v 1))ᵀ *ᵥ ((v 1).W *ᵥ (v 1).res [a 1, x]) = g)
    {env : Env} (henv : env.Sound) {s s1 : FGraphSolve} {d : ℝ} (hs : s.w = twiceWorld a x v) (hm : m + s.lambda ≠ 0)
    (h1 : s.trial env = .ok (d, s1)) :
    (s1.w.nh 0).val = a 0 ∧ (s1.w.nh 1).val = a 1 ∧
    (s1.w.nh 2).val = x.upd fun k => if hk : k < x.1.dim then -((m + s.lambda)⁻¹ * g ⟨k, hk⟩) else 0 := by
  have hw := twice_wellPosed h
  have hmem : (2 : NRef) ∈ (twiceWorld a x v).g.active := by rw [twice_active]; simp
  have h0 : (0 : NRef) ∉ (twiceWorld a x v).g.active := by rw [twice_active]; simp
  have h1' : (1 : NRef) ∉ (twiceWorld a x v).g.active := by rw [twice_active]; simp
  have d2 : ((twiceWorld a x v).nh 2).dim = x.1.dim := by rw [← (twice_val h).2.2]; rfl
  obtain ⟨w, lambda, tol, sys, mats⟩ := s
  dsimp only at hs hm ⊢
  subst hs
  obtain ⟨X, hX, hv, -, -⟩ := FGraphSolve.trial_model henv hw h1
  dsimp only at hX hv
  have hcoord : ∀ k : Fin x.1.dim, (m + lambda) * (twiceWorld a x v).spread X 2 k = g k := by
    intro k
    let c : Cols (twiceWorld a x v) := ⟨⟨2, hmem⟩, ⟨k, by rw [d2]; exact k.2⟩⟩
    let U : Cols (twiceWorld a x v) → ℝ := Pi.single c 1
    have hU : (fun j : Fin x.1.dim => (twiceWorld a x v).spread U 2 j) = Pi.single k 1 := by
      funext j
      rw [spread, dif_pos ⟨hmem, by rw [d2]; exact j.2⟩]
      by_cases hjk : j = k
      · subst hjk
        rw [Pi.single_eq_same]
        exact Pi.single_eq_same _ _
      · rw [Pi.single_eq_of_ne hjk]
        refine Pi.single_eq_of_ne (fun hc => hjk ?_) _
        have := congrArg (fun c : Cols (twiceWorld a x v) => (c.2 : ℕ)) hc
        exact Fin.ext this
    have f1 := (twice_forms h U X).1
    have f2 := (twice_forms h U X).2
    rw [hU, hH, smul_mulVec, one_mulVec, single_one_dotProduct, single_one_dotProduct] at f1
    rw [hU, hg, single_one_dotProduct, single_one_dotProduct] at f2
    have f3 : X c = (twiceWorld a x v).spread X 2 k := (spread_apply X c).symm
    have := congrFun hX c
    rw [Pi.add_apply, f1, f2, Pi.smul_apply, Pi.smul_apply, f3, smul_eq_mul, smul_eq_mul] at this
    linarith
  have hval : ∀ n, n ∉ (twiceWorld a x v).g.active →
      (((twiceWorld a x v).moved ((twiceWorld a x v).spread (-X))).nh n).val = ((twiceWorld a x v).nh n).val := by
    intro n hn
    rw [moved]
    simp only [if_neg hn]
  refine ⟨?_, ?_, ?_⟩
  · rw [hv, hval 0 h0]; exact (twice_val h).1
  · rw [hv, hval 1 h1']; exact (twice_val h).2.1
  · have e : (((twiceWorld a x v).moved ((twiceWorld a x v).spread (-X))).nh 2).val =
        (((twiceWorld a x v).nh 2).val).upd ((twiceWorld a x v).spread (-X) 2) := by
      rw [moved]
      simp only [if_pos hmem]
      rfl
    rw [hv, e, (twice_val h).2.2]
    refine congrArg x.upd ?_
    funext k
    by_cases hk : k < x.1.dim
    · rw [dif_pos hk, ← hcoord ⟨k, hk⟩, inv_mul_cancel_left₀ hm, spread, spread, dif_pos ⟨hmem, by rw [d2]; exact hk⟩,
        dif_pos ⟨hmem, by rw [d2]; exact hk⟩]
      rfl
    · rw [dif_neg hk, spread, dif_neg (by rw [d2]; exact fun h => hk h.2)]

/-- The damped normal equations of the graph and those of the node. -/
theorem twice_damped (h : Measured a x v)
    (hpd : ((twiceJac (a 0) x (v 0))ᵀ * (v 0).W * twiceJac (a 0) x (v 0) +
      (twiceJac (a 1) x (v 1))ᵀ * (v 1).W * twiceJac (a 1) x (v 1)).PosDef) {l : ℝ} (hl : 0 ≤ l) (y : Fin x.1.dim → ℝ)
    (hy : ((twiceJac (a 0) x (v 0))ᵀ * (v 0).W * twiceJac (a 0) x (v 0) +
        (twiceJac (a 1) x (v 1))ᵀ * (v 1).W * twiceJac (a 1) x (v 1)) *ᵥ y + l • y =
      (twiceJac (a 0) x (v 0))ᵀ *ᵥ ((v 0).W *ᵥ (v 0).res [a 0, x]) + (twiceJac (a 1) x (v 1))ᵀ *ᵥ ((v 1).W *ᵥ (v 1).res [a 1, x]))
    (X : Cols (twiceWorld a x v) → ℝ)
    (hX : infoMatrix (graphTerms (twiceWorld a x v)) *ᵥ X + l • X = infoVector (graphTerms (twiceWorld a x v))) :
    (twiceWorld a x v).spread (-X) 2 = fun k => if hk : k < x.1.dim then -y ⟨k, hk⟩ else 0 := by
  have hmem : (2 : NRef) ∈ (twiceWorld a x v).g.active := by rw [twice_active]; simp
  have d2 : ((twiceWorld a x v).nh 2).dim = x.1.dim := by rw [← (twice_val h).2.2]; rfl
  set H := (twiceJac (a 0) x (v 0))ᵀ * (v 0).W * twiceJac (a 0) x (v 0) + (twiceJac (a 1) x (v 1))ᵀ * (v 1).W * twiceJac (a 1) x (v 1) with hH
  set g := (twiceJac (a 0) x (v 0))ᵀ *ᵥ ((v 0).W *ᵥ (v 0).res [a 0, x]) + (twiceJac (a 1) x (v 1))ᵀ *ᵥ ((v 1).W *ᵥ (v 1).res [a 1, x]) with hg
  set z : Fin x.1.dim → ℝ := fun k => (twiceWorld a x v).spread X 2 k with hz
  have hcoord : H *ᵥ z + l • z = g := by
    funext k
    let c : Cols (twiceWorld a x v) := ⟨⟨2, hmem⟩, ⟨k, by rw [d2]; exact k.2⟩⟩
    let U : Cols (twiceWorld a x v) → ℝ := Pi.single c 1
    have hU : (fun j : Fin x.1.dim => (twiceWorld a x v).spread U 2 j) = Pi.single k 1 := by
      funext j
      rw [spread, dif_pos ⟨hmem, by rw [d2]; exact j.2⟩]
      by_cases hjk : j = k
      · subst hjk
        rw [Pi.single_eq_same]
        exact Pi.single_eq_same _ _
      · rw [Pi.single_eq_of_ne hjk]
        refine Pi.single_eq_of_ne (fun hc => hjk ?_) _
        have := congrArg (fun c : Cols (twiceWorld a x v) => (c.2 : ℕ)) hc
        exact Fin.ext this
    have f1 := (twice_forms h U X).1
    have f2 := (twice_forms h U X).2
    rw [hU, single_one_dotProduct, single_one_dotProduct] at f1 f2
    have f3 : X c = (twiceWorld a x v).spread X 2 k := (spread_apply X c).symm
    have := congrFun hX c
    rw [Pi.add_apply, f1, f2, Pi.smul_apply, f3] at this
    exact this
  have hsol : z = y := by
    by_contra hne
    have hpos := hpd.dotProduct_mulVec_pos (sub_ne_zero.mpr hne)
    have e : H *ᵥ (z - y) = -(l • (z - y)) := by
      rw [mulVec_sub, smul_sub, eq_sub_of_add_eq hcoord, eq_sub_of_add_eq hy]
      abel
    rw [e, star_trivial, dotProduct_neg, dotProduct_smul, smul_eq_mul] at hpos
    have : 0 ≤ (z - y) ⬝ᵥ (z - y) := Finset.sum_nonneg fun i _ => mul_self_nonneg _
    nlinarith
  funext k
  by_cases hk : k < x.1.dim
  · rw [dif_pos hk, ← congrFun hsol ⟨k, hk⟩, hz, spread, dif_pos ⟨hmem, by rw [d2]; exact hk⟩]
    change _ = -((twiceWorld a x v).spread X 2 k)
    rw [spread, dif_pos ⟨hmem, by rw [d2]; exact hk⟩]
    rfl
  · rw [dif_neg hk, spread, dif_neg (by rw [d2]; exact fun h => hk h.2)]

end Mrob.Demo
