import Verif.Lemmas.FixedPoint

/-!
# Graphs that pose the same problem
-/

open Matrix

namespace Mrob

open World Spec

/-- A factor class without its information matrix. -/
def FactorVirt.core (v : FactorVirt) : FactorVirt := { v with W := 0 }

namespace World

/-- A weighted sum over the factors of a bilinear form of their information matrices, at the states `V`. -/
noncomputable def quadSum (w : World) (V : NRef → NodeVal) (x y : (v : FactorVirt) → List NRef → Fin v.dim → ℝ) : ℝ :=
  (w.g.factors.map fun f =>
    robustWeight (w.fh f).virt.robust 0
        (Real.sqrt (factorChi2 (w.fh f).virt.W ((w.fh f).virt.res ((w.fh f).nbrs.map V)))) *
      (x (w.fh f).virt.core (w.fh f).nbrs ⬝ᵥ ((w.fh f).virt.W *ᵥ y (w.fh f).virt.core (w.fh f).nbrs))).sum

/-- The cost at the states `V`. -/
noncomputable def costAt (w : World) (V : NRef → NodeVal) : ℝ :=
  (w.g.factors.map fun f => factorChi2 (w.fh f).virt.W ((w.fh f).virt.res ((w.fh f).nbrs.map V))).sum

/-- No factor has the robust type RANSAC (which never sets a weight). -/
def NoRansac (w : World) : Prop := ∀ f ∈ w.g.factors, (w.fh f).virt.robust ≠ .ransac

/-- Two graphs with the same unknowns at the same values, the information of the second is `c` times that of the first.
Order of the nodes and ids, number and order of the factors may be different. -/
structure Alike (c : ℝ) (w w' : World) : Prop where
  /-- unknowns -/
  mem : ∀ n, n ∈ w'.g.active ↔ n ∈ w.g.active
  /-- values -/
  val : ∀ n, (w'.nh n).val = (w.nh n).val
  /-- information -/
  quad : ∀ V x y, w'.quadSum V x y = c * w.quadSum V x y
  /-- cost -/
  cost : ∀ V, w'.costAt V = c * w.costAt V

theorem cost_eq_costAt (w : World) : w.cost = w.costAt fun n => (w.nh n).val := rfl

theorem SameFactors.quadSum {w w' : World} (h : SameFactors w w') : w'.quadSum = w.quadSum := by
  funext V x y
  unfold World.quadSum
  rw [h.g]
  refine congrArg List.sum (List.map_congr_left fun f _ => ?_)
  rw [h.virt, h.nbrs]

theorem SameFactors.costAt {w w' : World} (h : SameFactors w w') : w'.costAt = w.costAt := by
  funext V
  unfold World.costAt
  rw [h.g]
  refine congrArg List.sum (List.map_congr_left fun f _ => ?_)
  rw [h.virt, h.nbrs]

theorem NoRansac.of_factors {w w' : World} (h : NoRansac w) (hf : SameFactors w w') : NoRansac w' := by
  intro f hm
  rw [hf.virt]
  exact h f (by rwa [hf.g] at hm)

theorem robustWeight_old {ty : Robust} (h : ty ≠ .ransac) (a b u : ℝ) : robustWeight ty a u = robustWeight ty b u := by
  cases ty <;> first | rfl | exact absurd rfl h

/-- Row of the Jacobian, from the states. -/
noncomputable def jacRow (V : NRef → NodeVal) (a : NRef) (k : ℕ) (v : FactorVirt) (nbrs : List NRef) (l : Fin v.dim) : ℝ :=
  blockEntry (fun n => (V n).1.dim) (v.jac (nbrs.map V) l) a k 0 nbrs

theorem weighted_form {d : ℕ} (a : ℝ) (W : Matrix (Fin d) (Fin d) ℝ) (x y : Fin d → ℝ) :
    ∑ l, x l * ((a • W) *ᵥ y) l = a * (x ⬝ᵥ (W *ᵥ y)) := by
  rw [dotProduct, Finset.mul_sum]
  refine Finset.sum_congr rfl fun l _ => ?_
  rw [smul_mulVec, Pi.smul_apply, smul_eq_mul]
  ring

theorem infoMatrix_quad {w : World} (hr : NoRansac w) (c d : Cols w) :
    infoMatrix (graphTerms w) c d =
      w.quadSum (fun n => (w.nh n).val) (jacRow (fun n => (w.nh n).val) c.1 c.2) (jacRow (fun n => (w.nh n).val) d.1 d.2) := by
  rw [infoMatrix_apply, graphTerms, List.map_map, quadSum]
  refine congrArg List.sum (List.map_congr_left fun f hf => ?_)
  rw [Function.comp_apply, Matrix.mul_assoc, Matrix.mul_apply]
  have hwt : factorWeight w f = robustWeight (w.fh f).virt.robust 0
        (Real.sqrt (factorChi2 (w.fh f).virt.W ((w.fh f).virt.res ((w.fh f).nbrs.map fun n => (w.nh n).val)))) :=
    robustWeight_old (hr f hf) _ _ _
  rw [← hwt]
  exact weighted_form (factorWeight w f) (w.fh f).virt.W
    (jacRow (fun n => (w.nh n).val) c.1 c.2 (w.fh f).virt.core (w.fh f).nbrs)
    (jacRow (fun n => (w.nh n).val) d.1 d.2 (w.fh f).virt.core (w.fh f).nbrs)

theorem infoVector_quad {w : World} (hr : NoRansac w) (c : Cols w) :
    infoVector (graphTerms w) c =
      w.quadSum (fun n => (w.nh n).val) (jacRow (fun n => (w.nh n).val) c.1 c.2)
        (fun v nbrs => v.res (nbrs.map fun n => (w.nh n).val)) := by
  rw [infoVector_apply, graphTerms, List.map_map, quadSum]
  refine congrArg List.sum (List.map_congr_left fun f hf => ?_)
  rw [Function.comp_apply, ← mulVec_mulVec]
  have hwt : factorWeight w f = robustWeight (w.fh f).virt.robust 0
        (Real.sqrt (factorChi2 (w.fh f).virt.W ((w.fh f).virt.res ((w.fh f).nbrs.map fun n => (w.nh n).val)))) :=
    robustWeight_old (hr f hf) _ _ _
  rw [← hwt]
  exact weighted_form (factorWeight w f) (w.fh f).virt.W
    (jacRow (fun n => (w.nh n).val) c.1 c.2 (w.fh f).virt.core (w.fh f).nbrs)
    ((w.fh f).virt.res ((w.fh f).nbrs.map fun n => (w.nh n).val))

namespace Alike

variable {c : ℝ} {w w' : World} (h : Alike c w w')
include h

theorem dim (n : NRef) : (w'.nh n).dim = (w.nh n).dim := congrArg (fun v : NodeVal => v.1.dim) (h.val n)

/-- The unknowns correspond to each other. -/
def cols : Cols w ≃ Cols w' where
  toFun c := ⟨⟨c.1.1, (h.mem _).mpr c.1.2⟩, ⟨c.2, by rw [h.dim]; exact c.2.2⟩⟩
  invFun c := ⟨⟨c.1.1, (h.mem _).mp c.1.2⟩, ⟨c.2, by rw [← h.dim]; exact c.2.2⟩⟩
  left_inv _ := rfl
  right_inv _ := rfl

theorem vals : (fun n => (w'.nh n).val) = fun n => (w.nh n).val := funext h.val

theorem infoMatrix (hr : NoRansac w) (hr' : NoRansac w') (i j : Cols w) :
    Spec.infoMatrix (graphTerms w') (h.cols i) (h.cols j) = c * Spec.infoMatrix (graphTerms w) i j := by
  rw [infoMatrix_quad hr', infoMatrix_quad hr, h.vals, h.quad]
  rfl

theorem infoVector (hr : NoRansac w) (hr' : NoRansac w') (i : Cols w) :
    Spec.infoVector (graphTerms w') (h.cols i) = c * Spec.infoVector (graphTerms w) i := by
  rw [infoVector_quad hr', infoVector_quad hr, h.vals, h.quad]
  rfl

theorem infoMatrix_mulVec (hr : NoRansac w) (hr' : NoRansac w') (x : Cols w' → ℝ) (i : Cols w) :
    (Spec.infoMatrix (graphTerms w') *ᵥ x) (h.cols i) = c * (Spec.infoMatrix (graphTerms w) *ᵥ (x ∘ h.cols)) i := by
  rw [mulVec, mulVec, dotProduct, dotProduct, ← h.cols.sum_comp, Finset.mul_sum]
  refine Finset.sum_congr rfl fun j _ => ?_
  rw [h.infoMatrix hr hr', mul_assoc]
  rfl

theorem cost_eq : w'.cost = c * w.cost := by
  rw [cost_eq_costAt, cost_eq_costAt, h.vals, h.cost]

theorem spread (x : Cols w' → ℝ) : w'.spread x = w.spread (x ∘ h.cols) := by
  funext n k
  unfold World.spread
  by_cases hm : n ∈ w.g.active ∧ k < (w.nh n).dim
  · rw [dif_pos hm, dif_pos ⟨(h.mem n).mpr hm.1, by rw [h.dim]; exact hm.2⟩]
    rfl
  · rw [dif_neg hm, dif_neg]
    rintro ⟨h1, h2⟩
    rw [h.dim] at h2
    exact hm ⟨(h.mem n).mp h1, h2⟩

theorem moved_val (δ : NRef → ℕ → ℝ) (n : NRef) : ((w'.moved δ).nh n).val = ((w.moved δ).nh n).val := by
  change (if n ∈ w'.g.active then (w'.nh n).update (δ n) else w'.nh n).val =
    (if n ∈ w.g.active then (w.nh n).update (δ n) else w.nh n).val
  by_cases hn : n ∈ w.g.active
  · rw [if_pos hn, if_pos ((h.mem n).mpr hn)]
    have key : ∀ c : NodeCell, (c.update (δ n)).val = ⟨c.val.1, c.val.1.upd c.val.2 (c.val.1.ofFlat (δ n))⟩ := fun _ => rfl
    rw [key, key, h.val]
  · rw [if_neg hn, if_neg fun h' => hn ((h.mem n).mp h'), h.val]

/-- After calls that change states only. -/
theorem of_frames {w1 w1' : World} (hF : Frame w w1) (hF' : Frame w' w1') (hv : ∀ n, (w1'.nh n).val = (w1.nh n).val) :
    Alike c w1 w1' := by
  refine ⟨fun n => ?_, hv, fun V x y => ?_, fun V => ?_⟩
  · rw [hF.factors.g, hF'.factors.g]; exact h.mem n
  · rw [hF.factors.quadSum, hF'.factors.quadSum]; exact h.quad V x y
  · rw [hF.factors.costAt, hF'.factors.costAt]; exact h.cost V

end Alike

end World

namespace FGraphSolve

theorem unique_step {C : Type} [Fintype C] [DecidableEq C] {A : Matrix C C ℝ} (hA : A.PosSemidef) {l : ℝ} (hl : 0 < l) {x y : C → ℝ}
    (h : A *ᵥ x + l • x = A *ᵥ y + l • y) : x = y := by
  have h0 : A *ᵥ (x - y) + l • (x - y) = 0 := by
    rw [mulVec_sub, smul_sub]
    have := sub_eq_zero.mpr h
    rw [← this]; abel
  have h1 : 0 ≤ (x - y) ⬝ᵥ (A *ᵥ (x - y)) := by
    have := hA.dotProduct_mulVec_nonneg (x - y)
    rwa [star_trivial] at this
  have h2 : (x - y) ⬝ᵥ (A *ᵥ (x - y)) + l * ((x - y) ⬝ᵥ (x - y)) = 0 := by
    have := congrArg ((x - y) ⬝ᵥ ·) h0
    simpa [dotProduct_add, dotProduct_smul] using this
  have h3 : (x - y) ⬝ᵥ (x - y) = 0 := by
    rcases (dot_self_nonneg (x - y)).lt_or_eq with h5 | h5
    · have := mul_pos hl h5
      linarith
    · exact h5.symm
  exact sub_eq_zero.mp (dotProduct_self_eq_zero.mp h3)

/-- What the loop depends on: problem, damping and tolerance are proportional. -/
structure Alike (c : ℝ) (s s' : FGraphSolve) : Prop where
  /-- graph -/
  w : World.Alike c s.w s'.w
  /-- damping -/
  lambda : s'.lambda = c * s.lambda
  /-- tolerance -/
  tol : s'.tol = c * s.tol

theorem nextLambda_smul {c : ℝ} (hc : 0 < c) (l d n : ℝ) : nextLambda (c * l) (c * d) (c * n) = c * nextLambda l d n := by
  unfold nextLambda
  have e1 : c * n = 0 ↔ n = 0 := by simp [hc.ne']
  have e2 : c * d = 0 ↔ d = 0 := by simp [hc.ne']
  rw [mul_div_mul_left _ _ hc.ne']
  simp only [e1, e2]
  split_ifs <;> ring

/-- One iteration on proportional problems. -/
theorem trial_alike {env env' : Env} (henv : env.Sound) (henv' : env'.Sound) {c : ℝ} (hc : 0 < c) {s s' s1 s1' : FGraphSolve}
    {d d' : ℝ} (h : Alike c s s') (hw : WellPosed s.w) (hw' : WellPosed s'.w) (hr : NoRansac s.w) (hr' : NoRansac s'.w)
    (hl : 0 < s.lambda) (h1 : s.trial env = .ok (d, s1)) (h1' : s'.trial env' = .ok (d', s1')) :
    d' = c * d ∧ Alike c s1 s1' ∧ Alike c (s1.adapt d) (s1'.adapt d') ∧ Alike c s1.reject s1'.reject ∧ WellPosed s1.w ∧
      WellPosed s1'.w := by
  obtain ⟨x, hx, hv, hden, hw1⟩ := trial_model henv hw h1
  obtain ⟨x', hx', hv', hden', hw1'⟩ := trial_model henv' hw' h1'
  have hxx : x' ∘ h.w.cols = x := by
    refine unique_step (terms_psd hw) hl ?_
    rw [hx]
    funext i
    have := congrFun hx' (h.w.cols i)
    rw [Pi.add_apply, h.w.infoMatrix_mulVec hr hr', h.w.infoVector hr hr', Pi.smul_apply, smul_eq_mul, h.lambda] at this
    rw [Pi.add_apply, Pi.smul_apply, smul_eq_mul, Function.comp_apply]
    have h2 : c * ((Spec.infoMatrix (graphTerms s.w) *ᵥ (x' ∘ h.w.cols)) i + s.lambda * x' (h.w.cols i)) =
        c * Spec.infoVector (graphTerms s.w) i := by rw [← this]; ring
    exact mul_left_cancel₀ hc.ne' h2
  have hvv : ∀ n, (s1'.w.nh n).val = (s1.w.nh n).val := by
    intro n
    rw [hv', hv, h.w.spread, h.w.moved_val]
    have : (-x') ∘ h.w.cols = -x := by rw [← hxx]; rfl
    rw [this]
  have ha1 := h.w.of_frames (trial_frame h1) (trial_frame h1') hvv
  have hlam : s1.lambda = s.lambda := (trial_ok h1).2.1
  have hlam' : s1'.lambda = s'.lambda := (trial_ok h1').2.1
  have htol : s1.tol = s.tol := (trial_ok h1).2.2.1
  have htol' : s1'.tol = s'.tol := (trial_ok h1').2.2.1
  have hd : d' = c * d := by
    rw [(trial_ok h1).2.2.2.2.2.1, (trial_ok h1').2.2.2.2.2.1, h.w.cost_eq, ha1.cost_eq]
    ring
  have hdd : x' ⬝ᵥ Spec.infoVector (graphTerms s'.w) / 2 = c * (x ⬝ᵥ Spec.infoVector (graphTerms s.w) / 2) := by
    rw [dotProduct, dotProduct, ← h.w.cols.sum_comp, Finset.sum_div, Finset.sum_div, Finset.mul_sum]
    refine Finset.sum_congr rfl fun i _ => ?_
    rw [h.w.infoVector hr hr', ← hxx]
    change x' (h.w.cols i) * _ / 2 = c * (x' (h.w.cols i) * _ / 2)
    ring
  refine ⟨hd, ⟨ha1, by rw [hlam, hlam', h.lambda], by rw [htol, htol', h.tol]⟩,
    ⟨ha1, ?_, by rw [show (s1.adapt d).tol = s1.tol from rfl, show (s1'.adapt d').tol = s1'.tol from rfl, htol, htol', h.tol]⟩,
    ⟨?_, ?_, by rw [show s1.reject.tol = s1.tol from rfl, show s1'.reject.tol = s1'.tol from rfl, htol, htol', h.tol]⟩, hw1, hw1'⟩
  · change nextLambda _ _ _ = c * nextLambda _ _ _
    rw [hden, hden', hlam, hlam', h.lambda, hd, hdd, nextLambda_smul hc]
  · refine ha1.of_frames (reject_frame s1) (reject_frame s1') fun n => ?_
    rw [reject_val h1, reject_val h1']
    by_cases hn : n ∈ s.w.g.active
    · rw [if_pos hn, if_pos ((h.w.mem n).mpr hn), h.w.val]
    · rw [if_neg hn, if_neg fun h' => hn ((h.w.mem n).mp h'), h.w.val]
  · change s1'.lambda * 2 = c * (s1.lambda * 2)
    rw [hlam, hlam', h.lambda]; ring

theorem wellPosed_reject {s : FGraphSolve} (hw : WellPosed s.w) : WellPosed s.reject.w := by
  refine hw.of_frame (reject_frame _) fun f hf => ?_
  have : s.reject.w.fh f = s.w.fh f := by
    change s.w.syncState.fh f = _
    rw [syncState_eq]
  rw [this]; exact hw.weight f hf

/-- The whole loop. -/
theorem lmLoop_alike {env env' : Env} (henv : env.Sound) (henv' : env'.Sound) {c : ℝ} (hc : 0 < c) {maxIters : ℕ} :
    ∀ (k iter : ℕ) {s s' : FGraphSolve} {r r' : LMResult}, maxIters - iter = k →
    Alike c s s' → WellPosed s.w → WellPosed s'.w → NoRansac s.w → NoRansac s'.w → 0 < s.lambda →
    lmLoop env maxIters iter s = .ok r → lmLoop env' maxIters iter s' = .ok r' →
    r'.ret = r.ret ∧ r'.iters = r.iters ∧ Alike c r.s r'.s := by
  intro k
  induction k using Nat.strong_induction_on with
  | _ k ih =>
    intro iter s s' r r' hk h hw hw' hr hr' hl hrun hrun'
    rw [lmLoop] at hrun hrun'
    obtain ⟨⟨d, s1⟩, h1, hrun⟩ := Out.bind_eq_ok.mp hrun
    obtain ⟨⟨d', s1'⟩, h1', hrun'⟩ := Out.bind_eq_ok.mp hrun'
    obtain ⟨rfl, m1, m2, m3, m4, m5⟩ := trial_alike henv henv' hc h hw hw' hr hr' hl h1 h1'
    have hl1 : s1.lambda = s.lambda := (trial_ok h1).2.1
    have hr1 := hr.of_factors (trial_frame h1).factors
    have hr1' := hr'.of_factors (trial_frame h1').factors
    have e1 : c * d < 0 ↔ d < 0 := by constructor <;> intro h <;> nlinarith
    have e2 : c * d < s1'.tol ↔ d < s1.tol := by rw [m1.tol]; exact mul_lt_mul_iff_right₀ hc
    dsimp only at hrun hrun'
    simp only [e1, e2] at hrun'
    by_cases hd : d < 0
    · rw [if_pos hd] at hrun hrun'
      by_cases hi : iter + 1 < maxIters
      · rw [if_pos hi] at hrun hrun'
        refine ih _ (by omega) (iter + 1) rfl m3 (wellPosed_reject m4) (wellPosed_reject m5)
          (hr1.of_factors (reject_frame _).factors) (hr1'.of_factors (reject_frame _).factors) ?_ hrun hrun'
        change 0 < s1.lambda * 2
        rw [hl1]; linarith
      · rw [if_neg hi, Out.ok.injEq] at hrun hrun'
        subst hrun hrun'
        exact ⟨rfl, rfl, m3⟩
    · rw [if_neg hd] at hrun hrun'
      by_cases ht : d < s1.tol
      · rw [if_pos ht, Out.ok.injEq] at hrun hrun'
        subst hrun hrun'
        exact ⟨rfl, rfl, m1⟩
      · rw [if_neg ht] at hrun hrun'
        by_cases hi : iter + 1 < maxIters
        · rw [if_pos hi] at hrun hrun'
          exact ih _ (by omega) (iter + 1) rfl m2 m4 m5 hr1 hr1' (nextLambda_pos (by rw [hl1]; exact hl)) hrun hrun'
        · rw [if_neg hi, Out.ok.injEq] at hrun hrun'
          subst hrun hrun'
          exact ⟨rfl, rfl, m2⟩

/-- A Gauss-Newton step. -/
theorem gn_alike {env env' : Env} (henv : env.Sound) (henv' : env'.Sound) {c : ℝ} (hc : 0 < c) {s s' s1 s1' : FGraphSolve}
    (h : World.Alike c s.w s'.w) (hw : WellPosed s.w) (hw' : WellPosed s'.w) (hr : NoRansac s.w) (hr' : NoRansac s'.w)
    (hpd : (Spec.infoMatrix (graphTerms s.w)).PosDef) {k k' : ℕ} {l l' t t' : ℝ} (h1 : s.solve env .GN k l t = .ok s1)
    (h1' : s'.solve env' .GN k' l' t' = .ok s1') : World.Alike c s1.w s1'.w := by
  obtain ⟨dx, hdx, hw1⟩ := gn_ok hw h1
  obtain ⟨dx', hdx', hw1'⟩ := gn_ok hw' h1'
  have hx := normal_solution henv hw hdx
  have hx' := normal_solution henv' hw' hdx'
  set x := fun c => dx (colEquiv hw.wired c) with hxd
  set x' := fun c => dx' (colEquiv hw'.wired c) with hxd'
  have hxx : x' ∘ h.cols = x := by
    have h2 : Spec.infoMatrix (graphTerms s.w) *ᵥ (x' ∘ h.cols - x) = 0 := by
      rw [mulVec_sub, hx]
      funext i
      have := congrFun hx' (h.cols i)
      rw [h.infoMatrix_mulVec hr hr', h.infoVector hr hr'] at this
      rw [Pi.sub_apply, mul_left_cancel₀ hc.ne' this, sub_self]
      rfl
    by_contra hne
    have := hpd.dotProduct_mulVec_pos (sub_ne_zero.mpr hne)
    rw [h2, dotProduct_zero] at this
    exact lt_irrefl _ this
  refine h.of_frames (solve_frame h1) (solve_frame h1') fun n => ?_
  rw [hw1, hw1']
  have e : ∀ (w : World) δ n, ((w.built.moved δ).nh n).val = ((w.moved δ).nh n).val := fun _ _ _ => rfl
  rw [e, e, moved_step hw.wired, moved_step hw'.wired, h.spread, h.moved_val]
  have : World.step hw'.wired dx' ∘ h.cols = World.step hw.wired dx := by
    change (-x') ∘ h.cols = -x
    rw [← hxx]; rfl
  rw [this]

end FGraphSolve

/-! ### Histories -/

/-- The same factor object with another information matrix. -/
def FactorCell.reweigh (c : FactorCell) (W : Matrix (Fin c.virt.dim) (Fin c.virt.dim) ℝ) : FactorCell :=
  ⟨{ c.virt with W := W }, c.nbrs, c.id, c.r, c.J, c.chi2, c.weight⟩

namespace World

/-- All information matrices are multiplied by `c`. -/
def rescale (c : ℝ) (w : World) : World := { w with fh := fun f => (w.fh f).reweigh (c • (w.fh f).virt.W) }

/-- The factor `f` has another information matrix. -/
def reweigh (w : World) (f : FRef) (W : Matrix (Fin (w.fh f).virt.dim) (Fin (w.fh f).virt.dim) ℝ) : World :=
  { w with fh := Function.update w.fh f ((w.fh f).reweigh W) }

/-- All factors are quadratic. -/
def Plain (w : World) (l : List FRef) : Prop := ∀ f ∈ l, (w.fh f).virt.robust = .quadratic

/-- The summand of `quadSum`. -/
noncomputable def quadTerm (V : NRef → NodeVal) (x y : (v : FactorVirt) → List NRef → Fin v.dim → ℝ) (c : FactorCell) : ℝ :=
  robustWeight c.virt.robust 0 (Real.sqrt (factorChi2 c.virt.W (c.virt.res (c.nbrs.map V)))) *
    (x c.virt.core c.nbrs ⬝ᵥ (c.virt.W *ᵥ y c.virt.core c.nbrs))

/-- The summand of `costAt`. -/
noncomputable def costTerm (V : NRef → NodeVal) (c : FactorCell) : ℝ := factorChi2 c.virt.W (c.virt.res (c.nbrs.map V))

theorem run_quad (ops : List GraphOp) {w₀ : World} (h₀ : w₀.g = emptyGraph) (V x y) :
    (World.run ops w₀).quadSum V x y = ((addedFactors ops).map fun f => quadTerm V x y (w₀.fh f)).sum := by
  unfold quadSum
  rw [run_factors, h₀]
  refine congrArg List.sum (List.map_congr_left fun f _ => ?_)
  rw [(run_fh_static ops w₀ f).1, (run_fh_static ops w₀ f).2]
  rfl

theorem run_costAt (ops : List GraphOp) {w₀ : World} (h₀ : w₀.g = emptyGraph) (V) :
    (World.run ops w₀).costAt V = ((addedFactors ops).map fun f => costTerm V (w₀.fh f)).sum := by
  unfold costAt
  rw [run_factors, h₀]
  refine congrArg List.sum (List.map_congr_left fun f _ => ?_)
  rw [(run_fh_static ops w₀ f).1, (run_fh_static ops w₀ f).2]
  rfl

theorem alike_run {c : ℝ} {w₀ w₀' : World} (h₀ : w₀.g = emptyGraph) (h₀' : w₀'.g = emptyGraph) (hnh : w₀'.nh = w₀.nh)
    {ops ops' : List GraphOp} (hno : NoSetMode ops) (hno' : NoSetMode ops') (hN : (addedNodes ops').Perm (addedNodes ops))
    (hq : ∀ V x y, ((addedFactors ops').map fun f => quadTerm V x y (w₀'.fh f)).sum =
      c * ((addedFactors ops).map fun f => quadTerm V x y (w₀.fh f)).sum)
    (hc : ∀ V, ((addedFactors ops').map fun f => costTerm V (w₀'.fh f)).sum =
      c * ((addedFactors ops).map fun f => costTerm V (w₀.fh f)).sum) :
    Alike c (World.run ops w₀) (World.run ops' w₀') := by
  refine ⟨fun n => ?_, fun n => ?_, fun V x y => ?_, fun V => ?_⟩
  · rw [run_active ops hno, run_active ops' hno', h₀, h₀', hnh]
    simp only [emptyGraph, List.nil_append, List.mem_filter, hN.mem_iff]
  · rw [(run_nh_static ops w₀ n).1, (run_nh_static ops' w₀' n).1, hnh]
  · rw [run_quad ops h₀, run_quad ops' h₀', hq]
  · rw [run_costAt ops h₀, run_costAt ops' h₀', hc]

theorem quadTerm_reweigh (V x y) (d : FactorCell) (hd : d.virt.robust = .quadratic) (W) :
    quadTerm V x y (d.reweigh W) = x d.virt.core d.nbrs ⬝ᵥ (W *ᵥ y d.virt.core d.nbrs) := by
  have : (d.reweigh W).virt.robust = .quadratic := hd
  rw [quadTerm, this]
  exact one_mul _

theorem quadTerm_plain (V x y) (d : FactorCell) (hd : d.virt.robust = .quadratic) :
    quadTerm V x y d = x d.virt.core d.nbrs ⬝ᵥ (d.virt.W *ᵥ y d.virt.core d.nbrs) := by
  rw [quadTerm, hd]
  exact one_mul _

theorem run_noRansac {ops : List GraphOp} {w₀ : World} (h₀ : w₀.g = emptyGraph)
    (h : ∀ f ∈ addedFactors ops, (w₀.fh f).virt.robust ≠ .ransac) : NoRansac (World.run ops w₀) := by
  intro f hf
  rw [run_factors, h₀] at hf
  rw [(run_fh_static ops w₀ f).1]
  exact h f hf

theorem run_wellPosed {ops : List GraphOp} {w₀ : World} (h₀ : w₀.g = emptyGraph) (hp : Proper w₀ ops)
    (hpsd : ∀ f ∈ addedFactors ops, (w₀.fh f).virt.W.PosSemidef) (hwt : ∀ f ∈ addedFactors ops, 0 ≤ (w₀.fh f).weight) :
    WellPosed (World.run ops w₀) := by
  have hfac : (World.run ops w₀).g.factors = addedFactors ops := by rw [run_factors, h₀]; rfl
  refine ⟨C44_wired_partial w₀ h₀ ops hp, fun f hf => ?_, fun f hf => ?_⟩ <;> rw [hfac] at hf
  · rw [(run_fh_static ops w₀ f).1]; exact hpsd f hf
  · obtain ⟨k, hk⟩ := run_fh_eq ops w₀ f
    rw [hk]; exact hwt f hf

theorem alike_rescale {c : ℝ} {w₀ : World} (h₀ : w₀.g = emptyGraph) {ops : List GraphOp} (hno : NoSetMode ops)
    (hq : Plain w₀ (addedFactors ops)) : Alike c (World.run ops w₀) (World.run ops (w₀.rescale c)) := by
  refine alike_run (w₀' := w₀.rescale c) h₀ h₀ rfl hno hno (List.Perm.refl _) (fun V x y => ?_) fun V => ?_
  · rw [← List.sum_map_mul_left]
    refine congrArg List.sum (List.map_congr_left fun f hf => ?_)
    change quadTerm V x y ((w₀.fh f).reweigh _) = _
    rw [quadTerm_reweigh _ _ _ _ (hq f hf), quadTerm_plain _ _ _ _ (hq f hf)]
    exact (congrArg _ (smul_mulVec c _ _)).trans (dotProduct_smul _ _ _)
  · rw [← List.sum_map_mul_left]
    refine congrArg List.sum (List.map_congr_left fun f hf => ?_)
    have key : ∀ (d : ℕ) (W : Matrix (Fin d) (Fin d) ℝ) (r : Fin d → ℝ), factorChi2 (c • W) r = c * factorChi2 W r := by
      intro d W r
      rw [factorChi2, factorChi2, smul_mulVec, dotProduct_smul, smul_eq_mul]; ring
    exact key _ _ _

theorem rescale_wellPosed {c : ℝ} (hc : 0 < c) {w₀ : World} (h₀ : w₀.g = emptyGraph) {ops : List GraphOp} (hp : Proper w₀ ops)
    (hpsd : ∀ f ∈ addedFactors ops, (w₀.fh f).virt.W.PosSemidef) (hwt : ∀ f ∈ addedFactors ops, 0 ≤ (w₀.fh f).weight) :
    WellPosed (World.run ops (w₀.rescale c)) :=
  run_wellPosed (w₀ := w₀.rescale c) h₀ ⟨hp.noSetMode, hp.nodup, hp.noSchur, hp.registered, hp.noLoop, hp.typed⟩
    (fun f hf => (hpsd f hf).smul hc.le) hwt

theorem rescale_noRansac {c : ℝ} {w₀ : World} (h₀ : w₀.g = emptyGraph) {ops : List GraphOp} (hq : Plain w₀ (addedFactors ops)) :
    NoRansac (World.run ops (w₀.rescale c)) :=
  run_noRansac (w₀ := w₀.rescale c) h₀ fun f hf => by
    have : ((w₀.rescale c).fh f).virt.robust = .quadratic := hq f hf
    rw [this]; simp

/-- A statement about all factors, after one of them is given another information matrix. -/
theorem reweigh_forall {w : World} {f : FRef} {W} {P : FRef → FactorCell → Prop} {l : List FRef} (h : ∀ g ∈ l, P g (w.fh g))
    (hf : P f ((w.fh f).reweigh W)) : ∀ g ∈ l, P g ((w.reweigh f W).fh g) := by
  intro g hg
  by_cases hgf : g = f
  · subst hgf
    change P g (Function.update w.fh g _ g)
    rw [Function.update_self]
    exact hf
  · change P g (Function.update w.fh f _ g)
    rw [Function.update_of_ne hgf]
    exact h g hg

theorem alike_merge {w₀ : World} (h₀ : w₀.g = emptyGraph) {ops : List GraphOp} (hno : NoSetMode ops) {f f' : FRef}
    (hnd : (addedFactors ops).Nodup) (hf : f ∈ addedFactors ops) (hq : (w₀.fh f).virt.robust = .quadratic)
    (W' : Matrix (Fin (w₀.fh f).virt.dim) (Fin (w₀.fh f).virt.dim) ℝ) (hv : (w₀.fh f').virt = { (w₀.fh f).virt with W := W' })
    (hn : (w₀.fh f').nbrs = (w₀.fh f).nbrs) :
    Alike 1 (World.run (ops ++ [.addFactor f']) w₀) (World.run ops (w₀.reweigh f ((w₀.fh f).virt.W + W'))) := by
  have hF : addedFactors (ops ++ [.addFactor f']) = addedFactors ops ++ [f'] := by
    simp [addedFactors]
  have hN : addedNodes (ops ++ [.addFactor f']) = addedNodes ops := by
    simp [addedNodes]
  have hno' : NoSetMode (ops ++ [.addFactor f']) := by
    intro op hop n m
    rcases List.mem_append.mp hop with h | h
    · exact hno op h n m
    · rw [List.mem_singleton] at h; subst h; simp
  obtain ⟨l1, l2, hl⟩ := List.append_of_mem hf
  have hsum : ∀ φ : FactorCell → ℝ, φ ((w₀.fh f).reweigh ((w₀.fh f).virt.W + W')) = φ (w₀.fh f) + φ (w₀.fh f') →
      ((addedFactors ops).map fun g => φ ((w₀.reweigh f ((w₀.fh f).virt.W + W')).fh g)).sum =
        1 * ((addedFactors ops ++ [f']).map fun g => φ (w₀.fh g)).sum := by
    intro φ hφ
    rw [hl] at hnd ⊢
    have h1 : f ∉ l1 ∧ f ∉ l2 := by
      rw [List.nodup_append] at hnd
      obtain ⟨-, h2, h3⟩ := hnd
      exact ⟨fun h => h3 f h f List.mem_cons_self rfl, (List.nodup_cons.mp h2).1⟩
    have e : ∀ l : List FRef, f ∉ l → (l.map fun g => φ ((w₀.reweigh f ((w₀.fh f).virt.W + W')).fh g)) =
        l.map fun g => φ (w₀.fh g) := by
      intro l hl
      refine List.map_congr_left fun g hg => ?_
      have : (w₀.reweigh f ((w₀.fh f).virt.W + W')).fh g = w₀.fh g :=
        Function.update_of_ne (fun h => hl (by rw [← h]; exact hg)) _ _
      rw [this]
    have e1 : (w₀.reweigh f ((w₀.fh f).virt.W + W')).fh f = (w₀.fh f).reweigh ((w₀.fh f).virt.W + W') :=
      Function.update_self _ _ _
    simp only [List.map_append, List.map_cons, List.sum_append, List.sum_cons, e l1 h1.1, e l2 h1.2, e1, hφ, List.map_nil,
      List.sum_nil]
    ring
  refine alike_run (w₀' := w₀.reweigh f ((w₀.fh f).virt.W + W')) h₀ h₀ rfl hno' hno (by rw [hN]) (fun V x y => ?_) fun V => ?_
  · rw [hF]
    refine hsum (quadTerm V x y) ?_
    have h2 : quadTerm V x y (w₀.fh f') = x (w₀.fh f).virt.core (w₀.fh f).nbrs ⬝ᵥ (W' *ᵥ y (w₀.fh f).virt.core (w₀.fh f).nbrs) := by
      refine Eq.trans ?_ (quadTerm_reweigh V x y (w₀.fh f) hq W')
      unfold quadTerm
      rw [hv, hn]
      rfl
    rw [quadTerm_reweigh _ _ _ _ hq, quadTerm_plain _ _ _ _ hq, h2]
    have key : ∀ (d : ℕ) (W W' : Matrix (Fin d) (Fin d) ℝ) (x y : Fin d → ℝ),
        x ⬝ᵥ ((W + W') *ᵥ y) = x ⬝ᵥ (W *ᵥ y) + x ⬝ᵥ (W' *ᵥ y) := by
      intro d W W' x y
      rw [add_mulVec, dotProduct_add]
    exact key _ _ _ _ _
  · rw [hF]
    refine hsum (costTerm V) ?_
    have h2 : costTerm V (w₀.fh f') = factorChi2 W' ((w₀.fh f).virt.res ((w₀.fh f).nbrs.map V)) := by
      unfold costTerm
      rw [hv, hn]
    rw [h2]
    have key : ∀ (d : ℕ) (W W' : Matrix (Fin d) (Fin d) ℝ) (r : Fin d → ℝ),
        factorChi2 (W + W') r = factorChi2 W r + factorChi2 W' r := by
      intro d W W' r
      rw [factorChi2, factorChi2, factorChi2, add_mulVec, dotProduct_add]; ring
    exact key _ _ _ _

/-- Factors without information can be left out. -/
theorem alike_silent {w₀ : World} (h₀ : w₀.g = emptyGraph) {ops : List GraphOp} (hno : NoSetMode ops) {f : FRef}
    (hW : (w₀.fh f).virt.W = 0) : Alike 1 (World.run ops w₀) (World.run (ops ++ [.addFactor f]) w₀) := by
  have hF : addedFactors (ops ++ [.addFactor f]) = addedFactors ops ++ [f] := by
    simp [addedFactors]
  have hN : addedNodes (ops ++ [.addFactor f]) = addedNodes ops := by
    simp [addedNodes]
  have hno' : NoSetMode (ops ++ [.addFactor f]) := by
    intro op hop n m
    rcases List.mem_append.mp hop with h | h
    · exact hno op h n m
    · rw [List.mem_singleton] at h; subst h; simp
  have key : ∀ (d : ℕ) (W : Matrix (Fin d) (Fin d) ℝ) (x y : Fin d → ℝ), W = 0 → x ⬝ᵥ (W *ᵥ y) = 0 := by
    rintro d _ x y rfl
    rw [zero_mulVec, dotProduct_zero]
  refine alike_run h₀ h₀ rfl hno hno' (by rw [hN]) (fun V x y => ?_) fun V => ?_
  · have : quadTerm V x y (w₀.fh f) = 0 :=
      (congrArg _ (key _ (w₀.fh f).virt.W _ _ hW)).trans (mul_zero _)
    rw [hF, List.map_append, List.sum_append, List.map_singleton, List.sum_singleton, this, add_zero, one_mul]
  · have : costTerm V (w₀.fh f) = 0 :=
      (congrArg _ (key _ (w₀.fh f).virt.W _ _ hW)).trans (mul_zero _)
    rw [hF, List.map_append, List.sum_append, List.map_singleton, List.sum_singleton, this, add_zero, one_mul]

theorem alike_order {w₀ : World} (h₀ : w₀.g = emptyGraph) {ops ops' : List GraphOp} (hno : NoSetMode ops) (hno' : NoSetMode ops')
    (hN : (addedNodes ops').Perm (addedNodes ops)) (hF : (addedFactors ops').Perm (addedFactors ops)) :
    Alike 1 (World.run ops w₀) (World.run ops' w₀) :=
  alike_run h₀ h₀ rfl hno hno' hN (fun _ _ _ => by rw [one_mul]; exact (hF.map _).sum_eq)
    fun _ => by rw [one_mul]; exact (hF.map _).sum_eq

end World

/-! ### One planar pose with a prior -/

namespace Demo

/-- The pose is at the origin, the prior at `(1, 0, 0)`. -/
noncomputable def unitWorld₀ : World :=
  ⟨fun _ => NodeCell.new .pose2d 0 .standard, fun _ => FactorCell.new (.prior2d ![1, 0, 0] 1 .quadratic) [0] 0 0, emptyGraph⟩
/-- The graph. -/
noncomputable def unitWorld : World := World.run p3Ops unitWorld₀

theorem unit_proper : Proper unitWorld₀ p3Ops := by
  constructor
  · intro op hop n m; simp [p3Ops] at hop; rcases hop with rfl | rfl <;> simp
  · simp [addedNodes, p3Ops]
  · intro n hn; simp [unitWorld₀, NodeCell.new]
  · intro f hf n hn
    simp [unitWorld₀, FactorCell.new] at hn; left; subst hn; simp [addedNodes, p3Ops]
  · intro f hf
    simp [unitWorld₀, FactorCell.new, NodeCell.new]
  · intro f hf
    simp [unitWorld₀, FactorCell.new, NodeCell.new, FactorCell.wellTyped, FactorVirt.prior2d]

theorem unit_psd : ∀ f ∈ addedFactors p3Ops, (unitWorld₀.fh f).virt.W.PosSemidef := fun _ _ => Matrix.PosSemidef.one
theorem unit_weight : ∀ f ∈ addedFactors p3Ops, 0 ≤ (unitWorld₀.fh f).weight := fun _ _ => le_refl (0 : ℝ)
theorem unit_plain : Plain unitWorld₀ (addedFactors p3Ops) := fun _ _ => rfl
theorem unit_wellPosed : WellPosed unitWorld := run_wellPosed rfl unit_proper unit_psd unit_weight

theorem unit_active : unitWorld.g.active = [0] := rfl
theorem unit_factors : unitWorld.g.factors = [0] := rfl

theorem unit_entry (l : Fin 3) (k : Fin 3) : (factorTerm unitWorld 0).J l ⟨⟨0, List.mem_singleton.mpr rfl⟩, k⟩ =
    if l = k then 1 else 0 := by
  change (if (0 : NRef) = 0 then blk prior2dJac l (0 + k) else 0) + (0 : ℝ) = _
  rw [if_pos rfl, add_zero, zero_add, blk, dif_pos k.2]
  exact Matrix.one_apply

theorem unit_row (δ : Cols unitWorld → ℝ) (l : Fin 3) :
    ((factorTerm unitWorld 0).J *ᵥ δ) l = unitWorld.spread δ 0 l := by
  refine (term_mulVec 0 δ l).trans ?_
  change unitWorld.rowApply δ (blk prior2dJac l) 0 [0] = _
  rw [rowApply, rowApply, add_zero]
  have : ∀ d : ℕ, d = 3 → ∑ k : Fin d, blk prior2dJac l (0 + k) * unitWorld.spread δ 0 k =
      ∑ k : Fin 3, blk prior2dJac l (0 + k) * unitWorld.spread δ 0 k := by
    rintro _ rfl; rfl
  refine (this ((unitWorld.nh 0).dim) rfl).trans ?_
  have h3 : ∀ k : Fin 3, blk prior2dJac l (0 + k) = if l = k then 1 else 0 := by
    intro k
    rw [zero_add, blk, dif_pos k.2]
    exact Matrix.one_apply
  simp only [h3, ite_mul, one_mul, zero_mul, Finset.sum_ite_eq, Finset.mem_univ, if_true]

theorem unit_transpose (v : Fin 3 → ℝ) (k : Fin 3) :
    ((factorTerm unitWorld 0).Jᵀ *ᵥ v) ⟨⟨0, List.mem_singleton.mpr rfl⟩, k⟩ = v k := by
  change ∑ l : Fin 3, (factorTerm unitWorld 0).J l ⟨⟨0, List.mem_singleton.mpr rfl⟩, k⟩ * v l = v k
  have : ∀ l : Fin 3, (factorTerm unitWorld 0).J l ⟨⟨0, List.mem_singleton.mpr rfl⟩, k⟩ * v l = if l = k then v l else 0 := by
    intro l
    rw [unit_entry, ite_mul, one_mul, zero_mul]
  rw [Finset.sum_congr rfl fun l _ => this l, Finset.sum_ite_eq' Finset.univ k v, if_pos (Finset.mem_univ _)]

theorem unit_matrix (x : Cols unitWorld → ℝ) (k : Fin 3) :
    (infoMatrix (graphTerms unitWorld) *ᵥ x) ⟨⟨0, List.mem_singleton.mpr rfl⟩, k⟩ = unitWorld.spread x 0 k := by
  have e : infoMatrix (graphTerms unitWorld) = (factorTerm unitWorld 0).Jᵀ * (factorTerm unitWorld 0).W * (factorTerm unitWorld 0).J :=
    add_zero _
  have key : ∀ (J : Matrix (Fin 3) (Cols unitWorld) ℝ) (v : Fin 3 → ℝ), (J *ᵥ x) = v →
      ((Jᵀ * ((1 : ℝ) • (1 : Matrix (Fin 3) (Fin 3) ℝ)) * J) *ᵥ x) = Jᵀ *ᵥ v := by
    intro J v hv
    rw [one_smul, Matrix.mul_one, ← mulVec_mulVec, hv]
  rw [e]
  refine (congrFun (key _ _ (funext (unit_row x))) _).trans ?_
  exact unit_transpose _ k

theorem unit_posDef : (infoMatrix (graphTerms unitWorld)).PosDef := by
  have hw := unit_wellPosed
  refine Matrix.PosDef.of_dotProduct_mulVec_pos (FGraphSolve.terms_psd hw).isHermitian fun {x} hx => ?_
  rw [star_trivial]
  have e : infoMatrix (graphTerms unitWorld) *ᵥ x = x := by
    funext c
    obtain ⟨⟨n, hn⟩, k⟩ := c
    have hn' := hn
    rw [unit_active, List.mem_singleton] at hn'
    subst hn'
    refine (unit_matrix x k).trans ?_
    exact spread_apply x ⟨⟨0, hn⟩, k⟩
  rw [e]
  exact (dot_self_nonneg x).lt_of_ne fun h => hx (dotProduct_self_eq_zero.mp h.symm)

theorem unit_vector (k : Fin 3) :
    infoVector (graphTerms unitWorld) ⟨⟨0, List.mem_singleton.mpr rfl⟩, k⟩ = (![-1, 0, 0] : Vec3) k := by
  have e : infoVector (graphTerms unitWorld) = ((factorTerm unitWorld 0).Jᵀ * (factorTerm unitWorld 0).W) *ᵥ (factorTerm unitWorld 0).r :=
    add_zero _
  have hr : prior2dRes ![1, 0, 0] 0 = ![-1, 0, 0] := by
    have hp := Real.pi_pos
    have e : (0 - ![1, 0, 0] : Vec3) = ![-1, 0, 0] := by
      funext i; fin_cases i <;> simp
    rw [prior2dRes, e]
    exact wrap2_of_mem (x := ![-1, 0, 0]) (by simpa using hp.le) (by simpa using hp)
  have key : ∀ (J : Matrix (Fin 3) (Cols unitWorld) ℝ) (v : Fin 3 → ℝ),
      ((Jᵀ * ((1 : ℝ) • (1 : Matrix (Fin 3) (Fin 3) ℝ))) *ᵥ v) = Jᵀ *ᵥ v := by
    intro J v
    rw [one_smul, Matrix.mul_one]
  rw [e]
  refine (congrFun (key _ _) _).trans ?_
  refine (unit_transpose _ k).trans ?_
  exact congrFun hr k

/-- The first trial. -/
theorem unit_trial {env : Env} (henv : env.Sound) {s s' : FGraphSolve} {delta : ℝ} (hs : s.w = unitWorld) (hl : 0 < s.lambda)
    (h : s.trial env = .ok (delta, s')) : (s'.w.nh 0).val = ⟨.pose2d, ![1 / (1 + s.lambda), 0, 0]⟩ := by
  obtain ⟨w, lambda, tol, sys⟩ := s
  dsimp only at hs hl ⊢
  subst hs
  obtain ⟨x, h1, h2, -, -⟩ := FGraphSolve.trial_model henv unit_wellPosed h
  dsimp only at h1 h2
  have h3 : ∀ k : Fin 3, x ⟨⟨0, List.mem_singleton.mpr rfl⟩, k⟩ = (![-1, 0, 0] : Vec3) k / (1 + lambda) := by
    intro k
    have := congrFun h1 ⟨⟨0, List.mem_singleton.mpr rfl⟩, k⟩
    rw [unit_vector, Pi.add_apply, unit_matrix, Pi.smul_apply, smul_eq_mul] at this
    have e := spread_apply x ⟨⟨0, List.mem_singleton.mpr rfl⟩, k⟩
    have e' : unitWorld.spread x 0 k = x ⟨⟨0, List.mem_singleton.mpr rfl⟩, k⟩ := e
    rw [e'] at this
    rw [eq_div_iff (by positivity)]
    linarith
  rw [h2 0]
  change (⟨.pose2d, NodeKind.upd .pose2d (0 : Vec3) (NodeKind.ofFlat .pose2d (unitWorld.spread (-x) 0))⟩ : NodeVal) = _
  have h4 : NodeKind.ofFlat .pose2d (unitWorld.spread (-x) 0) = (![1 / (1 + lambda), 0, 0] : Vec3) := by
    change (fun k : Fin 3 => unitWorld.spread (-x) 0 k) = _
    funext k
    have e := spread_apply (-x) ⟨⟨0, List.mem_singleton.mpr rfl⟩, k⟩
    have e' : unitWorld.spread (-x) 0 k = -x ⟨⟨0, List.mem_singleton.mpr rfl⟩, k⟩ := e
    rw [e', h3]
    fin_cases k <;> simp [neg_div]
  rw [h4]
  have hp := Real.pi_pos
  have h5 : NodeKind.upd .pose2d (0 : Vec3) (![1 / (1 + lambda), 0, 0] : Vec3) = (![1 / (1 + lambda), 0, 0] : Vec3) := by
    change wrap2 (0 + ![1 / (1 + lambda), 0, 0]) = _
    rw [zero_add]
    exact wrap2_of_mem (x := ![1 / (1 + lambda), 0, 0]) (by simpa using hp.le) (by simpa using hp)
  rw [h5]

/-- The cost of a state. -/
theorem unit_cost {w : World} (hF : Frame unitWorld w) {y : Vec3} (hv : (w.nh 0).val = ⟨.pose2d, y⟩) :
    w.cost = factorChi2 (1 : Mat3) (prior2dRes ![1, 0, 0] y) := by
  rw [cost, hF.factors.g, unit_factors, List.map_singleton, List.sum_singleton]
  have e1 : (w.fh 0).vals w.nh = [⟨.pose2d, y⟩] := by
    rw [FactorCell.vals, hF.factors.nbrs]
    change [(w.nh 0).val] = _
    rw [hv]
  rw [e1, hF.factors.virt]
  rfl

theorem unit_res (y : Vec3) : prior2dRes ![1, 0, 0] y = ![y 0 - 1, y 1, wrapAngle (y 2)] := by
  simp [prior2dRes, wrap2]

theorem unit_chi2 (a b c : ℝ) : factorChi2 (1 : Mat3) ![a, b, c] = (a ^ 2 + b ^ 2 + c ^ 2) / 2 := by
  simp only [factorChi2, one_mulVec, dotProduct, Fin.sum_univ_three, cons_val_zero, cons_val_one, cons_val]
  ring

theorem unit_cost_at {w : World} (hF : Frame unitWorld w) {a : ℝ} (hv : (w.nh 0).val = ⟨.pose2d, ![a, 0, 0]⟩) :
    w.cost = (a - 1) ^ 2 / 2 := by
  have hp := Real.pi_pos
  rw [unit_cost hF hv, unit_res]
  have h0 : wrapAngle ((![a, 0, 0] : Vec3) 2) = 0 := wrapAngle_of_mem (by simpa using hp.le) (by simpa using hp)
  rw [h0, unit_chi2]
  simp

/-- The first trial is a success. -/
theorem unit_delta {env : Env} (henv : env.Sound) {s s' : FGraphSolve} {delta : ℝ} (hs : s.w = unitWorld) (hl : 0 < s.lambda)
    (h : s.trial env = .ok (delta, s')) : s'.w.cost = (1 / (1 + s.lambda) - 1) ^ 2 / 2 ∧ 0 ≤ delta ∧ delta ≤ 1 / 2 := by
  have hF : Frame unitWorld s'.w := by rw [← hs]; exact FGraphSolve.trial_frame h
  have h1 := unit_cost_at hF (unit_trial henv hs hl h)
  have h0 : s.w.cost = (0 - 1) ^ 2 / 2 := by
    rw [hs]
    refine unit_cost_at (Frame.refl _) (a := 0) ?_
    change (⟨.pose2d, (0 : Vec3)⟩ : NodeVal) = _
    have : (0 : Vec3) = ![0, 0, 0] := by funext i; fin_cases i <;> rfl
    rw [this]
  have hd := (FGraphSolve.trial_ok h).2.2.2.2.2.1
  have e : 1 / (1 + s.lambda) - 1 = -(s.lambda / (1 + s.lambda)) := by field_simp; ring
  have e1 : 0 ≤ s.lambda / (1 + s.lambda) := by positivity
  have e2 : s.lambda / (1 + s.lambda) ≤ 1 := by rw [div_le_one (by positivity)]; linarith
  refine ⟨h1, ?_, ?_⟩ <;> rw [hd, h0, h1, e] <;> nlinarith

/-- After a first successful trial the cost never exceeds that of the trial. -/
theorem _root_.Mrob.FGraphSolve.LMRun.cost_le_trial {env : Env} {maxIters iter : ℕ} {s s1 : FGraphSolve} {delta : ℝ} {r : FGraphSolve.LMResult}
    (h : FGraphSolve.LMRun env maxIters iter s r) (hl : ∀ f ∈ s.w.g.factors, (s.w.fh f).virt.HeadingInvariant)
    (h1 : s.trial env = .ok (delta, s1)) (hd : 0 ≤ delta) : r.s.w.cost ≤ s1.w.cost := by
  cases h with
  | rejectLast h2 h3 => rw [h1] at h2; obtain ⟨rfl, rfl⟩ := Prod.mk.inj (Out.ok.inj h2); linarith
  | rejectNext h2 h3 => rw [h1] at h2; obtain ⟨rfl, rfl⟩ := Prod.mk.inj (Out.ok.inj h2); linarith
  | converged h2 => rw [h1] at h2; obtain ⟨rfl, rfl⟩ := Prod.mk.inj (Out.ok.inj h2); exact le_refl _
  | acceptLast h2 => rw [h1] at h2; obtain ⟨rfl, rfl⟩ := Prod.mk.inj (Out.ok.inj h2); exact le_refl _
  | acceptNext h2 _ _ _ h3 =>
    rw [h1] at h2; obtain ⟨rfl, rfl⟩ := Prod.mk.inj (Out.ok.inj h2)
    refine h3.cost_le ?_
    have hF := FGraphSolve.trial_frame h1
    intro f hm
    change (s1.w.fh f).virt.HeadingInvariant
    rw [hF.factors.virt]
    exact hl f (by rw [← hF.factors.g]; exact hm)

end Demo

end Mrob
