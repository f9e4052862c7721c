import Verif.Lemmas.Convergence
import Verif.Lemmas.DampedRate

/-!
# Levenberg-Marquardt near a solution without residuals
-/

open Matrix Filter Topology Asymptotics

namespace Mrob

open World Spec

namespace World

variable {w : World}

/-- The cost of the displaced states. -/
noncomputable def dcost (w : World) (e : Cols w → ℝ) : ℝ := (w.disp e).cost

theorem dcost_eq (e : Cols w → ℝ) : w.dcost e = (w.g.factors.map fun f => factorChi2 (w.fh f).virt.W (w.dres f e)).sum := rfl

theorem dwt_zero {f : FRef} (h0 : (w.fh f).virt.res ((w.fh f).nbrs.map fun n => (w.nh n).val) = 0)
    (hr : (w.fh f).virt.robust ≠ .ransac) : w.dwt f 0 = 1 := by
  change robustWeight (w.fh f).virt.robust (w.fh f).weight (Real.sqrt (factorChi2 (w.fh f).virt.W (w.dres f 0))) = _
  rw [dres_zero h0, factorChi2, zero_dotProduct, mul_zero, Real.sqrt_zero]
  generalize (w.fh f).virt.robust = ty at hr
  cases ty <;> first | exact absurd rfl hr | simp [robustWeight]

theorem list_dot {α ι : Type} [Fintype ι] (l : List α) (x : ι → ℝ) (v : α → ι → ℝ) :
    x ⬝ᵥ (l.map v).sum = (l.map fun a => x ⬝ᵥ v a).sum := by
  induction l with
  | nil => simp
  | cons a l ih => rw [List.map_cons, List.sum_cons, dotProduct_add, ih, List.map_cons, List.sum_cons]

theorem list_two_mul {α : Type} (l : List α) (v : α → ℝ) : 2 * (l.map v).sum = (l.map fun a => 2 * v a).sum := by
  induction l with
  | nil => simp
  | cons a l ih => rw [List.map_cons, List.sum_cons, mul_add, ih, List.map_cons, List.sum_cons]

theorem list_littleO_sq {α E : Type} [NormedAddCommGroup E] {l : List α} {L : Filter E} {T : α → E → ℝ}
    (hT : ∀ f ∈ l, T f =o[L] fun e => ‖e‖ ^ 2) : (fun e => (l.map fun f => T f e).sum) =o[L] fun e : E => ‖e‖ ^ 2 := by
  induction l with
  | nil => simpa using isLittleO_zero _ _
  | cons a l ih =>
    simp only [List.map_cons, List.sum_cons]
    exact (hT a List.mem_cons_self).add (ih fun f hf => hT f (List.mem_cons_of_mem _ hf))

/-- The residual is the Jacobian at the solution times the displacement, to first order. -/
theorem dres_littleO' {f : FRef} (h : Regular w.nh (w.fh f).virt (w.fh f).nbrs) (hk : ∀ n ∈ (w.fh f).nbrs, PlanarKind (w.nh n).kind)
    (h0 : (w.fh f).virt.res ((w.fh f).nbrs.map fun n => (w.nh n).val) = 0) (l : Fin (w.fh f).virt.dim) :
    (fun e => (w.dres f e - w.djac f 0 *ᵥ e) l) =o[𝓝 0] fun e : Cols w → ℝ => e := by
  have h1 := dres_littleO h hk h0 l
  have h2 : (fun e => ((w.djac f e - w.djac f 0) *ᵥ e) l) =o[𝓝 0] fun e : Cols w → ℝ => e := by
    change (fun e : Cols w → ℝ => ∑ c, (w.djac f e - w.djac f 0) l c * e c) =o[𝓝 0] fun e : Cols w → ℝ => e
    refine IsLittleO.fun_sum (g' := fun e : Cols w → ℝ => e) (A := fun c (e : Cols w → ℝ) =>
      (w.djac f e - w.djac f 0) l c * e c) fun c _ => ?_
    have k1 : (fun e : Cols w → ℝ => (w.djac f e - w.djac f 0) l c) =o[𝓝 0] fun _ => (1 : ℝ) := by
      rw [isLittleO_one_iff]
      have := (djac_continuous h hk l c).tendsto.sub_const (w.djac f 0 l c)
      rwa [sub_self] at this
    have k2 : (fun e : Cols w → ℝ => e c) =O[𝓝 0] fun e : Cols w → ℝ => e :=
      IsBigO.of_bound 1 (Eventually.of_forall fun e => by rw [one_mul]; exact norm_le_pi_norm e c)
    have := k1.mul_isBigO k2.norm_right
    simp only [one_mul] at this
    exact this.of_norm_right
  refine (h1.add h2).congr_left fun e => ?_
  rw [Pi.sub_apply, Pi.sub_apply, sub_mulVec, Pi.sub_apply]
  ring

theorem mulVec_bigO {m : ℕ} {ι : Type} [Fintype ι] (M : Matrix (Fin m) ι ℝ) (l : Fin m) : (fun e => (M *ᵥ e) l) =O[𝓝 0] fun e : ι → ℝ => e := by
  change (fun e : ι → ℝ => ∑ c, M l c * e c) =O[𝓝 0] fun e : ι → ℝ => e
  refine IsBigO.fun_sum fun c _ => ?_
  refine IsBigO.const_mul_left ?_ _
  exact IsBigO.of_bound 1 (Eventually.of_forall fun e => by rw [one_mul]; exact norm_le_pi_norm e c)

/-- Quadratic forms of vectors that agree to first order. -/
theorem quad_littleO {m : ℕ} {ι : Type} [Fintype ι] (W : Matrix (Fin m) (Fin m) ℝ) {r p : (ι → ℝ) → Fin m → ℝ}
    (h : ∀ l, (fun e => (r e - p e) l) =o[𝓝 0] fun e : ι → ℝ => e) (hp : ∀ l, (fun e => p e l) =O[𝓝 0] fun e : ι → ℝ => e) :
    (fun e => r e ⬝ᵥ (W *ᵥ r e) - p e ⬝ᵥ (W *ᵥ p e)) =o[𝓝 0] fun e : ι → ℝ => ‖e‖ ^ 2 := by
  have hr : ∀ l, (fun e => r e l) =O[𝓝 0] fun e : ι → ℝ => e := fun l => by
    refine ((h l).isBigO.add (hp l)).congr_left fun e => ?_
    rw [Pi.sub_apply, sub_add_cancel]
  have e1 : ∀ e, r e ⬝ᵥ (W *ᵥ r e) - p e ⬝ᵥ (W *ᵥ p e) =
      ∑ l, ∑ k, W l k * ((r e - p e) l * r e k + p e l * (r e - p e) k) := by
    intro e
    simp only [dotProduct, mulVec, ← Finset.sum_sub_distrib, Finset.mul_sum]
    refine Finset.sum_congr rfl fun l _ => ?_
    refine Finset.sum_congr rfl fun k _ => ?_
    simp only [Pi.sub_apply]
    ring
  simp only [e1]
  refine IsLittleO.fun_sum fun l _ => IsLittleO.fun_sum fun k _ => IsLittleO.const_mul_left ?_ _
  have n2 : (fun e : ι → ℝ => ‖e‖ ^ 2) = fun e => ‖e‖ * ‖e‖ := funext fun e => sq _
  rw [n2]
  refine IsLittleO.add ?_ ?_
  · exact (h l).norm_right.mul_isBigO (hr k).norm_right
  · exact (hp l).norm_right.mul_isLittleO (h k).norm_right

namespace Solved

variable (h : Solved w)
include h

/-- The cost is quadratic to second order. -/
theorem dcost_littleO : (fun e => 2 * w.dcost e - e ⬝ᵥ (w.dH 0 *ᵥ e)) =o[𝓝 0] fun e : Cols w → ℝ => ‖e‖ ^ 2 := by
  have e1 : ∀ e, 2 * w.dcost e - e ⬝ᵥ (w.dH 0 *ᵥ e) = (w.g.factors.map fun f =>
      2 * factorChi2 (w.fh f).virt.W (w.dres f e) - e ⬝ᵥ (((w.djac f 0)ᵀ * (w.dwt f 0 • (w.fh f).virt.W) * w.djac f 0) *ᵥ e)).sum := by
    intro e
    rw [dcost_eq, dH_eq, list_two_mul, list_sum_mulVec, list_dot, list_sum_sub]
  simp only [e1]
  refine list_littleO_sq fun f hf => ?_
  have := quad_littleO (w.fh f).virt.W (r := w.dres f) (p := fun e => w.djac f 0 *ᵥ e)
    (dres_littleO' (h.regular f hf) (h.planar f hf) (h.res f hf)) (fun l => mulVec_bigO _ l)
  refine this.congr_left fun e => ?_
  rw [dwt_zero (h.res f hf) (h.robust f hf), one_smul, factorChi2, ← mulVec_mulVec, ← mulVec_mulVec, dotProduct_mulVec e,
    vecMul_transpose]
  ring

theorem dH_zero : w.dH 0 = infoMatrix (graphTerms w) := by
  rw [dH_eq, infoMatrix, graphTerms, List.map_map]
  refine congrArg List.sum (List.map_congr_left fun f _ => ?_)
  have e1 : w.djac f 0 = (factorTerm w f).J := by
    ext l c
    simp only [djac, of_apply, List.map_congr_left fun n _ => dval_zero (w := w) n]
    rfl
  have e2 : w.dwt f 0 = factorWeight w f := by
    change robustWeight _ _ (Real.sqrt (factorChi2 (w.fh f).virt.W ((w.fh f).virt.res ((w.fh f).nbrs.map (w.dval 0))))) = _
    rw [List.map_congr_left fun n _ => dval_zero n]
    rfl
  rw [Function.comp_apply, e1, e2]

/-- One damped step. -/
theorem damped {μ : ℝ} (hμ : 0 < μ) (hs : (infoMatrix (graphTerms w))ᵀ = infoMatrix (graphTerms w))
    (hlow : ∀ x, μ * (x ⬝ᵥ x) ≤ x ⬝ᵥ (infoMatrix (graphTerms w) *ᵥ x)) {Λ c : ℝ} (hΛ : 0 < Λ) (hc : 0 < c) :
    ∃ ε > 0, ∀ e : Cols w → ℝ, len e < ε → ∀ l, 0 < l → l ≤ Λ → ∀ z,
      w.dH e *ᵥ z + l • z = w.db e → len (e - z) ≤ (l / (l + μ) + c) * len e ∧ w.dcost (e - z) ≤ w.dcost e := by
  refine damped_rate h.dH_continuous (by rw [h.dH_zero, hs]) hμ (by rw [h.dH_zero]; exact hlow) ?_ h.dcost_littleO hΛ hc
  intro c
  exact isLittleO_pi.mp h.db_littleO c

/-- One iteration of Levenberg-Marquardt is accepted and a contraction near the solution. -/
theorem trial (hw : Wired w) (hpl : ∀ n ∈ w.g.active, PlanarKind (w.nh n).kind) {μ : ℝ} (hμ : 0 < μ)
    (hs : (infoMatrix (graphTerms w))ᵀ = infoMatrix (graphTerms w))
    (hlow : ∀ x, μ * (x ⬝ᵥ x) ≤ x ⬝ᵥ (infoMatrix (graphTerms w) *ᵥ x)) {env : Env} (henv : env.Sound) (hcomp : env.Complete)
    {Λ c : ℝ} (hΛ : 0 < Λ) (hc : 0 < c) (hc1 : c ≤ μ / (Λ + μ)) : ∃ ε > 0, ∀ (e : Cols w → ℝ) (s : FGraphSolve), len e < ε →
    Off w e s.w → 0 < s.lambda → s.lambda ≤ Λ → ∃ delta s1, s.trial env = .ok (delta, s1) ∧ 0 ≤ delta ∧ s1.lambda = s.lambda ∧
      ∃ e', len e' ≤ (s.lambda / (s.lambda + μ) + c) * len e ∧ len e' ≤ len e ∧ Off w e' s1.w := by
  obtain ⟨ε₁, hε₁, hnear⟩ := Metric.eventually_nhds_iff.mp h.near
  obtain ⟨ε₂, hε₂, hrate⟩ := h.damped hμ hs hlow hΛ hc
  refine ⟨min ε₁ ε₂, lt_min hε₁ hε₂, fun e s he hs hl hlΛ => ?_⟩
  have hwd : Wired (w.disp e) := (disp_frame e).wired hw
  have hrd : NoRansac (w.disp e) := h.robust
  have hG := hs.gauge
  obtain ⟨delta, s1, h1, -⟩ := FGraphSolve.trial_total hcomp hs.wellPosed hl
  obtain ⟨x, hx, hv, -, hw1⟩ := FGraphSolve.trial_model henv hs.wellPosed h1
  obtain ⟨z', hz1, hz2, -⟩ := hG.solution hwd hrd hs.robust (Or.inr fun n hn => planar_orth _ (hpl n hn)) x hx
  obtain ⟨z, hzz⟩ : ∃ z : Cols w → ℝ, z = z' := ⟨z', rfl⟩
  have hF := FGraphSolve.trial_frame h1
  obtain ⟨hsmall, hcost⟩ := hrate e (he.trans_le (min_le_right _ _)) _ hl hlΛ z (hzz ▸ hz2)
  have hle : len (e - z) ≤ len e := by
    refine hsmall.trans (mul_le_of_le_one_left (len_nonneg e) ?_)
    have : s.lambda / (s.lambda + μ) + μ / (Λ + μ) ≤ 1 := by
      have k1 : s.lambda / (s.lambda + μ) = 1 - μ / (s.lambda + μ) := by field_simp; ring
      have k2 : μ / (Λ + μ) ≤ μ / (s.lambda + μ) := div_le_div_of_nonneg_left hμ.le (by linarith) (by linarith)
      linarith
    linarith
  have hsm : dist (e - z) 0 < ε₁ := by
    rw [dist_zero_right]
    exact ((norm_le_len _).trans hle).trans_lt (he.trans_le (min_le_left _ _))
  have hr2 := hnear hsm
  have hoff : Off w (e - z) s1.w := by
    refine ⟨?_, hw1, hs.robust.of_factors hF.factors⟩
    refine ⟨?_, ?_, fun f hf => ?_, fun n hn => ?_, fun f hf => ?_, fun n hn => ?_, fun f hf => ?_⟩
    · rw [hF.factors.g]; exact hG.active
    · rw [hF.factors.g]; exact hG.factors
    · rw [hF.factors.nbrs]; exact hG.nbrs f hf
    · have hk : PlanarKind (w.nh n).kind := by
        rcases hn with hn | ⟨f, hf, hn⟩
        · exact hpl n hn
        · exact h.planar f hf n hn
      refine moved_disp e z hk ?_
      rw [hv, hzz]
      refine hG.moved_val _ _ ?_ (fun n _ => planar_follows _ _) hn
      refine Eq.trans ?_ (mulVec_neg _ _).symm
      rw [← hz1]
      rfl
    · rw [hF.factors.virt]; exact hG.virt f hf
    · exact hG.moves n hn
    · exact regular_far (hr2 f hf)
  refine ⟨delta, s1, h1, ?_, (FGraphSolve.trial_ok h1).2.1, e - z, hsmall, hle, hoff⟩
  rw [(FGraphSolve.trial_ok h1).2.2.2.2.2.1, hG.cost_eq hwd, hoff.gauge.cost_eq ((disp_frame _).wired hw)]
  exact sub_nonneg.mpr hcost

end Solved

end World

theorem FGraphSolve.nextLambda_le {l d den : ℝ} (hl : 0 < l) : nextLambda l d den ≤ 2 * l := by
  unfold nextLambda
  split_ifs <;> nlinarith

namespace World

variable {w : World}

namespace Solved

/-- The loop. -/
theorem lmLoop {μ : ℝ} {env : Env} {Λ c ε : ℝ} (hc : 0 < c)
    (hstep : ∀ (e : Cols w → ℝ) (s : FGraphSolve), len e < ε →
      Off w e s.w → 0 < s.lambda → s.lambda ≤ Λ → ∃ delta s1, s.trial env = .ok (delta, s1) ∧ 0 ≤ delta ∧ s1.lambda = s.lambda ∧
        ∃ e', len e' ≤ (s.lambda / (s.lambda + μ) + c) * len e ∧ len e' ≤ len e ∧ Off w e' s1.w) (maxIters : ℕ) :
    ∀ (k iter : ℕ) (s : FGraphSolve) (e : Cols w → ℝ), maxIters - iter = k → len e < ε → Off w e s.w → 0 < s.lambda →
      s.lambda * 2 ^ k ≤ Λ → ∃ r, s.lmLoop env maxIters iter = .ok r ∧
        ∃ e', len e' ≤ (s.lambda / (s.lambda + μ) + c) * len e ∧ len e' ≤ len e ∧ Off w e' r.s.w := by
  intro k
  induction k using Nat.strong_induction_on with
  | _ k ih =>
    intro iter s e hk he hs hl hlΛ
    have hl1 : s.lambda ≤ Λ := le_trans (le_mul_of_one_le_right hl.le (one_le_pow₀ one_le_two)) hlΛ
    obtain ⟨delta, s1, h1, hd, hlam, e1, he1, he1', hs1⟩ := hstep e s he hs hl hl1
    rw [FGraphSolve.lmLoop, h1, Out.ok_bind]
    dsimp only
    rw [if_neg (not_lt.mpr hd)]
    split_ifs with c1 c2
    · exact ⟨_, rfl, e1, he1, he1', hs1⟩
    · have hpos : 0 < (s1.adapt delta).lambda := FGraphSolve.nextLambda_pos (by rw [hlam]; exact hl)
      have hle : (s1.adapt delta).lambda ≤ 2 * s.lambda := by
        rw [← hlam]; exact FGraphSolve.nextLambda_le (by rw [hlam]; exact hl)
      obtain ⟨j, rfl⟩ : ∃ j, k = j + 1 := ⟨k - 1, by omega⟩
      obtain ⟨r, hr, e2, -, he2, hs2⟩ := ih j (by omega) (iter + 1) (s1.adapt delta) e1 (by omega) (he1'.trans_lt he) hs1 hpos (by
        refine le_trans (mul_le_mul_of_nonneg_right hle (by positivity)) ?_
        rw [pow_succ] at hlΛ
        linarith)
      exact ⟨r, hr, e2, he2.trans he1, he2.trans he1', hs2⟩
    · exact ⟨_, rfl, e1, he1, he1', hs1⟩

/-- Repeated calls of Levenberg-Marquardt. -/
theorem repeatLM (h : Solved w) (hw : Wired w) (hpl : ∀ n ∈ w.g.active, PlanarKind (w.nh n).kind) {μ : ℝ} (hμ : 0 < μ)
    (hs : (infoMatrix (graphTerms w))ᵀ = infoMatrix (graphTerms w))
    (hlow : ∀ x, μ * (x ⬝ᵥ x) ≤ x ⬝ᵥ (infoMatrix (graphTerms w) *ᵥ x)) {env : Env} (henv : env.Sound) (hcomp : env.Complete)
    (M : ℕ) {q : ℝ} (hq : 1e-5 / (1e-5 + μ) < q) : ∃ ε > 0, ∀ (calls : List (ℕ × ℝ × ℝ)), (∀ a ∈ calls, a.1 ≤ M) →
    ∀ (e : Cols w → ℝ) (s : FGraphSolve), len e < ε →
    Off w e s.w → ∃ s1, Spec.repeatLM env calls s = .ok s1 ∧ ∃ e', len e' ≤ q ^ calls.length * len e ∧ Off w e' s1.w := by
  obtain ⟨Λ, hΛ⟩ : ∃ Λ : ℝ, Λ = 1e-5 * 2 ^ M := ⟨_, rfl⟩
  have hΛ0 : 0 < Λ := by rw [hΛ]; positivity
  have hq0 : 0 < q := lt_trans (by positivity) hq
  obtain ⟨c, hc0, hc1, hc2⟩ : ∃ c, 0 < c ∧ c ≤ μ / (Λ + μ) ∧ 1e-5 / (1e-5 + μ) + c ≤ q := by
    refine ⟨min (μ / (Λ + μ)) (q - 1e-5 / (1e-5 + μ)), lt_min (by positivity) (by linarith), min_le_left _ _, ?_⟩
    linarith [min_le_right (μ / (Λ + μ)) (q - 1e-5 / (1e-5 + μ))]
  obtain ⟨ε, hε, hstep⟩ := h.trial hw hpl hμ hs hlow henv hcomp hΛ0 hc0 hc1
  refine ⟨ε, hε, fun calls => ?_⟩
  induction calls with
  | nil => intro _ e s he hs; exact ⟨s, rfl, e, by simp, hs⟩
  | cons a calls ih =>
    intro hM e s he hs
    have ha := hM a List.mem_cons_self
    obtain ⟨r, h1, e1, he1, he1', hs1⟩ := Solved.lmLoop hc0 hstep a.1 a.1 0 ⟨s.w, 1e-5, a.2.2, s.sys, s.mats⟩ e rfl he hs
      (show (0 : ℝ) < 1e-5 by norm_num) (by
        change (1e-5 : ℝ) * 2 ^ a.1 ≤ Λ
        rw [hΛ]
        exact mul_le_mul_of_nonneg_left (pow_le_pow_right₀ one_le_two ha) (by norm_num))
    obtain ⟨s2, h2, e2, he2, hs2⟩ := ih (fun b hb => hM b (List.mem_cons_of_mem _ hb)) e1 r.s (he1'.trans_lt he) hs1
    have h1' : s.solve env .LM a.1 a.2.1 a.2.2 = .ok r.s := by
      change (FGraphSolve.lmLoop env a.1 0 ⟨s.w, 1e-5, a.2.2, s.sys, s.mats⟩ >>= fun r => Out.ok r.s) = _
      rw [h1]; rfl
    refine ⟨s2, ?_, e2, he2.trans ?_, hs2⟩
    · rw [Spec.repeatLM, h1']; exact h2
    · rw [List.length_cons, pow_succ, mul_assoc]
      refine mul_le_mul_of_nonneg_left (he1.trans ?_) (by positivity)
      exact mul_le_mul_of_nonneg_right hc2 (len_nonneg e)

end Solved

end World

end Mrob
