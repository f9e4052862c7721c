import Verif.Lemmas.SpatialDamped

/-!
# Levenberg-Marquardt for spatial graphs
-/

open Matrix Filter Topology Asymptotics

namespace Mrob

open Spec World

namespace World

variable {w : World} {Λ : ℝ}

/-- The cost of other states. -/
noncomputable def pcost (w : World) (X : NRef → NodeVal) : ℝ := (w.put X).cost

theorem pcost_eq {X : NRef → NodeVal} (hX : Good w X) : w.pcost X = (w.g.factors.map fun f => factorChi2 (w.fh f).virt.W (w.pres f X)).sum := by
  have h := vals_put hX
  change (w.g.factors.map fun f => factorChi2 (w.fh f).virt.W ((w.fh f).virt.res ((w.fh f).nbrs.map fun n => ((w.put X).nh n).val))).sum = _
  rw [h]; rfl

theorem list_small_sq {α T : Type} {F : Filter T} {g : T → ℝ} {l : List α} {t : α → T → ℝ} (h : ∀ f ∈ l, t f =o[F] g) :
    (fun x => (l.map fun f => t f x).sum) =o[F] g := by
  induction l with
  | nil => simpa using isLittleO_zero _ _
  | cons a l ih =>
    simp only [List.map_cons, List.sum_cons]
    exact (h a List.mem_cons_self).add (ih fun f hf => h f (List.mem_cons_of_mem _ hf))

/-- Quadratic forms of vectors that agree to first order. -/
theorem quad_small {m : ℕ} {T : Type} {F : Filter T} {g : T → ℝ} (W : Matrix (Fin m) (Fin m) ℝ) {r p : T → Fin m → ℝ}
    (h : ∀ l, (fun t => (r t - p t) l) =o[F] g) (hp : ∀ l, (fun t => p t l) =O[F] g) :
    (fun t => r t ⬝ᵥ (W *ᵥ r t) - p t ⬝ᵥ (W *ᵥ p t)) =o[F] fun t => g t ^ 2 := by
  have hr : ∀ l, (fun t => r t l) =O[F] g := fun l => by
    refine ((h l).isBigO.add (hp l)).congr_left fun t => ?_
    rw [Pi.sub_apply, sub_add_cancel]
  have e1 : ∀ t, r t ⬝ᵥ (W *ᵥ r t) - p t ⬝ᵥ (W *ᵥ p t) =
      ∑ l, ∑ k, W l k * ((r t - p t) l * r t k + p t l * (r t - p t) k) := by
    intro t
    simp only [dotProduct, mulVec, ← Finset.sum_sub_distrib, Finset.mul_sum]
    refine Finset.sum_congr rfl fun l _ => ?_
    refine Finset.sum_congr rfl fun k _ => ?_
    simp only [Pi.sub_apply]
    ring
  simp only [e1]
  refine IsLittleO.fun_sum fun l _ => IsLittleO.fun_sum fun k _ => IsLittleO.const_mul_left ?_ _
  have n2 : (fun t => g t ^ 2) = fun t => g t * g t := funext fun t => sq _
  rw [n2]
  exact ((h l).mul_isBigO (hr k)).add ((hp l).mul_isLittleO (h k))

section quad

variable (h : SpatialSolved w)
include h

theorem pwt_here {f : FRef} (hf : f ∈ w.g.factors) : w.pwt f w.here = 1 := by
  have e0 : w.pres f w.here = 0 := res_zero h.spatial (h.agrees f hf)
  have hr := h.robust f hf
  rw [pwt, e0, factorChi2, zero_dotProduct, mul_zero, Real.sqrt_zero]
  generalize (w.fh f).virt.robust = ty at hr
  cases ty <;> first | exact absurd rfl hr | simp [robustWeight]

/-- The cost is quadratic to second order. -/
theorem pcost_small : (fun X => 2 * w.pcost X - w.errs X ⬝ᵥ (w.pH w.here *ᵥ w.errs X)) =o[w.nearby] fun X => w.errNorm X ^ 2 := by
  have e1 : ∀ᶠ X in w.nearby, (w.g.factors.map fun f => 2 * factorChi2 (w.fh f).virt.W (w.pres f X) -
      w.errs X ⬝ᵥ (((w.pjac f w.here)ᵀ * (w.pwt f w.here • (w.fh f).virt.W) * w.pjac f w.here) *ᵥ w.errs X)).sum =
      2 * w.pcost X - w.errs X ⬝ᵥ (w.pH w.here *ᵥ w.errs X) := by
    filter_upwards [good_near] with X hX
    rw [pcost_eq hX, pH, list_two_mul, list_sum_mulVec, list_dot, list_sum_sub]
  refine IsLittleO.congr' ?_ e1 EventuallyEq.rfl
  refine list_small_sq fun f hf => ?_
  have := quad_small (w.fh f).virt.W (F := w.nearby) (g := w.errNorm) (r := w.pres f) (p := fun X => w.pjac f w.here *ᵥ w.errs X)
    (pres_first h.spatial (h.agrees f hf)) (fun l => by
      change (fun X => ∑ c, w.pjac f w.here l c * w.errs X c) =O[w.nearby] w.errNorm
      exact IsBigO.fun_sum fun c _ => (errs_apply h.spatial c).const_mul_left _)
  refine this.congr_left fun X => ?_
  rw [pwt_here h hf, one_smul, factorChi2, ← mulVec_mulVec, ← mulVec_mulVec, dotProduct_mulVec (w.errs X), vecMul_transpose]
  ring

theorem pcost_close {η : ℝ} (hη : 0 < η) :
    ∀ᶠ X in w.nearby, |2 * w.pcost X - w.errs X ⬝ᵥ (w.pH w.here *ᵥ w.errs X)| ≤ η * len (w.errs X) ^ 2 := by
  filter_upwards [(pcost_small h).def hη] with X hX
  rw [Real.norm_eq_abs, norm_pow, Real.norm_eq_abs, abs_of_nonneg (show 0 ≤ w.errNorm X from norm_nonneg _)] at hX
  refine hX.trans (mul_le_mul_of_nonneg_left ?_ hη.le)
  exact pow_le_pow_left₀ (norm_nonneg _) (norm_le_len _) 2

variable {μ : ℝ} (hμ : 0 < μ) (hsym : (infoMatrix (graphTerms w))ᵀ = infoMatrix (graphTerms w))
  (hlow : ∀ x, μ * (x ⬝ᵥ x) ≤ x ⬝ᵥ (infoMatrix (graphTerms w) *ᵥ x)) (hΛ : 0 < Λ)
  (hpi : ∀ n ∈ w.g.active, ∀ A : SE3, (w.nh n).val = ⟨.pose3d, A⟩ → angle A.R ≠ Real.pi)
include hμ hsym hlow hΛ hpi

/-- One damped step. -/
theorem damped_step {c : ℝ} (hc : 0 < c) : ∃ ε > 0, ∃ K > 0, ∀ X, w.size X < ε → Good w X → ∀ z l, 0 < l → l ≤ Λ →
    w.pH X *ᵥ z + l • z = w.pb X → Good w (w.nextBy (X, z)) ∧ w.size (w.nextBy (X, z)) ≤ K * len (w.errs X) ∧
      len (w.errs (w.nextBy (X, z))) ≤ (l / (l + μ) + c) * len (w.errs X) ∧ w.pcost (w.nextBy (X, z)) ≤ w.pcost X := by
  obtain ⟨B, σ, hB, hσ, hup, hd⟩ := damped_near h hμ hsym hlow hΛ
  obtain ⟨η, hη, hη1, hη2, hη3⟩ : ∃ η, 0 < η ∧ η ≤ μ / 4 ∧ 4 * η / μ ≤ c / 2 ∧ 13 * η ≤ σ / 2 := by
    refine ⟨min (μ / 4) (min (c * μ / 8) (σ / 26)), by positivity, min_le_left _ _, ?_, ?_⟩
    · rw [div_le_iff₀ hμ]
      have := (min_le_right (μ / 4) (min (c * μ / 8) (σ / 26))).trans (min_le_left _ _)
      linarith
    · have := (min_le_right (μ / 4) (min (c * μ / 8) (σ / 26))).trans (min_le_right _ _)
      linarith
  obtain ⟨κ, hκ, hκ1, hκ2, hκ3⟩ : ∃ κ, 0 < κ ∧ κ ≤ 1 ∧ κ ≤ c / 2 ∧ 3 * B * κ ≤ σ / 2 := by
    refine ⟨min 1 (min (c / 2) (σ / (6 * B + 6))), by positivity, min_le_left _ _, (min_le_right _ _).trans (min_le_left _ _), ?_⟩
    have h1 : min 1 (min (c / 2) (σ / (6 * B + 6))) ≤ σ / (6 * B + 6) := (min_le_right _ _).trans (min_le_right _ _)
    have h2 : 3 * B * (σ / (6 * B + 6)) ≤ σ / 2 := by
      rw [← mul_div_assoc, div_le_iff₀ (by positivity)]; nlinarith
    exact (mul_le_mul_of_nonneg_left h1 (by positivity)).trans h2
  obtain ⟨K, hK, hsz⟩ := (nextBy_size h hμ hsym hlow hΛ hpi).exists_pos
  have hev : ∀ᶠ p in w.pairs Λ, ∀ l, 0 < l → l ≤ Λ → w.pH p.1 *ᵥ p.2 + l • p.2 = w.pb p.1 →
      Good w (w.nextBy p) ∧ w.size (w.nextBy p) ≤ K * len (w.errs p.1) ∧
      len (w.errs (w.nextBy p)) ≤ (l / (l + μ) + c) * len (w.errs p.1) ∧ w.pcost (w.nextBy p) ≤ w.pcost p.1 := by
    filter_upwards [pairs_fst.eventually (hd η hη hη1), len_littleO (nextBy_errs h hμ hsym hlow hΛ hpi) hκ,
      pairs_fst.eventually (pcost_close h hη), (nextBy_lim h hμ hsym hlow hΛ hpi).eventually (pcost_close h hη),
      nextBy_good h hμ hsym hlow hΛ hpi, hsz.bound] with p h1 h2 h3 h4 h5 h6 l hl hlΛ hz
    obtain ⟨k1, k2, k3⟩ := h1 l hl hlΛ p.2 hz
    refine ⟨h5, ?_, ?_, ?_⟩
    · rw [Real.norm_eq_abs, Real.norm_eq_abs, abs_of_nonneg (size_nonneg _), abs_of_nonneg (show 0 ≤ w.errNorm p.1 from norm_nonneg _)] at h6
      exact h6.trans (mul_le_mul_of_nonneg_left (norm_le_len _) hK.le)
    · have e : w.errs (w.nextBy p) = (w.errs p.1 - p.2) + (w.errs (w.nextBy p) - (w.errs p.1 - p.2)) := by abel
      have hE := len_nonneg (w.errs p.1)
      rw [e]
      refine (len_add _ _).trans ?_
      have a1 := mul_le_mul_of_nonneg_right hη2 hE
      have a2 := mul_le_mul_of_nonneg_right hκ2 hE
      have a3 : len (w.errs p.1 - p.2) ≤ l / (l + μ) * len (w.errs p.1) + 4 * η / μ * len (w.errs p.1) := by linarith
      have a4 : (l / (l + μ) + c) * len (w.errs p.1) =
          l / (l + μ) * len (w.errs p.1) + c / 2 * len (w.errs p.1) + c / 2 * len (w.errs p.1) := by ring
      linarith
    · exact damped_close (by rw [pH_here, hsym]) hB hup k2 hκ.le hκ1 h2 k3 hη.le h3 h4 (by linarith)
  obtain ⟨ε, hε, hball⟩ := pairs_iff.mp hev
  exact ⟨ε, hε, K, hK, fun X hX hg z l hl hlΛ hz => hball X hX hg z l hl hlΛ hz l hl hlΛ hz⟩

end quad

/-- States from which the iterations converge. -/
structure Inside (w : World) (ε δ : ℝ) (X : NRef → NodeVal) : Prop where
  size : w.size X < ε
  len : len (w.errs X) < δ
  good : Good w X

namespace SpatialSolved

variable (h : SpatialSolved w) {μ : ℝ} (hμ : 0 < μ) (hsym : (infoMatrix (graphTerms w))ᵀ = infoMatrix (graphTerms w))
  (hlow : ∀ x, μ * (x ⬝ᵥ x) ≤ x ⬝ᵥ (infoMatrix (graphTerms w) *ᵥ x))
  (hpi : ∀ n ∈ w.g.active, ∀ A : SE3, (w.nh n).val = ⟨.pose3d, A⟩ → angle A.R ≠ Real.pi)
include h hμ hsym hlow hpi

/-- One iteration of Levenberg-Marquardt is accepted and a contraction near the solution. -/
theorem trial (hw : Wired w) {env : Env} (henv : env.Sound) (hcomp : env.Complete)
    {c : ℝ} (hΛ : 0 < Λ) (hc : 0 < c) (hc1 : c ≤ μ / (Λ + μ)) : ∃ ε > 0, ∀ ε' ≤ ε, 0 < ε' → ∃ δ > 0,
    ∀ (X : NRef → NodeVal) (s : FGraphSolve), Inside w ε' δ X →
    OffSpatial w X s.w → 0 < s.lambda → s.lambda ≤ Λ → ∃ delta s1, s.trial env = .ok (delta, s1) ∧ 0 ≤ delta ∧ s1.lambda = s.lambda ∧
      ∃ X', len (w.errs X') ≤ (s.lambda / (s.lambda + μ) + c) * len (w.errs X) ∧ len (w.errs X') ≤ len (w.errs X) ∧
        Inside w ε' δ X' ∧ OffSpatial w X' s1.w := by
  obtain ⟨ε, hε, K, hK, hrate⟩ := damped_step h hμ hsym hlow hΛ hpi hc
  refine ⟨ε, hε, fun ε' hε' hpos => ⟨ε' / K, by positivity, fun X s hin hs hl hlΛ => ?_⟩⟩
  have hgood := hin.good
  have hwd : Wired (w.put X) := hgood.frame.wired hw
  have hrd : NoRansac (w.put X) := h.robust
  have hG := hs.gauge
  have hH : infoMatrix (graphTerms (w.put X)) = w.pH X := pH_put hgood
  have hb : infoVector (graphTerms (w.put X)) = w.pb X := pb_put hgood
  obtain ⟨delta, s1, h1, -⟩ := FGraphSolve.trial_total hcomp hs.wellPosed hl
  obtain ⟨x, hx, hv, -, hw1⟩ := FGraphSolve.trial_model henv hs.wellPosed h1
  obtain ⟨z', hz1, hz2, -⟩ := hG.solution hwd hrd hs.robust (Or.inr fun n hn => sameSym_orth _) x hx
  obtain ⟨z, hzz⟩ : ∃ z : Cols w → ℝ, z = z' := ⟨z', rfl⟩
  have hF := FGraphSolve.trial_frame h1
  have hz3 : w.pH X *ᵥ z + s.lambda • z = w.pb X := by
    rw [hzz]
    exact (congrArg (fun H : Matrix (Cols w) (Cols w) ℝ => H *ᵥ (show Cols w → ℝ from z') + s.lambda • (show Cols w → ℝ from z')) hH).symm.trans (hz2.trans hb)
  obtain ⟨hgood', hsize, hsmall, hcost⟩ := hrate X (hin.size.trans_le hε') hgood z s.lambda hl hlΛ hz3
  have hle : len (w.errs (w.nextBy (X, z))) ≤ len (w.errs X) := by
    refine hsmall.trans (mul_le_of_le_one_left (len_nonneg _) ?_)
    have : s.lambda / (s.lambda + μ) + μ / (Λ + μ) ≤ 1 := by
      have k1 : s.lambda / (s.lambda + μ) = 1 - μ / (s.lambda + μ) := by field_simp; ring
      have k2 : μ / (Λ + μ) ≤ μ / (s.lambda + μ) := div_le_div_of_nonneg_left hμ.le (by linarith) (by linarith)
      linarith
    linarith
  have hin' : Inside w ε' (ε' / K) (w.nextBy (X, z)) := by
    refine ⟨hsize.trans_lt ?_, hle.trans_lt hin.len, hgood'⟩
    have := hin.len
    rw [lt_div_iff₀ hK] at this
    linarith
  have hoff : OffSpatial w (w.nextBy (X, z)) s1.w := by
    refine ⟨?_, hw1, hs.robust.of_factors hF.factors⟩
    refine ⟨?_, ?_, fun f hf => ?_, fun n hn => ?_, fun f hf => ?_, fun n hn => sameSym_moves _, fun f hf => trivial⟩
    · rw [hF.factors.g]; exact hG.active
    · rw [hF.factors.g]; exact hG.factors
    · rw [hF.factors.nbrs]; exact hG.nbrs f hf
    · have hmv : sameSym.rel (((w.put X).moved ((w.put X).spread (-z' : Cols (w.put X) → ℝ))).nh n).val (s1.w.nh n).val := by
        rw [hv]
        refine hG.moved_val _ _ ?_ (fun n _ => sameSym_follows _ _) hn
        refine Eq.trans ?_ (mulVec_neg _ _).symm
        rw [← hz1]
        rfl
      refine Eq.trans hmv ?_
      rw [hgood'.put_val]
      change (if n ∈ w.g.active then ((w.put X).nh n).update (w.spread (-z') n) else (w.put X).nh n).val = _
      rw [nextBy, hzz]
      split
      · change NodeVal.upd ((w.put X).nh n).val _ = _
        rw [hgood.put_val]
        rfl
      · exact hgood.put_val n
    · rw [hF.factors.virt]; exact hG.virt f hf
  refine ⟨delta, s1, h1, ?_, (FGraphSolve.trial_ok h1).2.1, _, hsmall, hle, hin', hoff⟩
  rw [(FGraphSolve.trial_ok h1).2.2.2.2.2.1, hG.cost_eq hwd, hoff.gauge.cost_eq (hgood'.frame.wired hw)]
  exact sub_nonneg.mpr hcost

omit h hμ hsym hlow hpi in
/-- The loop. -/
theorem lmLoop {env : Env} {c ε δ : ℝ}
    (hstep : ∀ (X : NRef → NodeVal) (s : FGraphSolve), Inside w ε δ X →
      OffSpatial w X s.w → 0 < s.lambda → s.lambda ≤ Λ → ∃ delta s1, s.trial env = .ok (delta, s1) ∧ 0 ≤ delta ∧ s1.lambda = s.lambda ∧
        ∃ X', len (w.errs X') ≤ (s.lambda / (s.lambda + μ) + c) * len (w.errs X) ∧ len (w.errs X') ≤ len (w.errs X) ∧
          Inside w ε δ X' ∧ OffSpatial w X' s1.w) (maxIters : ℕ) :
    ∀ (k iter : ℕ) (s : FGraphSolve) (X : NRef → NodeVal), maxIters - iter = k → Inside w ε δ X → OffSpatial w X s.w → 0 < s.lambda →
      s.lambda * 2 ^ k ≤ Λ → ∃ r, s.lmLoop env maxIters iter = .ok r ∧
        ∃ X', len (w.errs X') ≤ (s.lambda / (s.lambda + μ) + c) * len (w.errs X) ∧ len (w.errs X') ≤ len (w.errs X) ∧
          Inside w ε δ X' ∧ OffSpatial w X' r.s.w := by
  intro k
  induction k using Nat.strong_induction_on with
  | _ k ih =>
    intro iter s X hk he hs hl hlΛ
    have hl1 : s.lambda ≤ Λ := le_trans (le_mul_of_one_le_right hl.le (one_le_pow₀ one_le_two)) hlΛ
    obtain ⟨delta, s1, h1, hd, hlam, X1, hX1, hX1', hin, hs1⟩ := hstep X s he hs hl hl1
    rw [FGraphSolve.lmLoop, h1, Out.ok_bind]
    dsimp only
    rw [if_neg (not_lt.mpr hd)]
    split_ifs with c1 c2
    · exact ⟨_, rfl, X1, hX1, hX1', hin, hs1⟩
    · have hpos : 0 < (s1.adapt delta).lambda := FGraphSolve.nextLambda_pos (by rw [hlam]; exact hl)
      have hle : (s1.adapt delta).lambda ≤ 2 * s.lambda := by
        rw [← hlam]; exact FGraphSolve.nextLambda_le (by rw [hlam]; exact hl)
      obtain ⟨j, rfl⟩ : ∃ j, k = j + 1 := ⟨k - 1, by omega⟩
      obtain ⟨r, hr, X2, -, hX2, hin2, hs2⟩ := ih j (by omega) (iter + 1) (s1.adapt delta) X1 (by omega) hin hs1 hpos (by
        refine le_trans (mul_le_mul_of_nonneg_right hle (by positivity)) ?_
        rw [pow_succ] at hlΛ
        linarith)
      exact ⟨r, hr, X2, hX2.trans hX1, hX2.trans hX1', hin2, hs2⟩
    · exact ⟨_, rfl, X1, hX1, hX1', hin, hs1⟩

/-- Repeated calls of Levenberg-Marquardt. -/
theorem repeatLM (hw : Wired w) {env : Env} (henv : env.Sound) (hcomp : env.Complete)
    (M : ℕ) {q : ℝ} (hq : 1e-5 / (1e-5 + μ) < q) : ∃ C > 0, ∃ ε > 0, ∀ (calls : List (ℕ × ℝ × ℝ)), (∀ a ∈ calls, a.1 ≤ M) →
    ∀ (X : NRef → NodeVal) (s : FGraphSolve), w.size X < ε → Good w X → OffSpatial w X s.w →
      ∃ s1, Spec.repeatLM env calls s = .ok s1 ∧ ∃ X', w.size X' ≤ C * (q ^ calls.length * w.size X) ∧ Good w X' ∧ OffSpatial w X' s1.w := by
  obtain ⟨Λ, hΛ⟩ : ∃ Λ : ℝ, Λ = 1e-5 * 2 ^ M := ⟨_, rfl⟩
  have hΛ0 : 0 < Λ := by rw [hΛ]; positivity
  have hq0 : 0 < q := lt_trans (by positivity) hq
  obtain ⟨c, hc0, hc1, hc2⟩ : ∃ c, 0 < c ∧ c ≤ μ / (Λ + μ) ∧ 1e-5 / (1e-5 + μ) + c ≤ q := by
    refine ⟨min (μ / (Λ + μ)) (q - 1e-5 / (1e-5 + μ)), lt_min (by positivity) (by linarith), min_le_left _ _, ?_⟩
    linarith [min_le_right (μ / (Λ + μ)) (q - 1e-5 / (1e-5 + μ))]
  obtain ⟨ε₀, hε₀, hball⟩ := h.trial hμ hsym hlow hpi hw henv hcomp hΛ0 hc0 hc1
  obtain ⟨K₁, hK₁, b1⟩ := (size_bigO h.spatial).exists_pos
  obtain ⟨ε₁, hε₁, b1⟩ := nearby_iff.mp b1.bound
  obtain ⟨K₂, hK₂, b2⟩ := (errs_bigO h.spatial).exists_pos
  obtain ⟨ε₂, hε₂, b2⟩ := nearby_iff.mp b2.bound
  obtain ⟨N, hN⟩ : ∃ N, N = Real.sqrt (Fintype.card (Cols w)) := ⟨_, rfl⟩
  have hN0 : 0 ≤ N := by rw [hN]; exact Real.sqrt_nonneg _
  obtain ⟨ε, hε, e0, e1, e2⟩ : ∃ ε > 0, ε ≤ ε₀ ∧ ε ≤ ε₁ ∧ ε ≤ ε₂ :=
    ⟨min ε₀ (min ε₁ ε₂), by positivity, min_le_left _ _, (min_le_right _ _).trans (min_le_left _ _), (min_le_right _ _).trans (min_le_right _ _)⟩
  obtain ⟨δ, hδ, hstep⟩ := hball ε e0 hε
  have hto : ∀ X, w.size X < ε → Good w X → len (w.errs X) ≤ (N + 1) * K₂ * w.size X := by
    intro X hX hg
    have h1 := b2 X (hX.trans_le e2) hg
    rw [Real.norm_eq_abs, abs_of_nonneg (size_nonneg _)] at h1
    have h2 := len_le_norm (w.errs X)
    rw [← hN] at h2
    have h3 := mul_le_mul_of_nonneg_left h1 hN0
    have h4 : 0 ≤ K₂ * w.size X := mul_nonneg hK₂.le (size_nonneg _)
    nlinarith
  have hfrom : ∀ X, w.size X < ε → Good w X → w.size X ≤ K₁ * len (w.errs X) := by
    intro X hX hg
    have h1 := b1 X (hX.trans_le e1) hg
    rw [Real.norm_eq_abs, Real.norm_eq_abs, abs_of_nonneg (size_nonneg _), abs_of_nonneg (show 0 ≤ w.errNorm X from norm_nonneg _)] at h1
    exact h1.trans (mul_le_mul_of_nonneg_left (norm_le_len _) hK₁.le)
  have hrep : ∀ (calls : List (ℕ × ℝ × ℝ)), (∀ a ∈ calls, a.1 ≤ M) → ∀ (X : NRef → NodeVal) (s : FGraphSolve), Inside w ε δ X →
      OffSpatial w X s.w → ∃ s1, Spec.repeatLM env calls s = .ok s1 ∧ ∃ X', len (w.errs X') ≤ q ^ calls.length * len (w.errs X) ∧
        Inside w ε δ X' ∧ OffSpatial w X' s1.w := by
    intro calls
    induction calls with
    | nil => intro _ X s he hs; exact ⟨s, rfl, X, by simp, he, hs⟩
    | cons a calls ih =>
      intro hM X s he hs
      have ha := hM a List.mem_cons_self
      obtain ⟨r, h1, X1, hX1, -, hin1, hs1⟩ := SpatialSolved.lmLoop hstep a.1 a.1 0 ⟨s.w, 1e-5, a.2.2, s.sys, s.mats⟩ X rfl he hs
        (show (0 : ℝ) < 1e-5 by norm_num) (by
          change (1e-5 : ℝ) * 2 ^ a.1 ≤ Λ
          rw [hΛ]
          exact mul_le_mul_of_nonneg_left (pow_le_pow_right₀ one_le_two ha) (by norm_num))
      obtain ⟨s2, h2, X2, hX2, hin2, hs2⟩ := ih (fun b hb => hM b (List.mem_cons_of_mem _ hb)) X1 r.s hin1 hs1
      have h1' : s.solve env .LM a.1 a.2.1 a.2.2 = .ok r.s := by
        change (FGraphSolve.lmLoop env a.1 0 ⟨s.w, 1e-5, a.2.2, s.sys, s.mats⟩ >>= fun r => Out.ok r.s) = _
        rw [h1]; rfl
      refine ⟨s2, ?_, X2, hX2.trans ?_, hin2, hs2⟩
      · rw [Spec.repeatLM, h1']; exact h2
      · rw [List.length_cons, pow_succ, mul_assoc]
        refine mul_le_mul_of_nonneg_left (hX1.trans ?_) (by positivity)
        exact mul_le_mul_of_nonneg_right hc2 (len_nonneg _)
  refine ⟨K₁ * ((N + 1) * K₂), by positivity, min ε (δ / ((N + 1) * K₂)), by positivity, fun calls hM X s hX hg hs => ?_⟩
  have hXε : w.size X < ε := hX.trans_le (min_le_left _ _)
  have hlen := hto X hXε hg
  have hin : Inside w ε δ X := by
    refine ⟨hXε, hlen.trans_lt ?_, hg⟩
    have := hX.trans_le (min_le_right _ _)
    rw [lt_div_iff₀ (by positivity)] at this
    linarith
  obtain ⟨s1, h1, X1, hX1, hin1, hs1⟩ := hrep calls hM X s hin hs
  refine ⟨s1, h1, X1, (hfrom X1 hin1.size hin1.good).trans ?_, hin1.good, hs1⟩
  have h2 : len (w.errs X1) ≤ q ^ calls.length * ((N + 1) * K₂ * w.size X) := hX1.trans (mul_le_mul_of_nonneg_left hlen (by positivity))
  refine (mul_le_mul_of_nonneg_left h2 hK₁.le).trans (le_of_eq ?_)
  ring

end SpatialSolved

end World

end Mrob
