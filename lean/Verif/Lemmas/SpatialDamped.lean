import Verif.Lemmas.SpatialStep
import Verif.Lemmas.UpdateFirst
import Verif.Lemmas.DampedFilter
import Verif.Lemmas.ConvergenceLM

/-!
# Damped steps of spatial graphs
-/

open Matrix Filter Topology Asymptotics

namespace Mrob

open Spec World

attribute [local instance] Matrix.linftyOpNormedAddCommGroup Matrix.linftyOpNormedSpace Matrix.linftyOpNormedRing

theorem sameSym_orth (κ : NodeKind) : sameSym.Orth κ := by
  intro i hi j hj
  change ∑ k ∈ Finset.range κ.dim, (if k = i then (1 : ℝ) else 0) * (if k = j then (1 : ℝ) else 0) = _
  simp only [ite_mul, one_mul, zero_mul, Finset.sum_ite_eq', Finset.mem_range, if_pos hi]

theorem PoseNear.comp {T T' : Type} {F : Filter T} {G : Filter T'} {g : T → ℝ} {P : T → SE3} {A : SE3} {Q : T → Mat3} {τ : T → Vec3}
    (h : PoseNear F g P A Q τ) {k : T' → T} (hk : Tendsto k G F) :
    PoseNear G (fun t => g (k t)) (fun t => P (k t)) A (fun t => Q (k t)) fun t => τ (k t) :=
  ⟨h.rigid, hk.eventually h.eq, ⟨h.turned.lim.comp hk, h.turned.skew.comp_tendsto hk, h.turned.left.comp_tendsto hk,
    h.turned.right.comp_tendsto hk⟩, h.trans.comp_tendsto hk⟩

/-- Poses that are close in rotation and translation are close in every entry. -/
theorem entries_bigO {T : Type} {F : Filter T} {g : T → ℝ} {M : T → SE3} {A : SE3} (hA : IsRigid A.T)
    (h1 : (fun t => (M t).R - A.R) =O[F] g) (h2 : (fun t => (M t).t - A.t) =O[F] g) (h3 : ∀ᶠ t in F, LastRow (M t).T) :
    (fun t => ‖fun q : I4 × I4 => (M t).T q.1 q.2 - A.T q.1 q.2‖) =O[F] g := by
  refine IsBigO.norm_left (isBigO_pi.mpr fun q => ?_)
  obtain ⟨i, j⟩ := q
  rcases i with i | i <;> rcases j with j | j
  · exact mat_bigO.mp h1 i j
  · exact isBigO_pi.mp h2 i
  · refine (isBigO_zero g F (E' := ℝ)).congr' ?_ EventuallyEq.rfl
    filter_upwards [h3] with t ht
    rw [ht.1 j, hA.lastRow.1 j, sub_zero]
  · refine (isBigO_zero g F (E' := ℝ)).congr' ?_ EventuallyEq.rfl
    filter_upwards [h3] with t ht
    exact (sub_eq_zero.mpr (ht.2.trans hA.lastRow.2.symm)).symm

namespace World

variable {w : World}

/-- States near the given ones together with damped steps. -/
noncomputable def pairs (w : World) (Λ : ℝ) : Filter ((NRef → NodeVal) × (Cols w → ℝ)) :=
  comap Prod.fst w.nearby ⊓ 𝓟 {p | ∃ l, 0 < l ∧ l ≤ Λ ∧ w.pH p.1 *ᵥ p.2 + l • p.2 = w.pb p.1}

/-- The states after a damped step. -/
noncomputable def nextBy (w : World) (p : (NRef → NodeVal) × (Cols w → ℝ)) : NRef → NodeVal := fun n =>
  if n ∈ w.g.active then (p.1 n).upd (w.spread (-p.2) n) else p.1 n

variable {Λ : ℝ}

theorem pairs_fst : Tendsto Prod.fst (w.pairs Λ) w.nearby := tendsto_comap.mono_left inf_le_left

theorem pairs_damped : ∀ᶠ p in w.pairs Λ, ∃ l, 0 < l ∧ l ≤ Λ ∧ w.pH p.1 *ᵥ p.2 + l • p.2 = w.pb p.1 :=
  mem_inf_of_right (mem_principal_self _)

theorem pairs_iff {q : (NRef → NodeVal) × (Cols w → ℝ) → Prop} : (∀ᶠ p in w.pairs Λ, q p) ↔
    ∃ ε > 0, ∀ X, w.size X < ε → Good w X → ∀ z l, 0 < l → l ≤ Λ → w.pH X *ᵥ z + l • z = w.pb X → q (X, z) := by
  rw [pairs, eventually_inf_principal, eventually_comap, nearby_iff]
  constructor
  · rintro ⟨ε, hε, h⟩
    exact ⟨ε, hε, fun X hX hg z l hl hΛ hz => h X hX hg (X, z) rfl ⟨l, hl, hΛ, hz⟩⟩
  · rintro ⟨ε, hε, h⟩
    refine ⟨ε, hε, fun X hX hg p hp => ?_⟩
    rintro ⟨l, hl, hΛ, hz⟩
    subst hp
    exact h p.1 hX hg p.2 l hl hΛ hz

section steps

variable (h : SpatialSolved w) {μ : ℝ} (hμ : 0 < μ) (hsym : (infoMatrix (graphTerms w))ᵀ = infoMatrix (graphTerms w))
  (hlow : ∀ x, μ * (x ⬝ᵥ x) ≤ x ⬝ᵥ (infoMatrix (graphTerms w) *ᵥ x)) (hΛ : 0 < Λ)
include h hμ hsym hlow hΛ

theorem damped_near : ∃ B σ, 0 ≤ B ∧ 0 < σ ∧ (∀ x, len (w.pH w.here *ᵥ x) ≤ B * len x) ∧ ∀ η, 0 < η → η ≤ μ / 4 →
    ∀ᶠ X in w.nearby, ∀ l, 0 < l → l ≤ Λ → ∀ z, w.pH X *ᵥ z + l • z = w.pb X →
      len (w.errs X - z) ≤ (l / (l + μ) + 4 * η / μ) * len (w.errs X) ∧ len (w.errs X - z) ≤ len (w.errs X) ∧
      (σ - 8 * η) * len (w.errs X) ^ 2 ≤
        w.errs X ⬝ᵥ (w.pH w.here *ᵥ w.errs X) - (w.errs X - z) ⬝ᵥ (w.pH w.here *ᵥ (w.errs X - z)) :=
  damped_filter h.pH_lim (by rw [pH_here, hsym]) hμ (by rw [pH_here]; exact hlow) h.pb_small hΛ

theorem step_bigO : (fun p => p.2) =O[w.pairs Λ] fun p => w.errNorm p.1 := by
  obtain ⟨B, σ, -, -, -, hd⟩ := damped_near h hμ hsym hlow hΛ
  obtain ⟨N, hN⟩ : ∃ N, N = Real.sqrt (Fintype.card (Cols w)) := ⟨_, rfl⟩
  refine IsBigO.of_bound (2 * N) ?_
  filter_upwards [pairs_fst.eventually (hd (μ / 4) (by positivity) le_rfl), pairs_damped] with p h1 h2
  obtain ⟨l, hl, hlΛ, hz⟩ := h2
  obtain ⟨-, h3, -⟩ := h1 l hl hlΛ p.2 hz
  rw [Real.norm_eq_abs, abs_of_nonneg (show 0 ≤ w.errNorm p.1 from norm_nonneg _)]
  have h4 : p.2 = w.errs p.1 - (w.errs p.1 - p.2) := by abel
  have h5 : len p.2 ≤ 2 * len (w.errs p.1) := by
    rw [h4]
    refine (len_sub _ _).trans ?_
    linarith
  have h6 := len_le_norm (w.errs p.1)
  rw [← hN] at h6
  change ‖p.2‖ ≤ 2 * N * ‖w.errs p.1‖
  linarith [norm_le_len p.2]

theorem spread_bigO (n : NRef) (k : ℕ) : (fun p => w.spread p.2 n k) =O[w.pairs Λ] fun p => w.errNorm p.1 := by
  refine IsBigO.trans (IsBigO.of_bound 1 (Eventually.of_forall fun p => ?_)) (step_bigO h hμ hsym hlow hΛ)
  rw [one_mul, Real.norm_eq_abs]
  exact spread_le _ _ _

omit hμ hsym hlow hΛ in
theorem pairs_lim : Tendsto (fun p => w.errNorm p.1) (w.pairs Λ) (𝓝 0) := (errNorm_lim h.spatial).comp pairs_fst

/-- The pose after a step. -/
theorem nextBy_stored {n : NRef} (hn : n ∈ w.g.active) {A : SE3} (hv : (w.nh n).val = ⟨.pose3d, A⟩) (hA : IsRigid A.T) (hT : SafeTurn A.R)
    (hpi : angle A.R ≠ Real.pi) : ∃ M : (NRef → NodeVal) × (Cols w → ℝ) → SE3,
    (∀ᶠ p in w.pairs Λ, w.nextBy p n = ⟨.pose3d, (M p).regenerate⟩) ∧
    ((fun p => (M p).regenerate.R - A.R) =O[w.pairs Λ] fun p => w.errNorm p.1) ∧
    ((fun p => (M p).regenerate.t - A.t) =O[w.pairs Λ] fun p => w.errNorm p.1) ∧
    (∀ᶠ p in w.pairs Λ, LastRow (M p).regenerate.T ∧ Fine A.R (M p).regenerate.R) ∧
    ∀ (k : ℕ) (hk : k < 6), (fun p => vec6 (skewVec (turnOf A (M p).regenerate)) (shiftOf A (M p).regenerate) (at6 ⟨k, hk⟩) -
      (vec6 (skewVec (turnOf A (poseOf (p.1 n)))) (shiftOf A (poseOf (p.1 n))) (at6 ⟨k, hk⟩) - w.spread p.2 n k)) =o[w.pairs Λ] fun p => w.errNorm p.1 := by
  have hg := pairs_lim (Λ := Λ) h
  have hP := (poseNear h.spatial hv hA).comp (pairs_fst (Λ := Λ))
  have hgood : ∀ᶠ p in w.pairs Λ, Good w p.1 := pairs_fst.eventually good_near
  obtain ⟨z, hzdef⟩ : ∃ z : (NRef → NodeVal) × (Cols w → ℝ) → Vec6, z = fun p => NodeKind.ofFlat .pose3d (w.spread p.2 n) := ⟨_, rfl⟩
  have hz : ∀ i, (fun p => z p i) =O[w.pairs Λ] fun p => w.errNorm p.1 := by
    intro i
    rw [hzdef]
    rcases i with i | i <;> exact spread_bigO h hμ hsym hlow hΛ n _
  have hfine : ∀ᶠ p in w.pairs Λ, Fine A.R (poseOf (p.1 n)).R := by
    filter_upwards [hgood] with p hp
    exact (hp.pose_fits hv hA).2
  have n1 := hP.next_turn hg hz hT hpi hfine
  have n2 := hP.next_shift hg hz hT hpi hfine
  have cR := hP.update_R_bigO hg hz
  have ct := hP.update_t_bigO hg hz
  have hrow : ∀ᶠ p in w.pairs Λ, LastRow ((poseOf (p.1 n)).updateLhs (-z p)).T := by
    filter_upwards [hP.lastRow] with p hp
    exact lastRow_updateLhs hp _
  have hval : ∀ᶠ p in w.pairs Λ, w.nextBy p n = ⟨.pose3d, ((poseOf (p.1 n)).updateLhs (-z p)).regenerate⟩ := by
    filter_upwards [hgood] with p hp
    rw [nextBy, if_pos hn, spread_neg, eq_poseOf (hp.pose_kind hv)]
    refine congrArg (Sigma.mk NodeKind.pose3d) ?_
    have e : NodeKind.ofFlat .pose3d (-w.spread p.2 n) = -z p := by
      rw [hzdef]
      funext i
      rcases i with i | i <;> rfl
    exact congrArg (fun u => ((poseOf (p.1 n)).updateLhs u).regenerate) e
  obtain ⟨M, hM⟩ : ∃ M : (NRef → NodeVal) × (Cols w → ℝ) → SE3, ∀ p, (poseOf (p.1 n)).updateLhs (-z p) = M p := ⟨_, fun _ => rfl⟩
  simp only [hM] at n1 n2 cR ct hrow hval
  have e3 : ∀ (k : ℕ) (hk : k < 6) p, z p (at6 ⟨k, hk⟩) = w.spread p.2 n k := by
    intro k hk p
    rw [hzdef]
    by_cases h3 : k < 3
    · rw [show at6 ⟨k, hk⟩ = .inl ⟨k, h3⟩ by simp [at6, h3]]; rfl
    · rw [show at6 ⟨k, hk⟩ = .inr ⟨k - 3, by omega⟩ by simp [at6, h3]]
      change w.spread p.2 n (3 + (k - 3)) = _
      rw [Nat.add_sub_cancel' (not_lt.mp h3)]
  clear hM hzdef
  obtain ⟨k1, k2, k3⟩ := regenerate_calm cR ct hrow hT hg
  refine ⟨M, hval, k1, k2, k3, fun k hk => ?_⟩
  simp only [← e3 k hk]
  generalize at6 ⟨k, hk⟩ = i
  rcases i with i | i
  · refine (isLittleO_pi.mp n1 i).congr_left fun p => ?_
    change skewVec (turnOf A (M p).regenerate) i - (skewVec (turnOf A (poseOf (p.1 n))) i + -(z p (.inl i))) = _
    rw [← sub_eq_add_neg]; rfl
  · refine (isLittleO_pi.mp n2 i).congr_left fun p => ?_
    change shiftOf A (M p).regenerate i - (shiftOf A (poseOf (p.1 n)) i + -(z p (.inr i))) = _
    rw [← sub_eq_add_neg]; rfl

theorem nextBy_pose {n : NRef} (hn : n ∈ w.g.active) {A : SE3} (hv : (w.nh n).val = ⟨.pose3d, A⟩) (hA : IsRigid A.T) (hT : SafeTurn A.R)
    (hpi : angle A.R ≠ Real.pi) :
    (fun p => gap (w.nh n).val (w.nextBy p n)) =O[w.pairs Λ] (fun p => w.errNorm p.1) ∧
    (∀ᶠ p in w.pairs Λ, Fits (w.nh n).val (w.nextBy p n)) ∧
    ∀ k, (fun p => w.spread (w.errs (w.nextBy p)) n k - (w.spread (w.errs p.1) n k - w.spread p.2 n k)) =o[w.pairs Λ] fun p => w.errNorm p.1 := by
  have hgood : ∀ᶠ p in w.pairs Λ, Good w p.1 := pairs_fst.eventually good_near
  obtain ⟨M, hval, k1, k2, k3, n3⟩ := nextBy_stored h hμ hsym hlow hΛ hn hv hA hT hpi
  refine ⟨?_, ?_, fun k => ?_⟩
  · have h1 : (fun p => ‖fun q : I4 × I4 => (M p).regenerate.T q.1 q.2 - A.T q.1 q.2‖) =O[w.pairs Λ] fun p => w.errNorm p.1 := by
      exact entries_bigO hA k1 k2 (by filter_upwards [k3] with X hX using hX.1)
    refine h1.congr' ?_ EventuallyEq.rfl
    filter_upwards [hval] with X hX
    rw [hX, hv]; rfl
  · filter_upwards [hval, k3] with X hX h3
    rw [hX, hv]; exact h3
  · by_cases hk : k < 6
    · refine (n3 k hk).congr' ?_ EventuallyEq.rfl
      filter_upwards [hval, hgood] with p hp hgp
      have hd : (w.nh n).dim = 6 := congrArg (fun v : NodeVal => v.1.dim) hv
      have e1 := hgp.pose_spread hv hA ⟨k, hk⟩
      have e2 : w.spread (w.errs (w.nextBy p)) n k = vec6 (skewVec (turnOf A (M p).regenerate)) (shiftOf A (M p).regenerate) (at6 ⟨k, hk⟩) := by
        rw [spread, dif_pos ⟨hn, by rw [hd]; exact hk⟩, errs]
        change chart (w.nh n).val (w.nextBy p n) k = _
        rw [hv, hp]
        exact chart_pose rfl ⟨k, hk⟩
      rw [e2, ← e1]
    · have hd : (w.nh n).dim = 6 := congrArg (fun v : NodeVal => v.1.dim) hv
      have : ∀ e : Cols w → ℝ, w.spread e n k = 0 := fun e => by
        rw [spread, dif_neg (fun hh => hk (by rw [← hd]; exact hh.2))]
      simp only [this, sub_self]
      exact isLittleO_zero _ _

theorem nextBy_mark {n : NRef} (hn : n ∈ w.g.active) {l : Vec3} (hv : (w.nh n).val = ⟨.landmark3d, l⟩) :
    (fun p => gap (w.nh n).val (w.nextBy p n)) =O[w.pairs Λ] (fun p => w.errNorm p.1) ∧
    (∀ᶠ p in w.pairs Λ, Fits (w.nh n).val (w.nextBy p n)) ∧
    ∀ k, (fun p => w.spread (w.errs (w.nextBy p)) n k - (w.spread (w.errs p.1) n k - w.spread p.2 n k)) =o[w.pairs Λ] fun p => w.errNorm p.1 := by
  have hgood : ∀ᶠ p in w.pairs Λ, Good w p.1 := pairs_fst.eventually good_near
  have hval : ∀ᶠ p in w.pairs Λ, w.nextBy p n = ⟨.landmark3d, fun i : Fin 3 => markOf (p.1 n) i - w.spread p.2 n i⟩ := by
    filter_upwards [hgood] with p hp
    rw [nextBy, if_pos hn, spread_neg, eq_markOf (hp.mark_kind hv)]
    refine congrArg (Sigma.mk NodeKind.landmark3d) ?_
    funext i
    exact (sub_eq_add_neg _ _).symm
  refine ⟨?_, ?_, fun k => ?_⟩
  · have h1 : (fun p => ‖fun i : Fin 3 => markOf (p.1 n) i - w.spread p.2 n i - l i‖) =O[w.pairs Λ] fun p => w.errNorm p.1 := by
      refine IsBigO.norm_left (isBigO_pi.mpr fun i => ?_)
      have k1 := (isBigO_pi.mp (markNear hv) i).comp_tendsto (pairs_fst (Λ := Λ))
      refine (k1.sub (spread_bigO h hμ hsym hlow hΛ n i)).congr_left fun p => ?_
      change markOf (p.1 n) i - l i - w.spread p.2 n i = _
      ring
    refine h1.congr' ?_ EventuallyEq.rfl
    filter_upwards [hval] with X hX
    rw [hX, hv]; rfl
  · filter_upwards [hval] with X hX
    rw [hX, hv]; exact trivial
  · have hd : (w.nh n).dim = 3 := congrArg (fun v : NodeVal => v.1.dim) hv
    refine (isLittleO_zero (fun p => w.errNorm p.1) (w.pairs Λ) (E' := ℝ)).congr' ?_ EventuallyEq.rfl
    by_cases hk : k < 3
    · filter_upwards [hval, hgood] with p hp hgp
      have e1 := congrFun (hgp.mark_spread hv) ⟨k, hk⟩
      have e2 : w.spread (w.errs (w.nextBy p)) n k = markOf (p.1 n) ⟨k, hk⟩ - w.spread p.2 n k - l ⟨k, hk⟩ := by
        rw [spread, dif_pos ⟨hn, by rw [hd]; exact hk⟩, errs]
        change chart (w.nh n).val (w.nextBy p n) k = _
        rw [hv, hp]
        exact chart_mark rfl ⟨k, hk⟩
      change w.spread (w.errs p.1) n k = markOf (p.1 n) ⟨k, hk⟩ - l ⟨k, hk⟩ at e1
      rw [e2, e1]; ring
    · have : ∀ e : Cols w → ℝ, w.spread e n k = 0 := fun e => by
        rw [spread, dif_neg (fun hh => hk (by rw [← hd]; exact hh.2))]
      simp only [this, sub_self]
      exact EventuallyEq.rfl

variable (hpi : ∀ n ∈ w.g.active, ∀ A : SE3, (w.nh n).val = ⟨.pose3d, A⟩ → angle A.R ≠ Real.pi)
include hpi

theorem nextBy_node {n : NRef} (hn : n ∈ w.g.active) :
    (fun p => gap (w.nh n).val (w.nextBy p n)) =O[w.pairs Λ] (fun p => w.errNorm p.1) ∧
    (∀ᶠ p in w.pairs Λ, Fits (w.nh n).val (w.nextBy p n)) ∧
    ∀ k, (fun p => w.spread (w.errs (w.nextBy p)) n k - (w.spread (w.errs p.1) n k - w.spread p.2 n k)) =o[w.pairs Λ] fun p => w.errNorm p.1 := by
  rcases h.spatial.cases hn with ⟨A, hv, hA, hT⟩ | ⟨l, hv⟩
  · exact nextBy_pose h hμ hsym hlow hΛ hn hv hA hT (hpi n hn A hv)
  · exact nextBy_mark h hμ hsym hlow hΛ hn hv

theorem nextBy_size : (fun p => w.size (w.nextBy p)) =O[w.pairs Λ] fun p => w.errNorm p.1 :=
  IsBigO.norm_left (isBigO_pi.mpr fun a => (nextBy_node h hμ hsym hlow hΛ hpi a.2).1)

theorem nextBy_good : ∀ᶠ p in w.pairs Λ, Good w (w.nextBy p) := by
  have h1 : ∀ᶠ p in w.pairs Λ, ∀ a : {a : NRef // a ∈ w.g.active}, Fits (w.nh a).val (w.nextBy p a) :=
    eventually_all.mpr fun a => (nextBy_node h hμ hsym hlow hΛ hpi a.2).2.1
  filter_upwards [h1, pairs_fst.eventually good_near] with p h1 hp
  refine ⟨fun n hn => h1 ⟨n, hn⟩, fun n hn => ?_⟩
  rw [nextBy, if_neg hn, hp.fixed n hn]

theorem nextBy_lim : Tendsto w.nextBy (w.pairs Λ) w.nearby := by
  refine tendsto_inf.mpr ⟨tendsto_comap_iff.mpr ((nextBy_size h hμ hsym hlow hΛ hpi).trans_tendsto (pairs_lim h)), ?_⟩
  exact tendsto_principal.mpr (nextBy_good h hμ hsym hlow hΛ hpi)

/-- The new error. -/
theorem nextBy_errs : (fun p => w.errs (w.nextBy p) - (w.errs p.1 - p.2)) =o[w.pairs Λ] fun p => ‖w.errs p.1‖ := by
  refine isLittleO_pi.mpr fun c => ?_
  refine ((nextBy_node h hμ hsym hlow hΛ hpi c.1.2).2.2 c.2).congr_left fun p => ?_
  rw [spread_apply, spread_apply, spread_apply]; rfl

end steps

/-- The differences of the entries are bounded by the coordinates. -/
theorem size_bigO (hs : Spatial w) : w.size =O[w.nearby] w.errNorm := by
  refine IsBigO.norm_left (isBigO_pi.mpr fun a => ?_)
  rcases hs.cases a.2 with ⟨A, hv, hA, hT⟩ | ⟨l, hv⟩
  · have hg := errNorm_lim hs
    have hP := poseNear hs hv hA
    have hQ := hP.turned.sub_one hg
    have h1 : (fun X : NRef → NodeVal => ‖fun q : I4 × I4 => (poseOf (X a)).T q.1 q.2 - A.T q.1 q.2‖) =O[w.nearby] w.errNorm := by
      refine IsBigO.norm_left (isBigO_pi.mpr fun q => ?_)
      obtain ⟨i, j⟩ := q
      rcases i with i | i <;> rcases j with j | j
      · have := hQ.mul (const_bigO_one (F := w.nearby) A.R)
        simp only [mul_one] at this
        refine (mat_bigO.mp this i j).congr_left fun X => ?_
        have hA' : A.Rᵀ * A.R = 1 := mul_eq_one_comm.mp (rigid_R hA).1
        rw [Matrix.sub_mul, turnOf, Matrix.mul_assoc, hA', Matrix.mul_one, Matrix.one_mul]; rfl
      · have := _root_.Mrob.mulVec_bigO hQ (isBigO_const_const A.t (one_ne_zero (α := ℝ)) w.nearby)
        simp only [mul_one] at this
        refine (isBigO_pi.mp (hP.trans.add this) i).congr_left fun X => ?_
        rw [sub_mulVec, one_mulVec, shiftOf]
        change (poseOf (X a)).t i - _ + (_ - A.t i) = (poseOf (X a)).t i - A.t i
        ring
      · refine (isBigO_zero w.errNorm w.nearby (E' := ℝ)).congr' ?_ EventuallyEq.rfl
        filter_upwards [good_near] with X hX
        rw [(hX.pose_fits hv hA).1.1 j, hA.lastRow.1 j, sub_zero]
      · refine (isBigO_zero w.errNorm w.nearby (E' := ℝ)).congr' ?_ EventuallyEq.rfl
        filter_upwards [good_near] with X hX
        exact (sub_eq_zero.mpr ((hX.pose_fits hv hA).1.2.trans hA.lastRow.2.symm)).symm
    refine h1.congr' ?_ EventuallyEq.rfl
    filter_upwards [good_near] with X hX
    rw [hv, eq_poseOf (hX.pose_kind hv)]; rfl
  · have h1 : (fun X : NRef → NodeVal => ‖fun i : Fin 3 => markOf (X a) i - l i‖) =O[w.nearby] w.errNorm :=
      IsBigO.norm_left (isBigO_pi.mpr fun i => isBigO_pi.mp (markNear hv) i)
    refine h1.congr' ?_ EventuallyEq.rfl
    filter_upwards [good_near] with X hX
    rw [hv, eq_markOf (hX.mark_kind hv)]; rfl

end World

end Mrob
