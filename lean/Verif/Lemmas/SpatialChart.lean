import Verif.Lemmas.Regen
import Verif.Lemmas.Gauge
import Verif.Lemmas.Smooth

/-!
# Spatial states near given ones
-/

open Matrix Filter Topology Asymptotics

namespace Mrob

open Spec World

attribute [local instance] Matrix.linftyOpNormedAddCommGroup Matrix.linftyOpNormedSpace Matrix.linftyOpNormedRing

/-- A node with another state. -/
noncomputable def NodeCell.put (c : NodeCell) (v : NodeVal) : NodeCell :=
  { c with obj := { c.obj with state := if h : v.1 = c.kind then h ▸ v.2 else c.obj.state } }

theorem NodeCell.put_val {c : NodeCell} {v : NodeVal} (h : v.1 = c.kind) : (c.put v).val = v := by
  obtain ⟨k, x⟩ := v
  change k = c.kind at h
  subst h
  change (⟨c.kind, if h : c.kind = c.kind then h ▸ x else c.obj.state⟩ : NodeVal) = _
  rw [dif_pos rfl]

/-- The rotation of `P` seen from `A`. -/
noncomputable def turnOf (A P : SE3) : Mat3 := P.R * A.Rᵀ
/-- The translation of `P` seen from `A`. -/
noncomputable def shiftOf (A P : SE3) : Vec3 := P.t - turnOf A P *ᵥ A.t

/-- Coordinates of the second value near the first. -/
noncomputable def chart : NodeVal → NodeVal → ℕ → ℝ
  | ⟨.pose3d, A⟩, ⟨.pose3d, P⟩, k => if h : k < 6 then vec6 (skewVec (turnOf A P)) (shiftOf A P) (at6 ⟨k, h⟩) else 0
  | ⟨.landmark3d, l⟩, ⟨.landmark3d, l'⟩, k => if h : k < 3 then l' ⟨k, h⟩ - l ⟨k, h⟩ else 0
  | _, _, _ => 0

/-- The largest difference of entries. -/
noncomputable def gap : NodeVal → NodeVal → ℝ
  | ⟨.pose3d, A⟩, ⟨.pose3d, P⟩ => ‖fun p : I4 × I4 => P.T p.1 p.2 - A.T p.1 p.2‖
  | ⟨.landmark3d, l⟩, ⟨.landmark3d, l'⟩ => ‖fun i : Fin 3 => l' i - l i‖
  | _, _ => 0

/-- The states met on the way. -/
def Fits : NodeVal → NodeVal → Prop
  | ⟨.pose3d, A⟩, ⟨.pose3d, P⟩ => LastRow P.T ∧ Fine A.R P.R
  | ⟨.landmark3d, _⟩, ⟨.landmark3d, _⟩ => True
  | _, _ => False

theorem Fits.kind {v v' : NodeVal} (h : Fits v v') : v'.1 = v.1 := by
  obtain ⟨k, x⟩ := v
  obtain ⟨k', x'⟩ := v'
  cases k <;> cases k' <;> first | rfl | exact absurd h id

/-- The pose of a value. -/
noncomputable def poseOf : NodeVal → SE3
  | ⟨.pose3d, P⟩ => P
  | _ => ⟨1⟩
/-- The landmark of a value. -/
noncomputable def markOf : NodeVal → Vec3
  | ⟨.landmark3d, l⟩ => l
  | _ => 0

theorem eq_poseOf {v : NodeVal} (h : v.1 = .pose3d) : v = ⟨.pose3d, poseOf v⟩ := by
  obtain ⟨k, x⟩ := v
  change k = _ at h
  subst h; rfl

theorem eq_markOf {v : NodeVal} (h : v.1 = .landmark3d) : v = ⟨.landmark3d, markOf v⟩ := by
  obtain ⟨k, x⟩ := v
  change k = _ at h
  subst h; rfl

theorem gap_le_iff {v v' : NodeVal} (hk : v'.1 = v.1) (hv : v.1 = .pose3d ∨ v.1 = .landmark3d) {ρ : ℝ} (hρ : 0 ≤ ρ) :
    gap v v' ≤ ρ ↔ NearSpatial ρ v v' := by
  obtain ⟨k, x⟩ := v
  obtain ⟨k', x'⟩ := v'
  change k' = k at hk
  subst hk
  rcases hv with hv | hv <;> change k' = _ at hv <;> subst hv
  · change ‖fun p : I4 × I4 => x'.T p.1 p.2 - x.T p.1 p.2‖ ≤ ρ ↔ _
    rw [pi_norm_le_iff_of_nonneg hρ]
    exact ⟨fun h i j => h (i, j), fun h p => h p.1 p.2⟩
  · change ‖fun i : Fin 3 => x' i - x i‖ ≤ ρ ↔ _
    rw [pi_norm_le_iff_of_nonneg hρ]
    exact Iff.rfl

theorem turnOf_self {A : SE3} (hA : IsRigid A.T) : turnOf A A = 1 := (rigid_R hA).1

theorem shiftOf_self {A : SE3} (hA : IsRigid A.T) : shiftOf A A = 0 := by rw [shiftOf, turnOf_self hA, one_mulVec, sub_self]

theorem chart_pose {A : SE3} {v : NodeVal} (h : v.1 = .pose3d) (k : Fin 6) :
    chart ⟨.pose3d, A⟩ v k = vec6 (skewVec (turnOf A (poseOf v))) (shiftOf A (poseOf v)) (at6 k) := by
  rw [eq_poseOf h]
  change (if h : (k : ℕ) < 6 then _ else _) = _
  rw [dif_pos k.2]
  rfl

theorem chart_mark {l : Vec3} {v : NodeVal} (h : v.1 = .landmark3d) (k : Fin 3) :
    chart ⟨.landmark3d, l⟩ v k = markOf v k - l k := by
  rw [eq_markOf h]
  change (if h : (k : ℕ) < 3 then _ else _) = _
  rw [dif_pos k.2]
  rfl

theorem pose_eq {A P : SE3} (hA : IsRigid A.T) (hP : LastRow P.T) : P.T = homog (turnOf A P) (shiftOf A P) 1 * A.T := by
  have e : P.T = homog P.R P.t 1 := by
    ext i j
    rcases i with i | i <;> rcases j with j | j
    · rfl
    · rfl
    · exact hP.1 j
    · exact hP.2
  have hA' : A.Rᵀ * A.R = 1 := mul_eq_one_comm.mp (rigid_R hA).1
  rw [rigid_T hA, homog_mul, e, turnOf, Matrix.mul_assoc, hA', Matrix.mul_one, shiftOf, turnOf, one_smul, mul_one]
  congr 1
  abel

/-- How close the rotation is to orthogonal. -/
theorem Fine.turned {A P : SE3} (hA : IsRigid A.T) (h : Fine A.R P.R) :
    ‖turnOf A P * (turnOf A P)ᵀ - 1‖ ≤ ‖skewVec (turnOf A P)‖ ^ 3 ∧ ‖(turnOf A P)ᵀ * turnOf A P - 1‖ ≤ ‖skewVec (turnOf A P)‖ ^ 3 := by
  rcases h with h | ⟨h1, h2, h3⟩
  · have hQ : IsRotation (turnOf A P) := h.mul (rigid_R hA).transpose
    rw [hQ.1, mul_eq_one_comm.mp hQ.1, sub_self, norm_zero]
    exact ⟨by positivity, by positivity⟩
  · rw [turnOf, h1, transpose_one, Matrix.mul_one]
    exact ⟨h2, h3⟩

namespace World

variable {w : World}

/-- Other states. -/
noncomputable def put (w : World) (X : NRef → NodeVal) : World := { w with nh := fun n => (w.nh n).put (X n) }

/-- Coordinates of all states. -/
noncomputable def errs (w : World) (X : NRef → NodeVal) : Cols w → ℝ := fun c => chart (w.nh c.1).val (X c.1) c.2

/-- The largest difference. -/
noncomputable def size (w : World) (X : NRef → NodeVal) : ℝ := ‖fun a : {a : NRef // a ∈ w.g.active} => gap (w.nh a).val (X a)‖

/-- States met on the way. -/
structure Good (w : World) (X : NRef → NodeVal) : Prop where
  fits : ∀ n ∈ w.g.active, Fits (w.nh n).val (X n)
  fixed : ∀ n, n ∉ w.g.active → X n = (w.nh n).val

/-- States close to those of the graph. -/
noncomputable def nearby (w : World) : Filter (NRef → NodeVal) := comap w.size (𝓝 0) ⊓ 𝓟 {X | Good w X}

theorem size_lim : Tendsto w.size w.nearby (𝓝 0) := tendsto_comap.mono_left inf_le_left
theorem good_near : ∀ᶠ X in w.nearby, Good w X := mem_inf_of_right (mem_principal_self _)

theorem nearby_iff {p : (NRef → NodeVal) → Prop} : (∀ᶠ X in w.nearby, p X) ↔ ∃ ε > 0, ∀ X, w.size X < ε → Good w X → p X := by
  rw [nearby, eventually_inf_principal, eventually_comap, Metric.eventually_nhds_iff]
  constructor
  · rintro ⟨ε, hε, h⟩
    refine ⟨ε, hε, fun X hX hg => h (y := w.size X) ?_ X rfl hg⟩
    rw [dist_zero_right, Real.norm_eq_abs, abs_of_nonneg (show 0 ≤ w.size X from norm_nonneg _)]; exact hX
  · rintro ⟨ε, hε, h⟩
    refine ⟨ε, hε, fun y hy X hX hg => h X ?_ hg⟩
    rw [dist_zero_right, Real.norm_eq_abs] at hy
    rw [hX]; exact lt_of_abs_lt hy

theorem gap_le (X : NRef → NodeVal) {n : NRef} (hn : n ∈ w.g.active) : gap (w.nh n).val (X n) ≤ w.size X := by
  have := norm_le_pi_norm (fun a : {a : NRef // a ∈ w.g.active} => gap (w.nh a).val (X a)) ⟨n, hn⟩
  exact (le_abs_self _).trans this

theorem size_nonneg (X : NRef → NodeVal) : 0 ≤ w.size X := norm_nonneg _

namespace Good

variable {X : NRef → NodeVal} (h : Good w X)
include h

theorem kind (n : NRef) : (X n).1 = (w.nh n).kind := by
  by_cases hn : n ∈ w.g.active
  · exact (h.fits n hn).kind
  · rw [h.fixed n hn]; rfl

theorem put_val (n : NRef) : ((w.put X).nh n).val = X n := NodeCell.put_val (h.kind n)

theorem frame : Frame w (w.put X) := by
  refine ⟨⟨rfl, fun _ => rfl, fun _ => rfl, fun _ => rfl⟩, fun n hn => ?_, fun n => ?_⟩
  · change (w.nh n).put (X n) = _
    rw [h.fixed n hn]
    generalize w.nh n = c
    change NodeCell.mk c.kind { c.obj with state := if h : c.kind = c.kind then h ▸ c.obj.state else c.obj.state } c.id c.mode c.nbrs = _
    rw [dif_pos rfl]
  · constructor <;> rfl

section pose

variable {n : NRef} {A : SE3} (hn : (w.nh n).val = ⟨.pose3d, A⟩)
include hn

theorem pose_kind : (X n).1 = .pose3d := (h.kind n).trans (congrArg Sigma.fst hn)

variable (hA : IsRigid A.T)
include hA

theorem pose_fits : LastRow (poseOf (X n)).T ∧ Fine A.R (poseOf (X n)).R := by
  by_cases ha : n ∈ w.g.active
  · have := h.fits n ha
    rw [hn, eq_poseOf (h.pose_kind hn)] at this
    exact this
  · rw [h.fixed n ha, hn]
    exact ⟨hA.lastRow, Or.inl (rigid_R hA)⟩

theorem pose_entry (i j : I4) : |(poseOf (X n)).T i j - A.T i j| ≤ w.size X := by
  by_cases ha : n ∈ w.g.active
  · have h1 := gap_le X ha
    rw [hn, eq_poseOf (h.pose_kind hn)] at h1
    exact (norm_le_pi_norm (fun p : I4 × I4 => (poseOf (X n)).T p.1 p.2 - A.T p.1 p.2) (i, j)).trans h1
  · rw [h.fixed n ha, hn]
    change |A.T i j - A.T i j| ≤ _
    rw [sub_self, abs_zero]; exact size_nonneg X

theorem pose_spread (k : Fin 6) : w.spread (w.errs X) n k =
    vec6 (skewVec (turnOf A (poseOf (X n)))) (shiftOf A (poseOf (X n))) (at6 k) := by
  by_cases ha : n ∈ w.g.active
  · have hd : (w.nh n).dim = 6 := congrArg (fun v : NodeVal => v.1.dim) hn
    rw [spread, dif_pos ⟨ha, by rw [hd]; exact k.2⟩, errs]
    change chart (w.nh n).val (X n) k = _
    rw [hn, chart_pose (h.pose_kind hn)]
  · rw [spread_of_notMem _ ha, h.fixed n ha, hn]
    change 0 = vec6 (skewVec (turnOf A A)) (shiftOf A A) (at6 k)
    rw [turnOf_self hA, shiftOf_self hA]
    have : skewVec (1 : Mat3) = 0 := by funext i; fin_cases i <;> simp [skewVec]
    rw [this]
    generalize at6 k = i
    rcases i with i | i <;> rfl

theorem pose_flat : NodeKind.ofFlat .pose3d (w.spread (w.errs X) n) =
    vec6 (skewVec (turnOf A (poseOf (X n)))) (shiftOf A (poseOf (X n))) := by
  funext i
  rcases i with i | i
  · have := h.pose_spread hn hA ⟨i, by omega⟩
    rw [show at6 ⟨(i : ℕ), by omega⟩ = .inl i by simp [at6]] at this
    exact this
  · have := h.pose_spread hn hA ⟨3 + i, by omega⟩
    rw [show at6 ⟨3 + (i : ℕ), by omega⟩ = .inr i by simp [at6]] at this
    exact this

end pose

section mark

variable {n : NRef} {l : Vec3} (hn : (w.nh n).val = ⟨.landmark3d, l⟩)
include hn

theorem mark_kind : (X n).1 = .landmark3d := (h.kind n).trans (congrArg Sigma.fst hn)

theorem mark_entry (i : Fin 3) : |markOf (X n) i - l i| ≤ w.size X := by
  by_cases ha : n ∈ w.g.active
  · have h1 := gap_le X ha
    rw [hn, eq_markOf (h.mark_kind hn)] at h1
    exact (norm_le_pi_norm (fun i : Fin 3 => markOf (X n) i - l i) i).trans h1
  · rw [h.fixed n ha, hn]
    change |l i - l i| ≤ _
    rw [sub_self, abs_zero]; exact size_nonneg X

theorem mark_spread : (fun k : Fin 3 => w.spread (w.errs X) n k) = markOf (X n) - l := by
  funext k
  by_cases ha : n ∈ w.g.active
  · have hd : (w.nh n).dim = 3 := congrArg (fun v : NodeVal => v.1.dim) hn
    rw [spread, dif_pos ⟨ha, by rw [hd]; exact k.2⟩, errs]
    change chart (w.nh n).val (X n) k = _
    rw [hn, chart_mark (h.mark_kind hn)]; rfl
  · rw [spread_of_notMem _ ha, h.fixed n ha, hn]
    change 0 = l k - l k
    rw [sub_self]

end mark

end Good

/-- The size of the coordinates. -/
noncomputable def errNorm (w : World) (X : NRef → NodeVal) : ℝ := ‖w.errs X‖

theorem spread_le (e : Cols w → ℝ) (n : NRef) (k : ℕ) : |w.spread e n k| ≤ ‖e‖ := by
  unfold spread
  split
  · exact norm_le_pi_norm e _
  · rw [abs_zero]; exact norm_nonneg _

section pose

variable {n : NRef} {A : SE3} (hn : (w.nh n).val = ⟨.pose3d, A⟩) (hA : IsRigid A.T)
include hn hA

theorem pose_R_bigO : (fun X : NRef → NodeVal => (poseOf (X n)).R - A.R) =O[w.nearby] w.size := by
  refine mat_bigO.mpr fun i j => IsBigO.of_bound 1 ?_
  filter_upwards [good_near] with X hX
  rw [one_mul, Real.norm_eq_abs, Real.norm_eq_abs, abs_of_nonneg (size_nonneg X)]
  exact hX.pose_entry hn hA (.inl i) (.inl j)

theorem pose_t_bigO : (fun X : NRef → NodeVal => (poseOf (X n)).t - A.t) =O[w.nearby] w.size := by
  refine isBigO_pi.mpr fun i => IsBigO.of_bound 1 ?_
  filter_upwards [good_near] with X hX
  rw [one_mul, Real.norm_eq_abs, Real.norm_eq_abs, abs_of_nonneg (size_nonneg X)]
  exact hX.pose_entry hn hA (.inl i) (.inr ())

theorem turn_bigO : (fun X : NRef → NodeVal => turnOf A (poseOf (X n)) - 1) =O[w.nearby] w.size := by
  have h1 := (pose_R_bigO hn hA).mul (const_bigO_one (F := w.nearby) A.Rᵀ)
  simp only [mul_one] at h1
  refine h1.congr_left fun X => ?_
  rw [Matrix.sub_mul, (rigid_R hA).1]; rfl

theorem turn_skew : (fun X : NRef → NodeVal => skewVec (turnOf A (poseOf (X n)))) =O[w.nearby] w.size := by
  refine (skewVec_bigO (turn_bigO hn hA)).congr_left fun X => ?_
  funext i
  fin_cases i <;> simp [skewVec]

theorem shift_bigO : (fun X : NRef → NodeVal => shiftOf A (poseOf (X n))) =O[w.nearby] w.size := by
  have h1 := mulVec_bigO (turn_bigO hn hA) (isBigO_const_const A.t (one_ne_zero (α := ℝ)) w.nearby)
  simp only [mul_one] at h1
  refine ((pose_t_bigO hn hA).sub h1).congr_left fun X => ?_
  rw [sub_mulVec, one_mulVec, shiftOf]; abel

end pose

theorem mark_bigO {n : NRef} {l : Vec3} (hn : (w.nh n).val = ⟨.landmark3d, l⟩) :
    (fun X : NRef → NodeVal => markOf (X n) - l) =O[w.nearby] w.size := by
  refine isBigO_pi.mpr fun i => IsBigO.of_bound 1 ?_
  filter_upwards [good_near] with X hX
  rw [one_mul, Real.norm_eq_abs, Real.norm_eq_abs, abs_of_nonneg (size_nonneg X)]
  exact hX.mark_entry hn i

/-- The nodes to be estimated are spatial. -/
def Spatial (w : World) : Prop := ∀ n ∈ w.g.active, SafeState (w.nh n).val

theorem Spatial.cases (hs : Spatial w) {n : NRef} (hn : n ∈ w.g.active) :
    (∃ A : SE3, (w.nh n).val = ⟨.pose3d, A⟩ ∧ IsRigid A.T ∧ SafeTurn A.R) ∨ ∃ l : Vec3, (w.nh n).val = ⟨.landmark3d, l⟩ := by
  have h := hs n hn
  generalize (w.nh n).val = v at h
  obtain ⟨k, x⟩ := v
  cases k <;> first | exact absurd h id | skip
  · exact Or.inl ⟨x, rfl, h⟩
  · exact Or.inr ⟨x, rfl⟩

/-- The coordinates are small. -/
theorem errs_bigO (hs : Spatial w) : w.errs =O[w.nearby] w.size := by
  refine isBigO_pi.mpr fun c => ?_
  rcases hs.cases c.1.2 with ⟨A, hn, hA, -⟩ | ⟨l, hn⟩
  · have hd : (w.nh c.1).dim = 6 := congrArg (fun v : NodeVal => v.1.dim) hn
    have hk : (c.2 : ℕ) < 6 := by rw [← hd]; exact c.2.2
    have h1 : (fun X : NRef → NodeVal => vec6 (skewVec (turnOf A (poseOf (X c.1)))) (shiftOf A (poseOf (X c.1))) (at6 ⟨c.2, hk⟩)) =O[w.nearby] w.size := by
      generalize at6 ⟨c.2, hk⟩ = i
      rcases i with i | i
      · exact isBigO_pi.mp (turn_skew hn hA) i
      · exact isBigO_pi.mp (shift_bigO hn hA) i
    refine h1.congr' ?_ EventuallyEq.rfl
    filter_upwards [good_near] with X hX
    rw [← hX.pose_spread hn hA ⟨c.2, hk⟩]
    exact spread_apply _ c
  · have hd : (w.nh c.1).dim = 3 := congrArg (fun v : NodeVal => v.1.dim) hn
    have hk : (c.2 : ℕ) < 3 := by rw [← hd]; exact c.2.2
    refine (isBigO_pi.mp (mark_bigO hn) ⟨c.2, hk⟩).congr' ?_ EventuallyEq.rfl
    filter_upwards [good_near] with X hX
    rw [← hX.mark_spread hn]
    exact spread_apply _ c

theorem errNorm_bigO (hs : Spatial w) : w.errNorm =O[w.nearby] w.size := (errs_bigO hs).norm_left

theorem errNorm_lim (hs : Spatial w) : Tendsto w.errNorm w.nearby (𝓝 0) := (errNorm_bigO hs).trans_tendsto size_lim

/-- Poses near the given ones. -/
theorem poseNear (hs : Spatial w) {n : NRef} {A : SE3} (hn : (w.nh n).val = ⟨.pose3d, A⟩) (hA : IsRigid A.T) :
    PoseNear w.nearby w.errNorm (fun X => poseOf (X n)) A (fun X => turnOf A (poseOf (X n))) fun X => shiftOf A (poseOf (X n)) := by
  have hle : ∀ᶠ X in w.nearby, ∀ i, |vec6 (skewVec (turnOf A (poseOf (X n)))) (shiftOf A (poseOf (X n))) i| ≤ w.errNorm X := by
    filter_upwards [good_near] with X hX i
    rw [← hX.pose_flat hn hA]
    rcases i with i | i <;> exact spread_le _ _ _
  have hnn : ∀ X, 0 ≤ w.errNorm X := fun X => norm_nonneg _
  have hsk : (fun X : NRef → NodeVal => skewVec (turnOf A (poseOf (X n)))) =O[w.nearby] w.errNorm := by
    refine isBigO_pi.mpr fun i => IsBigO.of_bound 1 ?_
    filter_upwards [hle] with X hX
    rw [one_mul, Real.norm_eq_abs, Real.norm_eq_abs, abs_of_nonneg (hnn X)]
    exact hX (.inl i)
  have hcube : (fun X => w.errNorm X ^ 3) =o[w.nearby] fun X => w.errNorm X ^ 2 := by
    have h1 : w.errNorm =o[w.nearby] fun _ => (1 : ℝ) := (isLittleO_one_iff ℝ).mpr (errNorm_lim hs)
    have := h1.mul_isBigO (isBigO_refl (fun X => w.errNorm X ^ 2) w.nearby)
    refine this.congr (fun X => by ring) (fun X => by ring)
  have hskn : ∀ᶠ X in w.nearby, ‖skewVec (turnOf A (poseOf (X n)))‖ ≤ w.errNorm X := by
    filter_upwards [hle] with X hX
    exact (pi_norm_le_iff_of_nonneg (hnn X)).mpr fun i => hX (.inl i)
  refine ⟨hA, ?_, ⟨?_, hsk, ?_, ?_⟩, ?_⟩
  · filter_upwards [good_near] with X hX
    exact pose_eq hA (hX.pose_fits hn hA).1
  · have := ((turn_bigO hn hA).trans_tendsto size_lim).add_const 1
    simp only [sub_add_cancel, zero_add] at this
    exact this
  · refine IsBigO.trans_isLittleO (IsBigO.of_bound 1 ?_) hcube
    filter_upwards [good_near, hskn] with X hX hle
    rw [one_mul, Real.norm_eq_abs, abs_of_nonneg (pow_nonneg (hnn X) 3)]
    exact ((hX.pose_fits hn hA).2.turned hA).1.trans (pow_le_pow_left₀ (norm_nonneg _) hle 3)
  · refine IsBigO.trans_isLittleO (IsBigO.of_bound 1 ?_) hcube
    filter_upwards [good_near, hskn] with X hX hle
    rw [one_mul, Real.norm_eq_abs, abs_of_nonneg (pow_nonneg (hnn X) 3)]
    exact ((hX.pose_fits hn hA).2.turned hA).2.trans (pow_le_pow_left₀ (norm_nonneg _) hle 3)
  · refine isBigO_pi.mpr fun i => IsBigO.of_bound 1 ?_
    filter_upwards [hle] with X hX
    rw [one_mul, Real.norm_eq_abs, Real.norm_eq_abs, abs_of_nonneg (hnn X)]
    exact hX (.inr i)

/-- Landmarks near the given ones. -/
theorem markNear {n : NRef} {l : Vec3} (hn : (w.nh n).val = ⟨.landmark3d, l⟩) :
    (fun X : NRef → NodeVal => markOf (X n) - l) =O[w.nearby] w.errNorm := by
  refine isBigO_pi.mpr fun i => IsBigO.of_bound 1 ?_
  filter_upwards [good_near] with X hX
  rw [one_mul, Real.norm_eq_abs, Real.norm_eq_abs, abs_of_nonneg (show 0 ≤ w.errNorm X from norm_nonneg _), ← hX.mark_spread hn]
  exact spread_le _ _ _

end World

end Mrob
