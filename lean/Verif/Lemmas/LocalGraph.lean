import Verif.Lemmas.Local
import Verif.Lemmas.Smooth
import Verif.Lemmas.Weights

/-!
# Graphs with displaced states
-/

open Matrix Asymptotics Filter Topology

namespace Mrob

open World Spec

/-- A displaced state; headings are not wrapped.  Classes with a manifold are left alone. -/
noncomputable def NodeKind.shift : (k : NodeKind) → k.State → (ℕ → ℝ) → k.State
  | .pose2d, x, v => (x : Vec3) + fun i : Fin 3 => v i
  | .pose3d, x, _ => x
  | .landmark2d, x, v => (x : Vec2) + fun i : Fin 2 => v i
  | .landmark3d, x, _ => x
  | .plane4d, x, _ => x

/-- A node with a displaced state. -/
noncomputable def NodeCell.shift (c : NodeCell) (v : ℕ → ℝ) : NodeCell :=
  { c with obj := { c.obj with state := c.kind.shift c.obj.state v } }

namespace World

variable {w : World}

/-- All states displaced. -/
noncomputable def disp (w : World) (e : Cols w → ℝ) : World :=
  { w with nh := fun n => (w.nh n).shift (w.spread e n) }

/-- The displaced states. -/
noncomputable def dval (w : World) (e : Cols w → ℝ) (n : NRef) : NodeVal := ((w.disp e).nh n).val

theorem dval_of {n : NRef} {k : NodeKind} {x : k.State} (h : (w.nh n).val = ⟨k, x⟩) (e : Cols w → ℝ) :
    w.dval e n = ⟨k, k.shift x (w.spread e n)⟩ := by
  change (⟨(w.nh n).kind, (w.nh n).kind.shift (w.nh n).obj.state (w.spread e n)⟩ : NodeVal) = _
  generalize w.spread e n = v
  generalize w.nh n = c at h ⊢
  obtain ⟨k', o, i, m, l⟩ := c
  obtain ⟨h1, h2⟩ := Sigma.mk.inj h
  change k' = _ at h1
  subst h1
  rw [← eq_of_heq h2]

theorem spread_add (e d : Cols w → ℝ) (n : NRef) : w.spread (e + d) n = w.spread e n + w.spread d n := by
  funext k
  change w.spread (e + d) n k = w.spread e n k + w.spread d n k
  unfold spread
  split
  · rfl
  · rw [add_zero]

theorem shift_zero (k : NodeKind) (x : k.State) : k.shift x 0 = x := by
  cases k
  · exact add_zero (x : Vec3)
  · rfl
  · exact add_zero (x : Vec2)
  · rfl
  · rfl

theorem dval_zero (n : NRef) : w.dval 0 n = (w.nh n).val := by
  rw [dval_of (k := (w.nh n).kind) (x := (w.nh n).obj.state) rfl, spread_zero, shift_zero]; rfl

theorem spread_continuous (n : NRef) (k : ℕ) : Continuous fun e : Cols w → ℝ => w.spread e n k := by
  unfold spread
  split
  · exact continuous_apply _
  · exact continuous_const

/-- The displacement of a pose. -/
noncomputable def pose (w : World) (x : Vec3) (e : Cols w → ℝ) (n : NRef) : Vec3 := x + fun i : Fin 3 => w.spread e n i
/-- The displacement of a landmark. -/
noncomputable def mark (w : World) (y : Vec2) (e : Cols w → ℝ) (n : NRef) : Vec2 := y + fun i : Fin 2 => w.spread e n i

theorem dval_pose {n : NRef} {x : Vec3} (h : (w.nh n).val = ⟨.pose2d, x⟩) (e : Cols w → ℝ) :
    w.dval e n = ⟨.pose2d, w.pose x e n⟩ := dval_of h e

theorem dval_mark {n : NRef} {y : Vec2} (h : (w.nh n).val = ⟨.landmark2d, y⟩) (e : Cols w → ℝ) :
    w.dval e n = ⟨.landmark2d, w.mark y e n⟩ := dval_of h e

theorem pose_zero (x : Vec3) (n : NRef) : w.pose x 0 n = x := by
  rw [pose, spread_zero]; exact add_zero x

theorem mark_zero (x : Vec2) (n : NRef) : w.mark x 0 n = x := by
  rw [mark, spread_zero]; exact add_zero x

theorem pose_continuous (x : Vec3) (n : NRef) (i : Fin 3) : Continuous fun e => w.pose x e n i :=
  continuous_const.add (spread_continuous n i)

theorem mark_continuous (x : Vec2) (n : NRef) (i : Fin 2) : Continuous fun e => w.mark x e n i :=
  continuous_const.add (spread_continuous n i)

theorem wrapAngle_ne_iff {a : ℝ} : wrapAngle a ≠ -Real.pi ↔ Real.cos a ≠ -1 := by
  rw [← cos_wrapAngle a]
  obtain ⟨h1, h2, -⟩ := wrapAngle_spec a
  have hp := Real.pi_pos
  constructor
  · intro h hc
    have h3 : Real.cos (wrapAngle a + Real.pi) = 1 := by rw [Real.cos_add_pi, hc, neg_neg]
    rw [Real.cos_eq_one_iff_of_lt_of_lt (by linarith) (by linarith)] at h3
    exact h (by linarith)
  · intro h hc
    rw [hc, Real.cos_neg, Real.cos_pi] at h
    exact h rfl

/-- The distance and the bearing of a landmark near a regular displacement. -/
theorem land_near (obs : Vec2) (n m : NRef) {x : Vec3} {y : Vec2} (hfar : 1e-6 < (y 0 - x 0) ^ 2 + (y 1 - x 1) ^ 2)
    (hcut : land2dRes obs x y 1 ≠ -Real.pi) : ∀ᶠ e in 𝓝 (0 : Cols w → ℝ),
      1e-6 < (w.mark y e m 0 - w.pose x e n 0) ^ 2 + (w.mark y e m 1 - w.pose x e n 1) ^ 2 ∧
      land2dRes obs (w.pose x e n) (w.mark y e m) 1 ≠ -Real.pi := by
  have c0 : Continuous fun e : Cols w → ℝ => w.mark y e m 0 - w.pose x e n 0 := (mark_continuous y m 0).sub (pose_continuous x n 0)
  have c1 : Continuous fun e : Cols w → ℝ => w.mark y e m 1 - w.pose x e n 1 := (mark_continuous y m 1).sub (pose_continuous x n 1)
  have h1 : ∀ᶠ e in 𝓝 (0 : Cols w → ℝ),
      1e-6 < (w.mark y e m 0 - w.pose x e n 0) ^ 2 + (w.mark y e m 1 - w.pose x e n 1) ^ 2 :=
    continuousAt_const.eventually_lt ((c0.pow 2).add (c1.pow 2)).continuousAt (by simpa only [pose_zero, mark_zero] using hfar)
  have hz : Continuous fun e : Cols w → ℝ => (⟨w.mark y e m 0 - w.pose x e n 0, w.mark y e m 1 - w.pose x e n 1⟩ : ℂ) := by
    have : (fun e : Cols w → ℝ => (⟨w.mark y e m 0 - w.pose x e n 0, w.mark y e m 1 - w.pose x e n 1⟩ : ℂ)) = fun e =>
        ((w.mark y e m 0 - w.pose x e n 0 : ℝ) : ℂ) + ((w.mark y e m 1 - w.pose x e n 1 : ℝ) : ℂ) * Complex.I := by
      funext e; apply Complex.ext <;> simp
    rw [this]
    exact (Complex.continuous_ofReal.comp c0).add ((Complex.continuous_ofReal.comp c1).mul continuous_const)
  have hu : Continuous fun e : Cols w → ℝ => (⟨w.mark y e m 0 - w.pose x e n 0, w.mark y e m 1 - w.pose x e n 1⟩ : ℂ) *
      Complex.exp (((-(w.pose x e n 2 + obs 1) : ℝ) : ℂ) * Complex.I) :=
    hz.mul (Complex.continuous_exp.comp ((Complex.continuous_ofReal.comp
      ((pose_continuous x n 2).add continuous_const).neg).mul continuous_const))
  have hne : ∀ {a b : ℝ}, 1e-6 < a ^ 2 + b ^ 2 → (⟨a, b⟩ : ℂ) ≠ 0 := by
    intro a b hab h
    have k1 : a = 0 := congrArg Complex.re h
    have k2 : b = 0 := congrArg Complex.im h
    rw [k1, k2] at hab; norm_num at hab
  have hnot : ∀ {a b : ℝ}, 1e-6 < a ^ 2 + b ^ 2 → ¬ a * a + b * b < 1e-6 := by intro a b h; nlinarith
  have h2 : ∀ᶠ e in 𝓝 (0 : Cols w → ℝ), (⟨w.mark y e m 0 - w.pose x e n 0, w.mark y e m 1 - w.pose x e n 1⟩ : ℂ) *
      Complex.exp (((-(w.pose x e n 2 + obs 1) : ℝ) : ℂ) * Complex.I) ∈ Complex.slitPlane := by
    refine hu.continuousAt.eventually_mem (Complex.isOpen_slitPlane.mem_nhds ?_)
    rw [pose_zero, mark_zero]
    refine arg_mem_slitPlane (hne hfar) _ ?_
    rw [land2dRes_far (hnot hfar)] at hcut
    rw [← sub_sub]; exact hcut
  filter_upwards [h1, h2] with e he hs
  refine ⟨he, ?_⟩
  rw [land2dRes_far (hnot he)]
  change wrapAngle (Complex.arg _ - _ - _) ≠ _
  rw [sub_sub, wrap_arg (hne he) _ hs]
  exact (Complex.neg_pi_lt_arg _).ne'

/-- The regularity of the planar factors is open. -/
theorem regular_near {V : FactorVirt} {nbrs : List NRef} (h : Regular w.nh V nbrs)
    (hk : ∀ n ∈ nbrs, (w.nh n).kind = .pose2d ∨ (w.nh n).kind = .landmark2d) :
    ∀ᶠ e in 𝓝 (0 : Cols w → ℝ), Regular (w.disp e).nh V nbrs := by
  have hno : ∀ {n : NRef} {X : SE3}, n ∈ nbrs → (w.nh n).val = ⟨.pose3d, X⟩ → False := by
    intro n X hn hv
    have h1 : (w.nh n).kind = .pose3d := congrArg Sigma.fst hv
    rcases hk n hn with h2 | h2 <;> rw [h1] at h2 <;> cases h2
  cases h with
  | @prior2d obs W ty n x hn hcut =>
    have h1 : Continuous fun e : Cols w → ℝ => Real.cos ((w.pose x e n - obs) 2) :=
      Real.continuous_cos.comp ((pose_continuous x n 2).sub continuous_const)
    have h2 : ∀ᶠ e in 𝓝 (0 : Cols w → ℝ), Real.cos ((w.pose x e n - obs) 2) ≠ -1 :=
      h1.continuousAt.eventually_ne (by rw [pose_zero]; exact wrapAngle_ne_iff.mp hcut)
    filter_upwards [h2] with e he
    exact .prior2d (dval_pose hn e) (wrapAngle_ne_iff.mpr he)
  | @rel2d obs W ty n m x y hn hm hcut =>
    have h1 : Continuous fun e : Cols w → ℝ => Real.cos (w.pose y e m 2 - w.pose x e n 2 - obs 2) :=
      Real.continuous_cos.comp (((pose_continuous y m 2).sub (pose_continuous x n 2)).sub continuous_const)
    have h2 : ∀ᶠ e in 𝓝 (0 : Cols w → ℝ), Real.cos (w.pose y e m 2 - w.pose x e n 2 - obs 2) ≠ -1 :=
      h1.continuousAt.eventually_ne (by rw [pose_zero, pose_zero]; exact wrapAngle_ne_iff.mp hcut)
    filter_upwards [h2] with e he
    exact .rel2d (dval_pose hn e) (dval_pose hm e) (wrapAngle_ne_iff.mpr he)
  | @odom obs W ty n m x y hn hm hcut ht =>
    have h1 : Continuous fun e : Cols w → ℝ => Real.cos (w.pose x e n 2 + obs 0 + obs 2 - w.pose y e m 2) :=
      Real.continuous_cos.comp ((((pose_continuous x n 2).add continuous_const).add continuous_const).sub (pose_continuous y m 2))
    have h2 : ∀ᶠ e in 𝓝 (0 : Cols w → ℝ), Real.cos (w.pose x e n 2 + obs 0 + obs 2 - w.pose y e m 2) ≠ -1 :=
      h1.continuousAt.eventually_ne (by rw [pose_zero, pose_zero]; exact wrapAngle_ne_iff.mp hcut)
    filter_upwards [h2] with e he
    exact .odom (dval_pose hn e) (dval_pose hm e) (wrapAngle_ne_iff.mpr he) ht
  | @land2d obs W ty n m x y hn hm hfar hcut => 
    filter_upwards [land_near obs n m hfar hcut] with e he
    exact .land2d (dval_pose hn e) (dval_mark hm e) he.1 he.2
  | @land2dRev obs W ty n m x y hn hm hfar hcut =>
    filter_upwards [land_near obs n m hfar hcut] with e he
    exact .land2dRev (dval_pose hn e) (dval_mark hm e) he.1 he.2
  | land3d hn => exact (hno (by simp) hn).elim
  | land3dRev hn => exact (hno (by simp) hn).elim
  | p2plane hn => exact (hno (by simp) hn).elim

end World

end Mrob
