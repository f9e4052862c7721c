import Verif.Lemmas.Node
import Verif.Props.SE3Ln
import Verif.Props.SE3

/-! # Properties C21–C25 and C62: angles, nodes, robust weights -/

open Matrix NormedSpace

namespace Mrob

open Spec

/-! ## C21 -/

/-- `wrap_angle` is the reduction of the angle to `[-π, π)`: it terminates (the model is a total function whose
recursion is justified by a decreasing measure), and returns Mathlib's representative. -/
theorem C21_wrap (a : ℝ) : wrapAngle a = principal a := by
  obtain ⟨h1, h2, k, hk⟩ := wrapAngle_spec a
  have hp := Real.pi_pos
  rw [principal, eq_comm, toIcoMod_eq_iff]
  refine ⟨⟨h1, by linarith⟩, -k, ?_⟩
  rw [hk, zsmul_eq_mul]; push_cast; ring

/-- Range, congruence, idempotence, and equality exactly for equal directions. -/
theorem C21_wrap_laws (a b : ℝ) :
    (-Real.pi ≤ wrapAngle a ∧ wrapAngle a < Real.pi) ∧ SameAngle (wrapAngle a) a ∧
      wrapAngle (wrapAngle a) = wrapAngle a ∧ (wrapAngle a = wrapAngle b ↔ SameAngle a b) ∧
      Real.cos (wrapAngle a) = Real.cos a ∧ Real.sin (wrapAngle a) = Real.sin a := by
  obtain ⟨h1, h2, h3⟩ := wrapAngle_spec a
  exact ⟨⟨h1, h2⟩, h3, wrapAngle_of_mem h1 h2, wrapAngle_eq_iff a b, cos_wrapAngle a, sin_wrapAngle a⟩

/-- The half-open end: π itself wraps to -π. -/
example : wrapAngle Real.pi = -Real.pi ∧ wrapAngle (-Real.pi) = -Real.pi := by
  have := Real.pi_pos
  exact ⟨wrapAngle_eq_of ⟨le_refl _, by linarith⟩ ⟨1, by push_cast; ring⟩,
    wrapAngle_of_mem le_rfl (by linarith)⟩

/-! ## C22 -/

/-- The heading is in `[-π, π)`. -/
def HeadingOk (x : Vec3) : Prop := -Real.pi ≤ x 2 ∧ x 2 < Real.pi

theorem headingOk_wrap2 (x : Vec3) : HeadingOk (wrap2 x) := by
  obtain ⟨h1, h2, -⟩ := wrapAngle_spec (x 2)
  exact ⟨h1, h2⟩

/-- Every call that writes the state of a 2D pose leaves a reduced heading, whatever the node held before. -/
theorem C22_written (n : NodeObj .pose2d) (op : NodeOp .pose2d)
    (h : match op with | .setAux _ => False | .bookkeep => False | _ => True) :
    HeadingOk (op.run n).state := by
  cases op <;> first | exact headingOk_wrap2 _ | exact h.elim

/-- A state-writing call. -/
example : match (NodeOp.update ![1, 2, 3] : NodeOp .pose2d) with
    | .setAux _ => False | .bookkeep => False | _ => True := trivial

/-- A 2D pose constructed with a reduced heading keeps one for ever. Partial: the constructor itself does not
reduce the heading, see `C22_constructor_fails`. -/
theorem C22_heading_partial (x : Vec3) (hx : HeadingOk x) (ops : List (NodeOp .pose2d)) :
    HeadingOk (runOps ops (NodeObj.new (k := .pose2d) x)).state ∧
      HeadingOk (runOps ops (NodeObj.new (k := .pose2d) x)).aux := by
  suffices H : ∀ n : NodeObj .pose2d, HeadingOk n.state → HeadingOk n.aux →
      HeadingOk (runOps ops n).state ∧ HeadingOk (runOps ops n).aux from H _ hx hx
  induction ops with
  | nil => exact fun n h1 h2 => ⟨h1, h2⟩
  | cons op ops ih =>
    intro n h1 h2
    refine ih (op.run n) ?_ ?_
    · cases op <;> first | exact headingOk_wrap2 _ | exact h1
    · cases op <;> first | exact headingOk_wrap2 _ | exact h2

example : HeadingOk ![10, -20, 3] := by
  have h1 := Real.pi_gt_three
  constructor <;> simp <;> linarith

/-- The full property is false: a node constructed with heading 4 reports heading 4. -/
theorem C22_constructor_fails :
    ∃ x : Vec3, ¬ HeadingOk (NodeObj.new (k := .pose2d) x).state := by
  refine ⟨![0, 0, 4], fun h => ?_⟩
  have h2 : (4 : ℝ) < Real.pi := h.2
  linarith [Real.pi_le_four]

/-! ## C23 -/

/-- A state that the node stores as it is. Only an unreduced 2D heading is not. -/
def Storable : (k : NodeKind) → k.State → Prop
  | .pose2d, x => HeadingOk x
  | .pose3d, _ => True
  | .landmark2d, _ => True
  | .landmark3d, _ => True
  | .plane4d, _ => True

theorem store_of_storable {k : NodeKind} {x : k.State} (h : Storable k x) : k.store x = x := by
  cases k
  · exact wrap2_of_mem h.1 h.2
  all_goals rfl

/-- Book-keeping, any calls that do not write the auxiliary state, restore: the state is exactly the one at the time of
book-keeping, for every node class.  Partial: a 2D pose whose heading was never reduced comes back reduced, see
`C23_restore_fails`. -/
theorem C23_restore_partial {k : NodeKind} (n : NodeObj k) (hn : Storable k n.state)
    (ops : List (NodeOp k)) (hops : ∀ op ∈ ops, match op with | .setAux _ => False | .bookkeep => False | _ => True) :
    (runOps ops n.bookkeep).restore.state = n.state := by
  have key : (runOps ops n.bookkeep).aux = n.state := by
    have H : ∀ m : NodeObj k, m.aux = n.state → (runOps ops m).aux = n.state := by
      induction ops with
      | nil => exact fun m h => h
      | cons op ops ih =>
        intro m hm
        refine ih (fun o ho => hops o (List.mem_cons_of_mem _ ho)) (op.run m) ?_
        have := hops op List.mem_cons_self
        cases op <;> first | exact hm | exact this.elim
    exact H _ (store_of_storable hn)
  change k.store (runOps ops n.bookkeep).aux = n.state
  rw [key, store_of_storable hn]

/-- A 2D pose in range, updated twice between book-keeping and restore. -/
example : Storable .pose2d (NodeObj.new (k := .pose2d) ![1, 2, 3]).state ∧
    ∀ op ∈ [NodeOp.update ![1, 1, 9], .updateFromAux ![0, 0, -7]],
      match (op : NodeOp .pose2d) with | .setAux _ => False | .bookkeep => False | _ => True := by
  have h1 := Real.pi_gt_three
  refine ⟨⟨?_, ?_⟩, by simp⟩
  · change -Real.pi ≤ (3 : ℝ); linarith
  · change (3 : ℝ) < Real.pi; linarith

/-- Even an unreduced 2D pose comes back at the same position facing the same direction. -/
theorem C23_restore_direction (n : NodeObj .pose2d) (ops : List (NodeOp .pose2d))
    (hops : ∀ op ∈ ops, match op with | .setAux _ => False | .bookkeep => False | _ => True) :
    (runOps ops n.bookkeep).restore.state 0 = n.state 0 ∧ (runOps ops n.bookkeep).restore.state 1 = n.state 1 ∧
      SameAngle ((runOps ops n.bookkeep).restore.state 2) (n.state 2) := by
  have key : (runOps ops n.bookkeep).aux = wrap2 n.state := by
    have H : ∀ m : NodeObj .pose2d, m.aux = wrap2 n.state → (runOps ops m).aux = wrap2 n.state := by
      induction ops with
      | nil => exact fun m h => h
      | cons op ops ih =>
        intro m hm
        refine ih (fun o ho => hops o (List.mem_cons_of_mem _ ho)) (op.run m) ?_
        have := hops op List.mem_cons_self
        cases op <;> first | exact hm | exact this.elim
    exact H _ rfl
  have e : (runOps ops n.bookkeep).restore.state = wrap2 (wrap2 n.state) := by
    change NodeKind.store .pose2d (runOps ops n.bookkeep).aux = _
    rw [key]; rfl
  rw [e]
  refine ⟨rfl, rfl, ?_⟩
  rw [wrap2_2, wrap2_2, (C21_wrap_laws (n.state 2) 0).2.2.1]
  exact (C21_wrap_laws (n.state 2) 0).2.1

/-- `update_from_auxiliary(0)` also restores: exactly for landmarks, for 3D poses, for reduced 2D headings and for planes with
unit normal. -/
theorem C23_zero_update :
    (∀ n : NodeObj .pose2d, HeadingOk n.state → (n.bookkeep.updateFromAux (0 : Vec3)).state = n.state) ∧
    (∀ n : NodeObj .pose3d, (n.bookkeep.updateFromAux (0 : Vec6)).state = n.state) ∧
    (∀ n : NodeObj .landmark2d, (n.bookkeep.updateFromAux (0 : Vec2)).state = n.state) ∧
    (∀ n : NodeObj .landmark3d, (n.bookkeep.updateFromAux (0 : Vec3)).state = n.state) ∧
    (∀ n : NodeObj .plane4d, sqNorm (fun i => n.state (Sum.inl i)) = 1 →
      (n.bookkeep.updateFromAux (0 : Vec4)).state = n.state) := by
  refine ⟨fun n h => ?_, fun n => ?_, fun n => ?_, fun n => ?_, fun n h => ?_⟩
  · change wrap2 (wrap2 n.state + 0) = _
    rw [add_zero, wrap2_of_mem h.1 h.2, wrap2_of_mem h.1 h.2]
  · change SE3.updateLhs n.state 0 = _
    have hz : (SE3.ofVec 0).T = 1 := by
      have h0 : head3 (0 : Vec6) = 0 := rfl
      have h1 : tail3 (0 : Vec6) = 0 := rfl
      rw [se3_ofVec_T, h0, h1, ofVec_zero, mulVec_zero, homog_one]
    ext1
    change (SE3.ofVec 0).T * SE3.T n.state = SE3.T n.state
    rw [hz, Matrix.one_mul]
  · exact add_zero _
  · exact add_zero _
  · change normalizeHead (n.state + 0) = _
    rw [add_zero, normalizeHead_unit _ h]

example : HeadingOk (NodeObj.new (k := .pose2d) ![1, 2, -3]).state ∧
    sqNorm (fun i => (NodeObj.new (k := .plane4d) (Sum.elim ![0, 3, 4] fun _ => 2)).state (Sum.inl i)) = 1 := by
  have h1 := Real.pi_gt_three
  refine ⟨⟨?_, ?_⟩, sqNorm_normalizeHead _ ?_⟩
  · change -Real.pi ≤ (-3 : ℝ); linarith
  · change (-3 : ℝ) < Real.pi; linarith
  · simp only [Sum.elim_inl, sqNorm3]; simp; norm_num

/-- The full property is false: a 2D pose constructed with heading 4 does not come back as it was. -/
theorem C23_restore_fails :
    ∃ n : NodeObj .pose2d, n = NodeObj.new (k := .pose2d) ![0, 0, 4] ∧ n.bookkeep.restore.state ≠ n.state := by
  refine ⟨_, rfl, fun h => ?_⟩
  have h2 : wrapAngle (wrapAngle 4) = (4 : ℝ) := congrFun h 2
  have := (wrapAngle_spec (wrapAngle 4)).2.1
  rw [h2] at this
  linarith [Real.pi_le_four]

/-! ## C24 -/

/-- Quadratic, Huber, Cauchy and Geman-McClure weights: in `(0, 1]`, one at zero, not increasing, with bounded
influence for the robust ones (below 1), independent of earlier calls. -/
theorem C24_weight_partial (ty : Robust) (hty : ty ≠ .ransac) (old u v : ℝ) (hu : 0 ≤ u) (huv : u ≤ v) :
    0 < robustWeight ty old u ∧ robustWeight ty old u ≤ 1 ∧ robustWeight ty old 0 = 1 ∧
      robustWeight ty old v ≤ robustWeight ty old u ∧
      (ty ≠ .quadratic → robustWeight ty old u * u ≤ 1) ∧
      ∀ old', robustWeight ty old' u = robustWeight ty old u := by
  have h1 : 0 < 1 + u * u := by positivity
  have h2 : (1 : ℝ) ≤ 1 + u * u := by nlinarith
  have h3 : 1 + u * u ≤ 1 + v * v := by nlinarith
  have h4 : 1 / (1 + v * v) ≤ 1 / (1 + u * u) := one_div_le_one_div_of_le h1 h3
  have h5 : 1 / (1 + u * u) ≤ 1 := by rw [div_le_one h1]; exact h2
  have h6 : 0 < 1 / (1 + u * u) := by positivity
  cases ty with
  | quadratic => simp [robustWeight]
  | ransac => exact absurd rfl hty
  | huber =>
    simp only [robustWeight]
    refine ⟨?_, ?_, by simp, ?_, fun _ => ?_, fun _ => trivial⟩
    · split_ifs with h
      · exact one_pos
      · push Not at h; positivity
    · split_ifs with h
      · exact le_rfl
      · push Not at h; rw [div_le_one (by linarith)]; exact h
    · split_ifs with h h' h'
      · exact le_rfl
      · linarith
      · push Not at h; rw [div_le_one (by linarith)]; exact h
      · push Not at h'; exact one_div_le_one_div_of_le (by linarith) huv
    · split_ifs with h
      · linarith
      · push Not at h; rw [div_mul_cancel₀]; linarith
  | cauchy =>
    simp only [robustWeight]
    refine ⟨h6, h5, by simp, h4, fun _ => ?_, fun _ => trivial⟩
    rw [div_mul_eq_mul_div, div_le_one h1]; nlinarith [sq_nonneg (u - 1)]
  | mcclure =>
    simp only [robustWeight]
    refine ⟨by positivity, ?_, by simp, ?_, fun _ => ?_, fun _ => trivial⟩
    · rw [div_le_one h1]; linarith
    · exact div_le_div₀ h6.le h4 h1 h3
    · rw [div_div, div_mul_eq_mul_div, div_le_one (by positivity)]
      nlinarith [sq_nonneg (u - 1), sq_nonneg (u * u)]

example : Robust.huber ≠ .ransac ∧ (0 : ℝ) ≤ 1 / 2 ∧ (1 / 2 : ℝ) ≤ 3 := ⟨by decide, by norm_num, by norm_num⟩

/-- The weight is the influence divided by the residual: `weight · u` is the derivative of the documented cost. -/
theorem C24_influence (old u : ℝ) (hu : 0 ≤ u) :
    HasDerivAt quadraticCost (robustWeight .quadratic old u * u) u ∧
    HasDerivAt huberCost (robustWeight .huber old u * u) u ∧
    HasDerivAt cauchyCost (robustWeight .cauchy old u * u) u ∧
    HasDerivAt gemanMcClureCost (robustWeight .mcclure old u * u) u := by
  have q : ∀ x : ℝ, HasDerivAt (fun u : ℝ => u ^ 2 / 2) x x := fun x =>
    ((hasDerivAt_pow 2 x).div_const 2).congr_deriv (by norm_num)
  have h1 : (1 + u ^ 2) ≠ 0 := by positivity
  refine ⟨?_, ?_, ?_, ?_⟩
  · exact (q u).congr_deriv (by simp [robustWeight])
  · have l : ∀ x : ℝ, HasDerivAt (fun u : ℝ => u - 1 / 2) 1 x := fun x => (hasDerivAt_id x).sub_const _
    rcases lt_trichotomy u 1 with h | h | h
    · refine ((q u).congr_deriv ?_).congr_of_eventuallyEq ?_
      · simp [robustWeight, h]
      · filter_upwards [Iio_mem_nhds h] with x hx
        simp only [Set.mem_Iio] at hx
        simp [huberCost, hx]
    · subst h
      have e : robustWeight .huber old 1 * 1 = 1 := by simp [robustWeight]
      rw [e, ← hasDerivWithinAt_univ, ← Set.Iic_union_Ici (a := (1 : ℝ))]
      refine HasDerivWithinAt.union ?_ ?_
      · refine (q 1).hasDerivWithinAt.congr ?_ ?_
        · intro x hx
          simp only [Set.mem_Iic] at hx
          rcases lt_or_eq_of_le hx with h | h
          · simp [huberCost, h]
          · subst h; norm_num [huberCost]
        · norm_num [huberCost]
      · refine (l 1).hasDerivWithinAt.congr ?_ ?_
        · intro x hx
          simp only [Set.mem_Ici] at hx
          simp [huberCost, not_lt.mpr hx]
        · norm_num [huberCost]
    · refine ((l u).congr_deriv ?_).congr_of_eventuallyEq ?_
      · have : ¬ u < 1 := not_lt.mpr h.le
        simp only [robustWeight, if_neg this]
        rw [div_mul_cancel₀]; linarith
      · filter_upwards [Ioi_mem_nhds h] with x hx
        simp only [Set.mem_Ioi] at hx
        simp [huberCost, not_lt.mpr hx.le]
  · have h2 := ((hasDerivAt_pow 2 u).const_add 1).log h1
    exact (h2.div_const 2).congr_deriv (by simp [robustWeight, pow_two]; field_simp)
  · have h2 := ((hasDerivAt_pow 2 u).div ((hasDerivAt_pow 2 u).const_add 1) h1).div_const 2
    exact h2.congr_deriv (by simp [robustWeight, pow_two]; field_simp; ring)

example : (0 : ℝ) ≤ 1 := by norm_num

/-- The full property is false: a RANSAC factor is given weight 0 for every sequence of residuals, so it never takes
part in the estimation. -/
theorem C24_ransac_fails (us : List ℝ) : ∀ w ∈ robustWeights .ransac robustWeightInit us, w = 0 := by
  have H : ∀ old : ℝ, old = 0 → ∀ w ∈ robustWeights .ransac old us, w = 0 := by
    induction us with
    | nil => intro old _ w hw; simp [robustWeights] at hw
    | cons u us ih =>
      intro old h w hw
      simp only [robustWeights, List.mem_cons] at hw
      rcases hw with rfl | hw
      · exact h
      · exact ih _ h w hw
  exact H _ rfl

/-- A history of three residuals: three zero weights. -/
example : robustWeights .ransac robustWeightInit [0, 1 / 2, 7] = [0, 0, 0] := rfl

/-! ## C25 -/

/-- Calls that go through the normalisation (construction and updates). -/
def PlaneOpOk : NodeOp .plane4d → Prop
  | .setState _ => False
  | .setAux _ => False
  | _ => True

/-- The normal part of a plane state. -/
def planeNormal (x : Vec4) : Vec3 := fun i => x (Sum.inl i)

/-- After construction and any history of updates, book-keeping and restores the normal of a plane is a unit vector or
zero; zero only if the normal before normalisation was zero. (`set_state` is not part of the claim, see
`C25_set_state_raw`.) -/
theorem C25_unit (x : Vec4) (ops : List (NodeOp .plane4d)) (h : ∀ op ∈ ops, PlaneOpOk op) :
    len (planeNormal (runOps ops (NodeObj.new (k := .plane4d) x)).state) = 1 ∨
      planeNormal (runOps ops (NodeObj.new (k := .plane4d) x)).state = 0 := by
  have nrm : ∀ y : Vec4, len (planeNormal (normalizeHead y)) = 1 ∨ planeNormal (normalizeHead y) = 0 := by
    intro y
    by_cases hy : 0 < sqNorm (fun i => y (Sum.inl i))
    · left
      rw [len_eq_vnorm, vnorm]
      have : sqNorm (planeNormal (normalizeHead y)) = 1 := sqNorm_normalizeHead y hy
      rw [this, Real.sqrt_one]
    · right
      rw [normalizeHead_zero y hy]
      exact sqNorm_eq_zero.mp (le_antisymm (not_lt.mp hy) (sqNorm_nonneg _))
  suffices H : ∀ n : NodeObj .plane4d,
      (len (planeNormal n.state) = 1 ∨ planeNormal n.state = 0) →
      (len (planeNormal n.aux) = 1 ∨ planeNormal n.aux = 0) →
      len (planeNormal (runOps ops n).state) = 1 ∨ planeNormal (runOps ops n).state = 0 from
    H _ (nrm x) (nrm x)
  induction ops with
  | nil => exact fun n h1 _ => h1
  | cons op ops ih =>
    intro n h1 h2
    have ho := h op List.mem_cons_self
    refine ih (fun o hm => h o (List.mem_cons_of_mem _ hm)) (op.run n) ?_ ?_
    · cases op
      · exact nrm _
      · exact nrm _
      · exact ho.elim
      · exact ho.elim
      · exact h1
      · exact h2
    · cases op
      · exact h2
      · exact h2
      · exact ho.elim
      · exact ho.elim
      · exact h1
      · exact h2

example : ∀ op ∈ [NodeOp.update (Sum.elim ![1, 2, 3] fun _ => 4), .bookkeep, .restore],
    PlaneOpOk op := by
  intro op h
  simp only [List.mem_cons, List.not_mem_nil, or_false] at h
  rcases h with rfl | rfl | rfl <;> trivial

/-- One construction or update with a non-zero intermediate normal gives a unit normal. -/
theorem C25_unit_step (n : NodeObj .plane4d) (x dx : Vec4) :
    (planeNormal x ≠ 0 → len (planeNormal (NodeObj.new (k := .plane4d) x).state) = 1) ∧
    (planeNormal (n.state + dx) ≠ 0 → len (planeNormal (n.update dx).state) = 1) ∧
    (planeNormal (n.aux + dx) ≠ 0 → len (planeNormal (n.updateFromAux dx).state) = 1) := by
  have nrm : ∀ y : Vec4, planeNormal y ≠ 0 → len (planeNormal (normalizeHead y)) = 1 := by
    intro y hy
    have hpos : 0 < sqNorm (planeNormal y) :=
      lt_of_le_of_ne (sqNorm_nonneg _) fun h' => hy (sqNorm_eq_zero.mp h'.symm)
    rw [len_eq_vnorm, vnorm]
    have : sqNorm (planeNormal (normalizeHead y)) = 1 := sqNorm_normalizeHead y hpos
    rw [this, Real.sqrt_one]
  exact ⟨nrm x, nrm _, nrm _⟩

example : planeNormal (Sum.elim ![0, 0, 2] fun _ => 2) ≠ 0 := by
  intro h
  have := congrFun h 2
  simp [planeNormal] at this

/-- The plane stored by the constructor is the plane given by the caller exactly when the given normal was already unit or
the plane passes through the origin: only the normal is scaled, not the distance. -/
theorem C25_same_plane_iff (x : Vec4) (hx : planeNormal x ≠ 0) :
    planePoints (planeNormal (NodeObj.new (k := .plane4d) x).state)
        ((NodeObj.new (k := .plane4d) x).state (Sum.inr ())) = planePoints (planeNormal x) (x (Sum.inr ())) ↔
      len (planeNormal x) = 1 ∨ x (Sum.inr ()) = 0 := by
  have hpos : 0 < sqNorm (planeNormal x) :=
    lt_of_le_of_ne (sqNorm_nonneg _) fun h' => hx (sqNorm_eq_zero.mp h'.symm)
  have hl : 0 < len (planeNormal x) := by rw [len_eq_vnorm]; exact Real.sqrt_pos.mpr hpos
  have hn : planeNormal (NodeObj.new (k := .plane4d) x).state = (len (planeNormal x))⁻¹ • planeNormal x := by
    funext i
    change normalizeHead x (Sum.inl i) = _
    rw [normalizeHead_inl x hpos, Pi.smul_apply, smul_eq_mul, div_eq_inv_mul]
    rfl
  have hd : (NodeObj.new (k := .plane4d) x).state (Sum.inr ()) = x (Sum.inr ()) := normalizeHead_inr x ()
  rw [hn, hd]
  set L := len (planeNormal x) with hL
  set d := x (Sum.inr ()) with hdd
  have hLL : planeNormal x ⬝ᵥ planeNormal x = L ^ 2 := by
    rw [hL, len_eq_vnorm, vnorm_sq, sqNorm_eq_dot]
  constructor
  · intro h
    by_contra hc
    push Not at hc
    -- the foot of the perpendicular from the origin
    have hp : -(d / L ^ 2) • planeNormal x ∈ planePoints (planeNormal x) d := by
      simp only [planePoints, Set.mem_setOf_eq, dotProduct_smul, hLL, smul_eq_mul]
      field_simp; ring
    rw [← h] at hp
    simp only [planePoints, Set.mem_setOf_eq, dotProduct_smul, smul_dotProduct, hLL, smul_eq_mul] at hp
    have : d * (1 - 1 / L) = 0 := by
      rw [← hp]; field_simp; ring
    rcases mul_eq_zero.mp this with h0 | h0
    · exact hc.2 h0
    · refine hc.1 ?_
      field_simp at h0
      linarith
  · intro h
    ext p
    simp only [planePoints, Set.mem_setOf_eq, smul_dotProduct, smul_eq_mul]
    rcases h with h | h
    · rw [h]; simp
    · rw [h]; simp [hl.ne']

example : planeNormal (Sum.elim ![0, 3, 4] fun _ => 2) ≠ 0 ∧ ¬ (len (planeNormal (Sum.elim ![0, 3, 4] fun _ => 2)) = 1) := by
  have e : planeNormal (Sum.elim ![0, 3, 4] fun _ => 2) = ![0, 3, 4] := by
    funext i; simp [planeNormal]
  rw [e]
  refine ⟨fun h => by have := congrFun h 1; simp at this, ?_⟩
  rw [len_vec3, show (0:ℝ) * 0 + 3 * 3 + 4 * 4 = 5 ^ 2 by norm_num, Real.sqrt_sq] <;> norm_num

/-- The restriction to updates is needed: `set_state` stores a normal of any length. -/
theorem C25_set_state_raw : ∃ (n : NodeObj .plane4d) (x : Vec4),
    planeNormal x ≠ 0 ∧ len (planeNormal (n.setState x).state) ≠ 1 := by
  refine ⟨NodeObj.new (k := .plane4d) (Sum.elim ![0, 0, 1] fun _ => 0), Sum.elim ![0, 0, 2] fun _ => 2, ?_, ?_⟩
  · intro h
    have := congrFun h 2
    simp [planeNormal] at this
  · have e : planeNormal ((NodeObj.new (k := .plane4d) (Sum.elim ![0, 0, 1] fun _ => 0)).setState
        (Sum.elim ![0, 0, 2] fun _ => 2)).state = ![0, 0, 2] := by
      funext i
      change (Sum.elim ![(0:ℝ), 0, 2] fun _ => 2 : Vec4) (Sum.inl i) = _
      simp
    rw [e, len_vec3, show (0:ℝ) * 0 + 0 * 0 + 2 * 2 = 2 ^ 2 by norm_num, Real.sqrt_sq] <;> norm_num

/-! ## C62 -/

/-- Whatever matrix a 3D pose node holds and whatever the increment, after `update` the pose is a rigid transformation
up to `1e-31`: the errors do not accumulate over a run. -/
theorem C62_no_drift (n : NodeObj .pose3d) (dx : Vec6) :
    SE3.T (n.update dx).state = homog (SE3.R (n.update dx).state) (SE3.t (n.update dx).state) 1 ∧
      NearOrthogonal 1e-31 (SE3.R (n.update dx).state) ∧ |(SE3.R (n.update dx).state).det - 1| ≤ 1e-31 := by
  obtain ⟨w, v, hwv⟩ : ∃ w v, (SE3.updateLhs n.state dx).ln = homog (hat3 w) v 0 :=
    ⟨_, _, by rw [SE3.ln, se3Ln, so3Ln_skew]⟩
  have e : SE3.T (n.update dx).state = homog (SO3.ofVec w).R (vMat w *ᵥ v) 1 := by
    change se3ExpHat (SE3.updateLhs n.state dx).ln = _
    rw [hwv, se3ExpHat_homog]
  have eR : SE3.R (n.update dx).state = (SO3.ofVec w).R := by rw [SE3.R, e, tl3_homog]
  have et : SE3.t (n.update dx).state = vMat w *ᵥ v := by rw [SE3.t, e, tr3_homog]
  rw [eR, et]
  refine ⟨e, nearOrthogonal_ofVec w, ?_⟩
  rcases lt_or_ge (len w) 1e-5 with h | h
  · exact (C03_rotation_small w h).2
  · rw [(C03_rotation_exact w (Or.inl h)).2]; norm_num

/-- `update(dx)` multiplies the pose on the left by `exp(dx)` when the resulting rotation is outside the approximated
bands and is not a rotation by a right angle or more about a horizontal diagonal. -/
theorem C62_update_partial (n : NodeObj .pose3d) (hn : IsRigid (SE3.T n.state)) (w v : Vec3)
    (hw : 1e-3 < len w ∨ w = 0)
    (hlo : angle (SE3.updateLhs n.state (vec6 w v)).R = 0 ∨ 5e-3 < angle (SE3.updateLhs n.state (vec6 w v)).R)
    (hhi : angle (SE3.updateLhs n.state (vec6 w v)).R ≤ Real.pi - 6e-8 ∨
      angle (SE3.updateLhs n.state (vec6 w v)).R = Real.pi)
    (hax : angle (SE3.updateLhs n.state (vec6 w v)).R < Real.pi / 2 ∨
      ¬ FixesDiagonal (SE3.updateLhs n.state (vec6 w v)).R) :
    SE3.T (n.update (vec6 w v)).state = exp (twist w v) * SE3.T n.state := by
  have hr : IsRigid (SE3.updateLhs n.state (vec6 w v)).T := by
    have : IsRigid (SE3.ofVec (vec6 w v)).T := by
      rw [se3_ofVec_T, head3_vec6]
      refine isRigid_homog ?_ _
      rcases hw with hw | rfl
      · exact ofVec_isRotation_of_ge (by rw [← len_eq_vnorm]; exact le_trans (by norm_num) hw.le)
      · rw [ofVec_zero]; exact isRotation_one
    exact mul_isRigid this hn
  change (SE3.updateLhs n.state (vec6 w v)).regenerate.T = _
  rw [C13_regenerate hr, C13_exp_ln_partial hr hlo hhi hax]
  change (SE3.ofVec (vec6 w v)).T * SE3.T n.state = _
  rw [C08_exp_exact w v hw]

/-- A quarter turn about the vertical axis, pushed by a pure translation. -/
example : ∃ n : NodeObj .pose3d, IsRigid (SE3.T n.state) ∧ (1e-3 < len (0 : Vec3) ∨ (0 : Vec3) = 0) ∧
    5e-3 < angle (SE3.updateLhs n.state (vec6 0 ![1, 2, 3])).R ∧
    angle (SE3.updateLhs n.state (vec6 0 ![1, 2, 3])).R ≤ Real.pi - 6e-8 ∧
    angle (SE3.updateLhs n.state (vec6 0 ![1, 2, 3])).R < Real.pi / 2 := by
  have hp := Real.two_le_pi
  refine ⟨⟨⟨homog (rotX (1 / 2)) 0 1⟩, ⟨homog (rotX (1 / 2)) 0 1⟩⟩, isRigid_homog (rotX_isRotation _) _, Or.inr rfl, ?_⟩
  have e : (SE3.updateLhs ⟨homog (rotX (1 / 2)) 0 1⟩ (vec6 0 ![1, 2, 3])).R = rotX (1 / 2) := by
    rw [SE3.updateLhs, SE3.R, se3_ofVec_T, homog_mul, tl3_homog, head3_vec6, ofVec_zero, Matrix.one_mul]
  change 5e-3 < angle (SE3.updateLhs ⟨homog (rotX (1 / 2)) 0 1⟩ (vec6 0 ![1, 2, 3])).R ∧ _ ∧ _
  rw [e, angle_rotX (by norm_num) (by linarith)]
  refine ⟨by norm_num, by norm_num; linarith, by linarith⟩

/-- The full property is false: `update(0)` turns a half turn about the diagonal `(1,1,0)` into a node without
rotation. -/
theorem C62_update_fails : ∃ n : NodeObj .pose3d, IsRigid (SE3.T n.state) ∧
    SE3.R (n.update (0 : Vec6)).state = 1 ∧ SE3.R n.state ≠ 1 := by
  obtain ⟨a, h1, -, -, h4, h5⟩ := C13_full_fails
  refine ⟨⟨a, a⟩, h1, ?_, h5⟩
  have hz : SE3.updateLhs a 0 = a := by
    have h0 : head3 (0 : Vec6) = 0 := rfl
    have h1 : tail3 (0 : Vec6) = 0 := rfl
    ext1
    change (SE3.ofVec 0).T * a.T = a.T
    rw [se3_ofVec_T, h0, h1, ofVec_zero, mulVec_zero, homog_one, Matrix.one_mul]
  change (SE3.updateLhs a 0).regenerate.R = 1
  rw [hz, C13_regenerate h1, h4]

/-- `update_from_auxiliary(dx)` does not regenerate: it is exactly the left multiplication. -/
theorem C62_update_from_auxiliary (n : NodeObj .pose3d) (w v : Vec3) (hw : 1e-3 < len w ∨ w = 0) :
    SE3.T (n.updateFromAux (vec6 w v)).state = exp (twist w v) * SE3.T n.aux := by
  change (SE3.ofVec (vec6 w v)).T * SE3.T n.aux = _
  rw [C08_exp_exact w v hw]

example : 1e-3 < len ![(1 : ℝ), -2, 2] := by
  rw [len_vec3, show (1:ℝ) * 1 + -2 * -2 + 2 * 2 = 3 ^ 2 by norm_num, Real.sqrt_sq] <;> norm_num

end Mrob
