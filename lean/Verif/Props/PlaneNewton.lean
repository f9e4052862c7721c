import Verif.Props.PlaneDescentDemo

/-! # Property C113: the steps of the second-order modes of the plane registration -/

open Matrix

namespace Mrob

open Spec PlaneReg

namespace PlaneReg

theorem stat6_dyn6 (g : Vec6) : stat6 (dyn6 g) = g := by
  funext i
  rw [stat6, dyn6, Equiv.symm_apply_apply]

theorem dyn6_stat6 (x : Fin 6 → ℝ) : dyn6 (stat6 x) = x := by
  funext i
  exact congrArg x (Equiv.apply_symm_apply _ i)

/-- The matrix of dynamic size. -/
theorem dyn6_mulVec (H : Mat6) (x : Fin 6 → ℝ) :
    (Matrix.of fun i j => H (finSumFinEquiv.symm i) (finSumFinEquiv.symm j)) *ᵥ x = dyn6 (H *ᵥ stat6 x) := by
  funext i
  rw [dyn6, mulVec, mulVec, dotProduct, dotProduct]
  refine (Equiv.sum_comp finSumFinEquiv _).symm.trans (Finset.sum_congr rfl fun j _ => ?_)
  rw [Matrix.of_apply, Equiv.symm_apply_apply, stat6]

theorem dot_stat6 (g : Vec6) (x : Fin 6 → ℝ) : g ⬝ᵥ stat6 x = dyn6 g ⬝ᵥ x := by
  rw [dotProduct, dotProduct]
  refine Eq.trans (Finset.sum_congr rfl fun j _ => ?_) (Equiv.sum_comp finSumFinEquiv _)
  rw [dyn6, Equiv.symm_apply_apply, stat6]

/-- The parts of an iteration. -/
theorem iteration_parts {e : EigSolver} {s s' : OptDense PlaneReg} {b : Bool} {T : SE3} (hr : s.obj.Ready T)
    (h : s.oneIteration (problem e) b = .ok s') : ∃ (g : Vec6) (H : Mat6) (s1 : PlaneReg) (D : Matrix (Fin 6) (Fin 6) ℝ) (x : Fin 6 → ℝ),
      s.obj.gradHess6 e = .ok ((g, H), s1) ∧
      D = (if b then OptDense.damp s.method s.lambda (Matrix.of fun i j => H (finSumFinEquiv.symm i) (finSumFinEquiv.symm j))
        else Matrix.of fun i j => H (finSumFinEquiv.symm i) (finSumFinEquiv.symm j)) ∧
      D *ᵥ x = -dyn6 g ∧ s'.sys = ⟨6, D, dyn6 g, x⟩ ∧ s'.obj.traj = trajTo s.obj.numberPoses (T.updateLhs (stat6 x)) := by
  rw [OptDense.oneIteration] at h
  obtain ⟨⟨en, o⟩, h1, h⟩ := Out.bind_eq_ok.mp h
  change (gradHess6 e s.obj >>= _) = _ at h1
  obtain ⟨⟨⟨g, H⟩, s1⟩, h3, h1⟩ := Out.bind_eq_ok.mp h1
  dsimp only at h1
  rw [Out.ok.injEq, Prod.mk.injEq] at h1
  obtain ⟨rfl, rfl⟩ := h1
  dsimp only at h
  set D := (if b then OptDense.damp s.method s.lambda (Matrix.of fun i j => H (finSumFinEquiv.symm i) (finSumFinEquiv.symm j))
        else Matrix.of fun i j => H (finSumFinEquiv.symm i) (finSumFinEquiv.symm j)) with hD
  by_cases hu : IsUnit D.det
  · rw [if_pos hu] at h
    obtain ⟨o', h2, h⟩ := Out.bind_eq_ok.mp h
    simp only [Out.pure_eq, Out.ok.injEq] at h
    rw [problem_update] at h2
    obtain ⟨f, -⟩ := gradHess6_frame h3
    have i1 := hr.pose.planesOnly f
    obtain ⟨ps, f⟩ := f
    have f : s1 = _ := f
    have h4 := moveLast_trajTo i1 (T := T) (by rw [f]; exact hr.two) (by rw [f]; exact hr.last) (stat6 (-(D⁻¹ *ᵥ dyn6 g)))
    rw [h4] at h2
    obtain rfl := Out.ok.inj h2
    refine ⟨g, H, s1, D, -(D⁻¹ *ᵥ dyn6 g), h3, rfl, ?_, ?_, ?_⟩
    · rw [mulVec_neg, mulVec_mulVec, mul_nonsing_inv _ hu, one_mulVec]
    · rw [← h]
    · rw [← h]
      change trajTo s1.numberPoses _ = _
      rw [f]
  · rw [if_neg hu] at h
    simp at h

end PlaneReg

/-- C113: an iteration moves the last pose, from the left, by the exponential of a vector that solves the equations of the
method, with the gradient and the Hessian of `calculate_gradient_hessian`; the poses between are interpolated. -/
theorem C113_step (e : EigSolver) (s s' : OptDense PlaneReg) (b : Bool) (T : SE3) (hr : s.obj.Ready T)
    (h : s.oneIteration (problem e) b = .ok s') : ∃ (g : Vec6) (H : Mat6) (s1 : PlaneReg) (x : Vec6),
      s.obj.gradHess6 e = .ok ((g, H), s1) ∧ s'.obj.traj = trajTo s.obj.numberPoses (T.updateLhs x) ∧
      (b = false ∨ s.method = .newtonRaphson → H *ᵥ x = -g) ∧
      (b = true → s.method = .lmSpher → H *ᵥ x + s.lambda • x = -g) ∧
      (b = true → s.method = .lmEllip → H *ᵥ x + s.lambda • (fun i => H i i * x i) = -g) := by
  obtain ⟨g, H, s1, D, x, h1, h2, h3, -, h5⟩ := iteration_parts hr h
  have key : ∀ u : Vec6, dyn6 u = -dyn6 g → u = -g := by
    intro u hu
    rw [← stat6_dyn6 u, hu, ← stat6_dyn6 (-g)]
    rfl
  refine ⟨g, H, s1, stat6 x, h1, h5, fun hb => ?_, fun hb hm => ?_, fun hb hm => ?_⟩
  · refine key _ ?_
    rw [← dyn6_mulVec, ← h3, h2]
    congr 1
    rcases hb with rfl | hb
    · rfl
    · rw [hb]; split_ifs <;> rfl
  · refine key _ ?_
    rw [← h3, h2, if_pos hb, hm]
    have e1 : ∀ M : Matrix (Fin 6) (Fin 6) ℝ, OptDense.damp .lmSpher s.lambda M = M + s.lambda • (1 : Matrix _ _ ℝ) := by
      intro M
      ext i j
      by_cases hij : i = j
      · subst hij; simp [OptDense.damp]
      · simp [OptDense.damp, hij]
    rw [e1, add_mulVec, smul_mulVec, one_mulVec, dyn6_mulVec]
    conv_rhs => rw [← dyn6_stat6 x]
    rw [dyn6_stat6]
    funext i
    change (H *ᵥ stat6 x) _ + s.lambda * stat6 x _ = (H *ᵥ stat6 x) _ + s.lambda * x i
    rw [stat6, Equiv.apply_symm_apply]
  · refine key _ ?_
    rw [← h3, h2, if_pos hb, hm]
    have e1 : ∀ M : Matrix (Fin 6) (Fin 6) ℝ, OptDense.damp .lmEllip s.lambda M = M + s.lambda • Matrix.diagonal M.diag := by
      intro M
      ext i j
      by_cases hij : i = j
      · subst hij; simp [OptDense.damp]; ring
      · simp [OptDense.damp, hij]
    rw [e1, add_mulVec, smul_mulVec, dyn6_mulVec]
    funext i
    rw [Pi.add_apply, Pi.smul_apply, mulVec_diagonal]
    change (H *ᵥ stat6 x) _ + s.lambda * (H _ _ * stat6 x _) = (H *ᵥ stat6 x) _ + s.lambda * (H _ _ * x i)
    rw [stat6, Equiv.apply_symm_apply]

/-- C113, direction: for two poses, or a trajectory of identities, if the (damped) Hessian is positive definite and the
gradient is not zero, the step goes downhill: moving the last pose by a small part of it reduces the registration error.
Missing: more poses away from the identity (there the gradient of the code is not that of the error: `C65_gradient_fails`). -/
theorem C113_descent_partial (e : EigSolver) (he : e.Sound) (s s' : OptDense PlaneReg) (b : Bool) (T : SE3) (hr : s.obj.Ready T)
    (hT : s.obj.numberPoses = 2 ∧ IsRigid T.T ∨ T = SE3.default) (h : s.oneIteration (problem e) b = .ok s')
    (hpd : s'.sys.L.PosDef) (hg : s'.sys.b ≠ 0) : ∃ x : Vec6, s'.obj.traj = trajTo s.obj.numberPoses (T.updateLhs x) ∧
      ∃ a₀ : ℝ, 0 < a₀ ∧ ∀ a : ℝ, 0 < a → a < a₀ → ∀ s1 err o err' o', s.obj.moveLast (a • x) = .ok s1 → s.obj.error e = .ok (err, o) →
        s1.error e = .ok (err', o') → err' < err := by
  obtain ⟨g, H, s1, D, x, h1, -, h3, h4, h5⟩ := iteration_parts hr h
  have hp := hr.prepared
  have hTr : LastRow T.T := by
    rcases hT with h | h
    · exact h.2.lastRow
    · rw [h]; exact rigid_default.lastRow
  have htr : s.obj.traj = trajTo s.obj.numberPoses T := interpolated_traj hr.pose hr.two hr.interp hr.last
  have hderiv : ∀ xi : Vec6, ∃ E : ℝ → ℝ, (∀ k : ℝ, s1.lastCost (k • xi) = .ok (E k)) ∧ HasDerivAt E (g ⬝ᵥ xi) 0 := by
    intro xi
    rcases hT with h2 | h2
    · exact C65_gradient_two_poses_partial e s.obj T hr h2.1 h2.2 g H s1 h1 xi
    · have e1 : SE3.default = ⟨homog 1 0 1⟩ := by rw [SE3.default, homog_one]
      rw [h2, e1] at hr
      exact C65_gradient_translation_partial e s.obj 0 hr g H s1 h1 xi (mulVec_zero _)
  rw [h4] at hpd hg
  have hpd : D.PosDef := hpd
  have hg : dyn6 g ≠ 0 := hg
  have hx : x ≠ 0 := by
    rintro rfl
    rw [mulVec_zero] at h3
    exact hg (neg_eq_zero.mp h3.symm)
  have hneg : g ⬝ᵥ stat6 x < 0 := by
    have := hpd.dotProduct_mulVec_pos hx
    rw [h3, star_trivial, dotProduct_neg, dotProduct_comm] at this
    rw [dot_stat6]
    linarith
  obtain ⟨E, hE, hd⟩ := hderiv (stat6 x)
  obtain ⟨a₀, ha, hlt⟩ := decrease hd hneg
  have hEa : ∀ a, E a = (s.obj.planes.map fun q => planeCost (planeOf e s.obj q.2)
      ((trajTo s.obj.numberPoses (T.updateLhs (a • stat6 x))).map SE3.T) q.2.points).sum := by
    intro a
    have := hE a
    rw [hr.cost h1, Out.ok.injEq] at this
    exact this.symm
  refine ⟨stat6 x, h5, a₀, ha, fun a ha0 ha1 m err o err' o' k1 k2 k3 => ?_⟩
  rw [moveLast_trajTo hr.pose hr.two hr.last] at k1
  obtain rfl := Out.ok.inj k1
  have q1 : err = errOf e s.obj.planes s.obj.traj := (error_ok hr.wf k2).1
  have q2 : err' = errOf e s.obj.planes (trajTo s.obj.numberPoses (T.updateLhs (a • stat6 x))) :=
    (error_ok (s := { s.obj with traj := trajTo s.obj.numberPoses (T.updateLhs (a • stat6 x)) }) hr.wf k3).1
  have q3 := hlt a ha0 ha1
  have h0 : E 0 = errOf e s.obj.planes s.obj.traj := by
    rw [hEa, zero_smul, updateLhs_zero', ← htr, errOf_eq he hp]
    rw [htr, trajTo_eq]
    intro X hX
    obtain ⟨t, -, rfl⟩ := List.mem_map.mp hX
    exact lastRow_poseAt hTr t
  rw [hEa, h0, ← q1] at q3
  have q4 := (errOf_le he hp (traj := trajTo s.obj.numberPoses (T.updateLhs (a • stat6 x))) (by
    intro X hX
    rw [trajTo_eq] at hX
    obtain ⟨t, -, rfl⟩ := List.mem_map.mp hX
    exact lastRow_poseAt (lastRow_updateLhs hTr _) t)).trans_lt q3
  rwa [← q2] at q4

namespace Demo

theorem symUpper_symm (A : Mat6) : (PlaneReg.symUpper A)ᵀ = PlaneReg.symUpper A := by
  ext i j
  rw [transpose_apply, PlaneReg.symUpper, Matrix.of_apply, Matrix.of_apply]
  rcases lt_trichotomy (pos6 i) (pos6 j) with h | h | h
  · rw [if_neg (by omega), if_pos (by omega)]
  · obtain rfl : i = j := by
      rcases i with i | i <;> rcases j with j | j <;> simp [pos6] at h ⊢ <;> omega
    rfl
  · rw [if_pos (by omega), if_neg (by omega)]

/-- A symmetric matrix is made positive definite by a large damping. -/
theorem damped_posDef {n : ℕ} (M : Matrix (Fin n) (Fin n) ℝ) (hM : Mᵀ = M) : ∃ l : ℝ, (M + l • (1 : Matrix _ _ ℝ)).PosDef := by
  refine ⟨∑ i, ∑ j, |M i j| + 1, Matrix.PosDef.of_dotProduct_mulVec_pos ?_ fun {x} hx => ?_⟩
  · rw [IsHermitian, conjTranspose_eq_transpose_of_trivial, transpose_add, transpose_smul, transpose_one, hM]
  · have h0 : 0 < x ⬝ᵥ x := lt_of_le_of_ne (Finset.sum_nonneg fun i _ => mul_self_nonneg _) fun h => hx (dotProduct_self_eq_zero.mp h.symm)
    have hle : ∀ i, x i * x i ≤ x ⬝ᵥ x := fun i =>
      Finset.single_le_sum (f := fun i => x i * x i) (fun i _ => mul_self_nonneg _) (Finset.mem_univ i)
    have h1 : -((∑ i, ∑ j, |M i j|) * (x ⬝ᵥ x)) ≤ x ⬝ᵥ (M *ᵥ x) := by
      rw [Finset.sum_mul, ← Finset.sum_neg_distrib]
      refine Finset.sum_le_sum fun i _ => ?_
      rw [Finset.sum_mul, ← Finset.sum_neg_distrib]
      change _ ≤ x i * ∑ j, M i j * x j
      rw [Finset.mul_sum]
      refine Finset.sum_le_sum fun j _ => ?_
      have e1 : |x i * x j| ≤ x ⬝ᵥ x := by
        rw [abs_le]
        constructor <;> nlinarith [hle i, hle j, sq_nonneg (x i + x j), sq_nonneg (x i - x j)]
      have e2 : x i * (M i j * x j) = M i j * (x i * x j) := by ring
      rw [e2]
      refine (neg_le_neg (mul_le_mul_of_nonneg_left e1 (abs_nonneg (M i j)))).trans ?_
      rw [← abs_mul]
      exact neg_abs_le _
    rw [star_trivial, add_mulVec, smul_mulVec, one_mulVec, dotProduct_add, dotProduct_smul, smul_eq_mul]
    linarith

theorem stack_ready (e : EigSolver) (svd : Mat3 → SVD3) (a : ℝ) : (stackReg a).Ready SE3.default := by
  refine ⟨run_inv new_inv (stackOps_run e svd a), by change 2 ≤ 3; norm_num, interpolated_replicate (s := stackReg a) rfl, ?_, ?_, ?_, rfl⟩
  all_goals
    intro q hq
    obtain rfl : q = (0, stackPlane) := List.mem_singleton.mp hq
  · exact ⟨rfl, Or.inl rfl⟩
  · exact Or.inl rfl
  · rfl

/-- The gradient along the vertical. -/
theorem stack_slope {e : EigSolver} (he : e.Sound) (a : ℝ) (hr : (stackReg a).Ready SE3.default) {g : Vec6} {H : Mat6} {s1 : PlaneReg}
    (hg : (stackReg a).gradHess6 e = .ok ((g, H), s1)) : g ⬝ᵥ vec6 0 ![0, 0, 1] = 0.8 := by
  have hu : stackPlane.usedS = stackPts.map sumOuter := rfl
  obtain ⟨c, hc, hpl⟩ := stack_plane he (s := stackReg a) traj_stack hu
  have e1 : SE3.default = ⟨homog 1 0 1⟩ := by rw [SE3.default, homog_one]
  have hr' := hr
  rw [e1] at hr'
  obtain ⟨E, hE, hd⟩ := C65_gradient_translation_partial e (stackReg a) 0 hr' g H s1 hg (vec6 0 ![0, 0, 1]) (mulVec_zero _)
  have hEk : E = fun k => 1.52 + 0.8 * k + 6 * k ^ 2 := by
    funext k
    have h1 := hE k
    rw [hr.cost hg, Out.ok.injEq] at h1
    have h2 : SE3.default.updateLhs (k • vec6 0 ![0, 0, 1]) = up k := by
      rw [← up_zero, up, updateLhs_homog_translation, up]
      congr 2
      funext i
      fin_cases i <;> simp
    rw [← h1, h2]
    change ([(0, stackPlane)].map fun q => planeCost (planeOf e (stackReg a) q.2) ((trajTo 3 (up k)).map SE3.T) q.2.points).sum = _
    rw [List.map_singleton, List.sum_singleton, hpl]
    change planeCost _ _ stackPts = _
    rw [stack_cost]
    simp
    linear_combination (1.52 + 0.8 * k + 6 * k ^ 2) * hc
  rw [hEk] at hd
  have hd' : HasDerivAt (fun k : ℝ => 1.52 + 0.8 * k + 6 * k ^ 2) (0.8 * 1 + 6 * (((2 : ℕ) : ℝ) * 0 ^ (2 - 1) * 1)) 0 :=
    (((hasDerivAt_id (0 : ℝ)).const_mul 0.8).const_add 1.52).add (((hasDerivAt_id (0 : ℝ)).pow 2).const_mul 6)
  have := hd.unique hd'
  rw [this]
  norm_num

end Demo

/-- The hypotheses are met: squares at three heights, three poses, a damping which makes the Hessian positive definite. -/
example (e : EigSolver) (he : e.Sound) (svd : Mat3 → SVD3) : ∃ (r s s' : OptDense PlaneReg),
    PlaneReg.run e svd (Demo.stackOps 1) (OptDense.new PlaneReg.new) = .ok r ∧ s.obj = r.obj ∧ s.method = .lmSpher ∧
    s.obj.Ready SE3.default ∧ s.oneIteration (problem e) true = .ok s' ∧ s'.sys.L.PosDef ∧ s'.sys.b ≠ 0 := by
  have hr := Demo.stack_ready e svd 1
  obtain ⟨s1, h1, -, -, -⟩ := gradHess6_value (e := e) hr.wf (le_refl 3) hr.time
  have hs := Demo.stack_slope he 1 hr h1
  generalize hg : ((Demo.stackReg 1).times.map fun t : ℕ => ((Demo.stackReg 1).tau * t) •
        ((Demo.stackReg 1).planes.map fun q => (q.2.estimated e (Demo.stackReg 1).traj q.2.usedS).gAt t).sum).sum = g at h1 hs
  obtain ⟨H, hH, hHs⟩ : ∃ H : Mat6, ((Demo.stackReg 1).times.map fun t : ℕ => ((Demo.stackReg 1).tau * t) • PlaneReg.symUpper
        ((Demo.stackReg 1).planes.map fun q => (q.2.estimated e (Demo.stackReg 1).traj q.2.usedS).hAt t).sum).sum = H ∧ Hᵀ = H := by
    refine ⟨_, rfl, ?_⟩
    rw [transpose_list_sum, List.map_map]
    refine congrArg List.sum (List.map_congr_left fun t _ => ?_)
    rw [Function.comp_apply, transpose_smul, Demo.symUpper_symm]
  rw [hH] at h1
  set M : Matrix (Fin 6) (Fin 6) ℝ := Matrix.of fun i j => H (finSumFinEquiv.symm i) (finSumFinEquiv.symm j) with hM
  obtain ⟨l, hl⟩ := Demo.damped_posDef M (by
    ext i j
    exact congrFun (congrFun hHs (finSumFinEquiv.symm i)) (finSumFinEquiv.symm j))
  have hd : OptDense.damp .lmSpher l M = M + l • (1 : Matrix _ _ ℝ) := by
    ext i j
    by_cases hij : i = j
    · subst hij; simp [OptDense.damp]
    · simp [OptDense.damp, hij]
  have hdyn : dyn6 g ≠ 0 := by
    intro h0
    have : g = 0 := by rw [← stat6_dyn6 g, h0]; rfl
    rw [this, zero_dotProduct] at hs
    norm_num at hs
  obtain ⟨f, -⟩ := gradHess6_frame h1
  have i1 := hr.pose.planesOnly f
  obtain ⟨ps, f⟩ := f
  have f : s1 = _ := f
  have hu : IsUnit (M + l • (1 : Matrix (Fin 6) (Fin 6) ℝ)).det := hl.isUnit.map Matrix.detMonoidHom
  have h4 := moveLast_trajTo i1 (T := SE3.default) (by rw [f]; exact hr.two) (by rw [f]; exact hr.last)
    (stat6 (-((M + l • (1 : Matrix (Fin 6) (Fin 6) ℝ))⁻¹ *ᵥ dyn6 g)))
  refine ⟨_, { OptDense.new (Demo.stackReg 1) with method := .lmSpher, lambda := l },
    { OptDense.new (Demo.stackReg 1) with
      method := .lmSpher
      lambda := l
      obj := { s1 with traj := trajTo s1.numberPoses (SE3.default.updateLhs (stat6 (-((M + l • (1 : Matrix (Fin 6) (Fin 6) ℝ))⁻¹ *ᵥ dyn6 g)))) }
      sys := ⟨6, M + l • 1, dyn6 g, -((M + l • (1 : Matrix (Fin 6) (Fin 6) ℝ))⁻¹ *ᵥ dyn6 g)⟩ },
    Demo.stackOps_run e svd 1, rfl, rfl, hr, ?_, hl, hdyn⟩
  rw [OptDense.oneIteration]
  change ((gradHess6 e (Demo.stackReg 1) >>= _) >>= _) = _
  rw [h1, Out.ok_bind, Out.ok_bind]
  dsimp only
  rw [if_pos rfl, hd, if_pos hu, problem_update, h4, Out.ok_bind]
  rfl

end Mrob
