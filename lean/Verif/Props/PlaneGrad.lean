import Verif.Props.Plane
import Verif.Lemmas.PlaneGrad
import Mathlib.Analysis.Calculus.LocalExtr.Basic
import Mathlib.Analysis.SpecialFunctions.Trigonometric.Deriv

/-! # Properties C52 and C63: gradient and Hessian of the plane error -/

open Matrix

namespace Mrob

open Spec

/-- The state of a plane after pushes and further calls, in the vocabulary of the specification. -/
theorem history_state {e : EigSolver} {n : ℕ} {pushes calls : List Plane.Op} {s : Plane}
    (hp : ∀ op ∈ pushes, op.isPush = true) (hc : ∀ op ∈ calls, op.isPush = false)
    (h : Plane.run e (pushes ++ calls) (Plane.new n) = .ok s) :
    s.Wf ∧ s.timeLength = n ∧ s.usedS = ((List.range n).map (Plane.pushedAt pushes)).map sumOuter := by
  rw [Plane.run_append] at h
  obtain ⟨s1, h1, h2⟩ := Out.bind_eq_ok.mp h
  obtain ⟨w1, tl1⟩ := Plane.run_wf (Plane.new_wf n) h1
  obtain ⟨w, tl⟩ := Plane.run_wf w1 h2
  obtain ⟨hpt, hpl, -⟩ := C49_points e n _ s1 h1
  have hpts : s1.points = (List.range n).map (Plane.pushedAt pushes) := by
    refine List.ext_getElem? fun t => ?_
    rcases lt_or_ge t n with h1 | h1
    · rw [hpt t h1, List.getElem?_map, List.getElem?_range h1]
      rfl
    · rw [List.getElem?_eq_none (by omega), List.getElem?_eq_none (by simpa using h1)]
  have hS1 : s1.S = [] := Plane.run_pushes_S (Plane.new_wf n) hp h1
  obtain ⟨p2, i2⟩ := Plane.run_noPush w1 hc h2
  exact ⟨w, tl.trans tl1, by rw [Plane.usedS_inSync (i2 (Or.inl hS1)), p2, hpts]⟩

/-- The gradient at pose `t`, after an estimation, is the derivative of the cost of the estimated plane, kept fixed, when
pose `t` of the trajectory is perturbed on the left by the pose update of the library, in every direction. -/
theorem C52_gradient (e : EigSolver) (n : ℕ) (pushes calls : List Plane.Op) (s s1 s2 : Plane)
    (hp : ∀ op ∈ pushes, op.isPush = true) (hc : ∀ op ∈ calls, op.isPush = false)
    (h : Plane.run e (pushes ++ calls) (Plane.new n) = .ok s) (traj : List SE3) (ht : ∀ T ∈ traj, IsRigid T.T) (lam : ℝ)
    (h1 : s.estimate e traj = .ok (lam, s1)) (t : ℕ) (T : SE3) (hT : traj[t]? = some T) (g : Vec6)
    (hg : s1.gradient t = .ok (g, s2)) (pl : Vec4) (hpl : s1.plane = some pl) (xi : Vec6) :
    HasDerivAt (fun h : ℝ => planeCost pl ((traj.set t (T.updateLhs (h • xi))).map SE3.T)
      ((List.range n).map (Plane.pushedAt pushes))) (g ⬝ᵥ xi) 0 := by
  obtain ⟨w, tl, hu⟩ := history_state hp hc h
  obtain ⟨hl, hr⟩ := Plane.estimate_inv w h1
  obtain ⟨rfl, rfl⟩ := Prod.mk.inj hr
  obtain ⟨Q, pl', hQ, hpl', hgr⟩ := Plane.gradient_inv hg
  obtain ⟨rfl, -⟩ := Prod.mk.inj hgr
  obtain rfl : pl' = pl := Option.some.inj (hpl'.symm.trans hpl)
  set clouds := (List.range n).map (Plane.pushedAt pushes) with hcl
  obtain ⟨ht1, rfl⟩ := List.getElem?_eq_some_iff.mp hT
  have hQ : (Plane.qList traj s.usedS)[t]? = some Q := hQ
  obtain ⟨ht2, rfl⟩ := List.getElem?_eq_some_iff.mp hQ
  have hul : s.usedS.length = n := by rw [Plane.usedS_length w, tl]
  have ht3 : t < s.usedS.length := by rwa [Plane.qList_length (by omega)] at ht2
  have hcn : clouds.length = n := by simp [hcl]
  rw [Plane.qList_getElem ht1 ht3]
  have e1 : s.usedS[t] = sumOuter clouds[t] := by
    simp [hu]
  rw [e1]
  have hX : LastRow traj[t].T := (ht _ (List.getElem_mem _)).lastRow
  have hd := (cloudCost_deriv hX pl' clouds[t] xi).const_add
    (planeCost pl' (traj.map SE3.T) clouds - cloudCost pl' traj[t].T clouds[t])
  refine hd.congr_of_eventuallyEq (Filter.Eventually.of_forall fun h => ?_)
  change planeCost pl' _ clouds = _
  rw [List.map_set, planeCost_set (by simpa using ht1) (by omega)]
  simp

/-- A run which reaches a gradient. -/
example : ∃ (e : EigSolver) (s s1 s2 : Plane) (lam : ℝ) (g : Vec6) (pl : Vec4),
    Plane.run e ([.push 0 0, .push 1 1] ++ []) (Plane.new 2) = .ok s ∧
    s.estimate e [SE3.default, SE3.default] = .ok (lam, s1) ∧ s1.gradient 1 = .ok (g, s2) ∧ s1.plane = some pl := by
  obtain ⟨e, -⟩ := exists_sound
  exact ⟨e, _, _, _, _, _, _, rfl, Plane.estimate_ok ⟨rfl, Or.inl rfl⟩ (by exact le_refl 2), rfl, rfl⟩

/-- Consequence for the error itself, whose plane is re-estimated at every pose: whenever the smallest eigenvalue is
differentiable along the direction, its derivative is the one given by `calculate_gradient`. -/
theorem C52_error_derivative (e : EigSolver) (he : e.Sound) (n : ℕ) (pushes calls : List Plane.Op) (s s1 s2 : Plane)
    (hp : ∀ op ∈ pushes, op.isPush = true) (hc : ∀ op ∈ calls, op.isPush = false)
    (h : Plane.run e (pushes ++ calls) (Plane.new n) = .ok s) (traj : List SE3) (ht : ∀ T ∈ traj, IsRigid T.T) (lam : ℝ)
    (h1 : s.estimate e traj = .ok (lam, s1)) (t : ℕ) (T : SE3) (hT : traj[t]? = some T) (g : Vec6)
    (hg : s1.gradient t = .ok (g, s2)) (xi : Vec6) (err : ℝ → ℝ) (d : ℝ)
    (herr : ∀ h : ℝ, ∃ s', s1.estimate e (traj.set t (T.updateLhs (h • xi))) = .ok (err h, s'))
    (hd : HasDerivAt err d 0) : d = g ⬝ᵥ xi := by
  obtain ⟨w, tl, hu⟩ := history_state hp hc h
  obtain ⟨pl, hpl, -, hopt⟩ := estimate_optimal he (fun T hT => (ht T hT).lastRow) w hu h1
  have hgd := C52_gradient e n pushes calls s s1 s2 hp hc h traj ht lam h1 t T hT g hg pl hpl xi
  obtain ⟨ht1, hTt⟩ := List.getElem?_eq_some_iff.mp hT
  have hlow : ∀ h : ℝ, err h ≤ planeCost pl ((traj.set t (T.updateLhs (h • xi))).map SE3.T)
      ((List.range n).map (Plane.pushedAt pushes)) := by
    intro h
    obtain ⟨s', hs'⟩ := herr h
    obtain ⟨hl, hr⟩ := Plane.estimate_inv w h1
    obtain ⟨-, rfl⟩ := Prod.mk.inj hr
    have hu' : (s.estimated e traj s.usedS).usedS = ((List.range n).map (Plane.pushedAt pushes)).map sumOuter := by
      rw [Plane.usedS]
      split_ifs with h0
      · have h0 : s.usedS = [] := h0
        have hn : n = 0 := by rw [← tl, ← Plane.usedS_length w, h0]; rfl
        subst hn
        have : (s.estimated e traj s.usedS).points.length = 0 := w.pts.trans tl
        rw [List.length_eq_zero_iff.mp this]
        rfl
      · exact hu
    obtain ⟨pl', -, -, ho⟩ := estimate_optimal he (traj := traj.set t (T.updateLhs (h • xi))) (fun A hA => by
      rcases List.mem_or_eq_of_mem_set hA with hA | rfl
      · exact (ht A hA).lastRow
      · exact lastRow_updateLhs (hTt ▸ ht _ (List.getElem_mem ht1)).lastRow _) (Plane.estimated_wf w) hu' hs'
    exact ho.2.2 pl hopt.1
  have h0 : err 0 = planeCost pl ((traj.set t (T.updateLhs ((0 : ℝ) • xi))).map SE3.T)
      ((List.range n).map (Plane.pushedAt pushes)) := by
    have hset : traj.set t (T.updateLhs ((0 : ℝ) • xi)) = traj := by
      rw [updateLhs_zero_smul, ← hTt, List.set_getElem_self]
    refine le_antisymm (hlow 0) ?_
    rw [hset, hopt.2.1]
    obtain ⟨s', hs'⟩ := herr 0
    rw [hset] at hs'
    obtain ⟨hl, hr⟩ := Plane.estimate_inv w h1
    obtain ⟨rfl, rfl⟩ := Prod.mk.inj hr
    obtain ⟨-, hr'⟩ := Plane.estimate_inv (Plane.estimated_wf (e := e) (traj := traj) w) hs'
    obtain ⟨h3, -⟩ := Prod.mk.inj hr'
    rw [h3]
    have : (s.estimated e traj s.usedS).usedS = s.usedS := by
      rw [Plane.usedS]
      split_ifs with h0
      · have h0 : s.usedS = [] := h0
        have hn : s.timeLength = 0 := by rw [← Plane.usedS_length w, h0]; rfl
        have : (s.estimated e traj s.usedS).points.length = 0 := w.pts.trans hn
        rw [List.length_eq_zero_iff.mp this, h0]
        rfl
      · rfl
    rw [this]
  have hmin : IsLocalMin (fun h : ℝ => planeCost pl ((traj.set t (T.updateLhs (h • xi))).map SE3.T)
      ((List.range n).map (Plane.pushedAt pushes)) - err h) 0 := by
    refine Filter.Eventually.of_forall fun h => ?_
    simp only
    rw [← h0, sub_self]
    exact sub_nonneg.mpr (hlow h)
  have := hmin.hasDerivAt_eq_zero (hgd.sub hd)
  linarith

/-- One point seen from one pose: the error is zero for every pose, hence differentiable. -/
example (xi : Vec6) : ∃ (e : EigSolver) (s s1 s2 : Plane) (lam : ℝ) (g : Vec6), e.Sound ∧
    Plane.run e ([.push ![1, 2, 3] 0] ++ []) (Plane.new 1) = .ok s ∧
    s.estimate e [SE3.default] = .ok (lam, s1) ∧ s1.gradient 0 = .ok (g, s2) ∧
    (∀ h : ℝ, ∃ s', s1.estimate e ([SE3.default].set 0 (SE3.default.updateLhs (h • xi))) = .ok (0, s')) ∧
    HasDerivAt (fun _ : ℝ => (0 : ℝ)) 0 0 := by
  obtain ⟨e, he⟩ := exists_sound
  obtain ⟨s, hs⟩ : ∃ s, Plane.run e ([.push ![1, 2, 3] 0] ++ []) (Plane.new 1) = .ok s := ⟨_, rfl⟩
  obtain ⟨w, tl, hu⟩ := history_state (by simp [Plane.Op.isPush]) (by simp) hs
  have hest := Plane.estimate_ok (e := e) (traj := [SE3.default]) w (by rw [tl]; exact le_refl 1)
  have hu1 : (s.estimated e [SE3.default] s.usedS).usedS = [[![1, 2, 3]]].map sumOuter := by rw [hu]; rfl
  refine ⟨e, s, s.estimated e [SE3.default] s.usedS,
    { s.estimated e [SE3.default] s.usedS with
      gradQ := some (gradOf (SE3.default.T * sumOuter [![1, 2, 3]] * SE3.default.Tᵀ)) },
    (e.eig4 (Plane.qList [SE3.default] s.usedS).sum).val 0,
    fun i => Plane.firstVec (e.eig4 (Plane.qList [SE3.default] s.usedS).sum) ⬝ᵥ
      (gradOf (SE3.default.T * sumOuter [![1, 2, 3]] * SE3.default.Tᵀ) i *ᵥ
        Plane.firstVec (e.eig4 (Plane.qList [SE3.default] s.usedS).sum)), he, hs, hest, ?_, fun h => ?_,
    hasDerivAt_const _ _⟩
  · have hQ : Out.index (s.estimated e [SE3.default] s.usedS).Q 0 =
        .ok (SE3.default.T * sumOuter [![1, 2, 3]] * SE3.default.Tᵀ) := by
      rw [Plane.estimated, hu]; rfl
    rw [Plane.gradient, hQ, Out.ok_bind]
    rfl
  · set T := SE3.default.updateLhs (h • xi)
    have hT : LastRow T.T := lastRow_updateLhs rigid_default.lastRow _
    have hest' := Plane.estimate_ok (e := e) (traj := [T]) (Plane.estimated_wf (e := e) (traj := [SE3.default]) w)
      (by change s.timeLength ≤ 1; rw [tl])
    obtain ⟨pl, -, -, ho⟩ := estimate_optimal he (fun A hA => by rw [show A = T by simpa using hA]; exact hT)
      (Plane.estimated_wf w) hu1 hest'
    refine ⟨(s.estimated e [SE3.default] s.usedS).estimated e [T] (s.estimated e [SE3.default] s.usedS).usedS,
      hest'.trans ?_⟩
    · congr 2
      refine le_antisymm ?_ (ho.2.1 ▸ planeCost_nonneg _ _ _)
      set q := movePoint T.T ![1, 2, 3] with hq
      have hpos : (0 : ℝ) < 1 + q 0 ^ 2 := by positivity
      have hsq : Real.sqrt (1 + q 0 ^ 2) ^ 2 = 1 + q 0 ^ 2 := Real.sq_sqrt hpos.le
      have hne : Real.sqrt (1 + q 0 ^ 2) ≠ 0 := (Real.sqrt_pos.mpr hpos).ne'
      refine (ho.2.2 (Sum.elim ![1 / Real.sqrt (1 + q 0 ^ 2), 0, 0] fun _ => -q 0 / Real.sqrt (1 + q 0 ^ 2)) ?_).trans ?_
      · simp only [Unit4, dotProduct, Fintype.sum_sum_type, Fin.sum_univ_three]
        simp
        field_simp
        rw [hsq]
      · simp [planeCost, cloudCost, planeEval, Fin.sum_univ_three, ← hq]
        ring_nf

/-! ## C63: the Hessian -/

/-- Six points on the axes. -/
def axes6 : List Vec3 := [![2, 0, 0], ![-2, 0, 0], ![0, 2, 0], ![0, -2, 0], ![0, 0, 1], ![0, 0, -1]]

/-- `calculate_hessian` is not the second derivative of the error of the (fixed) plane: for six points on the coordinate
axes, observed from one pose, the entry for rotations about `x` is `8`, the second derivative of the cost of the estimated
plane when the pose rotates about `x` is `12`. -/
theorem C63_fails (e : EigSolver) (he : e.Sound) :
    ∃ s s1 s2 lam g H pl, Plane.run e (axes6.map fun p => .push p 0) (Plane.new 1) = .ok s ∧
      s.estimate e [SE3.default] = .ok (lam, s1) ∧ s1.plane = some pl ∧ s1.gradient 0 = .ok (g, s2) ∧
      s2.hessian 0 = .ok H ∧ H (.inl 0) (.inl 0) = 8 ∧
      deriv (deriv fun h : ℝ => planeCost pl [homog (rotX h) 0 1] [axes6]) 0 = 12 := by
  obtain ⟨s, hs⟩ : ∃ s, Plane.run e (axes6.map fun p => .push p 0) (Plane.new 1) = .ok s := ⟨_, rfl⟩
  have w : s.Wf := (Plane.run_wf (Plane.new_wf 1) hs).1
  have tl : s.timeLength = 1 := by cases hs; rfl
  have hu : s.usedS = [axes6].map sumOuter := by cases hs; rfl
  have hest := Plane.estimate_ok (e := e) (traj := [SE3.default]) w (by rw [tl]; exact le_refl 1)
  obtain ⟨pl, hpl, -, ho⟩ := estimate_optimal he (fun A hA => by
    rw [show A = SE3.default by simpa using hA]; exact rigid_default.lastRow) w hu hest
  set lam := (e.eig4 (Plane.qList [SE3.default] s.usedS).sum).val 0
  have hcost : ∀ x : Vec4, planeCost x ([SE3.default].map SE3.T) [axes6] =
      8 * x (.inl 0) ^ 2 + 8 * x (.inl 1) ^ 2 + 2 * x (.inl 2) ^ 2 + 6 * x (.inr ()) ^ 2 := by
    intro x
    rw [planeCost_single]
    simp [axes6, planeEval, Fin.sum_univ_three]
    ring
  have hx' : pl (.inl 0) ^ 2 + pl (.inl 1) ^ 2 + pl (.inl 2) ^ 2 + pl (.inr ()) ^ 2 = 1 := by
    rw [← show pl ⬝ᵥ pl = 1 from ho.1]
    simp [dotProduct, Fintype.sum_sum_type, Fin.sum_univ_three, pow_two]
  have hle : lam ≤ 2 := by
    have := ho.2.2 (Sum.elim ![0, 0, 1] fun _ => 0) (by simp [Unit4, dotProduct, Fintype.sum_sum_type, Fin.sum_univ_three])
    rw [hcost] at this
    simpa using this
  have heq := ho.2.1
  rw [hcost] at heq
  have z0 : pl (.inl 0) = 0 := by
    apply pow_eq_zero_iff (n := 2) (by norm_num) |>.mp
    nlinarith [sq_nonneg (pl (.inl 0)), sq_nonneg (pl (.inl 1)), sq_nonneg (pl (.inr ()))]
  have z1 : pl (.inl 1) = 0 := by
    apply pow_eq_zero_iff (n := 2) (by norm_num) |>.mp
    nlinarith [sq_nonneg (pl (.inl 0)), sq_nonneg (pl (.inl 1)), sq_nonneg (pl (.inr ()))]
  have z3 : pl (.inr ()) = 0 := by
    apply pow_eq_zero_iff (n := 2) (by norm_num) |>.mp
    nlinarith [sq_nonneg (pl (.inl 0)), sq_nonneg (pl (.inl 1)), sq_nonneg (pl (.inr ()))]
  have hc : pl (.inl 2) ^ 2 = 1 := by rw [z0, z1, z3] at hx'; linarith
  let Q : Mat4 := SE3.default.T * sumOuter axes6 * SE3.default.Tᵀ
  have hQe : Q = sumOuter axes6 := by simp [Q, SE3.default]
  have hQ : Out.index (s.estimated e [SE3.default] s.usedS).Q 0 = .ok Q := by
    rw [Plane.estimated, hu]; rfl
  obtain ⟨hm, -⟩ := C49_moments axes6
  have q11 : Q (.inl 1) (.inl 1) = 8 := by rw [hQe, hm]; simp [axes6]; norm_num
  have q22 : Q (.inl 2) (.inl 2) = 2 := by rw [hQe, hm]; simp [axes6]; norm_num
  refine ⟨s, _, { s.estimated e [SE3.default] s.usedS with gradQ := some (gradOf Q) }, lam,
    fun i => pl ⬝ᵥ (gradOf Q i *ᵥ pl),
    Matrix.of fun i j => if pos6 i ≤ pos6 j then pl ⬝ᵥ (ddQ Q (gradOf Q) i j *ᵥ pl) else 0, pl, hs, hest, hpl, ?_, ?_, ?_, ?_⟩
  · rw [Plane.gradient, hQ, Out.ok_bind]
    obtain hf : Plane.firstVec (e.eig4 (Plane.qList [SE3.default] s.usedS).sum) = pl := Option.some.inj hpl
    rw [← hf]
    rfl
  · rw [Plane.hessian]
    have hQ' : Out.index ({ s.estimated e [SE3.default] s.usedS with gradQ := some (gradOf Q) } : Plane).Q 0 = .ok Q := hQ
    obtain hf : Plane.firstVec (e.eig4 (Plane.qList [SE3.default] s.usedS).sum) = pl := Option.some.inj hpl
    rw [hQ', Out.ok_bind, ← hf]
    rfl
  · have hval : ddQ Q (gradOf Q) (.inl 0) (.inl 0) (.inl 2) (.inl 2) = 8 := by
      simp [ddQ, lieG, homog, Matrix.mul_apply, Fintype.sum_sum_type, Fin.sum_univ_three, gradOf, gradRows, rows4, q11, q22]
      norm_num
    simp only [Matrix.of_apply, le_refl, if_true]
    have : pl ⬝ᵥ (ddQ Q (gradOf Q) (.inl 0) (.inl 0) *ᵥ pl) = pl (.inl 2) ^ 2 * ddQ Q (gradOf Q) (.inl 0) (.inl 0) (.inl 2) (.inl 2) := by
      simp [mulVec, dotProduct, Fintype.sum_sum_type, Fin.sum_univ_three, z0, z1, z3]
      ring
    rw [this, hval, hc, one_mul]
  · have hf : (fun h : ℝ => planeCost pl [homog (rotX h) 0 1] [axes6]) = fun h => 8 * Real.sin h ^ 2 + 2 * Real.cos h ^ 2 := by
      funext h
      simp [planeCost, cloudCost, axes6, planeEval, movePoint, homog, rotX, Fin.sum_univ_three, z0, z1, z3]
      linear_combination (8 * Real.sin h ^ 2 + 2 * Real.cos h ^ 2) * hc
    have hd : deriv (fun h : ℝ => 8 * Real.sin h ^ 2 + 2 * Real.cos h ^ 2) = fun h => 12 * (Real.sin h * Real.cos h) := by
      funext h
      have := (((Real.hasDerivAt_sin h).pow 2).const_mul 8).add (((Real.hasDerivAt_cos h).pow 2).const_mul 2)
      refine (this.congr_deriv ?_).deriv
      push_cast
      ring
    rw [hf, hd]
    have := ((Real.hasDerivAt_sin 0).mul (Real.hasDerivAt_cos 0)).const_mul 12
    refine (this.congr_deriv ?_).deriv
    simp

/-- The part which is right: in the directions of pure translation the cost of the fixed plane is a quadratic polynomial of
the step, and the translation block of `calculate_hessian` (read as the upper triangle of a symmetric matrix) is its second
derivative.

Missing: all entries which involve a rotation, see `C63_fails` and, for the exact error, `C63_exact` in
`Verif/Props/PlaneSecond.lean`. -/
theorem C63_translation_partial (e : EigSolver) (n : ℕ) (pushes calls : List Plane.Op) (s s1 s2 : Plane)
    (hp : ∀ op ∈ pushes, op.isPush = true) (hc : ∀ op ∈ calls, op.isPush = false)
    (h : Plane.run e (pushes ++ calls) (Plane.new n) = .ok s) (traj : List SE3) (ht : ∀ T ∈ traj, IsRigid T.T) (lam : ℝ)
    (h1 : s.estimate e traj = .ok (lam, s1)) (t : ℕ) (T : SE3) (hT : traj[t]? = some T) (g : Vec6) (H : Mat6)
    (hg : s1.gradient t = .ok (g, s2)) (hH : s2.hessian t = .ok H) (pl : Vec4) (hpl : s1.plane = some pl) (v : Vec3) (k : ℝ) :
    cloudCost pl (T.updateLhs (k • vec6 0 v)).T (Plane.pushedAt pushes t) =
      cloudCost pl T.T (Plane.pushedAt pushes t) + k * (g ⬝ᵥ vec6 0 v) +
        k ^ 2 / 2 * ∑ i, ∑ j, v i * v j * (if i ≤ j then H (.inr i) (.inr j) else H (.inr j) (.inr i)) := by
  obtain ⟨w, tl, hu⟩ := history_state hp hc h
  obtain ⟨hl, hr⟩ := Plane.estimate_inv w h1
  obtain ⟨rfl, rfl⟩ := Prod.mk.inj hr
  obtain ⟨Q, pl', hQ, hpl', hgr⟩ := Plane.gradient_inv hg
  obtain ⟨rfl, rfl⟩ := Prod.mk.inj hgr
  obtain rfl : pl' = pl := Option.some.inj (hpl'.symm.trans hpl)
  obtain ⟨ht1, rfl⟩ := List.getElem?_eq_some_iff.mp hT
  have hQ : (Plane.qList traj s.usedS)[t]? = some Q := hQ
  have hH : (Out.index (Plane.qList traj s.usedS) t >>= fun Q' => Out.ok (Matrix.of fun i j : I6 => if pos6 i ≤ pos6 j then
      Plane.firstVec (e.eig4 (Plane.qList traj s.usedS).sum) ⬝ᵥ (ddQ Q' (gradOf Q) i j *ᵥ
        Plane.firstVec (e.eig4 (Plane.qList traj s.usedS).sum)) else 0)) = .ok H := hH
  rw [Out.index_eq_ok.mpr hQ, Out.ok_bind, show Plane.firstVec (e.eig4 (Plane.qList traj s.usedS).sum) = pl' from
    Option.some.inj hpl'] at hH
  obtain rfl := Out.ok.inj hH
  obtain ⟨ht2, rfl⟩ := List.getElem?_eq_some_iff.mp hQ
  have hul : s.usedS.length = n := by rw [Plane.usedS_length w, tl]
  have ht3 : t < s.usedS.length := by rwa [Plane.qList_length (by omega)] at ht2
  rw [Plane.qList_getElem ht1 ht3]
  have e1 : s.usedS[t] = sumOuter (Plane.pushedAt pushes t) := by
    simp [hu]
  rw [e1, cloudCost_translation (ht _ (List.getElem_mem _)).lastRow]
  congr 1
  have e2 : ∀ i j : Fin 3, pos6 (.inr i) ≤ pos6 (.inr j) ↔ i ≤ j := fun i j => by simp [pos6]
  simp only [Matrix.of_apply, hessian_translation, e2]
  have e3 : ∀ i j : Fin 3, v i * v j * (if i ≤ j then (if i ≤ j then 2 * pl' (.inl i) * pl' (.inl j) *
      (traj[t].T * sumOuter (Plane.pushedAt pushes t) * traj[t].Tᵀ) (.inr ()) (.inr ()) else 0) else
      (if j ≤ i then 2 * pl' (.inl j) * pl' (.inl i) *
      (traj[t].T * sumOuter (Plane.pushedAt pushes t) * traj[t].Tᵀ) (.inr ()) (.inr ()) else 0)) =
      v i * v j * (2 * pl' (.inl i) * pl' (.inl j) *
      (traj[t].T * sumOuter (Plane.pushedAt pushes t) * traj[t].Tᵀ) (.inr ()) (.inr ())) := by
    intro i j
    rcases le_total i j with hij | hij
    · simp [hij]
    · by_cases h2 : i ≤ j
      · simp [h2]
      · rw [if_neg h2, if_pos hij]; ring
  simp only [e3, Fin.sum_univ_three]
  ring

/-- A run which reaches a Hessian. -/
example : ∃ (e : EigSolver) (s s1 s2 : Plane) (lam : ℝ) (g : Vec6) (H : Mat6) (pl : Vec4),
    Plane.run e ([.push 0 0, .push 1 1] ++ []) (Plane.new 2) = .ok s ∧
    s.estimate e [SE3.default, SE3.default] = .ok (lam, s1) ∧ s1.gradient 1 = .ok (g, s2) ∧ s2.hessian 1 = .ok H ∧
    s1.plane = some pl := by
  obtain ⟨e, -⟩ := exists_sound
  exact ⟨e, _, _, _, _, _, _, _, rfl, Plane.estimate_ok ⟨rfl, Or.inl rfl⟩ (by exact le_refl 2), rfl, rfl, rfl⟩

end Mrob
