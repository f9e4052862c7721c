import Verif.Lemmas.PlaneInit
import Verif.Props.Arun

/-! # Property C66: initialisation of the plane registration -/

open Matrix

namespace Mrob

open Spec

namespace PlaneReg

theorem zip_pairs (l : List (Vec3 × Vec3)) : (l.map (·.1)).zip (l.map (·.2)) = l := by
  induction l with
  | nil => rfl
  | cons a l ih => rw [List.map_cons, List.map_cons, List.zip_cons_cons, ih]

theorem firstMeans_all {s : PlaneReg} (h0 : ∀ q ∈ s.planes, q.2.cloudAt 0 ≠ []) :
    (s.planes.map fun q => if q.2.cloudAt 0 = [] then none else some (q.2.meanAt 0)).filterMap id =
      s.planes.map fun q => q.2.meanAt 0 := by
  generalize s.planes = l at h0
  induction l with
  | nil => rfl
  | cons a l ih =>
    rw [List.map_cons, if_neg (h0 a List.mem_cons_self), List.filterMap_cons_some (by rfl), List.map_cons,
      ih fun q hq => h0 q (List.mem_cons_of_mem _ hq)]

theorem firstMeans_length (l : List (ℕ × Plane)) :
    ((l.map fun q => if q.2.cloudAt 0 = [] then none else some (q.2.meanAt 0)).filterMap id).length ≤ l.length := by
  simpa using List.length_filterMap_le id
    (l.map fun q => if q.2.cloudAt 0 = [] then none else some (q.2.meanAt 0))

theorem firstMeans_short {l : List (ℕ × Plane)} (h : ∃ q ∈ l, q.2.cloudAt 0 = []) :
    ((l.map fun q => if q.2.cloudAt 0 = [] then none else some (q.2.meanAt 0)).filterMap id).length < l.length := by
  induction l with
  | nil => obtain ⟨q, hq, -⟩ := h; cases hq
  | cons a l ih =>
    rw [List.map_cons]
    by_cases ha : a.2.cloudAt 0 = []
    · rw [if_pos ha, List.filterMap_cons_none (by rfl), List.length_cons]
      exact Nat.lt_succ_of_le (firstMeans_length l)
    · rw [if_neg ha, List.filterMap_cons_some (by rfl), List.length_cons, List.length_cons]
      obtain ⟨q, hq, h2⟩ := h
      rcases List.mem_cons.mp hq with rfl | hq
      · exact absurd h2 ha
      · exact Nat.succ_lt_succ (ih ⟨q, hq, h2⟩)

theorem times_nodup (s : PlaneReg) : s.times.Nodup := List.nodup_range'

theorem mem_times {s : PlaneReg} {t : ℕ} : t ∈ s.times ↔ 0 < t ∧ t < s.numberPoses := by
  rw [times, List.mem_range'_1]; omega

end PlaneReg

open PlaneReg

/-- C66: when every plane has points in the first pose (and no points were added since the matrices were computed),
`solve_initialize` finishes; if it returns 1 every later pose is the one rigid motion which best aligns the means of the
planes seen from it with their means in the first pose; if it returns 0, one of the alignments was refused.  The first pose
is kept.  Missing: planes without points in the first pose (`C66_unseen_fails`). -/
theorem C66_optimal_partial (svd : Mat3 → SVD3) (hsvd : ∀ H, (svd H).Decomposes H) (s : PlaneReg) (hn : s.numberPoses ≠ 0)
    (hl : s.traj.length = s.numberPoses) (hp : s.Prepared) (h0 : ∀ q ∈ s.planes, q.2.cloudAt 0 ≠ []) :
    ∃ b s', s.solveInitialize svd = .ok (b, s') ∧ s'.traj[0]? = s.traj[0]? ∧ s'.traj.length = s.traj.length ∧
      (b = 1 ∧ (∀ t, 0 < t → t < s.numberPoses → ∃ T, s'.traj[t]? = some T ∧ UniqueBest T.T (s.pairsAt t)) ∨
       b = 0 ∧ ∃ t, 0 < t ∧ t < s.numberPoses ∧ arun svd ((s.pairsAt t).map (·.1)) ((s.pairsAt t).map (·.2)) SE3.default =
         .ok (false, SE3.default)) := by
  have hrow : ∀ t ∈ s.times, t < s.traj.length ∧ ∃ rows, rowsAt (s.planes.map fun q => q.2.meanAt 0) t
      { s with planes := s.planes.map fun q => (q.1, q.2.synced) } = .ok rows := by
    intro t ht
    obtain ⟨-, ht⟩ := mem_times.mp ht
    exact ⟨by omega, _, rowsAt_ok hp ht⟩
  obtain ⟨b, traj', e1, e2, e3, e4⟩ := initLoop_total (svd := svd) (times_nodup s) hrow
  refine ⟨b, { s with planes := s.planes.map fun q => (q.1, q.2.synced), traj := traj' }, ?_,
    e3 0 fun h => absurd (mem_times.mp h).1 (lt_irrefl 0), e2, ?_⟩
  · rw [solveInitialize, firstMeans_ok hp hn, Out.ok_bind]
    dsimp only
    rw [firstMeans_all h0]
    change (initLoop svd _ _ s.times s.traj >>= _) = _
    rw [e1, Out.ok_bind]
  · rcases e4 with ⟨rfl, e4⟩ | ⟨rfl, t, ht, rows, x1, x2, -⟩
    · refine Or.inl ⟨rfl, fun t h1 h2 => ?_⟩
      obtain ⟨rows, T, x1, x2, x3⟩ := e4 t (mem_times.mpr ⟨h1, h2⟩)
      rw [rowsAt_ok hp h2] at x1
      cases x1
      refine ⟨T, x3, C56_rigid svd hsvd _ _ _ _ x2, fun M' hM' hle => ?_⟩
      by_contra hne
      have := C56_optimal svd hsvd _ _ _ _ x2 M' hM' hne
      rw [zip_pairs] at this
      exact absurd hle (not_le.mpr this)
    · obtain ⟨h1, h2⟩ := mem_times.mp ht
      rw [rowsAt_ok hp h2] at x1
      cases x1
      exact Or.inr ⟨rfl, t, h1, h2, x2⟩

/-- C66: noise-free data.  If for every pose the means of the planes seen from it are the means in the first pose moved by
the inverse of `M t`, and the scatter matrices of these means have eigenvalues differing by `1e-6`, `solve_initialize`
returns 1 and the poses are the `M t`. -/
theorem C66_recovers_partial (svd : Mat3 → SVD3) (hsvd : ∀ H, (svd H).Decomposes H) (s : PlaneReg) (hn : s.numberPoses ≠ 0)
    (hl : s.traj.length = s.numberPoses) (hp : s.Prepared) (h0 : ∀ q ∈ s.planes, q.2.cloudAt 0 ≠ []) (M : ℕ → Mat4)
    (hM : ∀ t, 0 < t → t < s.numberPoses → IsRigid (M t) ∧
      (∀ q ∈ s.planes, q.2.cloudAt t ≠ [] → q.2.meanAt 0 = movePoint (M t) (q.2.meanAt t)) ∧
      ∃ (W : Mat3) (lam : Fin 3 → ℝ), Wᵀ * W = 1 ∧ scatter ((s.pairsAt t).map (·.1)) = W * diagonal lam * Wᵀ ∧
        lam 1 + 1e-6 ≤ lam 0 ∧ lam 2 + 1e-6 ≤ lam 1) :
    ∃ s', s.solveInitialize svd = .ok (1, s') ∧ s'.traj[0]? = s.traj[0]? ∧ s'.traj.length = s.traj.length ∧
      ∀ t, 0 < t → t < s.numberPoses → s'.traj[t]? = some ⟨M t⟩ := by
  have hrow : ∀ t ∈ s.times, t < s.traj.length ∧ ∃ rows, rowsAt (s.planes.map fun q => q.2.meanAt 0) t
      { s with planes := s.planes.map fun q => (q.1, q.2.synced) } = .ok rows ∧
      arun svd (rows.map (·.1)) (rows.map (·.2)) SE3.default = .ok (true, ⟨M t⟩) := by
    intro t ht
    obtain ⟨h1, h2⟩ := mem_times.mp ht
    obtain ⟨m1, m2, W, lam, w1, w2, w3, w4⟩ := hM t h1 h2
    refine ⟨by omega, _, rowsAt_ok hp h2, ?_⟩
    have hY : (s.pairsAt t).map (·.2) = ((s.pairsAt t).map (·.1)).map (movePoint (M t)) := by
      rw [List.map_map]
      refine List.map_congr_left fun x hx => ?_
      rw [pairsAt, List.mem_filterMap] at hx
      obtain ⟨q, hq, hx⟩ := hx
      split_ifs at hx with hc
      cases hx
      exact m2 q hq hc
    rw [hY]
    refine C64_separated_partial svd hsvd _ ?_ _ m1 W w1 lam w2 w3 w4 _
    intro hnil
    rw [hnil] at w2
    have h3 : W * diagonal lam * Wᵀ = 0 := by rw [← w2]; simp [scatter]
    have h4 : diagonal lam = 0 := by
      have : Wᵀ * (W * diagonal lam * Wᵀ) * W = diagonal lam := by
        rw [Matrix.mul_assoc W, ← Matrix.mul_assoc Wᵀ, w1, Matrix.one_mul, Matrix.mul_assoc, w1, Matrix.mul_one]
      rw [← this, h3]; simp
    have h5 : ∀ i, lam i = 0 := fun i => by
      have := congrFun (congrFun h4 i) i
      rwa [diagonal_apply_eq] at this
    rw [h5 0, h5 1] at w3
    norm_num at w3
  obtain ⟨traj', e1, e2, e3, e4⟩ := initLoop_one (svd := svd) (times_nodup s) hrow
  refine ⟨{ s with planes := s.planes.map fun q => (q.1, q.2.synced), traj := traj' }, ?_,
    e4 0 fun h => absurd (mem_times.mp h).1 (lt_irrefl 0), e2, fun t h1 h2 => e3 t (mem_times.mpr ⟨h1, h2⟩)⟩
  rw [solveInitialize, firstMeans_ok hp hn, Out.ok_bind]
  dsimp only
  rw [firstMeans_all h0]
  change (initLoop svd _ _ s.times s.traj >>= _) = _
  rw [e1, Out.ok_bind]

namespace Demo

/-- A plane seen with one point from each of three poses; the second pose is displaced by `(0, 0, 1)`. -/
noncomputable def upPlane (p : Vec3) : Plane :=
  { Plane.new 3 with points := [[p], [p - ![0, 0, 1]], [p]], numberPoints := 3 }

/-- Four such planes. -/
noncomputable def upReg : PlaneReg :=
  { PlaneReg.new with
    numberPlanes := 4
    numberPoses := 3
    planes := [(0, upPlane ![2, 0, 0]), (1, upPlane ![-2, 0, 0]), (2, upPlane ![0, 1, 0]), (3, upPlane ![0, -1, 0])]
    traj := List.replicate 3 SE3.default
    prev := List.replicate 3 0 }

/-- The calls which build it. -/
noncomputable def upOps : List Op :=
  [.setNumbers 4 3,
    .addNewPlane 0, .pushPoint 0 0 ![2, 0, 0], .pushPoint 0 1 (![2, 0, 0] - ![0, 0, 1]), .pushPoint 0 2 ![2, 0, 0],
    .addNewPlane 1, .pushPoint 1 0 ![-2, 0, 0], .pushPoint 1 1 (![-2, 0, 0] - ![0, 0, 1]), .pushPoint 1 2 ![-2, 0, 0],
    .addNewPlane 2, .pushPoint 2 0 ![0, 1, 0], .pushPoint 2 1 (![0, 1, 0] - ![0, 0, 1]), .pushPoint 2 2 ![0, 1, 0],
    .addNewPlane 3, .pushPoint 3 0 ![0, -1, 0], .pushPoint 3 1 (![0, -1, 0] - ![0, 0, 1]), .pushPoint 3 2 ![0, -1, 0]]

theorem upOps_run (e : EigSolver) (svd : Mat3 → SVD3) :
    PlaneReg.run e svd upOps (OptDense.new PlaneReg.new) = .ok { OptDense.new PlaneReg.new with obj := upReg } := rfl

theorem upReg_prepared : upReg.Prepared := by
  intro q hq
  simp only [upReg, List.mem_cons, List.not_mem_nil, or_false] at hq
  rcases hq with rfl | rfl | rfl | rfl <;> exact ⟨⟨rfl, Or.inl rfl⟩, Or.inl rfl, rfl⟩

theorem upReg_seen (t : ℕ) (ht : t < 3) : ∀ q ∈ upReg.planes, q.2.cloudAt t ≠ [] := by
  intro q hq
  simp only [upReg, List.mem_cons, List.not_mem_nil, or_false] at hq
  have : t = 0 ∨ t = 1 ∨ t = 2 := by omega
  rcases this with rfl | rfl | rfl <;> rcases hq with rfl | rfl | rfl | rfl <;> exact List.cons_ne_nil _ _

/-- The poses of the data. -/
noncomputable def upPose (t : ℕ) : Mat4 := if t = 1 then homog 1 ![0, 0, 1] 1 else 1

theorem meanPoint_single (x : Vec3) : Spec.meanPoint [x] = x := by simp [Spec.meanPoint]

/-- `solve_initialize` finds the poses of the data. -/
theorem upReg_init (svd : Mat3 → SVD3) (hsvd : ∀ H, (svd H).Decomposes H) :
    ∃ s', upReg.solveInitialize svd = .ok (1, s') ∧ s'.traj[0]? = upReg.traj[0]? ∧ s'.traj.length = upReg.traj.length ∧
      ∀ t, 0 < t → t < upReg.numberPoses → s'.traj[t]? = some ⟨upPose t⟩ := by
  refine C66_recovers_partial svd hsvd upReg (by decide +kernel) rfl upReg_prepared (upReg_seen 0 (by norm_num)) upPose
    fun t h0 h3 => ?_
  have hr : ∀ t, IsRigid (upPose t) := by
    intro t
    rw [upPose]
    split_ifs
    · exact isRigid_homog isRotation_one _
    · rw [← homog_one]; exact isRigid_homog isRotation_one _
  have h3 : t < 3 := h3
  have ht : t = 1 ∨ t = 2 := by omega
  have e1 : tl3 (1 : Mat4) = 1 := by rw [← homog_one]; simp
  have e2 : tr3 (1 : Mat4) = 0 := by rw [← homog_one]; simp
  refine ⟨hr t, ?_, 1, ![8, 2, 0], by simp, ?_, by simp; norm_num, by simp; norm_num⟩
  · intro q hq _
    have hq' : ∃ x, q.2 = upPlane x := by
      simp only [upReg, List.mem_cons, List.not_mem_nil, or_false] at hq
      rcases hq with rfl | rfl | rfl | rfl <;> exact ⟨_, rfl⟩
    obtain ⟨x, hx⟩ := hq'
    rw [hx]
    rcases ht with rfl | rfl
    · change Spec.meanPoint [x] = movePoint (homog 1 ![0, 0, 1] 1) (Spec.meanPoint [x - ![0, 0, 1]])
      rw [meanPoint_single, meanPoint_single, movePoint_rigid, tl3_homog, tr3_homog, one_mulVec, sub_add_cancel]
    · change Spec.meanPoint [x] = movePoint 1 (Spec.meanPoint [x])
      rw [meanPoint_single, movePoint_rigid, e1, e2, one_mulVec, add_zero]
  · rcases ht with rfl | rfl
    · have : (upReg.pairsAt 1).map (·.1) = [![2, 0, 0] - ![0, 0, 1], ![-2, 0, 0] - ![0, 0, 1], ![0, 1, 0] - ![0, 0, 1],
          ![0, -1, 0] - ![0, 0, 1]] := by
        simp [pairsAt, upReg, upPlane, Plane.cloudAt, Plane.meanAt, meanPoint_single]
      rw [this]
      ext i j
      fin_cases i <;> fin_cases j <;> simp [scatter, Spec.meanPoint, vecMulVec_apply] <;> norm_num
    · have : (upReg.pairsAt 2).map (·.1) = [![2, 0, 0], ![-2, 0, 0], ![0, 1, 0], ![0, -1, 0]] := by
        simp [pairsAt, upReg, upPlane, Plane.cloudAt, Plane.meanAt, meanPoint_single]
      rw [this]
      ext i j
      fin_cases i <;> fin_cases j <;> simp [scatter, Spec.meanPoint, vecMulVec_apply] <;> norm_num

end Demo

/-- The hypotheses of `C66_recovers_partial` and `C66_optimal_partial` on an object built by calls of the public functions. -/
example : ∃ (svd : Mat3 → SVD3) (e : EigSolver) (ops : List Op) (s : OptDense PlaneReg) (s' : PlaneReg),
    (∀ H, (svd H).Decomposes H) ∧ PlaneReg.run e svd ops (OptDense.new PlaneReg.new) = .ok s ∧ s.obj.Prepared ∧
    (∀ q ∈ s.obj.planes, q.2.cloudAt 0 ≠ []) ∧ s.obj.solveInitialize svd = .ok (1, s') ∧
    s'.traj[1]? = some ⟨homog 1 ![0, 0, 1] 1⟩ := by
  obtain ⟨svd, hsvd⟩ := exists_svd
  obtain ⟨e, -⟩ := exists_sound
  obtain ⟨s', h1, -, -, h2⟩ := Demo.upReg_init svd hsvd
  refine ⟨svd, e, Demo.upOps, _, s', hsvd, Demo.upOps_run e svd, Demo.upReg_prepared, Demo.upReg_seen 0 (by norm_num), h1, ?_⟩
  rw [h2 1 (by norm_num) (by change 1 < 3; norm_num), Demo.upPose, if_pos rfl]

/-- C66 without its condition on the first pose is false: if some plane has no point in the first pose and the last plane
has one in the second pose, the code reads beyond the end of `Y_points_all`. -/
theorem C66_unseen_fails (svd : Mat3 → SVD3) (s : PlaneReg) (hn : 2 ≤ s.numberPoses) (hp : s.Prepared)
    (h0 : ∃ q ∈ s.planes, q.2.cloudAt 0 = []) (q : ℕ × Plane) (hq : s.planes.getLast? = some q) (hc : q.2.cloudAt 1 ≠ []) :
    s.solveInitialize svd = .ub := by
  rw [solveInitialize, firstMeans_ok hp (by omega), Out.ok_bind]
  dsimp only
  have ht : ∃ l, times { s with planes := s.planes.map fun q => (q.1, q.2.synced) } = 1 :: l :=
    ⟨List.range' 2 (s.numberPoses - 2), by
      rw [times, show s.numberPoses - 1 = s.numberPoses - 2 + 1 by omega]; rfl⟩
  obtain ⟨l, hl⟩ := ht
  rw [hl, initLoop, rowsAt_ub hp (by omega) _ (firstMeans_short h0) hq hc]
  rfl

/-- Two planes, the first one seen from the second pose only. -/
example : ∃ (e : EigSolver) (svd : Mat3 → SVD3) (s : OptDense PlaneReg), PlaneReg.run e svd
    [.setNumbers 2 2, .addNewPlane 0, .pushPoint 0 1 ![1, 0, 0], .addNewPlane 1, .pushPoint 1 0 ![0, 1, 0],
      .pushPoint 1 1 ![0, 1, 0]] (OptDense.new PlaneReg.new) = .ok s ∧ s.obj.solveInitialize svd = .ub := by
  obtain ⟨svd, -⟩ := exists_svd
  obtain ⟨e, -⟩ := exists_sound
  refine ⟨e, svd, _, rfl, ?_⟩
  refine C66_unseen_fails svd _ (by exact le_refl 2) ?_ ⟨_, List.mem_cons_self, rfl⟩ (1, _) rfl (List.cons_ne_nil _ _)
  intro q hq
  rcases List.mem_cons.mp hq with rfl | hq
  · exact ⟨⟨rfl, Or.inl rfl⟩, Or.inl rfl, rfl⟩
  · rw [List.mem_singleton.mp hq]
    exact ⟨⟨rfl, Or.inl rfl⟩, Or.inl rfl, rfl⟩

end Mrob
