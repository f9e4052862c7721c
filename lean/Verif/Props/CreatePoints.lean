import Verif.Lemmas.PlaneRegTotal
import Verif.Lemmas.CreatePoints
import Verif.Props.PlaneRmse
import Mathlib.LinearAlgebra.Matrix.ToLinearEquiv

/-! # Properties C68 and C70: synthetic scenes -/

open Matrix

namespace Mrob

open Spec Scene

/-! ## C70: points and planes -/

theorem after_ids {d : Draws} {N P n t : ℕ} (ht : t < n) : (after d N P n (allPairs N n)).pointId[t]? =
    some ((List.range N).map (planeId N P)) := by
  change ((List.range n).map _)[t]? = _
  rw [List.getElem?_map, List.getElem?_range ht, Option.map_some]
  have h := filter_allPairs N n t ht fun _ => true
  simp only [and_true, List.filter_true] at h
  rw [h, List.map_map]
  rfl

theorem after_X {d : Draws} {N P n t : ℕ} (ht : t < n) : (after d N P n (allPairs N n)).X[t]? =
    some ((List.range N).map fun i => pointAt d N P n (t, i)) := by
  change ((List.range n).map _)[t]? = _
  rw [List.getElem?_map, List.getElem?_range ht, Option.map_some]
  have h := filter_allPairs N n t ht fun _ => true
  simp only [and_true, List.filter_true] at h
  rw [h, List.map_map]
  rfl

theorem cloud_eq {d : Draws} {N P n t : ℕ} (ht : t < n) (k : ℕ) : cloud d N P n (allPairs N n) k t =
    ((List.range N).filter fun i => planeId N P i = k).map fun i => pointAt d N P n (t, i) := by
  have h := filter_allPairs N n t ht fun i => decide (planeId N P i = k)
  simp only [decide_eq_true_eq] at h
  rw [cloud, h, List.map_map]
  rfl

/-- C70 for scenes with at most `2^22` points per pose: the constructor finishes, every pose has the requested number of
points and every point belongs to an existing plane.  Missing: more points, where it fails (`C70_fails`). -/
theorem C70_in_range_partial (d : Draws) (N P n : ℕ) (hP : 1 ≤ P) (hN : N ≤ 2 ^ 22) : ∃ s, create d N P n = .ok s ∧
    s.X.length = n ∧ s.pointId.length = n ∧ ∀ t < n, ∃ X ids, s.X[t]? = some X ∧ s.pointId[t]? = some ids ∧ X.length = N ∧
      ids.length = N ∧ ∀ k ∈ ids, k < P := by
  refine ⟨_, create_ok d fun i hi => planeId_lt hP hi hN, by simp [after], by simp [after],
    fun t ht => ⟨_, _, after_X ht, after_ids ht, by simp, by simp, fun k hk => ?_⟩⟩
  obtain ⟨i, hi, rfl⟩ := List.mem_map.mp hk
  exact planeId_lt hP (List.mem_range.mp hi) hN

/-- The number of indices with a given quotient. -/
theorem count_quotients {N P : ℕ} (hP : 1 ≤ P) {k : ℕ} (hk : k < P) :
    N / P ≤ ((List.range N).map fun i => i * P / N).count k ∧ ((List.range N).map fun i => i * P / N).count k ≤ N / P + 1 := by
  by_cases hN : N = 0
  · subst hN; simp
  have hN0 : 0 < N := Nat.pos_of_ne_zero hN
  set a := (k * N + (P - 1)) / P with ha
  set b := ((k + 1) * N + (P - 1)) / P with hb
  have hc : ((List.range N).map fun i => i * P / N).count k = (Finset.Ico a b).card := by
    rw [List.count_eq_countP, List.countP_map, List.countP_eq_length_filter]
    have : ((List.range N).filter ((fun x => x == k) ∘ fun i => i * P / N)).toFinset = Finset.Ico a b := by
      ext i
      rw [List.mem_toFinset, List.mem_filter, List.mem_range, Finset.mem_Ico]
      simp only [Function.comp_apply, beq_iff_eq]
      have hab : ∀ m, (m * N + (P - 1)) / P ≤ i ↔ m * N ≤ i * P := by
        intro m
        rw [Nat.div_le_iff_le_mul_add_pred hP, Nat.mul_comm P i]
        omega
      rw [hab k, ← not_le (a := b), hab (k + 1)]
      have hbN : (k + 1) * N ≤ P * N := Nat.mul_le_mul_right N hk
      have hd : i * P / N = k ↔ k * N ≤ i * P ∧ i * P < (k + 1) * N := by
        rw [Nat.div_eq_iff hN0]
        have : (k + 1) * N = k * N + N := by ring
        omega
      rw [hd]
      constructor
      · rintro ⟨-, h1, h2⟩; exact ⟨h1, by omega⟩
      · rintro ⟨h1, h2⟩
        refine ⟨?_, h1, by omega⟩
        by_contra hcon
        have : N * P ≤ i * P := Nat.mul_le_mul_right P (by omega)
        have e : N * P = P * N := Nat.mul_comm _ _
        omega
    rw [← this, List.toFinset_card_of_nodup (List.nodup_range.filter _)]
  rw [hc, Nat.card_Ico]
  have h1 : (k + 1) * N + (P - 1) = (k * N + (P - 1)) + N := by ring
  clear_value a b
  have h2 : a + N / P ≤ b := by
    rw [ha, hb, h1]; exact Nat.add_div_le_add_div _ _ _
  have h3 : b ≤ a + N / P + 1 := by
    rw [ha, hb, h1, Nat.add_div (by omega)]
    split_ifs
    · exact le_refl _
    · exact Nat.le_succ _
  clear ha hb hc h1
  generalize N / P = q at *
  omega

/-- C70 when the product of the numbers of points and planes is at most `2^24`: the points of a pose are assigned to the
planes in blocks, in order, and every plane gets its share up to one point.  Missing: larger scenes. -/
theorem C70_balanced_partial (d : Draws) (N P n : ℕ) (hP : 1 ≤ P) (h : N * P ≤ 2 ^ 24) : ∃ s, create d N P n = .ok s ∧
    ∀ t < n, ∃ ids, s.pointId[t]? = some ids ∧ ids.Pairwise (· ≤ ·) ∧
      ∀ k < P, N / P ≤ ids.count k ∧ ids.count k ≤ N / P + 1 := by
  have hid : ∀ i < N, planeId N P i = i * P / N := fun i hi => planeId_eq hP hi h
  refine ⟨_, create_ok d fun i hi => ?_, fun t ht => ⟨_, after_ids ht, ?_, ?_⟩⟩
  · rw [hid i hi]
    exact Nat.div_lt_of_lt_mul (Nat.mul_lt_mul_of_pos_right hi (by omega))
  · rw [List.map_congr_left fun i hi => hid i (List.mem_range.mp hi), List.pairwise_map]
    exact List.pairwise_lt_range.imp fun h => Nat.div_le_div_right (Nat.mul_le_mul_right P h.le)
  · rw [List.map_congr_left fun i hi => hid i (List.mem_range.mp hi)]
    exact fun k hk => count_quotients hP hk

/-- Ten points, four planes (the default arguments): shares of two or three points. -/
example : (10 : ℕ) * 4 ≤ 2 ^ 24 ∧ (List.range 10).map (fun i => i * 4 / 10) = [0, 0, 0, 1, 1, 2, 2, 2, 3, 3] := by decide

/-- C70 is false in general: for `2^25` points and one plane the index of the last point is rounded up to the number of
points, the plane with index 1 does not exist and is read. -/
theorem C70_fails (d : Draws) : create d (2 ^ 25) 1 1 = .ub := by
  have key : ∀ (m : ℕ) (l : List (ℕ × ℕ)), (∃ l', Out.loop (fun i s => addPoint d 0 i s) (List.range m)
      (after d (2 ^ 25) 1 1 l) = .ok (after d (2 ^ 25) 1 1 l')) ∨
      Out.loop (fun i s => addPoint d 0 i s) (List.range m) (after d (2 ^ 25) 1 1 l) = .ub := by
    intro m l
    induction m with
    | zero => exact Or.inl ⟨l, rfl⟩
    | succ m ih =>
      rw [List.range_succ, Out.loop_append]
      rcases ih with ⟨l', h⟩ | h
      · rw [h, Out.ok_bind, Out.loop]
        by_cases hid : planeId (2 ^ 25) 1 m < 1
        · rw [addPoint_after d _ _ _ _ Nat.one_pos hid]
          exact Or.inl ⟨_, rfl⟩
        · exact Or.inr (by rw [addPoint_bad d l' Nat.one_pos hid]; rfl)
      · rw [h]; exact Or.inr rfl
  rw [create, ← after_nil]
  change Out.loop _ [0] _ = _
  rw [Out.loop, show List.range (2 ^ 25) = List.range (2 ^ 25 - 1) ++ [2 ^ 25 - 1] from List.range_succ, Out.loop_append]
  rcases key (2 ^ 25 - 1) [] with ⟨l', h⟩ | h
  · rw [h, Out.ok_bind, Out.loop, addPoint_bad d l' Nat.one_pos (by rw [planeId_last]; exact lt_irrefl 1)]
    rfl
  · rw [h]; rfl

/-! ## C68: the scene fits its ground truth -/

namespace Scene

theorem default_inv : SE3.default.inv = SE3.default := by
  have h1 : SE3.default.R = 1 := by rw [SE3.R, SE3.default, ← homog_one, tl3_homog]
  have h2 : SE3.default.t = 0 := by rw [SE3.t, SE3.default, ← homog_one, tr3_homog]
  ext1
  change homog _ _ 1 = (1 : Mat4)
  rw [h1, h2, mulVec_zero, transpose_one, homog_one]

theorem mul_default (a : SE3) : a.mul SE3.default = a := by
  ext1; exact mul_one _

/-- The final pose is drawn where logarithm and exponential are inverse to each other. -/
def GoodFinal (xi : Vec6) : Prop :=
  (head3 xi = 0 ∨ (5e-3 < len (head3 xi) ∧ len (head3 xi) ≤ Real.pi - 6e-8)) ∧
    ¬ (Real.pi / 2 ≤ len (head3 xi) ∧ head3 xi 2 = 0 ∧ |head3 xi 0| = |head3 xi 1|)

theorem GoodFinal.ln {xi : Vec6} (h : GoodFinal xi) : (SE3.ofVec xi).lnVee = xi := by
  have := C13_ln_exp_partial (v := tail3 xi) h.1 h.2
  rwa [vec6_eta] at this

theorem truePose_eq {d : Draws} (h : GoodFinal d.finalXi) {n : ℕ} (hn : 2 ≤ n) (t : ℕ) :
    truePose d n t = SE3.ofVec (((t : ℝ) / ((n : ℝ) - 1)) • d.finalXi) := by
  rw [truePose, mul_default, default_inv, mul_default, h.ln, if_neg (by omega)]

theorem truePose_rigid {d : Draws} (h : GoodFinal d.finalXi) {n : ℕ} (hn : 2 ≤ n)
    (hl : head3 d.finalXi = 0 ∨ 1e-5 * ((n : ℝ) - 1) ≤ len (head3 d.finalXi)) (t : ℕ) : IsRigid (truePose d n t).T := by
  rw [truePose_eq h hn, se3_ofVec_T]
  refine isRigid_homog (C03_rotation_exact _ ?_) _
  have hh : head3 (((t : ℝ) / ((n : ℝ) - 1)) • d.finalXi) = ((t : ℝ) / ((n : ℝ) - 1)) • head3 d.finalXi := rfl
  have hn1 : (1 : ℝ) ≤ (n : ℝ) - 1 := by
    have : (2 : ℝ) ≤ n := by exact_mod_cast hn
    linarith
  rw [hh]
  rcases hl with h0 | hl
  · right; rw [h0, smul_zero]
  · by_cases ht : t = 0
    · right; rw [ht, Nat.cast_zero, zero_div, zero_smul]
    · left
      have ht1 : (1 : ℝ) ≤ t := by exact_mod_cast Nat.one_le_iff_ne_zero.mpr ht
      rw [len_eq_vnorm, vnorm_smul, ← len_eq_vnorm, abs_of_nonneg (by positivity), div_mul_eq_mul_div, le_div_iff₀ (by linarith)]
      nlinarith

end Scene

/-- C68: the true trajectory starts at the identity, ends at the final pose drawn and moves on the geodesic between them
in equal steps.  Missing: final poses outside `GoodFinal` (small angles, angles near a half turn, horizontal diagonals), where
the logarithm is not exact. -/
theorem C68_trajectory_partial (d : Draws) (N P n : ℕ) (hn : 2 ≤ n) (h : GoodFinal d.finalXi) (s : Scene)
    (hs : create d N P n = .ok s) : s.truth 0 = .ok SE3.default ∧ s.lastTruth = .ok (SE3.ofVec d.finalXi) ∧
      s.gt.length = n ∧ ∀ t < n, s.truth t = .ok (SE3.ofVec (((t : ℝ) / ((n : ℝ) - 1)) • d.finalXi)) := by
  have h0 : SE3.ofVec (0 : Vec6) = SE3.default := by ext1; exact se3_ofVec_zero
  have hn1 : (n : ℝ) - 1 ≠ 0 := by
    have : (2 : ℝ) ≤ n := by exact_mod_cast hn
    linarith
  rw [create_inv hs]
  have hget : ∀ t < n, (after d N P n (allPairs N n)).gt[t]? = some (SE3.ofVec (((t : ℝ) / ((n : ℝ) - 1)) • d.finalXi)) := by
    intro t ht
    change ((List.range n).map _)[t]? = _
    rw [List.getElem?_map, List.getElem?_range ht, Option.map_some, truePose_eq h hn]
  have htr : ∀ t < n, (after d N P n (allPairs N n)).truth t = .ok (SE3.ofVec (((t : ℝ) / ((n : ℝ) - 1)) • d.finalXi)) := by
    intro t ht
    rw [truth, if_pos (by exact ht), Out.atT_eq_ok]
    exact hget t ht
  have hlen : (after d N P n (allPairs N n)).gt.length = n := by
    change ((List.range n).map _).length = n
    rw [List.length_map, List.length_range]
  refine ⟨?_, ?_, hlen, htr⟩
  · rw [htr 0 (by omega), Nat.cast_zero, zero_div, zero_smul, h0]
  · rw [lastTruth, PlaneReg.getLast?_of_length hlen, hget (n - 1) (by omega), Nat.cast_sub (by omega), Nat.cast_one, div_self hn1, one_smul]

/-- Moving a generated point back by its true pose. -/
theorem move_pointAt {d : Draws} (N P : ℕ) {n : ℕ} (hn : 2 ≤ n) (h : GoodFinal d.finalXi)
    (hl : head3 d.finalXi = 0 ∨ 1e-5 * ((n : ℝ) - 1) ≤ len (head3 d.finalXi)) (t i : ℕ) :
    movePoint (truePose d n t).T (pointAt d N P n (t, i)) =
      (SE3.ofVec (d.planeXi (planeId N P i))).transform (d.sample t i) := by
  have hr := truePose_rigid h hn hl t
  rw [← transform_eq_movePoint, pointAt, (C11_action hr hr _ 0).2.2.2.1]

/-- C68: the distance of every point, moved by its true pose, to its true plane is the noise drawn for it.  The true plane is
the image of the plane `z = 0` under the plane pose.  Missing: rotations in the band where the exponential is a truncated
series. -/
theorem C68_noise_partial (d : Draws) (N P n : ℕ) (hn : 2 ≤ n) (h : GoodFinal d.finalXi)
    (hl : head3 d.finalXi = 0 ∨ 1e-5 * ((n : ℝ) - 1) ≤ len (head3 d.finalXi))
    (hp : ∀ k, 1e-5 ≤ len (head3 (d.planeXi k)) ∨ head3 (d.planeXi k) = 0) (s : Scene) (hs : create d N P n = .ok s)
    (t : ℕ) (ht : t < n) (i : ℕ) (hi : i < N) : ∃ X ids x k T A, s.X[t]? = some X ∧ X[i]? = some x ∧
      s.pointId[t]? = some ids ∧ ids[i]? = some k ∧ s.truth t = .ok T ∧ s.planePoses[k]? = some A ∧
      planeEval (Sum.elim (A.R *ᵥ ![0, 0, 1]) fun _ => - ((A.R *ᵥ ![0, 0, 1]) ⬝ᵥ A.t)) (movePoint T.T x) = d.point t i 2 := by
  have hk := create_valid hs (by omega) hi
  rw [create_inv hs]
  refine ⟨_, _, pointAt d N P n (t, i), planeId N P i, truePose d n t, SE3.ofVec (d.planeXi (planeId N P i)), after_X ht, ?_,
    after_ids ht, ?_, ?_, ?_, ?_⟩
  · rw [List.getElem?_map, List.getElem?_range hi]; rfl
  · rw [List.getElem?_map, List.getElem?_range hi]; rfl
  · rw [truth, if_pos (by exact ht), Out.atT_eq_ok]
    change ((List.range n).map _)[t]? = _
    rw [List.getElem?_map, List.getElem?_range ht]; rfl
  · change ((List.range P).map _)[planeId N P i]? = _
    rw [List.getElem?_map, List.getElem?_range hk]; rfl
  · rw [move_pointAt N P hn h hl]
    have hA : IsRigid (SE3.ofVec (d.planeXi (planeId N P i))).T := by
      rw [se3_ofVec_T]
      exact isRigid_homog (C03_rotation_exact _ (hp _)) _
    generalize SE3.ofVec (d.planeXi (planeId N P i)) = A at hA
    have hR := (rigid_R hA).1
    have hR' : A.Rᵀ * A.R = 1 := mul_eq_one_comm.mp hR
    rw [planeEval_eq]
    have : (Sum.elim (A.R *ᵥ ![0, 0, 1]) (fun _ => - ((A.R *ᵥ ![0, 0, 1]) ⬝ᵥ A.t)) : Vec4) ⬝ᵥ homPt (A.transform (d.sample t i)) =
        (A.R *ᵥ ![0, 0, 1]) ⬝ᵥ (A.transform (d.sample t i)) - (A.R *ᵥ ![0, 0, 1]) ⬝ᵥ A.t := by
      simp [dotProduct, homPt, Fintype.sum_sum_type, sub_eq_add_neg]
    rw [this, SE3.transform, dotProduct_add, add_sub_cancel_right, dotProduct_comm, dotProduct_mulVec, ← mulVec_transpose,
      mulVec_mulVec, hR', one_mulVec]
    simp [Draws.sample, dotProduct, Fin.sum_univ_three]

namespace Scene

theorem foldl_addPlane : ∀ (l : List (ℕ × Plane)) (r : PlaneReg), ((r.planes ++ l).map fun q => q.1).Nodup →
    l.foldl (fun r q => r.addPlane q.1 q.2.reset) r = { r with planes := r.planes ++ l.map fun q => (q.1, q.2.reset) }
  | [], r, _ => by simp
  | q :: l, r, h => by
    have h1 : (r.planes.map (·.1)).contains q.1 = false := by
      rw [List.map_append, List.nodup_append] at h
      rw [Bool.eq_false_iff]
      intro hc
      rw [List.contains_iff_mem] at hc
      exact h.2.2 _ hc q.1 (by simp) rfl
    rw [List.foldl_cons, PlaneReg.addPlane, PlaneReg.emplace, h1, if_neg (by simp), foldl_addPlane l]
    · simp
    · simpa using h

/-- The registration problem handed over. -/
theorem toRegistration_after (d : Draws) {N P n : ℕ} (hP : P < 2 ^ 32) (hn : n < 2 ^ 32) (l : List (ℕ × ℕ)) (r : PlaneReg) :
    (after d N P n l).toRegistration r = { r.setNumbers P n with
      planes := (List.range P).map fun k => (k, (planeAfter d N P n l k).reset) } := by
  rw [toRegistration, foldl_addPlane]
  · change PlaneReg.mk _ _ _ _ _ _ _ _ _ _ _ = _
    simp only [after, List.map_map]
    rfl
  · change (([] ++ (List.range P).map fun k => (k, planeAfter d N P n l k)).map fun q : ℕ × Plane => q.1).Nodup
    rw [List.nil_append, List.map_map]
    exact List.nodup_range.map fun _ _ h => h

end Scene

/-- C68: `create_plane_registration` hands over the points and planes of the scene: as many planes and poses, all poses at
the identity, and plane `k` holds for pose `t` exactly the points of that pose with plane identifier `k`. -/
theorem C68_registration (d : Draws) (N P n : ℕ) (hP : P < 2 ^ 32) (hn : n < 2 ^ 32) (s : Scene) (hs : create d N P n = .ok s)
    (r : PlaneReg) : (s.toRegistration r).numberPlanes = P ∧ (s.toRegistration r).numberPoses = n ∧
      (s.toRegistration r).traj = List.replicate n SE3.default ∧
      (s.toRegistration r).planes.map (·.1) = List.range P ∧
      ∀ q ∈ (s.toRegistration r).planes, q.2.points.length = n ∧ ∀ t < n, ∃ X ids, s.X[t]? = some X ∧ s.pointId[t]? = some ids ∧
        q.2.points[t]? = some (((X.zip ids).filter fun p => p.2 = q.1).map (·.1)) := by
  rw [create_inv hs, toRegistration_after d hP hn]
  refine ⟨Nat.mod_eq_of_lt hP, Nat.mod_eq_of_lt hn, ?_, ?_, ?_⟩
  · change List.replicate (n % 2 ^ 32) _ = _
    rw [Nat.mod_eq_of_lt hn]
  · rw [List.map_map]
    exact List.map_id _
  · intro q hq
    obtain ⟨k, hk, rfl⟩ := List.mem_map.mp hq
    have hpts : (planeAfter d N P n (allPairs N n) k).reset.points = (List.range n).map (cloud d N P n (allPairs N n) k) := rfl
    refine ⟨?_, fun t ht => ⟨_, _, after_X ht, after_ids ht, ?_⟩⟩
    · rw [hpts, List.length_map, List.length_range]
    · rw [hpts, List.getElem?_map, List.getElem?_range ht, Option.map_some, cloud_eq ht, List.zip_map',
        List.filter_map, List.map_map]
      rfl

/-- Every affine image of a plane lies in a plane. -/
theorem exists_plane (A : SE3) : ∃ pl : Vec4, Unit4 pl ∧ ∀ p : Vec3, p 2 = 0 → planeEval pl (A.transform p) = 0 := by
  have hdet : (Matrix.of ![fun j => A.R j 0, fun j => A.R j 1, 0] : Mat3).det = 0 :=
    Matrix.det_eq_zero_of_row_eq_zero 2 fun j => rfl
  obtain ⟨m, hm, h⟩ := Matrix.exists_mulVec_eq_zero_iff.mpr hdet
  have h0 : A.R 0 0 * m 0 + A.R 1 0 * m 1 + A.R 2 0 * m 2 = 0 := by
    have := congrFun h 0
    simpa [mulVec, dotProduct, Fin.sum_univ_three] using this
  have h1 : A.R 0 1 * m 0 + A.R 1 1 * m 1 + A.R 2 1 * m 2 = 0 := by
    have := congrFun h 1
    simpa [mulVec, dotProduct, Fin.sum_univ_three] using this
  set c : Vec4 := Sum.elim m fun _ => - (m ⬝ᵥ A.t) with hc
  have hcp : 0 < c ⬝ᵥ c := by
    have e : c ⬝ᵥ c = m ⬝ᵥ m + (m ⬝ᵥ A.t) ^ 2 := by
      simp [hc, dotProduct, Fintype.sum_sum_type]; ring
    have : 0 < m ⬝ᵥ m := by
      refine lt_of_le_of_ne (sq_nonneg' m) fun hh => hm ?_
      exact dotProduct_self_eq_zero.mp hh.symm
    rw [e]
    have := sq_nonneg (m ⬝ᵥ A.t)
    linarith
  refine ⟨(Real.sqrt (c ⬝ᵥ c))⁻¹ • c, ?_, fun p hp => ?_⟩
  · rw [Unit4, smul_dotProduct, dotProduct_smul, smul_eq_mul, smul_eq_mul, ← mul_assoc, ← mul_inv, Real.mul_self_sqrt hcp.le,
      inv_mul_cancel₀ hcp.ne']
  · rw [planeEval_eq, smul_dotProduct]
    have : c ⬝ᵥ homPt (A.transform p) = 0 := by
      have e : c ⬝ᵥ homPt (A.transform p) = m ⬝ᵥ (A.R *ᵥ p) := by
        rw [SE3.transform]
        simp [hc, dotProduct, homPt, Fintype.sum_sum_type, Fin.sum_univ_three]; ring
      rw [e]
      simp [dotProduct, mulVec, Fin.sum_univ_three, hp]
      linear_combination p 0 * h0 + p 1 * h1
    rw [this, smul_zero]

/-- The cost of a plane through all moved points. -/
theorem planeCost_zero {pl : Vec4} : ∀ (poses : List Mat4) (clouds : List (List Vec3)),
    (∀ q ∈ poses.zip clouds, ∀ x ∈ q.2, planeEval pl (movePoint q.1 x) = 0) → planeCost pl poses clouds = 0
  | [], _, _ => by rw [planeCost, List.zipWith_nil_left, List.sum_nil]
  | _ :: _, [], _ => by rw [planeCost, List.zipWith_nil_right, List.sum_nil]
  | T :: poses, c :: clouds, h => by
    have ih := planeCost_zero poses clouds fun q hq => h q (List.mem_cons_of_mem _ hq)
    rw [planeCost] at ih ⊢
    rw [List.zipWith_cons_cons, List.sum_cons, ih, add_zero, cloudCost]
    refine List.sum_eq_zero fun y hy => ?_
    obtain ⟨x, hx, rfl⟩ := List.mem_map.mp hy
    rw [h (T, c) List.mem_cons_self x hx]
    norm_num

theorem planeCost_nonneg' {pl : Vec4} (poses : List Mat4) (clouds : List (List Vec3)) : 0 ≤ planeCost pl poses clouds := by
  refine List.sum_nonneg fun x hx => ?_
  obtain ⟨i, hi, rfl⟩ := List.getElem_of_mem hx
  rw [List.getElem_zipWith, cloudCost]
  refine List.sum_nonneg fun y hy => ?_
  obtain ⟨p, -, rfl⟩ := List.mem_map.mp hy
  exact sq_nonneg _

/-- C68: in a scene without noise (`z` drawn as zero) the last true pose given to `set_last_pose` reproduces the true
trajectory, the error of the registration is then zero, and so is the distance to the ground truth.  Missing: rotations in
the band where the exponential is a truncated series. -/
theorem C68_zero_error_partial (e : EigSolver) (he : e.Sound) (d : Draws) (N P n : ℕ) (hP : P < 2 ^ 32) (hn : 2 ≤ n)
    (hb : n < 2 ^ 32) (h : GoodFinal d.finalXi)
    (hl : head3 d.finalXi = 0 ∨ 1e-5 * ((n : ℝ) - 1) ≤ len (head3 d.finalXi)) (hz : ∀ t i, d.point t i 2 = 0)
    (s : Scene) (hs : create d N P n = .ok s) (r : PlaneReg) : ∃ T r1 r2, s.lastTruth = .ok T ∧
      (s.toRegistration r).setLastPose T = .ok r1 ∧ r1.traj = s.gt ∧ r1.error e = .ok (0, r2) ∧
      r1.posesRmse s.gt = .ok 0 := by
  obtain ⟨-, hT, hlen, htr⟩ := C68_trajectory_partial d N P n hn h s hs
  have hs' := create_inv hs
  subst hs'
  have hreg := toRegistration_after d hP hb (N := N) (allPairs N n) r
  set R := (after d N P n (allPairs N n)).toRegistration r with hR
  have hposes : R.numberPoses = n := by rw [hreg]; exact Nat.mod_eq_of_lt hb
  have htraj : R.traj = List.replicate n SE3.default := by
    rw [hreg]
    change List.replicate (n % 2 ^ 32) _ = _
    rw [Nat.mod_eq_of_lt hb]
  have htimes : ∀ t, t ∈ R.times ↔ 0 < t ∧ t < n := by
    intro t
    rw [PlaneReg.times, List.mem_range'_1, hposes]; omega
  obtain ⟨traj, h1⟩ := PlaneReg.interpolate_total (tau := R.tau) (xi := (SE3.ofVec d.finalXi).lnVee) (ts := R.times) (traj := R.traj)
    (fun t ht => by rw [htraj, List.length_replicate]; exact ((htimes t).mp ht).2)
  obtain ⟨l1, l2, l3⟩ := PlaneReg.interpolate_ok h1
  have hgt : ∀ t < n, (after d N P n (allPairs N n)).gt[t]? = some (truePose d n t) := by
    intro t ht
    change ((List.range n).map _)[t]? = _
    rw [List.getElem?_map, List.getElem?_range ht]; rfl
  have htr' : traj = (after d N P n (allPairs N n)).gt := by
    refine List.ext_getElem? fun t => ?_
    rcases lt_or_ge t n with ht | ht
    · rw [hgt t ht, truePose_eq h hn]
      by_cases h0 : t = 0
      · subst h0
        rw [l2 0 (by rw [htimes]; omega), htraj, List.getElem?_replicate, if_pos ht, Nat.cast_zero, zero_div, zero_smul]
        congr 1
        ext1
        exact se3_ofVec_zero.symm
      · rw [l3 t ((htimes t).mpr (by omega)), PlaneReg.tau_eq (by omega) (by rw [hposes]; exact hb), hposes, h.ln]
    · rw [List.getElem?_eq_none (by rw [l1, htraj, List.length_replicate]; exact ht),
        List.getElem?_eq_none (by rw [hlen]; exact ht)]
  have hrig : ∀ A ∈ (after d N P n (allPairs N n)).gt, IsRigid A.T := by
    intro A hA
    have hA : A ∈ (List.range n).map (truePose d n) := hA
    obtain ⟨t, -, rfl⟩ := List.mem_map.mp hA
    exact truePose_rigid h hn hl t
  refine ⟨SE3.ofVec d.finalXi, { R with traj := traj }, ?_⟩
  have hplanes : ({ R with traj := traj } : PlaneReg).planes =
      (List.range P).map fun k => (k, (planeAfter d N P n (allPairs N n) k).reset) := by
    change R.planes = _
    rw [hreg]
  have hwf : ({ R with traj := traj } : PlaneReg).PlanesWf := by
    intro q hq
    rw [hplanes] at hq
    obtain ⟨k, -, rfl⟩ := List.mem_map.mp hq
    exact Plane.reset_wf (planeAfter_wf d N P n _ k)
  obtain ⟨⟨v, r2⟩, herr, -⟩ := PlaneReg.error_est (e := e) hwf (n := n) (by
    change n ≤ traj.length
    rw [l1, htraj, List.length_replicate]) (by
    intro q hq
    rw [hplanes] at hq
    obtain ⟨k, -, rfl⟩ := List.mem_map.mp hq
    rfl)
  have hv : v = 0 := by
    have := (PlaneReg.error_ok hwf herr).1
    have hv : v = _ := this
    rw [hv, PlaneReg.errOf, hplanes]
    refine List.sum_eq_zero fun y hy => ?_
    obtain ⟨q, hq, rfl⟩ := List.mem_map.mp hy
    obtain ⟨k, hk, rfl⟩ := List.mem_map.mp hq
    change PlaneReg.planeErr e traj (planeAfter d N P n (allPairs N n) k).reset = 0
    have hest := Plane.estimate_ok (e := e) (traj := traj) (Plane.reset_wf (planeAfter_wf d N P n (allPairs N n) k))
      (by change n ≤ traj.length; rw [l1, htraj, List.length_replicate])
    obtain ⟨pl, -, -, hpl⟩ := estimate_optimal he (clouds := (List.range n).map (cloud d N P n (allPairs N n) k))
      (fun A hA => (hrig A (by rw [← htr']; exact hA)).lastRow) (Plane.reset_wf (planeAfter_wf d N P n (allPairs N n) k)) rfl hest
    change (e.eig4 _).val 0 = 0
    have hpl : OptimalFor traj ((List.range n).map (cloud d N P n (allPairs N n) k)) pl
      (PlaneReg.planeErr e traj (planeAfter d N P n (allPairs N n) k).reset) := hpl
    obtain ⟨-, a2, a3⟩ := hpl
    change PlaneReg.planeErr e traj (planeAfter d N P n (allPairs N n) k).reset = 0
    refine le_antisymm ?_ (by rw [← a2]; exact planeCost_nonneg' _ _)
    obtain ⟨m, m1, m2⟩ := exists_plane (SE3.ofVec (d.planeXi k))
    refine le_trans (a3 m m1) (le_of_eq (planeCost_zero _ _ ?_))
    intro q hq x hx
    obtain ⟨t, ht, hqt⟩ := List.getElem_of_mem hq
    rw [List.getElem_zip] at hqt
    have ht' : t < n := by
      rw [List.length_zip, List.length_map, List.length_map, List.length_range] at ht
      omega
    subst hqt
    simp only [List.getElem_map, List.getElem_range] at hx ⊢
    have htt : traj[t]? = some (truePose d n t) := by rw [htr']; exact hgt t ht'
    have htt' : traj[t]'(by rw [l1, htraj, List.length_replicate]; exact ht') = truePose d n t := by
      rw [List.getElem?_eq_getElem (by rw [l1, htraj, List.length_replicate]; exact ht')] at htt
      exact Option.some.inj htt
    rw [htt']
    rw [cloud_eq ht'] at hx
    obtain ⟨i, hi, rfl⟩ := List.mem_map.mp hx
    have hid := (List.mem_filter.mp hi).2
    rw [decide_eq_true_eq] at hid
    rw [move_pointAt N P hn h hl, hid]
    exact m2 _ (hz t i)
  subst hv
  refine ⟨r2, hT, by rw [PlaneReg.setLastPose, h1, Out.ok_bind], htr', herr, ?_⟩
  rw [PlaneReg.posesRmse_eq (by change R.numberPoses ≠ 0; omega) (by change _ ≤ traj.length; rw [htr'])]
  congr 1
  rw [Real.sqrt_eq_zero']
  refine le_of_eq (List.sum_eq_zero fun y hy => ?_)
  obtain ⟨t, ht, rfl⟩ := List.getElem_of_mem hy
  rw [List.getElem_zipWith]
  simp only [htr']
  have hr := hrig ((after d N P n (allPairs N n)).gt[t]'(by
    rw [List.length_zipWith] at ht; omega)) (List.getElem_mem _)
  have e0 : (SE3.mul ((after d N P n (allPairs N n)).gt[t]'(by rw [List.length_zipWith] at ht; omega))
      ((after d N P n (allPairs N n)).gt[t]'(by rw [List.length_zipWith] at ht; omega)).inv).lnVee = 0 := by
    have : SE3.mul ((after d N P n (allPairs N n)).gt[t]'(by rw [List.length_zipWith] at ht; omega))
      ((after d N P n (allPairs N n)).gt[t]'(by rw [List.length_zipWith] at ht; omega)).inv = SE3.default := by
      ext1
      exact mul_inv_cancel' hr
    rw [this, lnVee_default]
  rw [e0]
  simp

/-- Draws which meet the hypotheses: a turn of one radian with a translation, points on the plane `z = 0`. -/
example : ∃ d : Draws, GoodFinal d.finalXi ∧ 1e-5 * ((100 : ℕ) - 1 : ℝ) ≤ len (head3 d.finalXi) ∧ (∀ t i, d.point t i 2 = 0) ∧
    (∀ k, 1e-5 ≤ len (head3 (d.planeXi k)) ∨ head3 (d.planeXi k) = 0) ∧ ∃ t i, d.point t i ≠ 0 := by
  have hl : len (![0, 0, 1] : Vec3) = 1 := by
    rw [len]; simp [dotProduct, Fin.sum_univ_three]
  have hp := Real.pi_gt_three
  refine ⟨⟨fun _ => vec6 ![0, 0, 1] ![1, 2, 3], vec6 ![0, 0, 1] ![1, 2, 3], fun _ => (0, 0), fun t i => ![t + 1, i, 0]⟩,
    ⟨Or.inr ?_, ?_⟩, ?_, fun _ _ => rfl, fun k => Or.inl ?_, 0, 0, fun h => ?_⟩
  · change 5e-3 < len ![0, 0, 1] ∧ len ![0, 0, 1] ≤ _
    rw [hl]
    constructor
    · norm_num
    · norm_num; linarith
  · rintro ⟨-, h, -⟩
    exact one_ne_zero h
  · change _ ≤ len ![0, 0, 1]
    rw [hl]; norm_num
  · change _ ≤ len ![0, 0, 1]
    rw [hl]; norm_num
  · have := congrFun h 0
    norm_num at this

end Mrob
