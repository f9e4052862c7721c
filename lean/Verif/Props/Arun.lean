import Verif.Lemmas.Arun

/-! # Properties C56 and C64: registration in closed form -/

open Matrix

namespace Mrob

open Spec

/-! ## C56 -/

/-- `arun` is defined on all pairs of equally long clouds; when it reports a failure the argument is unchanged. -/
theorem C56_total (svd : Mat3 → SVD3) (X Y : List Vec3) (T : SE3) (hl : Y.length = X.length) :
    ∃ b T', arun svd X Y T = .ok (b, T') ∧ (b = false → T' = T) := by
  rw [arun, if_neg (not_not.mpr hl)]
  dsimp only
  split_ifs
  · exact ⟨false, T, rfl, fun _ => rfl⟩
  · exact ⟨false, T, rfl, fun _ => rfl⟩
  · exact ⟨false, T, rfl, fun _ => rfl⟩
  · exact ⟨true, _, rfl, fun h => by simp at h⟩

example : ∃ X Y : List Vec3, X ≠ Y ∧ Y.length = X.length := ⟨[![1, 2, 3]], [![4, 2, 3]], by simp, rfl⟩

/-- The result is a rigid transformation, whatever the clouds. -/
theorem C56_rigid (svd : Mat3 → SVD3) (hsvd : ∀ H, (svd H).Decomposes H) (X Y : List Vec3) (T T' : SE3)
    (h : arun svd X Y T = .ok (true, T')) : IsRigid T'.T := by
  obtain ⟨-, h⟩ := arun_inv h
  rcases h with h | ⟨-, -, -, -, rfl⟩
  · simp at h
  · exact isRigid_homog (arunRotation_isRotation (hsvd _)) _

/-- No rigid transformation has a smaller sum of squared distances, and no other one has the same. -/
theorem C56_optimal (svd : Mat3 → SVD3) (hsvd : ∀ H, (svd H).Decomposes H) (X Y : List Vec3) (T T' : SE3)
    (h : arun svd X Y T = .ok (true, T')) (M : Mat4) (hM : IsRigid M) (hne : M ≠ T'.T) :
    alignCost T'.T (X.zip Y) < alignCost M (X.zip Y) := by
  have hr := C56_rigid svd hsvd X Y T T' h
  obtain ⟨hl, h⟩ := arun_inv h
  rcases h with h | ⟨-, hX, h01, h12, rfl⟩
  · simp at h
  rw [alignCost_rigid hr hl hX, alignCost_rigid hM hl hX]
  set H := crossMoment (centred X (rowMean X)) (centred Y (rowMean Y)) with hH
  have hd := hsvd H
  have e1 : tl3 (homog (arunRotation (svd H)) (rowMean Y - arunRotation (svd H) *ᵥ rowMean X) 1) = arunRotation (svd H) := by
    simp
  have e2 : tr3 (homog (arunRotation (svd H)) (rowMean Y - arunRotation (svd H) *ᵥ rowMean X) 1)
      = rowMean Y - arunRotation (svd H) *ᵥ rowMean X := by simp
  simp only [e1, e2, add_sub_cancel, dist2_self_eq, mul_zero, add_zero]
  have hN : (0 : ℝ) < X.length := by exact_mod_cast List.length_pos_of_ne_nil hX
  have ht := trace_le_arun hd (isRigid_iff.mp hM).1
  have hdn := mul_nonneg hN.le (dist2_nonneg' (rowMean Y) (tl3 M *ᵥ rowMean X + tr3 M))
  by_contra hcon
  have hcon := not_lt.mp hcon
  have a01 : (svd H).sv 1 ≤ (svd H).sv 0 := hd.2.2.1 (by decide)
  have a12 : (svd H).sv 2 ≤ (svd H).sv 1 := hd.2.2.1 (by decide)
  rw [abs_of_nonpos (by linarith)] at h01 h12
  have hR := trace_eq_arun hd (by linarith) (by linarith) (isRigid_iff.mp hM).1 (by linarith)
  have ht0 : dist2 (rowMean Y) (tl3 M *ᵥ rowMean X + tr3 M) ≤ 0 := by
    by_contra hpos
    have := mul_pos hN (not_le.mp hpos)
    linarith
  have ht1 := eq_of_dist2 ht0
  refine hne ?_
  rw [(isRigid_iff.mp hM).2, hR]
  congr 1
  rw [ht1, hR, add_sub_cancel_left]

/-- If the second cloud is the first one moved by a rigid transformation and `arun` succeeds, it returns that
transformation. -/
theorem C56_recovers (svd : Mat3 → SVD3) (hsvd : ∀ H, (svd H).Decomposes H) (X : List Vec3) (M : Mat4) (hM : IsRigid M)
    (T T' : SE3) (h : arun svd X (X.map (movePoint M)) T = .ok (true, T')) : T'.T = M := by
  by_contra hne
  have := C56_optimal svd hsvd X _ T T' h M hM (Ne.symm hne)
  have h0 : alignCost M (X.zip (X.map (movePoint M))) = 0 := by
    rw [alignCost]
    refine List.sum_eq_zero fun c hc => ?_
    obtain ⟨p, hp, rfl⟩ := List.mem_map.mp hc
    rw [List.zip_map_right, List.mem_map] at hp
    obtain ⟨⟨a, b⟩, hab, rfl⟩ := hp
    have : a = b := by
      obtain ⟨i, hi, he⟩ := List.getElem_of_mem hab
      rw [List.getElem_zip] at he
      exact (Prod.mk.inj he).1.symm.trans (Prod.mk.inj he).2
    subst this
    exact dist2_self_eq _
  have hn : 0 ≤ alignCost T'.T (X.zip (X.map (movePoint M))) :=
    List.sum_nonneg fun c hc => by
      obtain ⟨p, -, rfl⟩ := List.mem_map.mp hc
      exact dist2_nonneg' _ _
  linarith

/-- Clouds on a line, for which the best rotation is not unique, are always refused. -/
theorem C56_collinear (svd : Mat3 → SVD3) (hsvd : ∀ H, (svd H).Decomposes H) (X Y : List Vec3) (T : SE3)
    (hl : Y.length = X.length) (hc : Collinear3 X) : arun svd X Y T = .ok (false, T) := by
  rcases eq_or_ne X [] with hX | hX
  · rw [arun, if_neg (not_not.mpr hl), if_pos (by rw [hX]; rfl)]
  refine arun_false T hl (Or.inr ?_)
  obtain ⟨a, u, hu⟩ := hc
  have hsum : ∀ Z : List Vec3, (∀ x ∈ Z, ∃ s : ℝ, x = a + s • u) → ∃ s : ℝ, Z.sum = (Z.length : ℝ) • a + s • u := by
    intro Z
    induction Z with
    | nil => intro _; exact ⟨0, by simp⟩
    | cons z Z ih =>
      intro hz
      obtain ⟨s, hs⟩ := ih fun x hx => hz x (List.mem_cons_of_mem _ hx)
      obtain ⟨r, hr⟩ := hz z List.mem_cons_self
      refine ⟨r + s, ?_⟩
      rw [List.sum_cons, hs, hr, List.length_cons]
      push_cast
      module
  obtain ⟨s, hs⟩ := hsum X hu
  have hN : (X.length : ℝ) ≠ 0 := by
    simpa [List.length_eq_zero_iff] using hX
  have hmean : rowMean X = a + ((X.length : ℝ)⁻¹ * s) • u := by
    rw [rowMean, hs, smul_add, smul_smul, smul_smul, inv_mul_cancel₀ hN, one_smul]
  have hcen : ∀ x ∈ X, ∃ r : ℝ, x - rowMean X = r • u := fun x hx => by
    obtain ⟨r, hr⟩ := hu x hx
    exact ⟨r - (X.length : ℝ)⁻¹ * s, by rw [hr, hmean]; module⟩
  have hrank : ∀ (A B : List Vec3), (∀ x ∈ A, ∃ r : ℝ, x = r • u) → ∃ v, crossMoment A B = vecMulVec u v := by
    intro A
    induction A with
    | nil => intro B _; exact ⟨0, by simp [crossMoment]⟩
    | cons x A ih =>
      intro B hA
      cases B with
      | nil => exact ⟨0, by simp [crossMoment]⟩
      | cons y B =>
        obtain ⟨v, hv⟩ := ih B fun z hz => hA z (List.mem_cons_of_mem _ hz)
        obtain ⟨r, hr⟩ := hA x List.mem_cons_self
        refine ⟨r • y + v, ?_⟩
        have : crossMoment (x :: A) (y :: B) = vecMulVec x y + crossMoment A B := by simp [crossMoment]
        rw [this, hv, hr]
        ext i j
        simp [vecMulVec_apply]
        ring
  obtain ⟨v, hv⟩ := hrank (centred X (rowMean X)) (centred Y (rowMean Y)) fun x hx => by
    obtain ⟨z, hz, rfl⟩ := List.mem_map.mp hx
    exact hcen z hz
  have := hsvd (crossMoment (centred X (rowMean X)) (centred Y (rowMean Y)))
  obtain ⟨h1, h2⟩ := sv_rank_one (hv ▸ this)
  rw [hv, h1, h2]
  norm_num

example : Collinear3 [![0, 0, 0], ![1, 2, 3], ![2, 4, 6]] :=
  ⟨0, ![1, 2, 3], by
    intro x hx
    simp only [List.mem_cons, List.not_mem_nil, or_false] at hx
    rcases hx with rfl | rfl | rfl
    · exact ⟨0, by simp⟩
    · exact ⟨1, by simp⟩
    · exact ⟨2, by ext i; fin_cases i <;> norm_num⟩⟩

/-! ## C64 -/

/-- Two clouds related by a rigid transformation, where the eigenvalues of the scatter matrix of the first one differ by at
least `1e-6`: `arun` succeeds and returns the transformation.  Missing for C64: clouds with equal or nearly equal
eigenvalues. -/
theorem C64_separated_partial (svd : Mat3 → SVD3) (hsvd : ∀ H, (svd H).Decomposes H) (X : List Vec3) (hX : X ≠ []) (M : Mat4)
    (hM : IsRigid M) (W : Mat3) (hW : Wᵀ * W = 1) (lam : Fin 3 → ℝ) (hs : scatter X = W * diagonal lam * Wᵀ)
    (h01 : lam 1 + 1e-6 ≤ lam 0) (h12 : lam 2 + 1e-6 ≤ lam 1) (T : SE3) :
    arun svd X (X.map (movePoint M)) T = .ok (true, ⟨M⟩) := by
  have hN : (X.length : ℝ) ≠ 0 := by
    simpa [List.length_eq_zero_iff] using hX
  have hRM := (isRigid_iff.mp hM).1
  -- means and centred points
  have hsum : ∀ Z : List Vec3, (Z.map (movePoint M)).sum = tl3 M *ᵥ Z.sum + (Z.length : ℝ) • tr3 M := by
    intro Z
    induction Z with
    | nil => simp
    | cons z Z ih =>
      rw [List.map_cons, List.sum_cons, ih, List.sum_cons, mulVec_add, movePoint_rigid, List.length_cons]
      push_cast
      module
  have hmean : rowMean (X.map (movePoint M)) = tl3 M *ᵥ rowMean X + tr3 M := by
    rw [rowMean, hsum, List.length_map, rowMean, smul_add, smul_smul, inv_mul_cancel₀ hN, one_smul, mulVec_smul]
  have hcm : ∀ (c : Vec3) (Z : List Vec3), crossMoment (centred Z c) (centred (Z.map (movePoint M)) (tl3 M *ᵥ c + tr3 M)) =
      (Z.map fun x => vecMulVec (x - c) (x - c)).sum * (tl3 M)ᵀ := by
    intro c Z
    induction Z with
    | nil => simp [crossMoment, centred]
    | cons z Z ih =>
      have e : crossMoment (centred (z :: Z) c) (centred ((z :: Z).map (movePoint M)) (tl3 M *ᵥ c + tr3 M)) =
          vecMulVec (z - c) (movePoint M z - (tl3 M *ᵥ c + tr3 M)) +
            crossMoment (centred Z c) (centred (Z.map (movePoint M)) (tl3 M *ᵥ c + tr3 M)) := by
        simp [crossMoment, centred]
      rw [e, ih, List.map_cons, List.sum_cons, Matrix.add_mul, vecMulVec_mul, vecMul_transpose, movePoint_rigid,
        add_sub_add_right_eq_sub, ← mulVec_sub]
  have hH : crossMoment (centred X (rowMean X)) (centred (X.map (movePoint M)) (rowMean (X.map (movePoint M)))) =
      W * diagonal lam * (tl3 M * W)ᵀ := by
    rw [hmean, hcm, show (X.map fun x => vecMulVec (x - rowMean X) (x - rowMean X)).sum = scatter X from rfl, hs,
      transpose_mul, ← Matrix.mul_assoc]
  -- the smallest eigenvalue is not negative
  have hpos : 0 ≤ lam 2 := by
    have e : lam 2 = (fun i => W i 2) ⬝ᵥ (scatter X *ᵥ fun i => W i 2) := by
      have e1 : (fun i => W i 2) ⬝ᵥ (scatter X *ᵥ fun i => W i 2) = (Wᵀ * scatter X * W) 2 2 := by
        rw [Matrix.mul_assoc, Matrix.mul_apply]
        simp [dotProduct, mulVec, Matrix.mul_apply]
      have e2 : Wᵀ * scatter X * W = diagonal lam := by
        rw [hs]
        calc Wᵀ * (W * diagonal lam * Wᵀ) * W = (Wᵀ * W) * diagonal lam * (Wᵀ * W) := by simp only [Matrix.mul_assoc]
          _ = _ := by rw [hW, Matrix.one_mul, Matrix.mul_one]
      rw [e1, e2, diagonal_apply_eq]
    have hq : ∀ (w c : Vec3) (Z : List Vec3), 0 ≤ w ⬝ᵥ ((Z.map fun x => vecMulVec (x - c) (x - c)).sum *ᵥ w) := by
      intro w c Z
      induction Z with
      | nil => simp
      | cons z Z ih =>
        rw [List.map_cons, List.sum_cons, add_mulVec, dotProduct_add]
        refine add_nonneg ?_ ih
        have : w ⬝ᵥ (vecMulVec (z - c) (z - c) *ᵥ w) = (w ⬝ᵥ (z - c)) * (w ⬝ᵥ (z - c)) := by
          simp [vecMulVec_apply, dotProduct, mulVec, Fin.sum_univ_three]
          ring
        rw [this]
        exact mul_self_nonneg _
    rw [e]
    exact hq _ _ X
  have hd : SVD3.Decomposes ⟨W, lam, tl3 M * W⟩
      (crossMoment (centred X (rowMean X)) (centred (X.map (movePoint M)) (rowMean (X.map (movePoint M))))) := by
    refine ⟨hW, ?_, ?_, hpos, hH⟩
    · change (tl3 M * W)ᵀ * (tl3 M * W) = 1
      rw [transpose_mul, Matrix.mul_assoc, ← Matrix.mul_assoc (tl3 M)ᵀ, hRM.transpose_mul, Matrix.one_mul, hW]
    · intro a b hab
      have b1 : lam 1 ≤ lam 0 := by linarith
      have b2 : lam 2 ≤ lam 1 := by linarith
      change lam b ≤ lam a
      fin_cases a <;> fin_cases b <;> first | exact le_rfl | exact b1 | exact b2 | exact b2.trans b1 | exact absurd hab (by decide)
  have hsv := sv_unique (hsvd _) hd
  obtain ⟨b, T', hr, -⟩ := C56_total svd X (X.map (movePoint M)) T (by simp)
  have hb : b = true := by
    by_contra hb
    have hb : b = false := by simpa using hb
    subst hb
    have hsv1 := hsv
    rw [arun, if_neg (by simp), if_neg (by simpa [List.length_eq_zero_iff] using hX)] at hr
    dsimp only at hr
    rw [hsv, if_neg, if_neg] at hr
    · simp at hr
    · change ¬ |lam 2 - lam 1| < 1e-6
      rw [abs_of_nonpos (by linarith)]
      linarith
    · change ¬ |lam 1 - lam 0| < 1e-6
      rw [abs_of_nonpos (by linarith)]
      linarith
  subst hb
  have := C56_recovers svd hsvd X M hM T T' hr
  rw [hr]
  subst this
  rfl

/-- Four points with three different eigenvalues. -/
example : ∃ (svd : Mat3 → SVD3) (X : List Vec3) (W : Mat3) (lam : Fin 3 → ℝ), (∀ H, (svd H).Decomposes H) ∧ X ≠ [] ∧
    Wᵀ * W = 1 ∧ scatter X = W * diagonal lam * Wᵀ ∧ lam 1 + 1e-6 ≤ lam 0 ∧ lam 2 + 1e-6 ≤ lam 1 := by
  obtain ⟨svd, hsvd⟩ := exists_svd
  refine ⟨svd, [![2, 0, 0], ![-2, 0, 0], ![0, 1, 0], ![0, -1, 0]], 1, ![8, 2, 0], hsvd, by simp, by simp, ?_, ?_, ?_⟩
  · ext i j
    fin_cases i <;> fin_cases j <;> simp [scatter, meanPoint, vecMulVec_apply] <;> norm_num
  · simp; norm_num
  · simp; norm_num

/-- `arun` succeeds on these points and their image under any rigid motion. -/
example : ∃ (svd : Mat3 → SVD3) (X Y : List Vec3) (T T' : SE3), (∀ H, (svd H).Decomposes H) ∧ X ≠ Y ∧
    arun svd X Y T = .ok (true, T') := by
  obtain ⟨svd, hsvd⟩ := exists_svd
  have hM : IsRigid (homog 1 ![1, 2, 3] 1) := isRigid_homog isRotation_one _
  refine ⟨svd, [![2, 0, 0], ![-2, 0, 0], ![0, 1, 0], ![0, -1, 0]], _, SE3.default, _, hsvd, ?_,
    C64_separated_partial svd hsvd _ (by simp) (homog 1 ![1, 2, 3] 1) hM 1 (by simp) ![8, 2, 0] ?_ ?_ ?_ _⟩
  · intro h
    have := congrFun (List.cons.inj h).1 1
    rw [movePoint_rigid] at this
    norm_num at this
  · ext i j
    fin_cases i <;> fin_cases j <;> simp [scatter, meanPoint, vecMulVec_apply] <;> norm_num
  · simp; norm_num
  · simp; norm_num

/-- The corners of a regular octahedron. -/
def octahedron : List Vec3 := [![1, 0, 0], ![-1, 0, 0], ![0, 1, 0], ![0, -1, 0], ![0, 0, 1], ![0, 0, -1]]

/-- C64 is false: the octahedron matched with itself determines the motion uniquely, the identity with cost zero, and is
refused. -/
theorem C64_fails (svd : Mat3 → SVD3) (hsvd : ∀ H, (svd H).Decomposes H) :
    UniqueBest 1 (octahedron.zip octahedron) ∧ alignCost 1 (octahedron.zip octahedron) = 0 ∧
      ∀ T, arun svd octahedron octahedron T = .ok (false, T) := by
  have hcost : alignCost 1 (octahedron.zip octahedron) = 0 := by
    have : ∀ p : Vec3, movePoint 1 p = p := fun p => by
      rw [movePoint_rigid]
      have e1 : tl3 (1 : Mat4) = 1 := by rw [← homog_one]; simp
      have e2 : tr3 (1 : Mat4) = 0 := by rw [← homog_one]; simp
      rw [e1, e2, one_mulVec, add_zero]
    simp [alignCost, octahedron, this, dist2_self_eq]
  refine ⟨⟨?_, ?_⟩, hcost, fun T => ?_⟩
  · rw [← homog_one]; exact isRigid_homog isRotation_one _
  · intro M' hM' hle
    rw [hcost] at hle
    have hz : ∀ x ∈ octahedron, x = movePoint M' x := by
      intro x hx
      have hmem : dist2 x (movePoint M' x) ∈ (octahedron.zip octahedron).map fun p => dist2 p.2 (movePoint M' p.1) :=
        List.mem_map.mpr ⟨(x, x), by
          simp only [octahedron, List.mem_cons, List.not_mem_nil, or_false] at hx
          rcases hx with rfl | rfl | rfl | rfl | rfl | rfl <;> simp [octahedron], rfl⟩
      refine eq_of_dist2 ((List.single_le_sum (fun c hc => ?_) _ hmem).trans hle)
      obtain ⟨p, -, rfl⟩ := List.mem_map.mp hc
      exact dist2_nonneg' _ _
    have h1 := hz ![1, 0, 0] (by simp [octahedron])
    have h2 := hz ![-1, 0, 0] (by simp [octahedron])
    have h3 := hz ![0, 1, 0] (by simp [octahedron])
    have h5 := hz ![0, 0, 1] (by simp [octahedron])
    rw [movePoint_rigid] at h1 h2 h3 h5
    rw [(isRigid_iff.mp hM').2, ← homog_one]
    have ht : tr3 M' = 0 := by
      ext i
      have a := congrFun h1 i
      have b := congrFun h2 i
      fin_cases i <;> simp [mulVec, dotProduct, Fin.sum_univ_three] at a b ⊢ <;> linarith
    rw [ht] at h1 h3 h5 ⊢
    congr 1
    ext i j
    have a := congrFun h1 i
    have b := congrFun h3 i
    have c := congrFun h5 i
    fin_cases i <;> fin_cases j <;> simp [mulVec, dotProduct, Fin.sum_univ_three] at a b c ⊢ <;> linarith
  · refine arun_false T rfl (Or.inl ?_)
    have hm : rowMean octahedron = 0 := by
      ext i; fin_cases i <;> simp [rowMean, octahedron]
    have hH : crossMoment (centred octahedron (rowMean octahedron)) (centred octahedron (rowMean octahedron)) = diagonal fun _ => 2 := by
      rw [hm]
      ext i j
      fin_cases i <;> fin_cases j <;> simp [crossMoment, centred, octahedron, vecMulVec_apply] <;> norm_num
    have hd : SVD3.Decomposes ⟨1, fun _ => 2, 1⟩ (diagonal fun _ => (2 : ℝ)) :=
      ⟨by simp, by simp, fun a b _ => le_rfl, by norm_num, by simp⟩
    rw [hH, sv_unique (hsvd _) hd]
    norm_num

/-- The threshold is absolute: whatever the clouds, a small enough scale makes `arun` refuse them. -/
theorem C64_scale_fails (svd : Mat3 → SVD3) (hsvd : ∀ H, (svd H).Decomposes H) (X Y : List Vec3) (hl : Y.length = X.length) :
    ∃ s₀ > 0, ∀ s : ℝ, 0 < s → s < s₀ → ∀ T,
      arun svd (X.map (s • ·)) (Y.map (s • ·)) T = .ok (false, T) := by
  set H := crossMoment (centred X (rowMean X)) (centred Y (rowMean Y)) with hHdef
  set F : ℝ := ∑ a, ∑ b, H a b * H a b with hF
  have hF0 : 0 ≤ F := Finset.sum_nonneg fun a _ => Finset.sum_nonneg fun b _ => mul_self_nonneg _
  have hmean : ∀ (s : ℝ) (Z : List Vec3), rowMean (Z.map (s • ·)) = s • rowMean Z := by
    intro s Z
    have : (Z.map (s • ·)).sum = s • Z.sum := by
      induction Z with
      | nil => simp
      | cons z Z ih => rw [List.map_cons, List.sum_cons, ih, List.sum_cons, smul_add]
    rw [rowMean, this, List.length_map, rowMean, smul_comm]
  have hcen : ∀ (s : ℝ) (c : Vec3) (Z : List Vec3), centred (Z.map (s • ·)) (s • c) = (centred Z c).map (s • ·) := by
    intro s c Z
    simp only [centred, List.map_map]
    refine List.map_congr_left fun z _ => ?_
    simp [smul_sub]
  have hcm : ∀ (s : ℝ) (A B : List Vec3), crossMoment (A.map (s • ·)) (B.map (s • ·)) = (s * s) • crossMoment A B := by
    intro s A
    induction A with
    | nil => intro B; simp [crossMoment]
    | cons a A ih =>
      intro B
      cases B with
      | nil => simp [crossMoment]
      | cons b B =>
        have e : ∀ (x y : Vec3) (A B : List Vec3), crossMoment (x :: A) (y :: B) = vecMulVec x y + crossMoment A B :=
          fun x y A B => by simp [crossMoment]
        rw [List.map_cons, List.map_cons, e, e, ih, smul_add, smul_vecMulVec, vecMulVec_smul, smul_smul]
  refine ⟨1e-4 / (F + 1), by positivity, fun s hs hs0 T => ?_⟩
  have hd := hsvd (crossMoment (centred (X.map (s • ·)) (rowMean (X.map (s • ·))))
    (centred (Y.map (s • ·)) (rowMean (Y.map (s • ·)))))
  refine arun_false T (by simpa using hl) (Or.inl ?_)
  set d := svd (crossMoment (centred (X.map (s • ·)) (rowMean (X.map (s • ·))))
    (centred (Y.map (s • ·)) (rowMean (Y.map (s • ·)))))
  rw [hmean, hmean, hcen, hcen, hcm, ← hHdef] at hd
  have hb := sv_le hd 0
  have e : ∑ a, ∑ b, ((s * s) • H) a b * ((s * s) • H) a b = (s * s) * (s * s) * F := by
    rw [hF, Finset.mul_sum]
    refine Finset.sum_congr rfl fun a _ => ?_
    rw [Finset.mul_sum]
    refine Finset.sum_congr rfl fun b _ => ?_
    simp only [Matrix.smul_apply, smul_eq_mul]
    ring
  rw [e] at hb
  have a01 : d.sv 1 ≤ d.sv 0 := hd.2.2.1 (by decide)
  have n0 := hd.nonneg 0
  have n1 := hd.nonneg 1
  rw [abs_of_nonpos (by linarith)]
  have h1 : s * (F + 1) < 1e-4 := (lt_div_iff₀ (by linarith)).mp hs0
  have h2 : s < 1e-4 := by nlinarith
  have h3 : s * s < 1e-8 := by nlinarith
  have h4 : s * F < 1e-4 := by nlinarith
  have h5 : d.sv 0 * d.sv 0 < 1e-12 := by
    have : (s * s) * (s * s) * F = (s * s) * s * (s * F) := by ring
    have h6 : (s * s) * s < 1e-12 := by nlinarith
    have h7 : 0 ≤ s * F := by positivity
    have h8 : (s * s) * s * (s * F) ≤ 1e-12 * 1e-4 := by
      apply mul_le_mul h6.le h4.le h7 (by norm_num)
    rw [this] at hb
    have : (1e-12 * 1e-4 : ℝ) < 1e-12 := by norm_num
    linarith
  have h6 : d.sv 0 < 1e-6 := by
    by_contra hc
    have := not_lt.mp hc
    nlinarith
  linarith

end Mrob
