import Verif.Lemmas.PlaneDescent
import Verif.Lemmas.SE3More
import Verif.Spec.SensorFrame

/-! # The plane registration in another frame of the sensor -/

open Matrix

namespace Mrob

open Spec

/-! ## Matrices -/

theorem sumOuter_moved {G : Mat4} (hG : LastRow G) (l : List Vec3) :
    sumOuter (l.map (movePoint G)) = G * sumOuter l * Gᵀ := by
  induction l with
  | nil => simp [sumOuter_nil]
  | cons p l ih =>
    rw [List.map_cons, sumOuter_cons, sumOuter_cons, ih, Matrix.mul_add, Matrix.add_mul, ← mulVec_homPt hG, mul_vecMulVec,
      vecMulVec_mul, vecMul_transpose]

theorem qList_map (traj : List SE3) (S : List Mat4) :
    Plane.qList traj S = List.zipWith (fun M S => M * S * Mᵀ) (traj.map SE3.T) S := by
  rw [Plane.qList, List.zipWith_map_left]

theorem list_sum_conj (G : Mat4) (l : List Mat4) : (l.map fun A => G * A * Gᵀ).sum = G * l.sum * Gᵀ := by
  induction l with
  | nil => simp
  | cons a l ih => rw [List.map_cons, List.sum_cons, List.sum_cons, ih, Matrix.mul_add, Matrix.add_mul]

theorem term_moved {G : Mat4} (hG : LastRow G) (hu : G⁻¹ * G = 1) (T : Mat4) (c : List Vec3) :
    G * T * G⁻¹ * sumOuter (c.map (movePoint G)) * (G * T * G⁻¹)ᵀ = G * (T * sumOuter c * Tᵀ) * Gᵀ := by
  rw [sumOuter_moved hG]
  have hu' : Gᵀ * G⁻¹ᵀ = 1 := by rw [← transpose_mul, hu, transpose_one]
  simp only [transpose_mul, Matrix.mul_assoc]
  rw [← Matrix.mul_assoc G⁻¹ G, hu, Matrix.one_mul, ← Matrix.mul_assoc Gᵀ G⁻¹ᵀ, hu', Matrix.one_mul]

/-- The accumulated matrix of the moved problem. -/
theorem qSum_moved {G : Mat4} (hG : LastRow G) (hu : G⁻¹ * G = 1) {traj traj' : List SE3}
    (h : traj'.map SE3.T = traj.map fun T => G * T.T * G⁻¹) (clouds : List (List Vec3)) :
    (Plane.qList traj' ((clouds.map (List.map (movePoint G))).map sumOuter)).sum =
      G * (Plane.qList traj (clouds.map sumOuter)).sum * Gᵀ := by
  rw [← list_sum_conj, qList_map, h, Plane.qList, List.map_zipWith, List.map_map, List.zipWith_map, List.zipWith_map_right]
  congr 2
  funext T c
  exact term_moved hG hu _ _

/-- Comparison of the least eigenvalues of congruent matrices. -/
theorem least_le {A A' G : Mat4} {K : ℝ} {d d' : EigDec I4 4} (h : d.Decomposes A) (h' : d'.Decomposes A')
    (hA : A' = G * A * Gᵀ) (hu : G⁻¹ * G = 1) (hK : 0 < K) (hG : ∀ x : Vec4, (Gᵀ *ᵥ x) ⬝ᵥ (Gᵀ *ᵥ x) ≤ K * (x ⬝ᵥ x))
    (h0 : 0 ≤ d'.val 0) : d'.val 0 ≤ K * d.val 0 := by
  set v : Vec4 := fun k => d.vec k 0 with hv
  have hu' : Gᵀ * G⁻¹ᵀ = 1 := by rw [← transpose_mul, hu, transpose_one]
  have h1 : Gᵀ *ᵥ (G⁻¹ᵀ *ᵥ v) = v := by rw [mulVec_mulVec, hu', one_mulVec]
  have h2 := h'.le_quad (by simp [I4]) (G⁻¹ᵀ *ᵥ v)
  rw [hA, quad_conj, h1, h.attains 0] at h2
  have h3 := hG (G⁻¹ᵀ *ᵥ v)
  rw [h1, h.unit 0] at h3
  have h4 : d'.val 0 * 1 ≤ d'.val 0 * (K * (G⁻¹ᵀ *ᵥ v ⬝ᵥ G⁻¹ᵀ *ᵥ v)) := mul_le_mul_of_nonneg_left h3 h0
  have h5 := mul_le_mul_of_nonneg_left h2 hK.le
  linarith

theorem homog_transpose_mulVec (R : Mat3) (t : Vec3) (x : Vec4) :
    (homog R t 1)ᵀ *ᵥ x = Sum.elim (Rᵀ *ᵥ fun i => x (.inl i)) fun _ => t ⬝ᵥ (fun i => x (.inl i)) + x (.inr ()) := by
  funext i
  rcases i with i | ⟨⟩
  · simp [mulVec, dotProduct, homog, Fintype.sum_sum_type]
  · simp [mulVec, dotProduct, homog, Fintype.sum_sum_type]

theorem dot4 (x y : Vec4) : x ⬝ᵥ y = (fun i => x (.inl i)) ⬝ᵥ (fun i => y (.inl i)) + x (.inr ()) * y (.inr ()) := by
  simp [dotProduct, Fintype.sum_sum_type]

theorem cauchy3 (a b : Vec3) : (a ⬝ᵥ b) ^ 2 ≤ (a ⬝ᵥ a) * (b ⬝ᵥ b) := by
  simp only [dotProduct, Fin.sum_univ_three]
  nlinarith [sq_nonneg (a 0 * b 1 - a 1 * b 0), sq_nonneg (a 0 * b 2 - a 2 * b 0), sq_nonneg (a 1 * b 2 - a 2 * b 1)]

/-- The transposed rigid transformation stretches 4-vectors by at most `1 + |t|`. -/
theorem stretch {R : Mat3} (h : IsRotation R) (t : Vec3) (x : Vec4) :
    ((homog R t 1)ᵀ *ᵥ x) ⬝ᵥ ((homog R t 1)ᵀ *ᵥ x) ≤ (1 + Spec.len t) ^ 2 * (x ⬝ᵥ x) := by
  rw [homog_transpose_mulVec, dot4, dot4 x x]
  simp only [Sum.elim_inl, Sum.elim_inr]
  set n : Vec3 := fun i => x (.inl i)
  set d := x (.inr ())
  have h1 : (Rᵀ *ᵥ n) ⬝ᵥ (Rᵀ *ᵥ n) = n ⬝ᵥ n := by
    rw [dotProduct_mulVec, ← mulVec_transpose, mulVec_mulVec, transpose_transpose, h.1, one_mulVec]
  have h2 := cauchy3 t n
  have hN : 0 ≤ n ⬝ᵥ n := by simp only [dotProduct, Fin.sum_univ_three]; nlinarith [sq_nonneg (n 0), sq_nonneg (n 1), sq_nonneg (n 2)]
  have hT : 0 ≤ t ⬝ᵥ t := by simp only [dotProduct, Fin.sum_univ_three]; nlinarith [sq_nonneg (t 0), sq_nonneg (t 1), sq_nonneg (t 2)]
  rw [show (fun i => (Rᵀ *ᵥ fun i => x (Sum.inl i)) i) = Rᵀ *ᵥ n from rfl, h1]
  have e1 : Spec.len t ^ 2 = t ⬝ᵥ t := Real.sq_sqrt hT
  have e2 : Real.sqrt (n ⬝ᵥ n) ^ 2 = n ⬝ᵥ n := Real.sq_sqrt hN
  have l0 : 0 ≤ Spec.len t := Real.sqrt_nonneg _
  have a0 := Real.sqrt_nonneg (n ⬝ᵥ n)
  set τ := Spec.len t
  set a := Real.sqrt (n ⬝ᵥ n)
  set c := t ⬝ᵥ n
  rw [← e1, ← e2, ← mul_pow] at h2
  have h3 : |c| ≤ τ * a := abs_le_of_sq_le_sq h2 (by positivity)
  rw [← e2]
  have h4 : c * d ≤ τ * a * |d| := by
    calc c * d ≤ |c * d| := le_abs_self _
      _ = |c| * |d| := abs_mul _ _
      _ ≤ _ := mul_le_mul_of_nonneg_right h3 (abs_nonneg _)
  have h5 : 2 * (a * |d|) ≤ a ^ 2 + d ^ 2 := by
    have := sq_nonneg (a - |d|)
    rw [sub_sq, sq_abs] at this
    linarith
  have h6 := mul_le_mul_of_nonneg_left h5 l0
  have h7 : 0 ≤ τ * (a ^ 2 + d ^ 2) := by positivity
  have h8 : 0 ≤ τ ^ 2 * d ^ 2 := by positivity
  nlinarith

/-! ## Registration problems -/

namespace PlaneReg

variable {G : Mat4} {s s' : PlaneReg}

theorem rigid_inv_mul (hG : IsRigid G) : G⁻¹ * G = 1 := by
  obtain ⟨a, b⟩ := isRigid_iff.mp hG
  have : homog (tl3 G)ᵀ (-((tl3 G)ᵀ *ᵥ tr3 G)) 1 * G = 1 := by
    rw [b, homog_mul]
    simp only [tl3_homog, tr3_homog]
    rw [a.transpose_mul, one_smul, add_neg_cancel, one_mul]
    exact homog_one
  rw [Matrix.inv_eq_left_inv this]
  exact this

theorem rigid_inv (hG : IsRigid G) : G⁻¹ = homog (tl3 G)ᵀ (-((tl3 G)ᵀ *ᵥ tr3 G)) 1 := by
  obtain ⟨a, b⟩ := isRigid_iff.mp hG
  refine Matrix.inv_eq_left_inv ?_
  conv_lhs => rw [b]
  rw [homog_mul]
  simp only [tl3_homog, tr3_homog]
  rw [a.transpose_mul, one_smul, add_neg_cancel, one_mul]
  exact homog_one

theorem _root_.Spec.Reframed.lastRow (h : Reframed G s s') (hG : IsRigid G) (ht : ∀ T ∈ s.traj, LastRow T.T) :
    ∀ T ∈ s'.traj, LastRow T.T := by
  intro T hT
  have h1 : T.T ∈ s'.traj.map SE3.T := List.mem_map_of_mem hT
  rw [h.traj] at h1
  obtain ⟨T0, h2, h3⟩ := List.mem_map.mp h1
  rw [← h3]
  refine (hG.lastRow.mul (ht T0 h2)).mul ?_
  rw [rigid_inv hG]
  exact lastRow_homog _ _

theorem planeErr_nonneg {e : EigSolver} (he : e.Sound) (hp : s.Prepared) (ht : ∀ T ∈ s.traj, LastRow T.T)
    {q : ℕ × Plane} (hq : q ∈ s.planes) : 0 ≤ planeErr e s.traj q.2 := by
  have h1 := (he.1 _ (hp.sym hq s.traj)).attains 0
  rw [planeErr, ← h1]
  generalize (e.eig4 _).vec = v
  rw [Plane.usedS_inSync (hp q hq).2.1, Plane.quad_qList ht]
  exact planeCost_nonneg _ _ _

/-- The accumulated matrices of corresponding planes. -/
theorem _root_.Spec.Reframed.qSum (h : Reframed G s s') (hG : IsRigid G) (hp : s.Prepared) (hp' : s'.Prepared)
    {q q' : ℕ × Plane} (hq : q ∈ s.planes) (hq' : q' ∈ s'.planes) (hm : q'.2.points = q.2.points.map (List.map (movePoint G))) :
    (Plane.qList s'.traj q'.2.usedS).sum = G * (Plane.qList s.traj q.2.usedS).sum * Gᵀ := by
  rw [Plane.usedS_inSync (hp q hq).2.1, Plane.usedS_inSync (hp' q' hq').2.1, hm]
  exact qSum_moved hG.lastRow (rigid_inv_mul hG) h.traj _

theorem forall2_sum_le {α β : Type} {R : α → β → Prop} {f : α → ℝ} {g : β → ℝ} {K : ℝ} : ∀ {l : List α} {l' : List β},
    List.Forall₂ R l l' → (∀ a ∈ l, ∀ b ∈ l', R a b → g b ≤ K * f a) → (l'.map g).sum ≤ K * (l.map f).sum := by
  intro l l' h
  induction h with
  | nil => intro _; simp
  | cons h1 _ ih =>
    intro hk
    rw [List.map_cons, List.map_cons, List.sum_cons, List.sum_cons, mul_add]
    exact add_le_add (hk _ List.mem_cons_self _ List.mem_cons_self h1)
      (ih fun a ha b hb => hk a (List.mem_cons_of_mem _ ha) b (List.mem_cons_of_mem _ hb))

/-- The error of the moved problem is at most `(1 + |t|)²` times the error. -/
theorem _root_.Spec.Reframed.errOf_le (h : Reframed G s s') (hG : IsRigid G) {e e' : EigSolver} (he : e.Sound) (he' : e'.Sound)
    (hp : s.Prepared) (hp' : s'.Prepared) (ht : ∀ T ∈ s.traj, LastRow T.T) :
    errOf e' s'.planes s'.traj ≤ (1 + Spec.len (tr3 G)) ^ 2 * errOf e s.planes s.traj := by
  rw [errOf, errOf]
  refine forall2_sum_le h.planes fun q hq q' hq' hm => ?_
  refine least_le (he.1 _ (hp.sym hq _)) (he'.1 _ (hp'.sym hq' _)) (h.qSum hG hp hp' hq hq' hm.2) (rigid_inv_mul hG) ?_ ?_
    (planeErr_nonneg he' hp' (h.lastRow hG ht) hq')
  · have : 0 ≤ Spec.len (tr3 G) := Real.sqrt_nonneg _
    positivity
  · obtain ⟨a, b⟩ := isRigid_iff.mp hG
    intro x
    have := stretch a (tr3 G) x
    rwa [← b] at this

theorem rigid_inv_rigid (hG : IsRigid G) : IsRigid G⁻¹ := by
  rw [rigid_inv hG]
  exact isRigid_homog (isRigid_iff.mp hG).1.transpose _

theorem len_inv (hG : IsRigid G) : Spec.len (tr3 G⁻¹) = Spec.len (tr3 G) := by
  have h := (isRigid_iff.mp hG).1
  rw [rigid_inv hG, tr3_homog, Spec.len, Spec.len, neg_dotProduct_neg, dotProduct_mulVec, ← mulVec_transpose, mulVec_mulVec,
    transpose_transpose, h.1, one_mulVec]

theorem movePoint_inv (hG : IsRigid G) (p : Vec3) : movePoint G⁻¹ (movePoint G p) = p := by
  have h1 : homPt (movePoint G⁻¹ (movePoint G p)) = homPt p := by
    rw [← mulVec_homPt (rigid_inv_rigid hG).lastRow, ← mulVec_homPt hG.lastRow, mulVec_mulVec, rigid_inv_mul hG, one_mulVec]
  funext i
  exact congrFun h1 (.inl i)

/-- The original problem from the moved one. -/
theorem _root_.Spec.Reframed.symm (h : Reframed G s s') (hG : IsRigid G) : Reframed G⁻¹ s' s := by
  have hu := rigid_inv_mul hG
  have hd : IsUnit G.det := (Matrix.isUnit_iff_isUnit_det G).mp (IsUnit.of_mul_eq_one _ (mul_eq_one_comm.mp hu))
  refine ⟨h.poses.symm, h.alpha.symm, ?_, ?_⟩
  · have h1 : (s'.traj.map fun T => G⁻¹ * T.T * G⁻¹⁻¹) = (s'.traj.map SE3.T).map fun M => G⁻¹ * M * G := by
      rw [List.map_map, Matrix.nonsing_inv_nonsing_inv _ hd]
      rfl
    rw [h1, h.traj, List.map_map]
    refine List.map_congr_left fun T _ => ?_
    rw [Function.comp_apply, Matrix.mul_assoc G, ← Matrix.mul_assoc G⁻¹, hu, Matrix.one_mul, Matrix.mul_assoc, hu, Matrix.mul_one]
  · refine List.Forall₂.flip ?_
    refine h.planes.imp fun q q' hq => ⟨hq.1.symm, ?_⟩
    rw [hq.2, List.map_map]
    conv_lhs => rw [← List.map_id q.2.points]
    refine List.map_congr_left fun c _ => ?_
    rw [Function.comp_apply, List.map_map, id_eq]
    conv_lhs => rw [← List.map_id c]
    exact List.map_congr_left fun p _ => (movePoint_inv hG p).symm

/-! ## Turned frames -/

/-- A twist in turned axes. -/
def turn6 (R : Mat3) (v : Vec6) : Vec6 := vec6 (R *ᵥ head3 v) (R *ᵥ tail3 v)

theorem head3_vec6 (a b : Vec3) : head3 (vec6 a b) = a := rfl
theorem tail3_vec6 (a b : Vec3) : tail3 (vec6 a b) = b := rfl

theorem turn6_add (R : Mat3) (v w : Vec6) : turn6 R (v + w) = turn6 R v + turn6 R w := by
  have h1 : head3 (v + w) = head3 v + head3 w := rfl
  have h2 : tail3 (v + w) = tail3 v + tail3 w := rfl
  rw [turn6, h1, h2, mulVec_add, mulVec_add]
  funext i
  rcases i with i | i <;> rfl

theorem turn6_smul (R : Mat3) (c : ℝ) (v : Vec6) : turn6 R (c • v) = c • turn6 R v := by
  have h1 : head3 (c • v) = c • head3 v := rfl
  have h2 : tail3 (c • v) = c • tail3 v := rfl
  rw [turn6, h1, h2, mulVec_smul, mulVec_smul]
  funext i
  rcases i with i | i <;> rfl

theorem turn6_zero (R : Mat3) : turn6 R 0 = 0 := by
  have := turn6_smul R 0 0
  rwa [zero_smul, zero_smul] at this

theorem turn6_neg (R : Mat3) (v : Vec6) : turn6 R (-v) = -turn6 R v := by
  have := turn6_smul R (-1) v
  rwa [neg_one_smul, neg_one_smul] at this

theorem dot6 (v w : Vec6) : v ⬝ᵥ w = head3 v ⬝ᵥ head3 w + tail3 v ⬝ᵥ tail3 w := by
  simp [dotProduct, Fintype.sum_sum_type, head3, tail3]

theorem turn6_dot (R : Mat3) (v w : Vec6) : turn6 R v ⬝ᵥ w = v ⬝ᵥ turn6 Rᵀ w := by
  rw [dot6, dot6, turn6, turn6, head3_vec6, head3_vec6, tail3_vec6, tail3_vec6, dotProduct_mulVec, dotProduct_mulVec,
    vecMul_transpose, vecMul_transpose]

theorem turn_mul {R : Mat3} (h : IsRotation R) : (homog R 0 1)ᵀ * homog R 0 1 = 1 := by
  have e : (homog R 0 1)ᵀ = homog Rᵀ 0 1 := by
    ext i j
    rcases i with i | ⟨⟩ <;> rcases j with j | ⟨⟩ <;> simp [homog]
  rw [e, homog_mul, h.transpose_mul, mulVec_zero, smul_zero, add_zero, one_mul]
  exact homog_one

theorem turn_transpose (R : Mat3) : (homog R 0 1)ᵀ = homog Rᵀ 0 1 := by
  ext i j
  rcases i with i | ⟨⟩ <;> rcases j with j | ⟨⟩ <;> simp [homog]

theorem turn_inv {R : Mat3} (h : IsRotation R) : (homog R 0 1)⁻¹ = (homog R 0 1)ᵀ := Matrix.inv_eq_left_inv (turn_mul h)

theorem hat6_turn {R : Mat3} (h : IsRotation R) (xi : Vec6) :
    homog R 0 1 * hat6 xi * (homog R 0 1)ᵀ = hat6 (turn6 R xi) := by
  rw [turn_transpose, hat6_eq, hat6_eq, homog_mul, homog_mul, turn6, head3_vec6, tail3_vec6, rot_conj_hat3 h]
  simp

theorem ofVec_turn {R : Mat3} (h : IsRotation R) (xi : Vec6) :
    (SE3.ofVec (turn6 R xi)).T = homog R 0 1 * (SE3.ofVec xi).T * (homog R 0 1)⁻¹ := by
  rw [turn_inv h, turn_transpose, se3_ofVec_T, se3_ofVec_T, homog_mul, homog_mul, turn6, head3_vec6, tail3_vec6,
    ofVec_rot h, Matrix.mul_assoc _ R, h.1, mul_one, mulVec_mulVec, mulVec_mulVec, vMat_rot h]
  simp

/-- The gradient of the cost of one cloud in turned axes. -/
theorem gradOf_turn {R : Mat3} (h : IsRotation R) {Q : Mat4} (hQ : Qᵀ = Q) {pl pl' : Vec4}
    (hp : pl' = homog R 0 1 *ᵥ pl ∨ pl' = -(homog R 0 1 *ᵥ pl)) :
    (fun i => pl' ⬝ᵥ (gradOf (homog R 0 1 * Q * (homog R 0 1)ᵀ) i *ᵥ pl')) = turn6 R fun i => pl ⬝ᵥ (gradOf Q i *ᵥ pl) := by
  have key : ∀ (Q : Mat4), Qᵀ = Q → ∀ (x : Vec4) (xi : Vec6),
      (fun i => x ⬝ᵥ (gradOf Q i *ᵥ x)) ⬝ᵥ xi = x ⬝ᵥ ((hat6 xi * Q + Q * (hat6 xi)ᵀ) *ᵥ x) := by
    intro Q hQ x xi
    rw [← sum_gradOf Q hQ, sum_mulVec, dotProduct_sum]
    simp only [dotProduct, smul_mulVec, Pi.smul_apply, smul_eq_mul]
    refine Finset.sum_congr rfl fun i _ => ?_
    rw [mul_comm, Finset.mul_sum]
    exact Finset.sum_congr rfl fun k _ => by ring
  have hG := turn_mul h
  set G := homog R 0 1 with hGd
  refine dotProduct_eq _ _ fun xi => ?_
  rw [turn6_dot, key _ (conj_transpose hQ), key _ hQ]
  have h1 : ∀ M : Mat4, pl' ⬝ᵥ (M *ᵥ pl') = pl ⬝ᵥ ((Gᵀ * M * G) *ᵥ pl) := by
    intro M
    have h2 : (G *ᵥ pl) ⬝ᵥ (M *ᵥ (G *ᵥ pl)) = pl ⬝ᵥ ((Gᵀ * M * G) *ᵥ pl) := by
      rw [← mulVec_mulVec, ← mulVec_mulVec, dotProduct_mulVec pl, vecMul_transpose]
    rcases hp with hp | hp
    · rw [hp, h2]
    · rw [hp, mulVec_neg, neg_dotProduct_neg, h2]
  have h3 : hat6 (turn6 Rᵀ xi) = Gᵀ * hat6 xi * G := by
    have := hat6_turn h.transpose xi
    rw [← turn_transpose, transpose_transpose] at this
    exact this.symm
  rw [h1, h3]
  congr 2
  simp only [Matrix.mul_add, Matrix.add_mul, transpose_mul, transpose_transpose, Matrix.mul_assoc, hG, Matrix.mul_one]
  rw [← Matrix.mul_assoc Gᵀ G, hG, Matrix.one_mul]

variable {R : Mat3}

theorem planeOf_best {e : EigSolver} (he : e.Sound) (hp : s.Prepared) (ht : ∀ T ∈ s.traj, LastRow T.T) {q : ℕ × Plane}
    (hq : q ∈ s.planes) : BestPlane (s.traj.map SE3.T) q.2.points (planeOf e s q.2) := by
  have d := he.1 _ (hp.sym hq s.traj)
  have hc : ∀ x : Vec4, x ⬝ᵥ ((Plane.qList s.traj q.2.usedS).sum *ᵥ x) = planeCost x (s.traj.map SE3.T) q.2.points := by
    intro x
    rw [Plane.usedS_inSync (hp q hq).2.1, Plane.quad_qList ht]
  refine ⟨d.unit 0, fun x hx => ?_⟩
  have h1 := d.le_quad (by simp [I4]) x
  rw [show x ⬝ᵥ x = 1 from hx, mul_one, hc] at h1
  rw [← hc]
  exact (d.attains 0).le.trans h1

/-- The estimated planes of the turned problem. -/
theorem planeOf_turn (hR : IsRotation R) (h : Reframed (homog R 0 1) s s') {e e' : EigSolver} (he : e.Sound) (he' : e'.Sound)
    (hp : s.Prepared) (hp' : s'.Prepared) (ht : ∀ T ∈ s.traj, LastRow T.T) (hu : UniquePlanes s)
    {q q' : ℕ × Plane} (hq : q ∈ s.planes) (hq' : q' ∈ s'.planes)
    (hm : q'.2.points = q.2.points.map (List.map (movePoint (homog R 0 1)))) :
    planeOf e' s' q'.2 = homog R 0 1 *ᵥ planeOf e s q.2 ∨ planeOf e' s' q'.2 = -(homog R 0 1 *ᵥ planeOf e s q.2) := by
  have hG := turn_mul hR
  have hG' := mul_eq_one_comm.mp hG
  have hA := h.qSum (isRigid_homog hR 0) hp hp' hq hq' hm
  set G := homog R 0 1 with hGd
  have d' := he'.1 _ (hp'.sym hq' s'.traj)
  have hc : ∀ x : Vec4, x ⬝ᵥ ((Plane.qList s.traj q.2.usedS).sum *ᵥ x) = planeCost x (s.traj.map SE3.T) q.2.points := by
    intro x
    rw [Plane.usedS_inSync (hp q hq).2.1, Plane.quad_qList ht]
  have b1 := planeOf_best he hp ht hq
  have b2 : BestPlane (s.traj.map SE3.T) q.2.points (Gᵀ *ᵥ planeOf e' s' q'.2) := by
    have hq0 : (Gᵀ *ᵥ planeOf e' s' q'.2) ⬝ᵥ ((Plane.qList s.traj q.2.usedS).sum *ᵥ (Gᵀ *ᵥ planeOf e' s' q'.2)) =
        (e'.eig4 (Plane.qList s'.traj q'.2.usedS).sum).val 0 := by
      rw [← quad_conj, ← hA]
      exact d'.attains 0
    refine ⟨?_, fun x hx => ?_⟩
    · rw [Unit4, dotProduct_mulVec, ← mulVec_transpose, mulVec_mulVec, transpose_transpose, hG', one_mulVec]
      exact d'.unit 0
    · have h1 := d'.le_quad (by simp [I4]) (G *ᵥ x)
      have h2 : (G *ᵥ x) ⬝ᵥ (G *ᵥ x) = 1 := by
        rw [dotProduct_mulVec, ← mulVec_transpose, mulVec_mulVec, hG, one_mulVec]
        exact hx
      have h3 : Gᵀ *ᵥ (G *ᵥ x) = x := by rw [mulVec_mulVec, hG, one_mulVec]
      rw [h2, mul_one, hA, quad_conj, h3, hc, ← hA] at h1
      rw [← hc, hq0]
      exact h1
  have h4 : planeOf e' s' q'.2 = G *ᵥ (Gᵀ *ᵥ planeOf e' s' q'.2) := by rw [mulVec_mulVec, hG', one_mulVec]
  rcases hu q hq _ _ b1 b2 with h5 | h5
  · left
    rw [h4, h5]
  · right
    rw [h4, h5, mulVec_neg]

theorem poseNow_moved (h : Reframed G s s') {t : ℕ} (ht : t < s.traj.length) :
    (s'.poseNow t).T = G * (s.poseNow t).T * G⁻¹ := by
  have h1 : (s'.traj.map SE3.T)[t]? = (s.traj.map fun T => G * T.T * G⁻¹)[t]? := by rw [h.traj]
  have hl : t < s'.traj.length := by
    have := congrArg List.length h.traj
    rw [List.length_map, List.length_map] at this
    omega
  rw [List.getElem?_map, List.getElem?_map, List.getElem?_eq_getElem ht, List.getElem?_eq_getElem hl, Option.map_some,
    Option.map_some] at h1
  rw [poseNow, poseNow, List.getElem?_eq_getElem ht, List.getElem?_eq_getElem hl, Option.getD_some, Option.getD_some]
  exact Option.some.inj h1

theorem cloudAt_moved {q q' : Plane} (hm : q'.points = q.points.map (List.map (movePoint G))) (t : ℕ) :
    q'.cloudAt t = (q.cloudAt t).map (movePoint G) := by
  rw [Plane.cloudAt, Plane.cloudAt, hm, List.getElem?_map]
  cases q.points[t]? <;> rfl

theorem seen_moved (h : Reframed G s s') (t : ℕ) : s'.seen t = s.seen t := by
  rw [PlaneReg.seen, PlaneReg.seen]
  congr 1
  have := h.planes
  generalize s.planes = a at this
  generalize s'.planes = b at this
  induction this with
  | nil => rfl
  | cons h1 _ ih => rw [List.map_cons, List.map_cons, ih, cloudAt_moved h1.2, List.length_map]

/-- The gradients of the turned problem. -/
theorem poseGrad_turn (hR : IsRotation R) (h : Reframed (homog R 0 1) s s') {e e' : EigSolver} (he : e.Sound) (he' : e'.Sound)
    (hp : s.Prepared) (hp' : s'.Prepared) (hl : s.traj.length = s.numberPoses) (ht : ∀ T ∈ s.traj, LastRow T.T)
    (hu : UniquePlanes s) {t : ℕ} (htn : t < s.numberPoses) : s'.poseGrad e' t = turn6 R (s.poseGrad e t) := by
  have hl' : s'.traj.length = s'.numberPoses := by
    have := congrArg List.length h.traj
    rw [List.length_map, List.length_map] at this
    rw [this, hl, h.poses]
  have key : ∀ q ∈ s.planes, ∀ q' ∈ s'.planes, q'.2.points = q.2.points.map (List.map (movePoint (homog R 0 1))) →
      (q'.2.estimated e' s'.traj q'.2.usedS).gAt t = turn6 R ((q.2.estimated e s.traj q.2.usedS).gAt t) := by
    intro q hq q' hq' hm
    rw [gAt_dot hp hl hq htn, gAt_dot hp' hl' hq' (by rw [h.poses]; exact htn), poseNow_moved h (by omega), cloudAt_moved hm,
      term_moved (isRigid_homog hR 0).lastRow (rigid_inv_mul (isRigid_homog hR 0))]
    exact gradOf_turn hR (conj_transpose (sumOuter_transpose _)) (planeOf_turn hR h he he' hp hp' ht hu hq hq' hm)
  rw [poseGrad, poseGrad]
  have hpl := h.planes
  generalize s.planes = a at key hpl
  generalize s'.planes = b at key hpl
  clear hp hp' h hl' ht hu
  induction hpl with
  | nil => simp [turn6_zero]
  | cons h1 _ ih =>
    rw [List.map_cons, List.map_cons, List.sum_cons, List.sum_cons, turn6_add,
      key _ List.mem_cons_self _ List.mem_cons_self h1.2,
      ih fun q hq q' hq' => key q (List.mem_cons_of_mem _ hq) q' (List.mem_cons_of_mem _ hq')]

theorem allPosesStep_alpha {e : EigSolver} {s : PlaneReg} {r : ℝ × PlaneReg} (h : s.allPosesStep e = .ok r) :
    r.2.alpha = s.alpha := by
  rw [allPosesStep] at h
  obtain ⟨⟨c, s1⟩, h1, h⟩ := Out.bind_eq_ok.mp h
  obtain ⟨⟨l, s2⟩, h2, h⟩ := Out.bind_eq_ok.mp h
  obtain ⟨ps, i2⟩ : PlanesOnly s s2 := (error_frame h1).trans
    (Out.mapAccum_rel (R := PlanesOnly) PlanesOnly.refl (fun _ _ _ => PlanesOnly.trans) (fun _ _ _ => gradAt_frame) _ _ _ h2)
  dsimp only at h
  split at h
  · cases h; rw [i2]
  · split at h
    · cases h
    · obtain ⟨traj, h3, h⟩ := Out.bind_eq_ok.mp h
      cases h
      rw [i2]

theorem forall2_points {s s1 : PlaneReg} (h : SamePlanes s s1) :
    List.Forall₂ (fun q q' : ℕ × Plane => q'.1 = q.1 ∧ q'.2.points = q.2.points) s.planes s1.planes :=
  h.imp fun _ _ h => ⟨h.1, h.2.2.2.1⟩

theorem forall2_square {a a1 b b1 : List (ℕ × Plane)} {f : List (List Vec3) → List (List Vec3)}
    (h1 : List.Forall₂ (fun q q' : ℕ × Plane => q'.1 = q.1 ∧ q'.2.points = q.2.points) a a1)
    (h2 : List.Forall₂ (fun q q' : ℕ × Plane => q'.1 = q.1 ∧ q'.2.points = q.2.points) b b1)
    (h : List.Forall₂ (fun q q' : ℕ × Plane => q'.1 = q.1 ∧ q'.2.points = f q.2.points) a b) :
    List.Forall₂ (fun q q' : ℕ × Plane => q'.1 = q.1 ∧ q'.2.points = f q.2.points) a1 b1 := by
  induction h generalizing a1 b1 with
  | nil => cases h1; cases h2; exact .nil
  | cons h0 _ ih =>
    cases h1 with
    | cons k1 k2 =>
      cases h2 with
      | cons l1 l2 => exact .cons ⟨by rw [l1.1, h0.1, k1.1], by rw [l1.2, h0.2, k1.2]⟩ (ih k2 l2)

/-- What the loops keep. -/
structure Posed (s : PlaneReg) : Prop where
  pose : s.PoseInv
  prep : s.Prepared
  two : 2 ≤ s.numberPoses
  last : ∀ T ∈ s.traj, LastRow T.T

theorem Posed.step {e : EigSolver} {s s1 : PlaneReg} {err : ℝ} (h : Posed s) (hs : s.allPosesStep e = .ok (err, s1)) : Posed s1 := by
  obtain ⟨-, -, k3, k4, k5⟩ := allPosesStep_value h.pose h.prep h.two hs
  refine ⟨allPosesStep_inv h.pose hs, k3.prepared h.prep k4, by rw [k4]; exact h.two, ?_⟩
  rw [k5]
  intro T hT
  obtain ⟨t, -, rfl⟩ := List.mem_map.mp hT
  exact lastRow_updateLhs (lastRow_poseNow h.last t) _

/-- The error of the turned problem. -/
theorem errOf_turn (hR : IsRotation R) (h : Reframed (homog R 0 1) s s') {e e' : EigSolver} (he : e.Sound) (he' : e'.Sound)
    (hp : s.Prepared) (hp' : s'.Prepared) (ht : ∀ T ∈ s.traj, LastRow T.T) :
    errOf e' s'.planes s'.traj = errOf e s.planes s.traj := by
  have hG : IsRigid (homog R 0 1) := isRigid_homog hR 0
  have hz : (1 + Spec.len (tr3 (homog R 0 1))) ^ 2 = 1 := by
    rw [tr3_homog, Spec.len, dotProduct_zero, Real.sqrt_zero]
    norm_num
  have u1 := h.errOf_le hG he he' hp hp' ht
  have u2 := (h.symm hG).errOf_le (rigid_inv_rigid hG) he' he hp' hp (h.lastRow hG ht)
  rw [len_inv hG] at u2
  rw [hz, one_mul] at u1 u2
  exact le_antisymm u1 u2

/-- A step of `solve_gradient_all_poses` on the turned problem. -/
theorem step_turn (hR : IsRotation R) (h : Reframed (homog R 0 1) s s') {e e' : EigSolver} (he : e.Sound) (he' : e'.Sound)
    (hr : Posed s) (hr' : Posed s') (hu : UniquePlanes s) {err : ℝ} {s1 : PlaneReg} (hs : s.allPosesStep e = .ok (err, s1)) :
    ∃ s1', s'.allPosesStep e' = .ok (err, s1') ∧ Reframed (homog R 0 1) s1 s1' := by
  have hl := hr.pose.len (by have := hr.two; omega)
  obtain ⟨k1, k2, k3, k4, k5⟩ := allPosesStep_value hr.pose hr.prep hr.two hs
  obtain ⟨err', s1', hs'⟩ := allPosesStep_total (e := e') hr'.pose hr'.prep hr'.two (by rw [h.poses, seen_moved h]; exact k2)
  obtain ⟨m1, m2, m3, m4, m5⟩ := allPosesStep_value hr'.pose hr'.prep hr'.two hs'
  have hG : IsRigid (homog R 0 1) := isRigid_homog hR 0
  have herr : err' = err := by
    rw [m1, k1]
    exact errOf_turn hR h he he' hr.prep hr'.prep hr.last
  subst herr
  refine ⟨s1', hs', m4.trans (h.poses.trans k4.symm), ?_, ?_, ?_⟩
  · exact (allPosesStep_alpha hs').trans (h.alpha.trans (allPosesStep_alpha hs).symm)
  · rw [k5, m5, movedTraj, movedTraj, List.map_map, List.map_map, h.poses]
    refine List.map_congr_left fun t htm => ?_
    have htn := List.mem_range.mp htm
    simp only [Function.comp_apply]
    have hd : (if t = 0 then (0 : Vec6) else -((s'.alpha / s'.seen (s.numberPoses - 1) / s.numberPoses) • s'.poseGrad e' t)) =
        turn6 R (if t = 0 then 0 else -((s.alpha / s.seen (s.numberPoses - 1) / s.numberPoses) • s.poseGrad e t)) := by
      by_cases h0 : t = 0
      · rw [if_pos h0, if_pos h0, turn6_zero]
      · rw [if_neg h0, if_neg h0, turn6_neg, turn6_smul, h.alpha, seen_moved h,
          poseGrad_turn hR h he he' hr.prep hr'.prep hl hr.last hu htn]
    rw [hd]
    generalize (if t = 0 then (0 : Vec6) else _) = v
    change (SE3.ofVec (turn6 R v)).T * (s'.poseNow t).T = homog R 0 1 * ((SE3.ofVec v).T * (s.poseNow t).T) * (homog R 0 1)⁻¹
    rw [ofVec_turn hR, poseNow_moved h (by omega)]
    have hi := rigid_inv_mul hG
    generalize homog R 0 1 = G at hi
    simp only [Matrix.mul_assoc]
    rw [← Matrix.mul_assoc G⁻¹ G, hi, Matrix.one_mul]
  · exact forall2_square (forall2_points k3) (forall2_points m3) h.planes

theorem loop_turn (hR : IsRotation R) {e e' : EigSolver} (he : e.Sound) (he' : e'.Sound) {I : PlaneReg → Prop}
    (hI : ∀ s, I s → UniquePlanes s ∧ ∀ err s1 k, s.allPosesStep e = .ok (err, s1) → I { s1 with solveIters := k })
    (single : Bool) : ∀ (k iters : ℕ) (prevErr : ℝ) (s s' s1 : PlaneReg), 10000 - iters = k → Reframed (homog R 0 1) s s' →
      Posed s → Posed s' → I s → gradLoop (allPosesStep e) single iters prevErr s = .ok s1 →
      ∃ s1', gradLoop (allPosesStep e') single iters prevErr s' = .ok s1' ∧ Reframed (homog R 0 1) s1 s1' ∧
        s1'.solveIters = s1.solveIters := by
  intro k
  induction k using Nat.strong_induction_on with
  | _ k ih =>
    intro iters prevErr s s' s1 hk h hr hr' hi hs
    rw [gradLoop] at hs
    obtain ⟨⟨err, s2⟩, h1, hs⟩ := Out.bind_eq_ok.mp hs
    obtain ⟨s2', h2, h3⟩ := step_turn hR h he he' hr hr' (hI s hi).1 h1
    rw [gradLoop, h2, Out.ok_bind]
    dsimp only at hs ⊢
    have r2 := hr.step h1
    have r2' := hr'.step h2
    have fr : ∀ j, Reframed (homog R 0 1) { s2 with solveIters := j } { s2' with solveIters := j } :=
      fun j => ⟨h3.poses, h3.alpha, h3.traj, h3.planes⟩
    by_cases hc : |prevErr - err| > 1e-4 ∧ single = false ∧ iters + 1 < 10000
    · rw [if_pos hc] at hs ⊢
      refine ih (10000 - (iters + 1)) (by omega) (iters + 1) err _ _ s1 rfl (fr _) ?_ ?_ ((hI s hi).2 err s2 _ h1) hs
      · exact ⟨r2.pose.frame rfl rfl rfl, r2.prep, r2.two, r2.last⟩
      · exact ⟨r2'.pose.frame rfl rfl rfl, r2'.prep, r2'.two, r2'.last⟩
    · rw [if_neg hc] at hs ⊢
      cases hs
      exact ⟨_, rfl, fr _, rfl⟩

end PlaneReg

end Mrob
