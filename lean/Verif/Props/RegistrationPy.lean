import Verif.Model.RegistrationPy
import Verif.Props.ArunSym

/-! # C84: the registration functions of the Python module -/

open Matrix

namespace Mrob

open Spec

theorem movePoint_one (p : Vec3) : movePoint 1 p = p := by
  rw [movePoint_rigid]
  have e1 : tl3 (1 : Mat4) = 1 := by rw [← homog_one]; simp
  have e2 : tr3 (1 : Mat4) = 0 := by rw [← homog_one]; simp
  rw [e1, e2, one_mulVec, add_zero]

theorem map_movePoint_one (X : List Vec3) : X.map (movePoint 1) = X := by
  conv_rhs => rw [← List.map_id X]
  exact List.map_congr_left fun p _ => movePoint_one p

theorem isRigid_one4 : IsRigid (1 : Mat4) := by rw [← homog_one]; exact isRigid_homog isRotation_one _

/-- C84: for two clouds of the same size the Python `arun` returns the best motion or the identity, and it returns the best
motion when the clouds are related by a rigid motion and the eigenvalues of the scatter matrix are separated.  Missing: clouds
which `arun` refuses. -/
theorem C84_arun_partial (svd : Mat3 → SVD3) (hsvd : ∀ H, (svd H).Decomposes H) (X Y : List Vec3) (hl : Y.length = X.length) :
    (∃ A, arunPy svd X Y = .ok A ∧ (UniqueBest A.T (X.zip Y) ∨ A.T = 1)) ∧
    ∀ M : Mat4, IsRigid M → X ≠ [] → Y = X.map (movePoint M) →
      ∀ (W : Mat3) (lam : Fin 3 → ℝ), Wᵀ * W = 1 → scatter X = W * diagonal lam * Wᵀ → lam 1 + 1e-6 ≤ lam 0 →
        lam 2 + 1e-6 ≤ lam 1 → arunPy svd X Y = .ok ⟨M⟩ := by
  constructor
  · obtain ⟨b, A, hA, hb⟩ := C56_total svd X Y SE3.default hl
    refine ⟨A, by rw [arunPy, hA, Out.ok_bind], ?_⟩
    cases b with
    | false => exact Or.inr (by rw [hb rfl]; rfl)
    | true =>
      refine Or.inl ⟨C56_rigid svd hsvd X Y _ A hA, fun M' hM' hle => ?_⟩
      by_contra hne
      exact absurd hle (not_le.mpr (C56_optimal svd hsvd X Y _ A hA M' hM' hne))
  · rintro M hM hX rfl W lam hW hs h01 h12
    rw [arunPy, C64_separated_partial svd hsvd X hX M hM W hW lam hs h01 h12, Out.ok_bind]

/-- C84 is false: the Python `arun` of the octahedron and its image under any rigid motion `P` is the identity; `P` is the only
motion of least cost, its cost is zero, and nothing distinguishes the result from a success. -/
theorem C84_arun_fails (svd : Mat3 → SVD3) (hsvd : ∀ H, (svd H).Decomposes H) (P : Mat4) (hP : IsRigid P) :
    arunPy svd octahedron (octahedron.map (movePoint P)) = .ok SE3.default ∧
      UniqueBest P (octahedron.zip (octahedron.map (movePoint P))) ∧
      alignCost P (octahedron.zip (octahedron.map (movePoint P))) = 0 := by
  obtain ⟨⟨-, hu⟩, hc, hf⟩ := C64_fails svd hsvd
  have hcost : ∀ M M' : Mat4, IsRigid M → M' = P * M →
      alignCost M' (octahedron.zip (octahedron.map (movePoint P))) = alignCost M (octahedron.zip octahedron) := by
    intro M M' hM h
    have := alignCost_move (P := 1) (M' := M') isRigid_one4 hP hM (by rw [Matrix.mul_one, h]) octahedron octahedron
    rwa [map_movePoint_one] at this
  have h0 := hcost 1 P isRigid_one4 (by rw [Matrix.mul_one])
  refine ⟨?_, ⟨hP, fun M' hM' hle => ?_⟩, by rw [h0, hc]⟩
  · have h1 := (C83_refused svd svd hsvd hsvd _ _ SE3.default SE3.default (hf SE3.default)).2.1 1 P isRigid_one4 hP
    rw [map_movePoint_one] at h1
    rw [arunPy, h1, Out.ok_bind]
  · have hQ := mul_isRigid (a := (SE3.mk P).inv) (b := ⟨M'⟩) (inv_isRigid (a := ⟨P⟩) hP) hM'
    have e : M' = P * ((SE3.mk P).inv.T * M') := by
      rw [← Matrix.mul_assoc, show P * (SE3.mk P).inv.T = 1 from mul_inv_cancel' (a := ⟨P⟩) hP, Matrix.one_mul]
    have h1 := hcost _ M' hQ e
    rw [h1, h0] at hle
    have h2 := hu _ hQ hle
    change (SE3.mk P).inv.T * M' = 1 at h2
    rw [e, h2, Matrix.mul_one]

/-- A motion which is lost. -/
example : ∃ P : Mat4, IsRigid P ∧ P ≠ SE3.default.T := by
  refine ⟨homog 1 ![1, 2, 3] 1, isRigid_homog isRotation_one _, fun h => ?_⟩
  have := congrFun (congrFun h (.inl 0)) (.inr ())
  simp [homog, SE3.default] at this

/-- C84, iterative functions: whatever is returned was reached from the identity, in at most 20 iterations; identical clouds
give the identity.  Convergence is not reported. -/
theorem C84_iterative (X Y : List Vec3) (covX covY : List Mat3) (w : List ℝ) (A : SE3)
    (h : gicpPy X Y covX covY = .ok A ∨ weightedPy X Y w = .ok A) :
    A.T.toBlocks₂₁ = 0 ∧ A.T.toBlocks₂₂ = 1 ∧ NearOrthogonal 2.1e-30 A.T.toBlocks₁₁ ∧
      (Y.take X.length = X → A.T = 1) := by
  have key : ∃ k, gicp X Y covX covY 1e-4 SE3.default = .ok (k, A) ∨ weightedPoint X Y w 1e-4 SE3.default = .ok (k, A) := by
    rcases h with h | h
    · obtain ⟨⟨k, B⟩, hk, h⟩ := Out.bind_eq_ok.mp h
      cases h
      exact ⟨k, Or.inl hk⟩
    · obtain ⟨⟨k, B⟩, hk, h⟩ := Out.bind_eq_ok.mp h
      cases h
      exact ⟨k, Or.inr hk⟩
  obtain ⟨k, hk⟩ := key
  obtain ⟨h1, h2, h3, -⟩ := C57_rigid_partial X Y 1e-4 SE3.default A isRigid_one4 k (hk.imp (fun h => ⟨_, _, h⟩) fun h => ⟨_, h⟩)
  refine ⟨h1, h2, h3, fun hY => ?_⟩
  have ha := C57_aligned X Y 1e-4 SE3.default A k (by rw [hY]; exact (map_movePoint_one X).symm)
  rcases hk with hk | hk
  · rw [(ha.1 _ _ hk).1]; rfl
  · rw [(ha.2 _ hk).1]; rfl

/-- Both functions return something for the slightly turned octahedron. -/
example : ∃ A, gicpPy octahedron octahedronTurned (List.replicate 6 0) (List.replicate 6 1) = .ok A ∧
    weightedPy octahedron octahedronTurned (List.replicate 6 1) = .ok A := by
  obtain ⟨A, h1, h2, -⟩ := C57_rigid_fails
  exact ⟨A, by rw [gicpPy, h1, Out.ok_bind], by rw [weightedPy, h2, Out.ok_bind]⟩

end Mrob
