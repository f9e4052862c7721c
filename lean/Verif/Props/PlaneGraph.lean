import Verif.Props.Gradient

/-!
# C72 for graphs with planes
-/

open Matrix

namespace Mrob

open World Spec

/-- A plane seen from a rigid pose, with the nodes in either order: the normal has unit length, the plane does not pass through
the pose, and the direction `δ` does not stretch the normal. -/
inductive RegularPlane (w : World) (δ : Cols w → ℝ) : FactorVirt → List NRef → Prop
  | fwd {obs W ty n m X p} (hn : (w.nh n).val = ⟨.pose3d, X⟩) (hm : (w.nh m).val = ⟨.plane4d, p⟩) (hX : IsRigid X.T)
      (hp : len (fun i => p (Sum.inl i)) = 1) (hd : planeLocal X p (Sum.inr ()) ≠ 0)
      (ht : ∑ i : Fin 3, p (Sum.inl i) * w.spread δ m i = 0) : RegularPlane w δ (.plane4d obs W false ty) [n, m]
  | rev {obs W ty n m X p} (hn : (w.nh n).val = ⟨.pose3d, X⟩) (hm : (w.nh m).val = ⟨.plane4d, p⟩) (hX : IsRigid X.T)
      (hp : len (fun i => p (Sum.inl i)) = 1) (hd : planeLocal X p (Sum.inr ()) ≠ 0)
      (ht : ∑ i : Fin 3, p (Sum.inl i) * w.spread δ m i = 0) : RegularPlane w δ (.plane4d obs W true ty) [m, n]

namespace World

variable {w : World}

theorem normalizeHead_unit {p : Vec4} (hp : len (fun i => p (Sum.inl i)) = 1) : normalizeHead p = p := by
  have hn : sqNorm (fun i => p (Sum.inl i)) = 1 := by
    have h : Real.sqrt (sqNorm (fun i => p (Sum.inl i))) = 1 := hp
    rwa [Real.sqrt_eq_one] at h
  rw [normalizeHead]
  simp only [hn]
  rw [if_pos (by norm_num)]
  funext i; rcases i with i | i <;> simp

theorem pert_plane (δ : Cols w → ℝ) {n : NRef} {p : Vec4} (h : (w.nh n).val = ⟨.plane4d, p⟩)
    (hp : len (fun i => p (Sum.inl i)) = 1) (s : ℝ) :
    w.perturbed (s • δ) n = ⟨.plane4d, NodeKind.updAux .plane4d p (s • w.inc δ n .plane4d : Vec4)⟩ := by
  have hs : NodeKind.ofFlat .plane4d (w.spread (s • δ) n) = (s • w.inc δ n .plane4d : Vec4) := by
    rw [spread_smul]
    funext i
    rcases i with i | i <;> rfl
  by_cases hn : n ∈ w.g.active
  · rw [perturbed, if_pos hn, pert_active _ h, hs]
  · have h0 : w.inc δ n .plane4d = (0 : Vec4) := by
      funext i
      rcases i with i | i <;> exact spread_of_notMem δ hn _
    rw [perturbed, if_neg hn, h, h0, smul_zero]
    refine congrArg (Sigma.mk NodeKind.plane4d) ?_
    change p = normalizeHead (p + 0)
    rw [add_zero, normalizeHead_unit hp]

theorem at4_sum (J : Mat4) (v : ℕ → ℝ) (l : Fin 4) :
    (J.submatrix at4 at4 *ᵥ fun k : Fin 4 => v k) l = (J *ᵥ NodeKind.ofFlat .plane4d v) (at4 l) := by
  rw [mulVec, mulVec, dotProduct, dotProduct, Fintype.sum_sum_type, Fin.sum_univ_four, Fin.sum_univ_three]
  simp [at4, NodeKind.ofFlat]

theorem plane_deriv {obs : Vec4} {n m : NRef} {X : SE3} {p : Vec4} (δ : Cols w → ℝ) (hX : IsRigid X.T)
    (hp : len (fun i => p (Sum.inl i)) = 1) (hd : planeLocal X p (Sum.inr ()) ≠ 0)
    (ht : ∑ i : Fin 3, p (Sum.inl i) * w.spread δ m i = 0) (l : Fin 4) :
    HasDerivAt (fun s : ℝ => planeRes obs (NodeKind.updAux .pose3d X (s • w.inc δ n .pose3d : Vec6))
        (NodeKind.updAux .plane4d p (s • w.inc δ m .plane4d : Vec4)) (at4 l))
      (((planeJac X p).1.submatrix at4 at6 *ᵥ fun k : Fin 6 => w.spread δ n k) l +
        ((planeJac X p).2.submatrix at4 at4 *ᵥ fun k : Fin 4 => w.spread δ m k) l) 0 := by
  have := hasDerivAt_pi.mp ((C26_plane4d_iff obs hX p hp hd (w.inc δ n .pose3d) (w.inc δ m .plane4d)).mpr ht) (at4 l)
  refine this.congr_deriv ?_
  rw [at4_sum]
  exact congrArg (· + _) (at6_sum (planeJac X p).1 (w.spread δ n) (at4 l)).symm

theorem plane_smooth {δ : Cols w → ℝ} {V : FactorVirt} {nbrs : List NRef} (h : RegularPlane w δ V nbrs) :
    V.res (nbrs.map (w.perturbed ((0 : ℝ) • δ))) = V.res (nbrs.map fun n => (w.nh n).val) ∧
    ∀ l : Fin V.dim, HasDerivAt (fun s : ℝ => V.res (nbrs.map (w.perturbed (s • δ))) l)
      (w.rowApply δ (V.jac (nbrs.map fun n => (w.nh n).val) l) 0 nbrs) 0 := by
  have hz : ∀ (p : Vec4) (v : Vec4), len (fun i => p (Sum.inl i)) = 1 →
      NodeKind.updAux .plane4d p ((0 : ℝ) • v : Vec4) = p := by
    intro p v hp
    change normalizeHead (p + (0 : ℝ) • v) = p
    rw [zero_smul, add_zero, normalizeHead_unit hp]
  cases h with
  | @fwd obs W ty n m X p hn hm hX hp hd ht =>
    simp only [List.map_cons, List.map_nil, pert_pose3d δ hn, pert_plane δ hm hp, hn, hm]
    refine ⟨?_, fun l => ?_⟩
    · rw [updAux_zero_pose3d, hz p _ hp]
    · exact (plane_deriv (n := n) δ hX hp hd ht l).congr_deriv (row2 δ (dim_of_val hn) (dim_of_val hm) _ _ l).symm
  | @rev obs W ty n m X p hn hm hX hp hd ht =>
    simp only [List.map_cons, List.map_nil, pert_pose3d δ hn, pert_plane δ hm hp, hn, hm]
    refine ⟨?_, fun l => ?_⟩
    · rw [updAux_zero_pose3d, hz p _ hp]
    · exact (plane_deriv (n := n) δ hX hp hd ht l).congr_deriv
        ((row2 δ (dim_of_val hm) (dim_of_val hn) _ _ l).trans (add_comm _ _)).symm

end World

/-- C72 for graphs which also have observations of planes: `b_` gives the derivative of `chi2` along every increment which
does not stretch the normals of the planes.  (The nodes normalise the planes, so along the other directions it does not, see
`C26_plane4d_iff`.)  Missing: these other directions, 3D priors and 3D relative poses. -/
theorem C72_planes_partial (w : World) (hw : WellPosed w) (δ : Cols w → ℝ)
    (h : ∀ f ∈ w.g.factors, Regular w.nh (w.fh f).virt (w.fh f).nbrs ∨ RegularPlane w δ (w.fh f).virt (w.fh f).nbrs)
    (hq : ∀ f ∈ w.g.factors, (w.fh f).virt.robust = .quadratic) (env : Env) :
    ∃ (w' : World) (a : Assembly) (e : Cols w ≃ Fin a.N), w.buildAdjacency env = .ok (w', a) ∧
      (∀ c, (e c : ℕ) = offset (fun n => (w.nh n).dim) w.g.active c.1 + c.2) ∧
      HasDerivAt (fun s : ℝ => w.chi2At (w.perturbed (s • δ))) (∑ c, a.b (e c) * δ c) 0 := by
  have hsm : ∀ f ∈ w.g.factors, (w.fh f).virt.res ((w.fh f).nbrs.map (w.perturbed ((0 : ℝ) • δ))) = (factorTerm w f).r ∧
      HasDerivAt (fun s : ℝ => (w.fh f).virt.res ((w.fh f).nbrs.map (w.perturbed (s • δ)))) ((factorTerm w f).J *ᵥ δ) 0 := by
    intro f hf
    rcases h f hf with h | h
    · refine ⟨regular_zero h δ, hasDerivAt_pi.mpr fun l => ?_⟩
      rw [term_mulVec]
      exact regular_deriv h δ l
    · refine ⟨(plane_smooth h).1, hasDerivAt_pi.mpr fun l => ?_⟩
      rw [term_mulVec]
      exact (plane_smooth h).2 l
  refine ⟨w.built, w.assembly env, colEquiv hw.wired, buildAdjacency_wired hw.wired hw.weightable env,
    colEquiv_val hw.wired, ?_⟩
  have hb := assembly_b_terms hw.wired env hw.symm
  have hd : ∑ c, (w.assembly env).b (colEquiv hw.wired c) * δ c = Spec.infoVector (graphTerms w) ⬝ᵥ δ := by
    rw [← hb]; rfl
  rw [hd, infoVector_dot]
  refine list_sum_deriv w.g.factors _ _ fun f hf => ?_
  refine (chi2_deriv (hw.symm f hf) (hsm f hf).2).congr_deriv ?_
  have h1 : (factorTerm w f).W = (w.fh f).virt.W := by
    change factorWeight w f • (w.fh f).virt.W = _
    rw [factorWeight, hq f hf]
    exact one_smul _ _
  rw [h1]
  exact congrArg (fun r => ((factorTerm w f).J *ᵥ δ) ⬝ᵥ ((w.fh f).virt.W *ᵥ r)) (hsm f hf).1

namespace Demo

/-- Node 0 is a pose at the identity, the others are the plane `z = -1`. -/
noncomputable def plNodes : NRef → NodeCell := fun n =>
  if n = 0 then NodeCell.new .pose3d SE3.default .standard else
    NodeCell.new .plane4d (Sum.elim ![0, 0, 1] fun _ => 1) .standard

/-- Two observations of the plane from the pose, the second with the nodes exchanged. -/
noncomputable def plFactors : FRef → FactorCell := fun f =>
  if f = 0 then FactorCell.new (.plane4d (Sum.elim ![0, 1, 0] fun _ => 2) 1 false .quadratic) [0, 1] 0 0 else
    FactorCell.new (.plane4d (Sum.elim ![1, 0, 0] fun _ => 3) 1 true .quadratic) [1, 0] 0 0

/-- Objects before any call. -/
noncomputable def plWorld₀ : World := ⟨plNodes, plFactors, emptyGraph⟩
/-- The calls. -/
def plOps : List GraphOp := [.addNode 0, .addNode 1, .addFactor 0, .addFactor 1]
/-- The graph. -/
noncomputable def plWorld : World := World.run plOps plWorld₀
/-- A direction which moves pose and plane and does not stretch the normal. -/
noncomputable def plDir : Cols plWorld → ℝ := fun c => if (c.2 : ℕ) = 2 then 0 else 1

theorem pl_proper : Proper plWorld₀ plOps := by
  constructor
  · intro op hop n m; simp [plOps] at hop; rcases hop with rfl | rfl | rfl | rfl <;> simp
  · simp [addedNodes, plOps]
  · intro n hn; simp [addedNodes, plOps] at hn; rcases hn with rfl | rfl <;> simp [plWorld₀, plNodes, NodeCell.new]
  · intro f hf n hn
    simp [addedFactors, plOps] at hf
    rcases hf with rfl | rfl
    · simp [plWorld₀, plFactors, FactorCell.new] at hn; left; rcases hn with rfl | rfl <;> simp [addedNodes, plOps]
    · simp [plWorld₀, plFactors, FactorCell.new] at hn; left; rcases hn with rfl | rfl <;> simp [addedNodes, plOps]
  · intro f hf
    simp [addedFactors, plOps] at hf
    rcases hf with rfl | rfl <;> simp [plWorld₀, plFactors, plNodes, FactorCell.new, NodeCell.new]
  · intro f hf
    simp [addedFactors, plOps] at hf
    rcases hf with rfl | rfl <;>
      simp [plWorld₀, plFactors, plNodes, FactorCell.new, NodeCell.new, FactorCell.wellTyped, FactorVirt.plane4d]

theorem pl_factors : plWorld.g.factors = [0, 1] := rfl
theorem pl_active : plWorld.g.active = [0, 1] := rfl

theorem pl_wellPosed : WellPosed plWorld := by
  refine ⟨C44_wired_partial _ rfl _ pl_proper, fun f hf => ?_, fun f hf => ?_⟩
  · rw [pl_factors] at hf
    simp at hf
    rcases hf with rfl | rfl <;> exact Matrix.PosSemidef.one
  · rw [pl_factors] at hf
    simp at hf
    rcases hf with rfl | rfl <;> exact le_refl (0 : ℝ)

theorem pl_rigid : IsRigid SE3.default.T := by
  change IsRigid (1 : Mat4)
  rw [← homog_one]
  exact isRigid_homog ⟨by simp, by simp⟩ 0

theorem pl_unit : len (fun i => (Sum.elim ![0, 0, 1] fun _ => 1 : Vec4) (Sum.inl i)) = 1 := by
  have : sqNorm (fun i => (Sum.elim ![0, 0, 1] fun _ => 1 : Vec4) (Sum.inl i)) = 1 := by
    simp [sqNorm, dotProduct, Fin.sum_univ_three]
  change Real.sqrt (sqNorm _) = 1
  rw [this, Real.sqrt_one]

theorem pl_val : (plWorld.nh 1).val = ⟨.plane4d, (Sum.elim ![0, 0, 1] fun _ => 1 : Vec4)⟩ := by
  change (⟨.plane4d, normalizeHead (Sum.elim ![0, 0, 1] fun _ => 1)⟩ : NodeVal) = _
  rw [World.normalizeHead_unit pl_unit]

theorem pl_local : planeLocal SE3.default (Sum.elim ![0, 0, 1] fun _ => 1) (Sum.inr ()) ≠ 0 := by
  simp [planeLocal, SE3.default, Matrix.mulVec, dotProduct]

theorem pl_spread : ∑ i : Fin 3, (Sum.elim ![0, 0, 1] fun _ => 1 : Vec4) (Sum.inl i) * plWorld.spread plDir 1 i = 0 := by
  have hn : (1 : NRef) ∈ plWorld.g.active := by rw [pl_active]; simp
  have h : plWorld.spread plDir 1 2 = 0 := by
    rw [spread, dif_pos ⟨hn, by change 2 < 4; norm_num⟩]
    rfl
  simp [Fin.sum_univ_three, h]

example : plDir ≠ 0 ∧ (∀ f ∈ plWorld.g.factors, RegularPlane plWorld plDir (plWorld.fh f).virt (plWorld.fh f).nbrs) ∧
    ∃ (w' : World) (a : Assembly) (e : Cols plWorld ≃ Fin a.N), plWorld.buildAdjacency Env.exact = .ok (w', a) ∧
      HasDerivAt (fun s : ℝ => plWorld.chi2At (plWorld.perturbed (s • plDir))) (∑ c, a.b (e c) * plDir c) 0 := by
  have hr : ∀ f ∈ plWorld.g.factors, RegularPlane plWorld plDir (plWorld.fh f).virt (plWorld.fh f).nbrs := by
    intro f hf
    rw [pl_factors] at hf
    simp at hf
    rcases hf with rfl | rfl
    · exact .fwd (n := 0) (m := 1) (X := SE3.default) rfl pl_val pl_rigid pl_unit pl_local pl_spread
    · exact .rev (n := 0) (m := 1) (X := SE3.default) rfl pl_val pl_rigid pl_unit pl_local pl_spread
  refine ⟨fun h => ?_, hr, ?_⟩
  · have hn : (0 : NRef) ∈ plWorld.g.active := by rw [pl_active]; simp
    have := congrFun h ⟨⟨0, hn⟩, ⟨0, by change 0 < 6; norm_num⟩⟩
    simp [plDir] at this
  · obtain ⟨w', a, e, h1, -, h2⟩ := C72_planes_partial plWorld pl_wellPosed plDir (fun f hf => Or.inr (hr f hf))
      (by intro f hf; rw [pl_factors] at hf; simp at hf; rcases hf with rfl | rfl <;> rfl) Env.exact
    exact ⟨w', a, e, h1, h2⟩

end Demo

end Mrob
