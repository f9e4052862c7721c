import Verif.Lemmas.GaussNewton
import Verif.Props.Assembly

/-!
# Graphs of 3D landmarks observed from known poses

Their residuals are affine.
-/

open Matrix

namespace Mrob

/-- All unknown nodes are 3D landmarks, all factors are landmark observations without robust weights. -/
structure LandmarkGraph (w : World) : Prop where
  /-- classes of the factors -/
  factors : ∀ f ∈ w.g.factors, ∃ obs W rev, (w.fh f).virt = .land3d obs W rev .quadratic
  /-- classes of the nodes -/
  nodes : ∀ n ∈ w.g.active, (w.nh n).kind = .landmark3d

namespace World

variable {w : World}

theorem val_of_kind {c : NodeCell} {k : NodeKind} (h : c.kind = k) : ∃ x : k.State, c.val = ⟨k, x⟩ := by
  subst h; exact ⟨_, rfl⟩

theorem update_landmark {c : NodeCell} {p : Vec3} (h : c.val = ⟨.landmark3d, p⟩) (v : ℕ → ℝ) :
    (c.update v).val = ⟨.landmark3d, p + fun k : Fin 3 => v k⟩ := by
  obtain ⟨k, o, i, m, l⟩ := c
  obtain ⟨h1, h2⟩ := Sigma.mk.inj h
  change k = _ at h1
  subst h1
  rw [← eq_of_heq h2]
  rfl

theorem moved_landmark (δ : Cols w → ℝ) {n : NRef} {p : Vec3} (h : (w.nh n).val = ⟨.landmark3d, p⟩) :
    ((w.moved (w.spread δ)).nh n).val = ⟨.landmark3d, p + fun k : Fin 3 => w.spread δ n k⟩ := by
  by_cases hn : n ∈ w.g.active
  · have : (w.moved (w.spread δ)).nh n = (w.nh n).update (w.spread δ n) := if_pos hn
    rw [this, update_landmark h]
  · have : (w.moved (w.spread δ)).nh n = w.nh n := if_neg hn
    rw [this, h]
    congr 1
    funext k
    change p k = p k + w.spread δ n k
    rw [spread_of_notMem δ hn, add_zero]

theorem land3dRes_add (obs : Vec3) (X : SE3) (l d : Vec3) :
    land3dRes obs X (l + d) = land3dRes obs X l + (land3dJac X l).2 *ᵥ d := by
  rw [land3dRes, land3dRes, land3dJac, SE3.transform, SE3.transform, mulVec_add]
  abel

theorem affine_land3d (obs : Vec3) (W : Mat3) (rev : Bool) (nbrs : List NRef)
    (hact : ∀ n ∈ w.g.active, (w.nh n).kind = .landmark3d)
    (ht : nbrs.map (fun n => (w.nh n).kind) = (FactorVirt.land3d obs W rev .quadratic).kinds) (δ : Cols w → ℝ) (l : Fin 3) :
    (FactorVirt.land3d obs W rev .quadratic).res (nbrs.map fun n => ((w.moved (w.spread δ)).nh n).val) l =
      (FactorVirt.land3d obs W rev .quadratic).res (nbrs.map fun n => (w.nh n).val) l +
        w.rowApply δ ((FactorVirt.land3d obs W rev .quadratic).jac (nbrs.map fun n => (w.nh n).val) l) 0 nbrs := by
  have hpose : ∀ n, (w.nh n).kind = .pose3d → n ∉ w.g.active := by
    intro n hn h; rw [hact n h] at hn; simp at hn
  have hpm : ∀ n, (w.nh n).kind = .pose3d → ((w.moved (w.spread δ)).nh n).val = (w.nh n).val := by
    intro n hn; congr 1; exact if_neg (hpose n hn)
  have h0 : ∀ n, (w.nh n).kind = .pose3d → ∀ Jl : ℕ → ℝ, ∀ tk,
      ∑ k : Fin (w.nh n).dim, Jl (tk + k) * w.spread δ n k = 0 := by
    intro n hn Jl tk
    exact Finset.sum_eq_zero fun k _ => by rw [spread_of_notMem δ (hpose n hn), mul_zero]
  have hd : ∀ n, (w.nh n).kind = .landmark3d → ∀ F : ℕ → ℝ, ∑ k : Fin (w.nh n).dim, F k = ∑ k : Fin 3, F k := by
    intro n hn F
    have : (w.nh n).dim = 3 := by rw [NodeCell.dim, hn]; rfl
    rw [this]
  cases rev with
  | false =>
    have ht' : nbrs.map (fun n => (w.nh n).kind) = [.pose3d, .landmark3d] := ht
    obtain ⟨x, y, rfl⟩ : ∃ x y, nbrs = [x, y] := by
      have := congrArg List.length ht'
      simp at this
      exact List.length_eq_two.mp this
    simp at ht'
    obtain ⟨hx, hy⟩ := ht'
    obtain ⟨X, hX⟩ := val_of_kind hx
    obtain ⟨p, hp⟩ := val_of_kind hy
    simp only [List.map_cons, List.map_nil, hpm x hx, moved_landmark δ hp, hX, hp, rowApply]
    rw [h0 x hx, zero_add, zero_add, add_zero]
    change land3dRes obs X (p + _) l = land3dRes obs X p l +
      ∑ k : Fin (w.nh y).dim, blk2 ((land3dJac X p).1.submatrix id at6) (land3dJac X p).2 l ((w.nh x).dim + k) * _
    have h6 : (w.nh x).dim = 6 := by rw [NodeCell.dim, hx]; rfl
    rw [land3dRes_add, Pi.add_apply, h6, hd y hy fun k =>
      blk2 ((land3dJac X p).1.submatrix id at6) (land3dJac X p).2 l (6 + k) * w.spread δ y k]
    congr 1
  | true =>
    have ht' : nbrs.map (fun n => (w.nh n).kind) = [.landmark3d, .pose3d] := ht
    obtain ⟨x, y, rfl⟩ : ∃ x y, nbrs = [x, y] := by
      have := congrArg List.length ht'
      simp at this
      exact List.length_eq_two.mp this
    simp at ht'
    obtain ⟨hx, hy⟩ := ht'
    obtain ⟨X, hX⟩ := val_of_kind hy
    obtain ⟨p, hp⟩ := val_of_kind hx
    simp only [List.map_cons, List.map_nil, hpm y hy, moved_landmark δ hp, hX, hp, rowApply, h0 y hy, zero_add, add_zero]
    change land3dRes obs X (p + _) l = land3dRes obs X p l +
      ∑ k : Fin (w.nh x).dim, blk2 (land3dJac X p).2 ((land3dJac X p).1.submatrix id at6) l k * _
    rw [land3dRes_add, Pi.add_apply, hd x hx fun k =>
      blk2 (land3dJac X p).2 ((land3dJac X p).1.submatrix id at6) l k * w.spread δ x k]
    congr 1

theorem _root_.Mrob.LandmarkGraph.affine (h : LandmarkGraph w) (hw : Wired w) : Affine w := by
  intro f hf δ
  obtain ⟨obs, W, rev, hv⟩ := h.factors f hf
  have ht := hw.typed f hf
  rw [FactorCell.wellTyped] at ht
  have key : ∀ V : FactorVirt, V = .land3d obs W rev .quadratic →
      (w.fh f).nbrs.map (fun n => (w.nh n).kind) = V.kinds → ∀ l : Fin V.dim,
      V.res ((w.fh f).nbrs.map fun n => ((w.moved (w.spread δ)).nh n).val) l =
        V.res ((w.fh f).nbrs.map fun n => (w.nh n).val) l +
        w.rowApply δ (V.jac ((w.fh f).nbrs.map fun n => (w.nh n).val) l) 0 (w.fh f).nbrs := by
    intro V hV h1
    subst hV
    exact affine_land3d obs W rev (w.fh f).nbrs h.nodes h1 δ
  funext l
  rw [Pi.add_apply, term_mulVec]
  exact key _ hv ht l

/-- Every placement of the landmarks is reached by an increment. -/
theorem _root_.Mrob.LandmarkGraph.reach (h : LandmarkGraph w) {w' : World} (hF : Frame w w') :
    ∃ δ : Cols w → ℝ, ∀ n, (w'.nh n).val = ((w.moved (w.spread δ)).nh n).val := by
  have hpos : ∀ n, ∃ p : Vec3, n ∈ w.g.active → (w'.nh n).val = ⟨.landmark3d, p⟩ := by
    intro n
    by_cases hn : n ∈ w.g.active
    · obtain ⟨p, hp⟩ := val_of_kind (((hF.active n).kind).trans (h.nodes n hn))
      exact ⟨p, fun _ => hp⟩
    · exact ⟨0, fun h => absurd h hn⟩
  have hpos0 : ∀ n, ∃ p : Vec3, n ∈ w.g.active → (w.nh n).val = ⟨.landmark3d, p⟩ := by
    intro n
    by_cases hn : n ∈ w.g.active
    · obtain ⟨p, hp⟩ := val_of_kind (h.nodes n hn)
      exact ⟨p, fun _ => hp⟩
    · exact ⟨0, fun h => absurd h hn⟩
  choose p hp using hpos
  choose q hq using hpos0
  have hdim : ∀ n ∈ w.g.active, (w.nh n).dim = 3 := fun n hn => by rw [NodeCell.dim, h.nodes n hn]; rfl
  refine ⟨fun c => (p c.1 - q c.1) ⟨c.2, by rw [← hdim c.1 c.1.2]; exact c.2.2⟩, fun n => ?_⟩
  by_cases hn : n ∈ w.g.active
  · rw [moved_landmark _ (hq n hn), hp n hn]
    congr 1
    funext k
    rw [Pi.add_apply, spread, dif_pos ⟨hn, by rw [hdim n hn]; exact k.2⟩]
    simp
  · have : (w.moved (w.spread fun c => (p c.1 - q c.1) ⟨c.2, by rw [← hdim c.1 c.1.2]; exact c.2.2⟩)).nh n = w.nh n :=
      if_neg hn
    rw [this, hF.inactive n hn]

end World

end Mrob
