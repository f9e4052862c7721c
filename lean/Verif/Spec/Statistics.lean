import Verif.Spec.Convergence
import Verif.Spec.ConvergenceSpatial
import Verif.Spec.Uncertain

/-!
# Random measurement errors

Errors are random vectors with finitely many outcomes `ω` of probability `p ω`.
-/

open Matrix

namespace Spec

open Mrob World

/-- The twist with the coordinates `e 0 … e 5`, angular part first. -/
def twistOf (e : ℕ → ℝ) : Fin 3 ⊕ Fin 3 → ℝ
  | .inl i => e i
  | .inr i => e (3 + i)

/-- The first factor is an exact measurement of the states of its nodes, the second the same measurement with the error `e`: the
measured numbers are the true ones plus `e`; a point on a plane is displaced along the normal of the plane; a measured spatial pose
is displaced by the exponential of the twist (with an angle for which logarithm and exponential of the code are inverse to each
other).  Errors of angles are less than half a turn. -/
inductive Observed (val : NRef → NodeVal) (e : ℕ → ℝ) : FactorVirt → FactorVirt → List NRef → Prop
  | prior2d {z W n x} (hn : val n = ⟨.pose2d, x⟩) (h : planar x = planar z) (he : |e 2| < Real.pi) :
      Observed val e (.prior2d z W .quadratic) (.prior2d (z + ![e 0, e 1, e 2]) W .quadratic) [n]
  | rel2d {z W n m x y} (hn : val n = ⟨.pose2d, x⟩) (hm : val m = ⟨.pose2d, y⟩) (h : planar y = planar x * planar z)
      (he : |e 2| < Real.pi) : Observed val e (.rel2d z W .quadratic) (.rel2d (z + ![e 0, e 1, e 2]) W .quadratic) [n, m]
  | land2d {z W n m x y} (hn : val n = ⟨.pose2d, x⟩) (hm : val m = ⟨.landmark2d, y⟩) (hfar : 1e-3 < z 0)
      (h : y = planarPoint x ![z 0 * Real.cos (z 1), z 0 * Real.sin (z 1)]) (he : |e 1| < Real.pi) :
      Observed val e (.land2d z W false .quadratic) (.land2d (z + ![e 0, e 1]) W false .quadratic) [n, m]
  | land2dRev {z W n m x y} (hn : val n = ⟨.pose2d, x⟩) (hm : val m = ⟨.landmark2d, y⟩) (hfar : 1e-3 < z 0)
      (h : y = planarPoint x ![z 0 * Real.cos (z 1), z 0 * Real.sin (z 1)]) (he : |e 1| < Real.pi) :
      Observed val e (.land2d z W true .quadratic) (.land2d (z + ![e 0, e 1]) W true .quadratic) [m, n]
  | land3d {z l : Fin 3 → ℝ} {A : SE3} {W n m} (hn : val n = ⟨.pose3d, A⟩) (hm : val m = ⟨.landmark3d, l⟩) (hA : IsRigid A.T)
      (h : l = A.R *ᵥ z + A.t) : Observed val e (.land3d z W false .quadratic) (.land3d (z + ![e 0, e 1, e 2]) W false .quadratic) [n, m]
  | land3dRev {z l : Fin 3 → ℝ} {A : SE3} {W n m} (hn : val n = ⟨.pose3d, A⟩) (hm : val m = ⟨.landmark3d, l⟩) (hA : IsRigid A.T)
      (h : l = A.R *ᵥ z + A.t) : Observed val e (.land3d z W true .quadratic) (.land3d (z + ![e 0, e 1, e 2]) W true .quadratic) [m, n]
  | p2plane {px z ny : Fin 3 → ℝ} {A : SE3} {W n} (hn : val n = ⟨.pose3d, A⟩) (h : ny ⬝ᵥ (A.R *ᵥ px + A.t - z) = 0) (hy : ny ⬝ᵥ ny = 1) :
      Observed val e (.p2plane px z ny W .quadratic) (.p2plane px (z + e 0 • ny) ny W .quadratic) [n]
  | prior3d {A B : SE3} {W n} (hn : val n = ⟨.pose3d, A⟩) (hA : IsRigid A.T) (h : B.T = expTwist (twistOf e) * A.T)
      (hlen : (![e 0, e 1, e 2] : Fin 3 → ℝ) = 0 ∨ (5e-3 < len ![e 0, e 1, e 2] ∧ len ![e 0, e 1, e 2] < Real.pi / 2)) :
      Observed val e (.prior3d A W .quadratic) (.prior3d B W .quadratic) [n]

/-- The same graph with other measurements: `w` holds exact measurements of its states, `w'` the ones with the errors `e`. -/
structure Remeasured (e : FRef → ℕ → ℝ) (l : List FRef) (w w' : World) : Prop where
  /-- empty graphs at the start -/
  empty : w.g = emptyGraph ∧ w'.g = emptyGraph
  /-- same nodes -/
  nodes : w'.nh = w.nh
  /-- same connections -/
  nbrs : ∀ f ∈ l, (w'.fh f).nbrs = (w.fh f).nbrs
  /-- exact measurements, and the ones with errors -/
  observed : ∀ f ∈ l, Observed (fun n => (w.nh n).val) (e f) (w.fh f).virt (w'.fh f).virt (w.fh f).nbrs

/-- The errors have mean zero, the inverse of the information matrix is their covariance, and errors of different measurements
are uncorrelated. -/
structure White {Ω : Type} [Fintype Ω] (p : Ω → ℝ) (e : Ω → FRef → ℕ → ℝ) (w : World) (l : List FRef) : Prop where
  /-- probabilities -/
  total : (∀ ω, 0 ≤ p ω) ∧ ∑ ω, p ω = 1
  /-- unbiased -/
  mean : ∀ f ∈ l, ∀ i : Fin (w.fh f).virt.dim, ∑ ω, p ω * e ω f i = 0
  /-- covariance -/
  cov : ∀ f ∈ l, ∀ i j : Fin (w.fh f).virt.dim, ∑ ω, p ω * (e ω f i * e ω f j) = ((w.fh f).virt.W)⁻¹ i j
  /-- uncorrelated -/
  apart : ∀ f ∈ l, ∀ g ∈ l, f ≠ g → ∀ (i : Fin (w.fh f).virt.dim) (j : Fin (w.fh g).virt.dim), ∑ ω, p ω * (e ω f i * e ω g j) = 0

/-- The states `v` are those of `w`, with every unknown node displaced by its part of `δ` (in the coordinates of its update). -/
def MovedBy (w : World) (δ : Cols w → ℝ) (v : NRef → NodeVal) : Prop :=
  (∀ n ∉ w.g.active, v n = (w.nh n).val) ∧
  ∀ (n : NRef) (hn : n ∈ w.g.active), v n =
    ⟨(w.nh n).kind, (w.nh n).kind.upd (w.nh n).obj.state
      ((w.nh n).kind.ofFlat fun i => if h : i < (w.nh n).dim then δ ⟨⟨n, hn⟩, ⟨i, h⟩⟩ else 0)⟩

end Spec
