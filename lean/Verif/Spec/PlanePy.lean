import Verif.Model.PlanePy

/-!
# What a sequence of calls on a Python `PlaneRegistration` amounts to

The notes a careful user keeps: the declared numbers, for every plane the points handed over for every time, and the mode of
the last solve.  They depend on the calls only.
-/

namespace Mrob

namespace PlanePy

/-- The notes. -/
structure Sheet where
  /-- declared number of planes -/
  planes : ℕ
  /-- declared number of poses -/
  poses : ℕ
  /-- the planes in the order of creation, with their points by time -/
  clouds : List (ℕ × (ℕ → List Vec3))
  /-- mode of the last solve -/
  mode : Option SolveMode

/-- Before any call. -/
def Sheet.blank : Sheet := ⟨0, 0, [], none⟩

namespace Sheet

/-- The identifiers in use. -/
def ids (d : Sheet) : List ℕ := d.clouds.map (·.1)

/-- The notes after a call. -/
def after (d : Sheet) : Call → Sheet
  | .setNumbers a b => { d with planes := a, poses := b, clouds := [] }
  | .addPlane id => if id ∈ d.ids then d else { d with clouds := d.clouds ++ [(id, fun _ => [])] }
  | .pushPoint id t x => { d with clouds := d.clouds.map fun c =>
      if c.1 = id then (c.1, fun u => if u = t ∧ t < d.poses then c.2 u ++ [x] else c.2 u) else c }
  | .solve mode _ => { d with mode := some mode }
  | _ => d

/-- The notes after several calls. -/
def afterAll (d : Sheet) (cs : List Call) : Sheet := cs.foldl after d

/-- What a careful user pays attention to before a call. -/
def Allows (d : Sheet) : Call → Prop
  | .setNumbers a b => a < 2 ^ 32 ∧ 0 < b ∧ b < 2 ^ 32
  | .pushPoint id _ _ => 0 < d.poses ∧ id ∈ d.ids
  | .solve mode _ => 0 < d.poses ∧ mode ≠ .gradient ∧ (mode = .initialize → ∀ c ∈ d.clouds, c.2 0 ≠ [])
  | .evaluate => 0 < d.poses ∧ d.clouds.length ≤ d.planes
  | _ => 0 < d.poses

/-- All calls are made with care. -/
def Legal : Sheet → List Call → Prop
  | _, [] => True
  | d, c :: cs => d.Allows c ∧ (d.after c).Legal cs

/-- The calls whose results may be meaningless: the solvers, and `print_evaluate` after a solve which leaves no Hessian. -/
def Doubtful (d : Sheet) : Call → Prop
  | .solve _ _ => True
  | .evaluate => d.mode = some .initialize ∨ d.mode = some .gnClampedHessian
  | _ => False

/-- All points handed over for time `t`, plane by plane. -/
def cloud (d : Sheet) (t : ℕ) : List Vec3 := (d.clouds.map fun c => c.2 t).flatten

/-- The number of points handed over. -/
def size (d : Sheet) : ℕ := ((List.range d.poses).map fun t => (d.cloud t).length).sum

end Sheet

end PlanePy

end Mrob
