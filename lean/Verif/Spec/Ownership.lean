import Verif.Model.Graph

/-!
# Reference counting of nodes and factors

`Node::neighbourFactors_` (node.hpp 132) and `Factor::neighbourNodes_` (factor.hpp 164) are vectors of `std::shared_ptr`: a
node owns its factors and a factor owns its nodes.  An object is deleted when nobody owns it any more.
-/

namespace Mrob

/-- A heap object. -/
inductive Obj
  | node (n : NRef)
  | factor (f : FRef)

namespace Spec

/-- `Owns w x y`: the object `x` holds a `shared_ptr` to `y`. -/
inductive Owns (w : World) : Obj → Obj → Prop
  | factorOfNode {n f} (h : f ∈ (w.nh n).nbrs) : Owns w (.node n) (.factor f)
  | nodeOfFactor {n f} (h : n ∈ (w.fh f).nbrs) : Owns w (.factor f) (.node n)

/-- The object is deleted, where `heap` are the objects that exist and `held` those the program holds a `shared_ptr` to: the
count of references reaches zero, that is, it is not held and every object owning it is deleted. -/
inductive Released (w : World) (heap held : Obj → Prop) : Obj → Prop
  | mk {x} (h : ¬ held x) (ho : ∀ y, heap y → Owns w y x → Released w heap held y) : Released w heap held x

/-- The object `z` is owned by `x`, directly or through other existing objects. -/
inductive Reaches (w : World) (heap : Obj → Prop) : Obj → Obj → Prop
  | refl {x} : Reaches w heap x x
  | step {x y z} (hx : heap x) (h : Owns w x y) (hr : Reaches w heap y z) : Reaches w heap x z

end Spec

end Mrob
