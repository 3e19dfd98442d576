import Verif.Model.ModuleEq
import Verif.Spec.Module
import Verif.Spec.Helpers
/-
What `==` of Modules should mean.
-/
namespace Nnx
variable {α : Type}

/-- No attribute is called like a property of `Module`. -/
def PlainNames (h : Heap α) (l : Loc) : Prop :=
  ∀ n a, attrAt h l n = some a → n ≠ py! "init" ∧ n ≠ py! "is_initializing" ∧ n ≠ py! "apply"

/-- Two attributes are seen as equal, where `R` is equality of different Modules: the same Module or equal ones; or, after taking values out of their containers,
the same object or objects that compare equal. -/
inductive SeenEqual (E : ModuleEqs α) (R : Loc → Loc → Prop) : Attr α → Attr α → Prop
  | same (l : Loc) : SeenEqual E R (.ref l) (.ref l)
  | modules {a b : Loc} (h : R a b) : SeenEqual E R (.ref a) (.ref b)
  | values {a b : Attr α} {u v : PyVal α} (ha : seen a = .val u) (hb : seen b = .val v) (h : E.is u v = true ∨ E.eq u v = .ok true) : SeenEqual E R a b
  | left {a : Loc} {b : Attr α} {v : PyVal α} (hb : seen b = .val v) (h : E.mixed a v = .ok true) : SeenEqual E R (.ref a) b
  | right {a : Attr α} {b : Loc} {u : PyVal α} (ha : seen a = .val u) (h : E.mixed b u = .ok true) : SeenEqual E R a (.ref b)

/-- Every Module that can be reached from `m` is of a dataclass, has an attribute for each field of its class, and none of them is called like a property. -/
def AllDataclasses (E : ModuleEqs α) (h : Heap α) (m : Loc) : Prop :=
  ∀ a o, Reaches h m a → h[a]? = some o → PlainNames h a ∧ ∃ fields, E.kind o.cls = .dataclass fields ∧ ∀ n ∈ fields, ∃ x, attrAt h a n = some x

end Nnx
