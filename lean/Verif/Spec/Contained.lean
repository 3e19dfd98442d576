import Verif.Spec.History
import Verif.Spec.Tracing
/-
Modules inside of lists and other objects.
-/
namespace Nnx
variable {α : Type}

/-- `held a` are the Modules that the object `a` (a list, a tuple, a dict, an object of another class) has in it. The Module `k` is in a value that can be
reached from `m` through attributes. -/
def Contained (held : α → List Loc) (h : Heap α) (m k : Loc) : Prop :=
  ∃ p v a, access h (.ref m) p = some (.val v) ∧ Occurs a v ∧ k ∈ held a

end Nnx
