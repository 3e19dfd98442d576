import Verif.Model.Lookup
import Verif.Spec.Module
import Verif.Spec.Helpers
/-
Which names are ordinary.
-/
namespace Nnx
variable {α : Type}

/-- The classes have at least the properties and the methods of `Module`. -/
structure ModuleNames (N : ClassNames) : Prop where
  props : ∀ c, py! "init" ∈ N.props c ∧ py! "is_initializing" ∈ N.props c ∧ py! "apply" ∈ N.props c
  methods : ∀ c, ∀ n ∈ [py! "clone", py! "partition", py! "get_state", py! "get_module_def", py! "filter", py! "pop_state", py! "update_state",
    py! "mutable_state_dict", py! "sow", py! "for_each"], n ∈ N.members c ∧ n ∉ N.props c

/-- The Module has an attribute of its own with this name. -/
def Owns (w : World α) (l : Loc) (n : Str) : Prop := ∃ a, attrAt w.heap l n = some a

/-- What is read after assigning: the value, or the content of the container that was assigned; a Module itself. -/
def assigned : Attr α → Attr α
  | .ref l => .ref l
  | .val v => .val v.valueOf

end Nnx
