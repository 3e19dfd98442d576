import Verif.Model.ModuleOps
import Verif.Model.State
/-
`Module.filter` and `MutableLeaf.sharding` of nnx/module.py.
-/
namespace Nnx
variable {α : Type} [DecidableEq α]

/-- `Module.filter(first, *filters)` (nnx/module.py:579-592).  Always returns a list, of which Python unpacks the only
element when there is one filter; `first` is a required argument, so no filters is a TypeError. -/
def moduleFilter (fuel : Nat) (h : Heap α) (l : Loc) (filters : List (Filter α)) : Except Err (List (State (PyVal α))) :=
  match filters with
  | [] => .error .typeError
  | first :: rest =>
    match getState fuel h l with
    | none => .error .recursionError
    | some s => s.filter (first :: rest)

/-- `leaf.sharding` (nnx/module.py:758-764): `vars(module)[name]` is looked up, and if it is an instance of `Node` its
attribute `metadata` is asked for the key `"sharding"`.  An instance of `Container` has the attributes `value` and the
metadata fields it was given (nnx/containers.py:44-52), so `metadata` is there only when such a field is called
`metadata`; that it is then a `dict` is part of the model, anything else has no method `get` (AttributeError). -/
def leafSharding (h : Heap α) (leaf : Loc × Str) : Except Err (PyVal α) :=
  match varsGet h leaf.1 leaf.2 with
  | .error e => .error e
  | .ok (.ref _) => .ok .none
  | .ok (.val v) =>
    if v.isInstance cNode then
      match v with
      | .cont _ _ md =>
        match dget md (py! "metadata") with
        | some (.dict items) => .ok ((dget items (py! "sharding")).getD .none)
        | _ => .error .attributeError
      | _ => .error .attributeError
    else .ok .none

end Nnx
