import Verif.Model.Pytree
/-
`del obj.name` on Pytree objects.
-/
namespace Nnx
variable {α : Type}

/-- `del obj.name`. `Pytree` defines `__setattr__` but no `__delattr__` (nnx/pytreelib.py:70-106), so `object.__delattr__`
removes the entry from `vars(obj)`, or raises AttributeError when there is none. A frozen dataclass has its own
`__delattr__`, which raises FrozenInstanceError, an AttributeError. -/
def hDelattr (env : PEnv α) (l : Nat) (name : Str) (h : PHeap α) : PHeap α × Option Err :=
  match h[l]? with
  | none => (h, some .unmodelled)
  | some (c, vars) =>
    match (env c).dataclass with
    | some (_, true) => (h, some .attributeError)
    | _ => if dhas vars name then (h.set l (c, ddel vars name), none) else (h, some .attributeError)

end Nnx
