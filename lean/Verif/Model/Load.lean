import Verif.Model.Module
/-
`Module.update_state` with a Module as its argument.
-/
namespace Nnx
variable {α : Type} [DecidableEq α]

/-- `self.update_state(other)` for a Module `other` (nnx/module.py:637-649): the state of `self` is collected first, then the types are compared
by an `assert`, and the state of `other` is used like a State. `assert` statements are assumed to be enabled. -/
def updateFrom (fuel : Nat) (self other : Loc) (w : World α) : World α × Option Err :=
  match getState fuel w.heap self with
  | none => (w, some .recursionError)
  | some current =>
    match w.heap[self]?, w.heap[other]? with
    | some o, some o' =>
      if o.cls = o'.cls then
        match getState fuel w.heap other with
        | none => (w, some .recursionError)
        | some s => updateModule self current [s] w
      else (w, some .assertionError)
    | _, _ => (w, some .unmodelled)

end Nnx
