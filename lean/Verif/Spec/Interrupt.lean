import Verif.Model.Interrupt
import Verif.Spec.Module
/-
Interrupted calls.
-/
namespace Nnx
variable {α : Type} [DecidableEq α]

/-- The worlds that any number of interrupted attempts at one update can leave. -/
inductive Attempts (root : Loc) (us : List (State (PyVal α))) (w : World α) : World α → Prop
  | start : Attempts root us w w
  | interrupted {x : World α} (n fuel : Nat) : Attempts root us w x → Attempts root us w (updateInterrupted n fuel root us x)

/-- The same Modules with the same content of every attribute. -/
def EqualContent (w w' : World α) : Prop := SameObjects w w' ∧ ∀ l n, attrAt w'.heap l n = attrAt w.heap l n

omit [DecidableEq α] in
/-- The heaps that any number of interrupted attempts to pop can leave. -/
inductive PopAttempts (fuel : Nat) (root : Loc) (filters : List (Filter α)) (h : Heap α) : Heap α → Prop
  | start : PopAttempts fuel root filters h h
  | interrupted {x : Heap α} (n : Nat) : PopAttempts fuel root filters h x → PopAttempts fuel root filters h (popInterrupted n fuel root filters x)

end Nnx
