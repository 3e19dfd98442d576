import Verif.Model.MergeInterrupt
import Verif.Spec.Module
/-
Interrupted merges.
-/
namespace Nnx
variable {α : Type} [DecidableEq α]

omit [DecidableEq α] in
/-- Every Module there was is as it was, attributes and all, and so are the traces; ids may have been used up. -/
structure Untouched (w x : World α) : Prop where
  modules : ∀ l : Loc, l < w.heap.length → x.heap[l]? = w.heap[l]?
  jax : x.jaxTrace = w.jaxTrace
  stack : x.nnxStack = w.nnxStack
  ids : w.nextId ≤ x.nextId

/-- The worlds after any number of interrupted merges and clones, of whatever definitions, States and Modules. -/
inductive MergeAttempts (w : World α) : World α → Prop
  | start : MergeAttempts w w
  | merge {x : World α} (n : Nat) (d : ModuleDef α) (states : List (State (PyVal α))) :
      MergeAttempts w x → MergeAttempts w ((mergeInterrupted n d states x).collected x.heap.length)
  | clone {x : World α} (n fuel : Nat) (l : Loc) :
      MergeAttempts w x → MergeAttempts w ((cloneInterrupted n fuel l x).collected x.heap.length)

end Nnx
