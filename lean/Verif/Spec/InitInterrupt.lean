import Verif.Spec.Calls
/-
C137: which Modules an interrupted init has reached.
-/
namespace Nnx
variable {α : Type}

/-- `x` is `w` with the `is_initializing` flag of the Modules `ls` set to `b`, and nothing else changed. -/
structure Flagged (w x : World α) (ls : List Loc) (b : Bool) : Prop where
  len : x.heap.length = w.heap.length
  obj : ∀ (l : Loc) (o : ModObj α), w.heap[l]? = some o → x.heap[l]? = some (if l ∈ ls then { o with isInit := b } else o)
  rest : x.nextId = w.nextId ∧ x.jaxTrace = w.jaxTrace ∧ x.nnxStack = w.nnxStack

end Nnx
