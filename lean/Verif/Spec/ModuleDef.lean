import Verif.Spec.History
/-
Vocabulary for properties of ModuleDefs: worlds up to the is_initializing flags, access chains.
-/
namespace Nnx
variable {α : Type}

/-- A world with all `is_initializing` flags cleared: two worlds with the same `noFlags` differ in these
flags only. -/
def World.noFlags (w : World α) : World α :=
  { w with heap := w.heap.map (fun o => { o with isInit := false }) }

/-- Following a chain of `.name` and `[key]` accesses from an object, in order. -/
def followAll {O : Type} (access : O → Access → Option O) (chain : List Access) (x : O) : Option O :=
  chain.foldlM access x

/-- An item, or an attribute whose name is not that of a field of the proxy objects and does not begin with two underscores. -/
def Access.Plain : Access → Prop
  | .attr n => n ≠ py! "accessor" ∧ n ≠ py! "_proxy_context" ∧ n ≠ py! "_proxy_callable" ∧ n.take 2 ≠ py! "__"
  | .item _ => True

end Nnx
