import Verif.Model.NodeTypes
/-
nnx/nodes.py: `register_node_type` called by several threads. `node_types += (node_type,)` reads the global variable and
then assigns to it; other threads may run in between.
-/
namespace Nnx

/-- A call of `register_node_type` in a thread: none, or one that has read `node_types`. -/
inductive Registering where
  | idle
  | loaded (types : List Cls) (new : Cls)
deriving DecidableEq, Repr

/-- The registry and the threads. `done` is a ghost: the types whose registration has returned, in this order. -/
structure RegWorld where
  types : List Cls
  threads : Nat → Registering
  done : List Cls

/-- What happens next: a thread that is not registering calls `register_node_type` and reads the registry, or one assigns
the longer tuple. -/
inductive RegEvent where
  | load (t : Nat) (c : Cls)
  | store (t : Nat)
deriving DecidableEq, Repr

/-- One step of `node_types += (node_type,)` (nnx/nodes.py:9-11). A thread that is registering cannot call it again, and one
that is not has nothing to assign. -/
def RegWorld.step (g : RegWorld) : RegEvent → RegWorld
  | .load t c =>
    match g.threads t with
    | .idle => { g with threads := fun u => if u = t then .loaded g.types c else g.threads u }
    | .loaded _ _ => g
  | .store t =>
    match g.threads t with
    | .idle => g
    | .loaded types c =>
      { types := registerNodeType types c, threads := fun u => if u = t then .idle else g.threads u, done := g.done ++ [c] }

/-- A schedule. -/
def RegWorld.run (g : RegWorld) (evs : List RegEvent) : RegWorld := evs.foldl RegWorld.step g

/-- Before the threads start: the library and types that were registered before (nnx/nodes.py:6, 19-20). -/
def RegWorld.start (before : List Cls) : RegWorld := ⟨before.foldl registerNodeType libraryTypes, fun _ => .idle, []⟩

end Nnx
