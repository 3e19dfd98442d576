import Verif.Model.Transforms
import Verif.Model.Tree
/-
`Pure` and `ModuleDef` as JAX pytrees (nnx/module.py:165-190, 361-373).
-/
namespace Nnx
variable {α : Type}

/-- The tree structure of a State: its paths and the structures of its values (nnx/state.py:145-158). -/
abbrev StateDef (α : Type) := List Str × List (TreeDef α)

/-- The tree structure of a Pure: a `Pure` is a node with the two children `states` and `moduledef` and no data of its own
(nnx/module.py:364-370). `states` is a State or a tuple of States, and a `ModuleDef` is a node without children, whose data are all its fields
(nnx/module.py:165-187). -/
structure PureDef (α : Type) where
  isTuple : Bool
  states : List (StateDef α)
  moduledef : ModuleDef α

/-- Whether the States are in a tuple. -/
def States.isTuple : States α → Bool
  | .one _ => false
  | .many _ => true

/-- The leaves and structures of States, one after the other. -/
def statesFlatten : List (State (PyVal α)) → Except Err (List (PyVal α) × List (StateDef α))
  | [] => .ok ([], [])
  | s :: ss =>
    match stateFlatten s with
    | .error e => .error e
    | .ok (xs, t) =>
      match statesFlatten ss with
      | .error e => .error e
      | .ok (ys, ts) => .ok (xs ++ ys, t :: ts)

/-- `jax.tree_util.tree_flatten(pure)`: `_pure_module_flatten` (nnx/module.py:364-366), `_moddef_flatten` (nnx/module.py:165-173). -/
def pureFlatten (p : Pure' α) : Except Err (List (PyVal α) × PureDef α) :=
  match statesFlatten p.states.toList with
  | .error e => .error e
  | .ok (xs, ts) => .ok (xs, ⟨p.states.isTuple, ts, p.moduledef⟩)

variable [DecidableEq α]

/-- Rebuild States from the front of a list of leaves; the others are returned. -/
def statesUnflatten : List (StateDef α) → List (PyVal α) → Except Err (List (State (PyVal α)) × List (PyVal α))
  | [], xs => .ok ([], xs)
  | t :: ts, xs =>
    match unflattenAll t.2 xs with
    | .error e => .error e
    | .ok (vs, xs) =>
      match statesUnflatten ts xs with
      | .error e => .error e
      | .ok (ss, xs) => .ok (.unflatten t.1 vs :: ss, xs)

/-- `jax.tree_util.tree_unflatten(treedef, leaves)`: `_pure_module_unflatten` (nnx/module.py:369-370), `_moddef_unflatten` (nnx/module.py:176-187). -/
def pureUnflatten (t : PureDef α) (xs : List (PyVal α)) : Except Err (Pure' α) :=
  match statesUnflatten t.states xs with
  | .error e => .error e
  | .ok (_, _ :: _) => .error .valueError
  | .ok (ss, []) =>
    if t.isTuple then .ok ⟨.many ss, t.moduledef⟩
    else
      match ss with
      | [s] => .ok ⟨.one s, t.moduledef⟩
      | _ => .error .unmodelled

/-- `flatten_up_to` for the structures of States. -/
def statesUpTo : List (StateDef α) → List (State (PyVal α)) → Except Err (List (PyVal α))
  | [], [] => .ok []
  | t :: ts, s :: ss =>
    match stateUpTo t s with
    | .error e => .error e
    | .ok xs =>
      match statesUpTo ts ss with
      | .error e => .error e
      | .ok ys => .ok (xs ++ ys)
  | _, _ => .error .valueError

/-- `treedef.flatten_up_to(pure)`: ValueError if `pure` has another structure. The ModuleDefs have no children and are compared by their data. -/
def pureUpTo (t : PureDef α) (p : Pure' α) : Except Err (List (PyVal α)) :=
  if t.isTuple = p.states.isTuple ∧ t.moduledef.auxEqv p.moduledef = true then statesUpTo t.states p.states.toList else .error .valueError

/-- `jax.tree_map(f, pure, *rest)` for Pures -/
def pureTreeMap (f : List (PyVal α) → Except Err (PyVal α)) (p : Pure' α) (rest : List (Pure' α)) : Except Err (Pure' α) :=
  match pureFlatten p with
  | .error e => .error e
  | .ok (xs, t) =>
    match allOk (rest.map (pureUpTo t)) with
    | .error e => .error e
    | .ok ls =>
      match allOk ((columns xs ls).map f) with
      | .error e => .error e
      | .ok ys => pureUnflatten t ys

end Nnx
