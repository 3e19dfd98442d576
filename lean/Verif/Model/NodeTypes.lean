import Verif.Model.Module
/-
nnx/nodes.py: the registry of node types, and the functions of nnx/module.py that consult it. The other modules of the
model fix the registry to the types that the library registers itself.
-/
namespace Nnx
variable {α : Type} [DecidableEq α]

/-- `nodes.node_types` (nnx/nodes.py:6) once the library is imported (nnx/nodes.py:19-20, nnx/containers.py:203,
nnx/state.py:195, nnx/module.py:952, nnx/pytreelib.py:264-265). -/
def libraryTypes : List Cls := [cArray, cNdarray, cNode, cState, cPure, cPytree, cTreeNode]

/-- `nnx.register_node_type(node_type)` (nnx/nodes.py:9-11): `node_types += (node_type,)`. -/
def registerNodeType (types : List Cls) (c : Cls) : List Cls := types ++ [c]

omit [DecidableEq α] in
/-- `nnx.is_node(obj)` (nnx/nodes.py:14-15): `isinstance(obj, node_types)`. -/
def isNodeIn (types : List Cls) (v : PyVal α) : Bool := types.any (fun c => v.isInstance c)

omit [DecidableEq α] in
/-- The loop of `_iter_state_recursive` (nnx/module.py:828-834). -/
def iterStateAttrsIn (types : List Cls) (rec : Loc → List Nat → List Str → Option (List (Str × PyVal α) × List Nat)) :
    List (Str × Attr α) → List Nat → List Str → Option (List (Str × PyVal α) × List Nat)
  | [], seen, _ => some ([], seen)
  | (name, .ref l) :: rest, seen, parts =>
    match rec l seen (parts ++ [name]) with
    | none => none
    | some (ys, seen) =>
      match iterStateAttrsIn types rec rest seen parts with
      | none => none
      | some (zs, seen) => some (ys ++ zs, seen)
  | (name, .val v) :: rest, seen, parts =>
    match iterStateAttrsIn types rec rest seen parts with
    | none => none
    | some (zs, seen) =>
      if isNodeIn types v then some ((joinSlash (parts ++ [name]), v) :: zs, seen) else some (zs, seen)

omit [DecidableEq α] in
/-- `_iter_state_recursive` (nnx/module.py:820-834). -/
def iterStateRecIn (types : List Cls) (h : Heap α) :
    Nat → Loc → List Nat → List Str → Option (List (Str × PyVal α) × List Nat)
  | 0, _, _, _ => none
  | fuel + 1, l, seen, parts =>
    match h[l]? with
    | none => none
    | some o =>
      if o.uid ∈ seen then some ([], seen)
      else iterStateAttrsIn types (iterStateRecIn types h fuel) (sortItems o.attrs) (seen ++ [o.uid]) parts

omit [DecidableEq α] in
/-- `Module.get_state()` (nnx/module.py:559, 767-768, 813-817). -/
def getStateIn (types : List Cls) (fuel : Nat) (h : Heap α) (l : Loc) : Option (State (PyVal α)) :=
  match iterStateRecIn types h fuel l [] [] with
  | none => none
  | some (items, _) => some (.new items)

omit [DecidableEq α] in
/-- The loop of `_make_module_def_recursive` (nnx/module.py:795-801). -/
def makeDefAttrsIn (types : List Cls) (rec : Loc → List Nat → Option ((Nat ⊕ ModuleDef α) × List Nat)) :
    List (Str × Attr α) → List Nat → Option (Subs α × List (Str × PyVal α) × List Nat)
  | [], idx => some (.nil, [], idx)
  | (name, .ref l) :: rest, idx =>
    match rec l idx with
    | none => none
    | some (d, idx) =>
      match makeDefAttrsIn types rec rest idx with
      | none => none
      | some (subs, statics, idx) => some (.cons name d subs, statics, idx)
  | (name, .val v) :: rest, idx =>
    match makeDefAttrsIn types rec rest idx with
    | none => none
    | some (subs, statics, idx) =>
      if !isNodeIn types v && !isReserved name then some (subs, (name, v) :: statics, idx)
      else some (subs, statics, idx)

omit [DecidableEq α] in
/-- `_make_module_def_recursive` (nnx/module.py:781-810). -/
def makeDefRecIn (types : List Cls) (h : Heap α) : Nat → Loc → List Nat → Option ((Nat ⊕ ModuleDef α) × List Nat)
  | 0, _, _ => none
  | fuel + 1, l, idx =>
    match h[l]? with
    | none => none
    | some o =>
      if o.uid ∈ idx then some (.inl (idx.findIdx (· == o.uid)), idx)
      else
        match makeDefAttrsIn types (makeDefRecIn types h fuel) (sortItems o.attrs) (idx ++ [o.uid]) with
        | none => none
        | some (subs, statics, idx') => some (.inr ⟨o.cls, idx.length, subs, statics, o.isInit⟩, idx')

omit [DecidableEq α] in
/-- `Module.get_module_def()` (nnx/module.py:562, 771-778). -/
def getModuleDefIn (types : List Cls) (fuel : Nat) (h : Heap α) (l : Loc) : Option (ModuleDef α) :=
  match makeDefRecIn types h fuel l [] with
  | some (.inr d, _) => some d
  | _ => none

omit [DecidableEq α] in
/-- `Module.partition(*filters)` (nnx/module.py:541-557). -/
def partitionIn (types : List Cls) (fuel : Nat) (h : Heap α) (l : Loc) (filters : List (Filter α)) :
    Except Err (List (State (PyVal α)) × ModuleDef α) :=
  match getModuleDefIn types fuel h l, getStateIn types fuel h l with
  | some d, some s =>
    match filters with
    | [] => .ok ([s], d)
    | fs =>
      match s.partition fs with
      | .error e => .error e
      | .ok ss => .ok (ss, d)
  | _, _ => .error .recursionError

/-- `Module.clone()` (nnx/module.py:520-521). `merge` (`mergeDef`) does not consult the registry. -/
def cloneIn (types : List Cls) (fuel : Nat) (l : Loc) (w : World α) : World α × Except Err Loc :=
  match partitionIn types fuel w.heap l [] with
  | .error e => (w, .error e)
  | .ok (ss, d) => mergeDef d ss w

/-- `Module.update_state(updates)` (nnx/module.py:637-649). -/
def updateStateIn (types : List Cls) (fuel : Nat) (root : Loc) (updates : List (State (PyVal α))) (w : World α) :
    World α × Option Err :=
  match getStateIn types fuel w.heap root with
  | none => (w, some .recursionError)
  | some current => updateModule root current updates w

end Nnx
