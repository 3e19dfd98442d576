import Verif.Model.Tree
import Verif.Model.Spmd
/-
nnx/spmd.py: `add_axis`, `remove_axis` and `get_partition_spec` on trees in which the Nodes are at any depth. Model/Spmd.lean has the same
functions for States whose values are Nodes or leaves.
-/
namespace Nnx
variable {α : Type}

/-- `lambda x: isinstance(x, containers.Node)` (nnx/spmd.py:53, 72, 101) -/
def isNodeObj : PyVal α → Bool
  | .cont c _ _ => c.isSub cNode
  | _ => false

/-- `jax.tree_util.tree_flatten(v, is_leaf)`: a value for which `is_leaf` holds is a leaf, whatever is in it. jax is external. -/
def treeFlattenUntil (isLeaf : PyVal α → Bool) (v : PyVal α) : Except Err (List (PyVal α) × TreeDef α) :=
  if isLeaf v then .ok ([v], .leaf)
  else
    match _h : flattenNode v with
    | .error e => .error e
    | .ok none => .ok ([v], .leaf)
    | .ok (some (kids, d)) =>
      match allOk (kids.attach.map fun k => treeFlattenUntil isLeaf k.1) with
      | .error e => .error e
      | .ok rs => .ok (rs.flatMap (·.1), .node d (rs.map (·.2)))
termination_by sizeOf v
decreasing_by exact flattenNode_lt _h _ k.2

variable [DecidableEq α]

/-- `jax.tree_map(f, v, is_leaf=is_leaf)` -/
def treeMapUntil (isLeaf : PyVal α → Bool) (f : PyVal α → Except Err (PyVal α)) (v : PyVal α) : Except Err (PyVal α) :=
  match treeFlattenUntil isLeaf v with
  | .error e => .error e
  | .ok (xs, t) =>
    match allOk (xs.map f) with
    | .error e => .error e
    | .ok ys => treeUnflatten t ys

/-- `add_axis(tree, index, params)` (nnx/spmd.py:36-54) for a tree of values -/
def addAxisTree (v : PyVal α) (index : Int) (params : Md α) : Except Err (PyVal α) :=
  match dget params kPartitionName with
  | none => .error .valueError
  | some name => treeMapUntil isNodeObj (addAxisLeaf index name) v

/-- `remove_axis(tree, index, params)` (nnx/spmd.py:57-73) for a tree of values -/
def removeAxisTree (v : PyVal α) (index : Int) (params : Md α) : Except Err (PyVal α) :=
  match dget params kPartitionName with
  | none => .error .valueError
  | some name => treeMapUntil isNodeObj (removeAxisLeaf index name) v

/-- `get_partition_spec(tree)` (nnx/spmd.py:85-101) for a tree of values. `mk xs` is the object `PartitionSpec(*xs)`. -/
def partitionSpecTree (hasShape : PyVal α → Bool) (mk : List (PyVal α) → PyVal α) (v : PyVal α) : Except Err (PyVal α) :=
  treeMapUntil isNodeObj (fun x => .ok ((partitionSpecOf hasShape x).elim .none mk)) v

/-! ### States: the State itself is a node with its values as children (nnx/state.py:145-158) -/

omit [DecidableEq α] in
/-- `jax.tree_util.tree_flatten(state, is_leaf)` -/
def stateFlattenUntil (isLeaf : PyVal α → Bool) (s : State (PyVal α)) : Except Err (List (PyVal α) × (List Str × List (TreeDef α))) :=
  match allOk (s.flatten.1.map (treeFlattenUntil isLeaf)) with
  | .error e => .error e
  | .ok rs => .ok (rs.flatMap (·.1), (s.flatten.2, rs.map (·.2)))

/-- `jax.tree_map(f, state, is_leaf=is_leaf)` -/
def stateMapUntil (isLeaf : PyVal α → Bool) (f : PyVal α → Except Err (PyVal α)) (s : State (PyVal α)) : Except Err (State (PyVal α)) :=
  match stateFlattenUntil isLeaf s with
  | .error e => .error e
  | .ok (xs, t) =>
    match allOk (xs.map f) with
    | .error e => .error e
    | .ok ys => stateUnflatten t ys

/-- `add_axis(state, index, params)` (nnx/spmd.py:36-54), looking for Nodes inside the values of the State -/
def addAxisDeep (s : State (PyVal α)) (index : Int) (params : Md α) : Except Err (State (PyVal α)) :=
  match dget params kPartitionName with
  | none => .error .valueError
  | some name => stateMapUntil isNodeObj (addAxisLeaf index name) s

/-- `remove_axis(state, index, params)` (nnx/spmd.py:57-73), looking for Nodes inside the values of the State -/
def removeAxisDeep (s : State (PyVal α)) (index : Int) (params : Md α) : Except Err (State (PyVal α)) :=
  match dget params kPartitionName with
  | none => .error .valueError
  | some name => stateMapUntil isNodeObj (removeAxisLeaf index name) s

end Nnx
