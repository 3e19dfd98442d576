import Verif.Model.Containers
import Verif.Model.State
/-
nnx/spmd.py: sharding metadata, logical axis rules and sharding constraints.
-/
namespace Nnx

/-! ### add_axis, remove_axis, get_partition_spec -/

section
variable {α : Type} [DecidableEq α]

/-- "sharding" -/
def kSharding : Str := py! "sharding"

/-- "partition_name" (nnx/spmd.py:27) -/
def kPartitionName : Str := py! "partition_name"

/-- `list.insert(index, x)`: a negative index counts from the end, and the position is clamped to the list. -/
def pyInsert {X : Type} (l : List X) (index : Int) (x : X) : List X :=
  let pos : Nat := if index < 0 then (index + l.length).toNat else min index.toNat l.length
  l.take pos ++ x :: l.drop pos

/-- `list.pop(index)`: the element and the remaining list; `none` is IndexError. -/
def pyPop {X : Type} (l : List X) (index : Int) : Option (X × List X) :=
  let i : Int := if index < 0 then index + l.length else index
  if i < 0 then none
  else
    match l[i.toNat]? with
    | none => none
    | some x => some (x, l.eraseIdx i.toNat)

/-- The loop `while len(sharding) < index: sharding.append(None)` (nnx/spmd.py:46-47) -/
def padTo (l : List (PyVal α)) (index : Int) : List (PyVal α) :=
  l ++ List.replicate (index - l.length).toNat .none

omit [DecidableEq α] in
/-- `isinstance(x, Node) and isinstance(x, HasSharding) and x.sharding is not None` (nnx/spmd.py:40-44): the sharding.
Simplification: the sharding is a tuple. -/
def shardingOf : PyVal α → Option (List (PyVal α))
  | .cont c _ m =>
    if c.isSub cNode then
      match dget m kSharding with
      | some (.tup xs) => some xs
      | _ => none
    else none
  | _ => none

/-- `_add_axis` (nnx/spmd.py:39-50) -/
def addAxisLeaf (index : Int) (name : PyVal α) (x : PyVal α) : Except Err (PyVal α) :=
  match shardingOf x with
  | some xs => replace x [(kSharding, .tup (pyInsert (padTo xs index) index name))]
  | none => .ok x

/-- `_remove_axis` (nnx/spmd.py:60-69). Run without `python -O`, which would drop the `pop` with the `assert`. -/
def removeAxisLeaf (index : Int) (name : PyVal α) (x : PyVal α) : Except Err (PyVal α) :=
  match shardingOf x with
  | some xs =>
    match pyPop xs index with
    | none => .error .indexError
    | some (y, ys) => if y = name then replace x [(kSharding, .tup ys)] else .error .assertionError
  | none => .ok x

/-- Apply `f` to each element; the first exception ends it. -/
def mapExcept {X Y : Type} (f : X → Except Err Y) : List X → Except Err (List Y)
  | [] => .ok []
  | x :: xs =>
    match f x with
    | .error e => .error e
    | .ok y =>
      match mapExcept f xs with
      | .error e => .error e
      | .ok ys => .ok (y :: ys)

/-- `jax.tree_map(f, state, is_leaf=lambda x: isinstance(x, Node))` (nnx/spmd.py:52-54). Simplification: a value of the State that is
not a Node is a leaf here; jax would look for Nodes inside it, which Model/SpmdTree.lean models. -/
def State.treeMapExcept (f : PyVal α → Except Err (PyVal α)) (s : State (PyVal α)) : Except Err (State (PyVal α)) :=
  match mapExcept f s.flatten.1 with
  | .error e => .error e
  | .ok ys => .ok (.unflatten s.flatten.2 ys)

/-- `add_axis(state, index, params)` (nnx/spmd.py:36-54) with `_get_partition_name` (nnx/spmd.py:76-82) -/
def addAxis (s : State (PyVal α)) (index : Int) (params : Md α) : Except Err (State (PyVal α)) :=
  match dget params kPartitionName with
  | none => .error .valueError
  | some name => s.treeMapExcept (addAxisLeaf index name)

/-- `remove_axis(state, index, params)` (nnx/spmd.py:57-73) -/
def removeAxis (s : State (PyVal α)) (index : Int) (params : Md α) : Except Err (State (PyVal α)) :=
  match dget params kPartitionName with
  | none => .error .valueError
  | some name => s.treeMapExcept (removeAxisLeaf index name)

/-- What `get_partition_spec` gives for a leaf: a PartitionSpec with these entries, or `None`. -/
abbrev PSpec (α : Type) := Option (List (PyVal α))

omit [DecidableEq α] in
/-- The function `f` of `get_partition_spec` (nnx/spmd.py:88-99); `hasShape` says which values have a `shape`. -/
def partitionSpecOf (hasShape : PyVal α → Bool) (x : PyVal α) : PSpec α :=
  match x with
  | .cont c v m =>
    if c.isSub cNode then
      match shardingOf (.cont c v m) with
      | some (y :: ys) => some (y :: ys)
      | _ => if hasShape v then some [] else none
    else if hasShape (.cont c v m) then some [] else none
  | x => if hasShape x then some [] else none

omit [DecidableEq α] in
/-- `get_partition_spec(state)` (nnx/spmd.py:85-101) -/
def getPartitionSpec (hasShape : PyVal α → Bool) (s : State (PyVal α)) : State (PSpec α) :=
  s.treeMap (partitionSpecOf hasShape)

end

/-! ### Logical axis rules -/

/-- The right-hand side of a rule: `None`, a mesh axis, or a tuple of mesh axes (nnx/spmd.py:18). -/
inductive MeshAxes where
  | none
  | axis (s : Str)
  | axes (l : List Str)
deriving DecidableEq, Repr

/-- `jax.tree_util.tree_leaves` of it: the mesh axes. -/
def MeshAxes.leaves : MeshAxes → List Str
  | .none => []
  | .axis s => [s]
  | .axes l => l

/-- An entry of the result list of `_logical_to_mesh_axes`: `_unassigned_axis` or an assignment. -/
inductive Slot where
  | unassigned
  | assigned (m : MeshAxes)
deriving DecidableEq, Repr

/-- The mesh axes in an entry (the sentinel is a leaf too, but never equal to a mesh axis). -/
def Slot.leaves : Slot → List Str
  | .unassigned => []
  | .assigned m => m.leaves

/-- A rule: logical name and mesh axes. The name is a `str` by its type, but `None` would be treated alike. -/
abbrev LRule := Option Str × MeshAxes

/-- `_mesh_assignment_free` (nnx/spmd.py:153-159) -/
def meshFree (new : MeshAxes) (existing : List Slot) : Bool :=
  !new.leaves.any (fun a => existing.any (fun s => s.leaves.contains a))

/-- The body of the loop over rules (nnx/spmd.py:181-189) -/
def applyRule (dims : List (Option Str)) (result : List Slot) (rule : LRule) : List Slot :=
  if dims.contains rule.1 then
    let pos := dims.idxOf rule.1
    if meshFree rule.2 result && decide (result[pos]? = some .unassigned) then result.set pos (.assigned rule.2) else result
  else result

/-- `_logical_to_mesh_axes(dims, rules)` for `dims` and `rules` that are not None (nnx/spmd.py:162-190). Simplification: rules are
always a list or tuple. -/
def logicalToMeshRaw (dims : List (Option Str)) (rules : List LRule) : Except Err (List Slot) :=
  if dims.any (fun k => decide (dims.count k > 1) && k.isSome) then .error .valueError
  else .ok (rules.foldl (applyRule dims) (List.replicate dims.length .unassigned))

/-- `None if x is _unassigned_axis else x` (nnx/spmd.py:233) -/
def Slot.fill : Slot → MeshAxes
  | .unassigned => .none
  | .assigned m => m

/-- `logical_to_mesh_axes(dims, rules)` (nnx/spmd.py:193-234): the entries of the PartitionSpec; `none` is Python's None. -/
def logicalToMeshAxes (dims : Option (List (Option Str))) (rules : List LRule) : Except Err (Option (List MeshAxes)) :=
  match dims with
  | none => .ok none
  | some dims =>
    match logicalToMeshRaw dims rules with
    | .error e => .error e
    | .ok slots => .ok (some (slots.map Slot.fill))

/-! ### Constraints -/

/-- nnx/spmd.py:265-270 -/
inductive Fallback where
  | axisIsUnsharded | raiseError | noConstraint
deriving DecidableEq, Repr

/-- The value returned: as it was, or under a sharding constraint with this spec and mesh. -/
inductive Constrained (X M : Type) where
  | same (x : X)
  | constrained (x : X) (spec : Option (List MeshAxes)) (mesh : Option M)
deriving DecidableEq, Repr

variable {X M : Type}

/-- `_with_sharding_constraint` (nnx/spmd.py:273-286); `globalMesh` is `_global_mesh_defined()`. -/
def withShardingConstraint (globalMesh : Bool) (x : X) (spec : Option (List MeshAxes)) (mesh : Option M) : Constrained X M :=
  if !globalMesh && mesh.isNone then .same x
  else
    match mesh, spec with
    | some m, some s => .constrained x (some s) (some m)
    | _, spec => .constrained x spec none

/-- `_with_sharding_constraint_one_fallback` (nnx/spmd.py:289-309) -/
def oneFallback (globalMesh : Bool) (fallback : Fallback) (rules : List LRule) (mesh : Option M)
    (dims : Option (List (Option Str))) (x : X) : Except Err (Constrained X M) :=
  match dims with
  | none => .ok (withShardingConstraint globalMesh x none mesh)
  | some dims =>
    match logicalToMeshRaw dims rules with
    | .error e => .error e
    | .ok slots =>
      match fallback with
      | .axisIsUnsharded => .ok (withShardingConstraint globalMesh x (some (slots.map Slot.fill)) mesh)
      | fb =>
        if slots.contains .unassigned then
          if fb = .raiseError then .error .valueError else .ok (.same x)
        else .ok (withShardingConstraint globalMesh x (some (slots.map Slot.fill)) mesh)

/-- `with_logical_constraint(x, spec, rules, mesh, fallback)` (nnx/spmd.py:318-342) for a single array; `ctxRules` are the rules in
force (used when `rules` is None). -/
def withLogicalConstraint (globalMesh : Bool) (ctxRules : List LRule) (x : X) (dims : Option (List (Option Str)))
    (rules : Option (List LRule)) (mesh : Option M) (fallback : Fallback) : Except Err (Constrained X M) :=
  let rules := rules.getD ctxRules
  if rules.isEmpty || dims.isNone then .ok (.same x)
  else oneFallback globalMesh fallback rules mesh dims x

/-- The same for a tree of arrays, given as its leaves with their specs (nnx/spmd.py:331-342); the tree of specs is not None. -/
def withLogicalConstraints (globalMesh : Bool) (ctxRules : List LRule) (xs : List (Option (List (Option Str)) × X))
    (rules : Option (List LRule)) (mesh : Option M) (fallback : Fallback) : Except Err (List (Constrained X M)) :=
  let rules := rules.getD ctxRules
  if rules.isEmpty then .ok (xs.map (fun dx => .same dx.2))
  else mapExcept (fun dx => oneFallback globalMesh fallback rules mesh dx.1 dx.2) xs

/-- A value made by an initializer from `with_logical_partitioning` (nnx/spmd.py:357-416): the container with its metadata. -/
structure LogicalNode (X M : Type) where
  value : X
  sharding : List (Option Str)
  mesh : Option M
  rules : Option (List LRule)
deriving Repr

/-- `wrapper` (nnx/spmd.py:397-407): what the wrapped initializer stores for its result `y`. -/
def logicalInit (globalMesh : Bool) (ctxRules : List LRule) (y : X) (sharding : List (Option Str)) (mesh : Option M)
    (rules : Option (List LRule)) : Except Err (Constrained X M) :=
  if globalMesh || mesh.isSome then
    withLogicalConstraint globalMesh ctxRules y (some sharding) rules mesh .axisIsUnsharded
  else .ok (.same y)

/-- `unbox_fn` (nnx/spmd.py:384-395): what reading the attribute gives. `get_partition_spec(node)` (nnx/spmd.py:85-101) is the
sharding if that is not empty, else the empty spec for an array and None for a value without shape. -/
def logicalUnbox (globalMesh : Bool) (ctxRules : List LRule) (hasShape : X → Bool) (node : LogicalNode X M) :
    Except Err (Constrained X M) :=
  if globalMesh || node.mesh.isSome then
    let spec : Option (List (Option Str)) :=
      if node.sharding.isEmpty then (if hasShape node.value then some [] else none) else some node.sharding
    withLogicalConstraint globalMesh ctxRules node.value spec node.rules node.mesh .axisIsUnsharded
  else .ok (.same node.value)

/-! ### Trees of PartitionSpecs -/

/-- A pytree whose leaves are `L`s; None is a node without children. Not modelled: other pytree nodes. -/
inductive SpecTree (L : Type) where
  | none
  | leaf (x : L)
  | tup (ts : List (SpecTree L))
  | dict (items : List (Str × SpecTree L))
deriving Repr

mutual
/-- `jax.tree_map(f, tree, is_leaf=...)` where `f` may raise. -/
def SpecTree.mapE {L N : Type} (f : L → Except Err N) : SpecTree L → Except Err (SpecTree N)
  | .none => .ok .none
  | .leaf x => match f x with
    | .error e => .error e
    | .ok y => .ok (.leaf y)
  | .tup ts => match mapEL f ts with
    | .error e => .error e
    | .ok us => .ok (.tup us)
  | .dict items => match mapEM f items with
    | .error e => .error e
    | .ok us => .ok (.dict us)
def mapEL {L N : Type} (f : L → Except Err N) : List (SpecTree L) → Except Err (List (SpecTree N))
  | [] => .ok []
  | t :: ts =>
    match t.mapE f with
    | .error e => .error e
    | .ok u =>
      match mapEL f ts with
      | .error e => .error e
      | .ok us => .ok (u :: us)
def mapEM {L N : Type} (f : L → Except Err N) : List (Str × SpecTree L) → Except Err (List (Str × SpecTree N))
  | [] => .ok []
  | (n, t) :: ts =>
    match t.mapE f with
    | .error e => .error e
    | .ok u =>
      match mapEM f ts with
      | .error e => .error e
      | .ok us => .ok ((n, u) :: us)
end

/-- `logical_to_mesh(tree, rules)` (nnx/spmd.py:237-243): `rules` if given, else the rules in force. -/
def logicalToMesh (ctxRules : List LRule) (tree : SpecTree (List (Option Str))) (rules : Option (List LRule)) :
    Except Err (SpecTree (List MeshAxes)) :=
  tree.mapE fun dims =>
    match logicalToMeshAxes (some dims) (rules.getD ctxRules) with
    | .error e => .error e
    | .ok none => .ok []
    | .ok (some spec) => .ok spec

/-- `jax.sharding.NamedSharding` -/
structure NamedSharding (M : Type) where
  mesh : M
  spec : List MeshAxes
deriving DecidableEq, Repr

/-- `jax.sharding.NamedSharding(mesh, spec)`: raises if the spec has an axis that the mesh does not have, or an axis twice.
`axes` are the axis names of a mesh. -/
def namedSharding (axes : M → List Str) (mesh : M) (spec : List MeshAxes) : Except Err (NamedSharding M) :=
  if (spec.flatMap MeshAxes.leaves).all (fun a => (axes mesh).contains a) && decide (spec.flatMap MeshAxes.leaves).Nodup then .ok ⟨mesh, spec⟩
  else .error .valueError

/-- `logical_to_mesh_sharding(tree, mesh, rules)` (nnx/spmd.py:246-256) -/
def logicalToMeshSharding (axes : M → List Str) (ctxRules : List LRule) (tree : SpecTree (List (Option Str))) (mesh : M)
    (rules : Option (List LRule)) : Except Err (SpecTree (NamedSharding M)) :=
  match logicalToMesh ctxRules tree rules with
  | .error e => .error e
  | .ok t => t.mapE (namedSharding axes mesh)

/-! ### The rules in force -/

/-- Code that uses the rules in force. -/
inductive RProg where
  | skip
  | raise (e : Nat)
  | seq (p q : RProg)
  /-- `with logical_axis_rules(rules): p` -/
  | block (rules : List LRule) (p : RProg)
  /-- `set_logical_axis_rules(rules)` -/
  | set (rules : List LRule)
  | tryExcept (p h : RProg)
  /-- record `get_logical_axis_rules()` -/
  | observe
deriving Repr

/-- The outcome: recorded rules, rules in force afterwards, exception. -/
structure ROut where
  obs : List (List LRule)
  rules : List LRule
  exc : Option Nat
deriving DecidableEq, Repr

/-- Run on the thread's `_axis_rules.rules` (nnx/spmd.py:108-137): `logical_axis_rules` saves the rules, sets the new ones, and
restores in `finally`. -/
def RProg.run : RProg → List LRule → ROut
  | .skip, r => ⟨[], r, none⟩
  | .raise e, r => ⟨[], r, some e⟩
  | .seq p q, r =>
    let a := p.run r
    match a.exc with
    | some e => ⟨a.obs, a.rules, some e⟩
    | none =>
      let b := q.run a.rules
      ⟨a.obs ++ b.obs, b.rules, b.exc⟩
  | .block rules p, r =>
    let old := r
    let a := p.run rules
    ⟨a.obs, old, a.exc⟩
  | .set rules, _ => ⟨[], rules, none⟩
  | .tryExcept p h, r =>
    let a := p.run r
    match a.exc with
    | none => a
    | some _ =>
      let b := h.run a.rules
      ⟨a.obs ++ b.obs, b.rules, b.exc⟩
  | .observe, r => ⟨[r], r, none⟩

/-- One step of a thread with respect to the rules. -/
inductive RuleOp where
  | enter (rules : List LRule)
  | exit
  | set (rules : List LRule)
  | get
deriving DecidableEq, Repr

/-- A thread: its `_axis_rules.rules` (a `threading.local`, nnx/spmd.py:108-116), the `old_rules` of its open blocks (innermost
first), and what it has read. -/
structure RThread where
  rules : List LRule := []
  saved : List (List LRule) := []
  seen : List (List LRule) := []
deriving DecidableEq, Repr

/-- The effect on the thread that takes the step (nnx/spmd.py:119-137). `exit` without an open block does nothing. -/
def RuleOp.apply : RuleOp → RThread → RThread
  | .enter r, t => { t with rules := r, saved := t.rules :: t.saved }
  | .exit, t =>
    match t.saved with
    | [] => t
    | old :: rest => { t with rules := old, saved := rest }
  | .set r, t => { t with rules := r }
  | .get, t => { t with seen := t.seen ++ [t.rules] }

/-- All threads under a schedule; a new thread starts with the class default `()` (nnx/spmd.py:112). -/
def runSchedule (sched : List (Nat × RuleOp)) (st : Nat → RThread) : Nat → RThread :=
  sched.foldl (fun st s => fun i => if i = s.1 then s.2.apply (st i) else st i) st

end Nnx
