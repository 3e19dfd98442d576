import Verif.Model.Pytree
import Verif.Model.State
/-
`jax.tree_util` on trees of nnx values: the library registers containers (nnx/containers.py:130-135, 188), Pytrees
(nnx/pytreelib.py:109-145) and States (nnx/state.py:161-163) as inner nodes. The recursion and the treatment of None, tuples and dicts are
jax's, which is external; they are described here from its documentation.
-/
namespace Nnx
variable {α : Type}

/-- One step of a path into a tree, as in `jax.tree_util.tree_flatten_with_path`: `SequenceKey(i)`, `DictKey(k)`, or `GetAttrKey(name)`
(nnx/containers.py:119, nnx/pytreelib.py:171). -/
inductive TreeKey where
  | item (i : Nat)
  | key (k : Str)
  | attr (name : Str)
deriving DecidableEq, Repr

/-- The type of an inner node together with its auxiliary data. -/
inductive NodeDef (α : Type) where
  | none
  | tup (n : Nat)
  | dict (keys : List Str)
  | cont (aux : Cls × Md α × Option (PyVal α))
  | tree (c : Cls) (aux : List Str × Md α)
deriving Repr

/-- A `PyTreeDef`. -/
inductive TreeDef (α : Type) where
  | leaf
  | node (d : NodeDef α) (kids : List (TreeDef α))
deriving Repr

/-- The keys of the children of a node (`_node_flatten` and `_pytree__flatten` with keys; jax for tuples and dicts). -/
def NodeDef.steps : NodeDef α → List TreeKey
  | .none => []
  | .tup n => (List.range n).map .item
  | .dict ks => ks.map .key
  | .cont (_, _, Option.none) => [.attr (py! "value")]
  | .cont (_, _, some _) => []
  | .tree _ aux => aux.1.map .attr

/-- The children and the auxiliary data of one node, by the function registered for its type; `none` for a leaf. jax sorts the keys of dicts
and takes None for a node without children. Objects that are not registered (`ContainerMetadata`, direct subclasses of `Container`, ...) are
leaves. Simplification: all opaque objects are leaves; `NodeBase` itself, which is abstract, counts as a node like its subclasses; lists are not
distinguished from tuples. -/
def flattenNode : PyVal α → Except Err (Option (List (PyVal α) × NodeDef α))
  | .none => .ok (some ([], .none))
  | .tup xs => .ok (some (xs, .tup xs.length))
  | .dict items => .ok (some ((sortItems items).map (·.2), .dict ((sortItems items).map (·.1))))
  | .cont c v m =>
    match flattenContainer (.cont c v m) with
    | none => .ok none
    | some (kids, aux) => .ok (some (kids, .cont aux))
  | .tree c vars =>
    match pytreeFlatten (.tree c vars) with
    | .error e => .error e
    | .ok (kids, aux) => .ok (some (kids, .tree c aux))
  | .str _ => .ok none
  | .data _ _ => .ok none
  | .cmeta _ _ => .ok none

/-- All results, or the first exception. -/
def allOk {X : Type _} : List (Except Err X) → Except Err (List X)
  | [] => .ok []
  | .error e :: _ => .error e
  | .ok x :: rs =>
    match allOk rs with
    | .error e => .error e
    | .ok xs => .ok (x :: xs)

theorem flattenFields_mem {vars : Md α} {fs : List Str} {nodes : List (Str × PyVal α)} {static : Md α}
    (h : flattenFields vars fs = .ok (nodes, static)) : ∀ kv ∈ nodes, dget vars kv.1 = some kv.2 := by
  induction fs generalizing nodes static with
  | nil => simp only [flattenFields, Except.ok.injEq, Prod.mk.injEq] at h; obtain ⟨rfl, rfl⟩ := h; simp
  | cons f fs ih =>
    simp only [flattenFields] at h
    split at h
    · cases h
    next v hv =>
      split at h
      · cases h
      next nodes' static' he =>
        split at h
        · cases h
          intro kv hkv
          simp only [List.mem_cons] at hkv
          rcases hkv with rfl | hkv
          · exact hv
          · exact ih he kv hkv
        · cases h; exact ih he

/-- Children are smaller than their parent. -/
theorem flattenNode_lt {v : PyVal α} {kids : List (PyVal α)} {d : NodeDef α} (h : flattenNode v = .ok (some (kids, d))) :
    ∀ k ∈ kids, sizeOf k < sizeOf v := by
  intro k hk
  cases v with
  | none => simp only [flattenNode, Except.ok.injEq, Option.some.injEq, Prod.mk.injEq] at h; rw [← h.1] at hk; cases hk
  | str s => cases h
  | data c a => cases h
  | cmeta v m => cases h
  | tup xs =>
    simp only [flattenNode, Except.ok.injEq, Option.some.injEq, Prod.mk.injEq] at h
    rw [← h.1] at hk
    have := List.sizeOf_lt_of_mem hk
    simp only [PyVal.tup.sizeOf_spec]
    omega
  | dict items =>
    simp only [flattenNode, Except.ok.injEq, Option.some.injEq, Prod.mk.injEq] at h
    rw [← h.1] at hk
    obtain ⟨⟨a, b⟩, hm, rfl⟩ := List.mem_map.1 hk
    have := List.sizeOf_lt_of_mem ((sortItems_perm items).mem_iff.1 hm)
    simp only [PyVal.dict.sizeOf_spec, Prod.mk.sizeOf_spec] at this ⊢
    omega
  | cont c v m =>
    simp only [flattenNode, flattenContainer] at h
    split at h
    · cases h
    next kids' aux he =>
      cases h
      split at he
      · cases he
        simp only [List.mem_singleton] at hk
        subst hk
        simp only [PyVal.cont.sizeOf_spec]
        omega
      · split at he <;> cases he
        cases hk
  | tree c vars =>
    simp only [flattenNode, pytreeFlatten, pytreeFlattenKeys] at h
    split at h
    · cases h
    next kids' aux he =>
      split at he
      · cases he
      next nodes aux' hn =>
        cases h
        cases he
        split at hn
        · cases hn
        next fs hfs =>
          split at hn
          · cases hn
          next nodes' static hff =>
            cases hn
            obtain ⟨⟨a, b⟩, hm, rfl⟩ := List.mem_map.1 hk
            have hd := flattenFields_mem hff _ hm
            have := List.sizeOf_lt_of_mem (dget_mem hd)
            simp only [PyVal.tree.sizeOf_spec, Prod.mk.sizeOf_spec] at this ⊢
            omega

/-- `jax.tree_util.tree_flatten(v)`: the leaves and the tree structure. -/
def treeFlatten (v : PyVal α) : Except Err (List (PyVal α) × TreeDef α) :=
  match _h : flattenNode v with
  | .error e => .error e
  | .ok none => .ok ([v], .leaf)
  | .ok (some (kids, d)) =>
    match allOk (kids.attach.map fun k => treeFlatten k.1) with
    | .error e => .error e
    | .ok rs => .ok (rs.flatMap (·.1), .node d (rs.map (·.2)))
termination_by sizeOf v
decreasing_by exact flattenNode_lt _h _ k.2

mutual
/-- The paths of the leaves (`jax.tree_util.tree_flatten_with_path`). -/
def TreeDef.paths : TreeDef α → List (List TreeKey)
  | .leaf => [[]]
  | .node d kids => pathsAll d.steps kids
def pathsAll : List TreeKey → List (TreeDef α) → List (List TreeKey)
  | s :: ss, t :: ts => t.paths.map (s :: ·) ++ pathsAll ss ts
  | _, _ => []
end

variable [DecidableEq α]

/-- Rebuild one node from its children, by the function registered for its type. -/
def unflattenNode : NodeDef α → List (PyVal α) → Except Err (PyVal α)
  | .none, _ => .ok .none
  | .tup _, kids => .ok (.tup kids)
  | .dict ks, kids => .ok (.dict (ks.zip kids))
  | .cont aux, kids => unflattenContainer aux kids
  | .tree c aux, kids => .ok (pytreeUnflatten c aux kids)

mutual
/-- `jax.tree_util.tree_unflatten`: takes its leaves from the front of the list, and returns the others. -/
def unflattenFrom : TreeDef α → List (PyVal α) → Except Err (PyVal α × List (PyVal α))
  | .leaf, [] => .error .valueError
  | .leaf, x :: xs => .ok (x, xs)
  | .node d kids, xs =>
    match unflattenAll kids xs with
    | .error e => .error e
    | .ok (vs, rest) =>
      match unflattenNode d vs with
      | .error e => .error e
      | .ok v => .ok (v, rest)
def unflattenAll : List (TreeDef α) → List (PyVal α) → Except Err (List (PyVal α) × List (PyVal α))
  | [], xs => .ok ([], xs)
  | t :: ts, xs =>
    match unflattenFrom t xs with
    | .error e => .error e
    | .ok (v, xs) =>
      match unflattenAll ts xs with
      | .error e => .error e
      | .ok (vs, xs) => .ok (v :: vs, xs)
end

/-- `jax.tree_util.tree_unflatten(treedef, leaves)`: the number of leaves must be right. -/
def treeUnflatten (t : TreeDef α) (xs : List (PyVal α)) : Except Err (PyVal α) :=
  match unflattenFrom t xs with
  | .error e => .error e
  | .ok (v, []) => .ok v
  | .ok (_, _ :: _) => .error .valueError

/-- Python's `==` on the types and auxiliary data of two nodes. -/
def NodeDef.eqv : NodeDef α → NodeDef α → Bool
  | .none, .none => true
  | .tup n, .tup m => decide (n = m)
  | .dict ks, .dict ls => decide (ks = ls)
  | .cont (c, m, v), .cont (d, n, u) => decide (c = d) && mdEq m n && decide (v = u)
  | .tree c (ns, s), .tree d (ms, t) => decide (c = d) && decide (ns = ms) && mdEq s t
  | _, _ => false

mutual
/-- `treedef.flatten_up_to(v)`: the subtrees of `v` at the leaves of the tree structure; ValueError if `v` has another structure above them. -/
def flattenUpTo : TreeDef α → PyVal α → Except Err (List (PyVal α))
  | .leaf, v => .ok [v]
  | .node d kids, v =>
    match flattenNode v with
    | .error e => .error e
    | .ok none => .error .valueError
    | .ok (some (vs, d')) => if d.eqv d' then upToAll kids vs else .error .valueError
def upToAll : List (TreeDef α) → List (PyVal α) → Except Err (List (PyVal α))
  | [], [] => .ok []
  | t :: ts, v :: vs =>
    match flattenUpTo t v with
    | .error e => .error e
    | .ok xs =>
      match upToAll ts vs with
      | .error e => .error e
      | .ok ys => .ok (xs ++ ys)
  | _, _ => .error .valueError
end

omit [DecidableEq α] in
/-- `zip(leaves, *others)` for lists `others` of the same length. -/
def columns {X : Type _} : List X → List (List X) → List (List X)
  | [], _ => []
  | x :: xs, ls => (x :: ls.filterMap List.head?) :: columns xs (ls.map List.tail)

/-- `jax.tree_map(f, v, *rest)` -/
def treeMap (f : List (PyVal α) → Except Err (PyVal α)) (v : PyVal α) (rest : List (PyVal α)) : Except Err (PyVal α) :=
  match treeFlatten v with
  | .error e => .error e
  | .ok (xs, t) =>
    match allOk (rest.map (flattenUpTo t)) with
    | .error e => .error e
    | .ok ls =>
      match allOk ((columns xs ls).map f) with
      | .error e => .error e
      | .ok ys => treeUnflatten t ys

/-! ### States as trees -/

omit [DecidableEq α] in
/-- `jax.tree_util.tree_flatten(state)`: a State is a node with its values as children (nnx/state.py:145-149). -/
def stateFlatten (s : State (PyVal α)) : Except Err (List (PyVal α) × (List Str × List (TreeDef α))) :=
  match allOk (s.flatten.1.map treeFlatten) with
  | .error e => .error e
  | .ok rs => .ok (rs.flatMap (·.1), (s.flatten.2, rs.map (·.2)))

/-- `jax.tree_util.tree_unflatten` for the structure of a State (nnx/state.py:152-158). -/
def stateUnflatten (t : List Str × List (TreeDef α)) (xs : List (PyVal α)) : Except Err (State (PyVal α)) :=
  match unflattenAll t.2 xs with
  | .error e => .error e
  | .ok (vs, []) => .ok (.unflatten t.1 vs)
  | .ok (_, _ :: _) => .error .valueError

/-- `flatten_up_to` for the structure of a State: the tuples of paths must be equal. -/
def stateUpTo (t : List Str × List (TreeDef α)) (s : State (PyVal α)) : Except Err (List (PyVal α)) :=
  if t.1 = s.flatten.2 then upToAll t.2 s.flatten.1 else .error .valueError

/-- `jax.tree_map(f, state, *rest)` for States -/
def stateTreeMap (f : List (PyVal α) → Except Err (PyVal α)) (s : State (PyVal α)) (rest : List (State (PyVal α))) :
    Except Err (State (PyVal α)) :=
  match stateFlatten s with
  | .error e => .error e
  | .ok (xs, t) =>
    match allOk (rest.map (stateUpTo t)) with
    | .error e => .error e
    | .ok ls =>
      match allOk ((columns xs ls).map f) with
      | .error e => .error e
      | .ok ys => stateUnflatten t ys

end Nnx
