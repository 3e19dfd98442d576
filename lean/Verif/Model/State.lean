import Verif.Model.Partitioning
/-
nnx/state.py: State, an immutable mapping from paths to leaves.
-/
namespace Nnx

variable {α : Type} {V : Type _}

/-- The `_mapping` of a `State` (nnx/state.py:17-18). -/
structure State (V : Type _) where
  mapping : Dict Str V
deriving DecidableEq, Repr

namespace State

/-- `State(mapping)` / `State(iterator of pairs)` (nnx/state.py:28-31): sort by path, then build a dict. -/
def new (input : List (Str × V)) : State V := ⟨dofList (sortItems input)⟩

/-- `state[path]` / `path in state` (nnx/state.py:33-34); `none` stands for KeyError. -/
def get (s : State V) (path : Str) : Option V := dget s.mapping path

/-- `list(state)`, `state.keys()` (nnx/state.py:36-37) -/
def keys (s : State V) : List Str := dkeys s.mapping

/-- `list(state.items())` -/
def items (s : State V) : List (Str × V) := s.mapping

/-- `len(state)` (nnx/state.py:39-40) -/
def len (s : State V) : Nat := s.mapping.length

/-- `State.merge(state, *states)` (nnx/state.py:116-127) -/
def merge (s : State V) (ss : List (State V)) : State V :=
  match ss with
  | [] => s
  | _ => .new ((s :: ss).foldl (fun d t => dupdate d t.items) [])

/-- `self | other` (nnx/state.py:129-132) -/
def or (s t : State V) : State V := if t.len = 0 then s else merge s [t]

/-- `self - other` (nnx/state.py:134-142); no re-sorting. -/
def sub (s t : State V) : State V :=
  if t.len = 0 then s else ⟨s.items.filter (fun kv => !dhas t.mapping kv.1)⟩

/-- `_state_flatten_with_keys` (nnx/state.py:145-149): children and auxiliary data. -/
def flatten (s : State V) : List V × List Str := (s.items.map (·.2), s.keys)

/-- `_state_unflatten` (nnx/state.py:152-158); no re-sorting. -/
def unflatten (keys : List Str) (leaves : List V) : State V := ⟨dofList (keys.zip leaves)⟩

/-- `jax.tree_map(f, state)` where every value is a leaf: flatten, map, unflatten. -/
def treeMap {W : Type _} (f : V → W) (s : State V) : State W :=
  unflatten s.flatten.2 (s.flatten.1.map f)

end State

/-- The check at the top of `_split_state` (nnx/state.py:170-175): `...` only in last position. -/
def ellipsisMisplaced : List (Filter α) → Bool
  | [] => false
  | [_] => false
  | f :: g :: fs => f.isEllipsis || ellipsisMisplaced (g :: fs)

/-- The inner loop of `_split_state` (nnx/state.py:182-189): put (path, value) into the dict of the
first matching predicate, else into the last dict. `dicts` has one more element than `preds`. -/
def splitInsert (preds : List (Pred α)) (dicts : List (Dict Str (PyVal α)))
    (path : Str) (value : PyVal α) : List (Dict Str (PyVal α)) :=
  match preds, dicts with
  | p :: ps, d :: ds =>
    if p path value then dset d path value :: ds
    else d :: splitInsert ps ds path value
  | [], d :: ds => dset d path value :: ds
  | _, [] => []

/-- `_split_state(state, *filters)` (nnx/state.py:166-191) -/
def splitState (items : List (Str × PyVal α)) (filters : List (Filter α)) :
    Except Err (List (Dict Str (PyVal α))) :=
  if ellipsisMisplaced filters then .error .valueError
  else
    match toPredicates filters with
    | .error e => .error e
    | .ok preds =>
      .ok (items.foldl (fun ds kv => splitInsert preds ds kv.1 kv.2)
        (List.replicate (preds.length + 1) []))

namespace State

/-- `State.partition(first, *filters)` (nnx/state.py:62-78). Always returns a list; Python unpacks a
single State. Called with at least one filter (`first`). -/
def partition (s : State (PyVal α)) (filters : List (Filter α)) :
    Except Err (List (State (PyVal α))) :=
  match splitState s.items filters with
  | .error e => .error e
  | .ok dicts =>
    if (dicts.getLastD []).length ≠ 0 then .error .valueError
    else .ok (dicts.dropLast.map .new)

/-- `State.filter(first, *filters)` (nnx/state.py:98-113). Always returns a list. -/
def filter (s : State (PyVal α)) (filters : List (Filter α)) :
    Except Err (List (State (PyVal α))) :=
  match splitState s.items filters with
  | .error e => .error e
  | .ok dicts => .ok (dicts.dropLast.map .new)

end State
end Nnx
