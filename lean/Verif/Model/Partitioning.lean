import Verif.Model.Value
/-
nnx/partitioning.py: filters.
-/
namespace Nnx

variable {α : Type}

/-- A predicate on (path, value) (nnx/partitioning.py:16).
Simplification: predicates are total functions without side effects. -/
abbrev Pred (α : Type) := Str → PyVal α → Bool

/-- The objects accepted where a `Filter` is expected (nnx/partitioning.py:17-18), including the
ones that are rejected. -/
inductive Filter (α : Type) where
  /-- a class -/
  | ofType (c : Cls)
  /-- a `str`, always rejected -/
  | str (s : Str)
  /-- `...` -/
  | ellipsis
  /-- `None` -/
  | none
  /-- any other callable -/
  | pred (p : Pred α)
  /-- a tuple of filters -/
  | tup (fs : List (Filter α))
  /-- `partitioning.Any(*fs)` -/
  | any (fs : List (Filter α))
  /-- `partitioning.All(*fs)` -/
  | all (fs : List (Filter α))
  /-- `partitioning.Not(f)` -/
  | not (f : Filter α)
  /-- any other object. `raises` is the exception produced at nnx/partitioning.py:35: formatting
  the message with `{filter:!r}` itself raises (TypeError for most objects, ValueError for numbers). -/
  | invalid (raises : Err)

/-- `OfType.__call__` (nnx/partitioning.py:42-43) -/
def OfType (c : Cls) : Pred α := fun _ x => x.isInstance c
/-- `Everything.__call__` (nnx/partitioning.py:79-80) -/
def Everything : Pred α := fun _ _ => true
/-- `Nothing.__call__` (nnx/partitioning.py:85-86) -/
def Nothing : Pred α := fun _ _ => false
/-- `Any.__call__` (nnx/partitioning.py:53-54) -/
def AnyP (ps : List (Pred α)) : Pred α := fun path x => ps.any (fun p => p path x)
/-- `All.__call__` (nnx/partitioning.py:64-65) -/
def AllP (ps : List (Pred α)) : Pred α := fun path x => ps.all (fun p => p path x)
/-- `Not.__call__` (nnx/partitioning.py:73-74) -/
def NotP (p : Pred α) : Pred α := fun path x => !p path x

mutual
/-- `to_predicate` (nnx/partitioning.py:21-35), together with the constructors of `Any`, `All`, `Not`
(nnx/partitioning.py:48-51, 59-62, 70-71), which convert their arguments. Simplification: constructing
`Any`/`All`/`Not` and using it are one step here; in Python the constructor raises earlier. -/
def toPredicate : Filter α → Except Err (Pred α)
  | .str _ => .error .typeError
  | .ofType c => .ok (OfType c)
  | .ellipsis => .ok Everything
  | .none => .ok Nothing
  | .pred p => .ok p
  | .tup fs => (toPredicates fs).map AnyP
  | .any fs => (toPredicates fs).map AnyP
  | .all fs => (toPredicates fs).map AllP
  | .not f => (toPredicate f).map NotP
  | .invalid e => .error e
/-- `tuple(map(to_predicate, filters))` -/
def toPredicates : List (Filter α) → Except Err (List (Pred α))
  | [] => .ok []
  | f :: fs =>
    match toPredicate f with
    | .error e => .error e
    | .ok p =>
      match toPredicates fs with
      | .error e => .error e
      | .ok ps => .ok (p :: ps)
end

/-- `filter_ is ...` -/
def Filter.isEllipsis : Filter α → Bool
  | .ellipsis => true
  | _ => false

/-- `partitioning.buffers` (nnx/partitioning.py:89) -/
def buffers : Filter α := .tup [.ofType cArray, .ofType cNdarray]

end Nnx
