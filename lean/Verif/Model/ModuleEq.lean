import Verif.Model.Helpers
/-
`==` of Modules: `Module` has no `__eq__` (nnx/module.py:439-620), `Dict` inherits that of `collections.abc.Mapping` (nnx/helpers.py:16), and classes made with
`dataclass` (nnx/dataclasses.py:167-191, nnx/nn/stochastic.py:11) get the generated one.
-/
namespace Nnx
variable {α : Type}

/-- Which `__eq__` a class of Modules has: that of `object`, that of `Mapping` (`nnx.Dict` and its subclasses), or the generated one of `dataclass` with these
fields. Not modelled: classes that define `__eq__` themselves, `compare=False` and `eq=False`, and dataclasses that derive from `Dict`. -/
inductive EqKind where
  | object
  | mapping
  | dataclass (fields : List Str)
deriving DecidableEq, Repr

/-- What `==` needs to know besides the Modules: the `__eq__` of the classes; for values that are not Modules whether they are the same object, and otherwise what
`bool(x == y)` does (it raises for arrays that do not have one element); and `bool(module == x)` for a value `x`. -/
structure ModuleEqs (α : Type) where
  kind : Cls → EqKind
  is : PyVal α → PyVal α → Bool
  eq : PyVal α → PyVal α → Except Err Bool
  mixed : Loc → PyVal α → Except Err Bool

/-- How Python compares the elements of tuples and the values of dictionaries: the same object, or else `==` (`PyObject_RichCompareBool`). `rec` is `==` of
different Modules. Not code of the repository. -/
def compareAttr (E : ModuleEqs α) (rec : Loc → Loc → Except Err Bool) : Attr α → Attr α → Except Err Bool
  | .ref a, .ref b => if a = b then .ok true else rec a b
  | .val u, .val v => if E.is u v then .ok true else E.eq u v
  | .ref a, .val v => E.mixed a v
  | .val u, .ref b => E.mixed b u

/-- `==` of tuples: up to the first elements that differ. Not code of the repository. -/
def compareTuples (E : ModuleEqs α) (rec : Loc → Loc → Except Err Bool) : List (Attr α) → List (Attr α) → Except Err Bool
  | [], [] => .ok true
  | a :: as, b :: bs =>
    match compareAttr E rec a b with
    | .ok true => compareTuples E rec as bs
    | .ok false => .ok false
    | .error e => .error e
  | _, _ => .ok false

/-- `(self.f1, self.f2, ...)`, or `[self[k] for k in keys]` (nnx/module.py:446-453, nnx/helpers.py:30-31) -/
def readAll (w : World α) (l : Loc) : List Str → Except Err (List (Attr α))
  | [] => .ok []
  | n :: rest =>
    match getAttr w l n with
    | .error e => .error e
    | .ok a =>
      match readAll w l rest with
      | .error e => .error e
      | .ok as => .ok (a :: as)

/-- What a `Dict` maps its keys to: its `ModuleState` object (nnx/module.py:416), of which every Module has its own, or a value. -/
inductive MItem (α : Type) where
  | state (uid : Nat)
  | attr (a : Attr α)

/-- `dict(d.items())` for a Module of class `Dict`: the keys of `vars(self)`, beginning with "_module__state", with `getattr(self, key)`
(nnx/helpers.py:30-31, 42-43). -/
def mappingItems (w : World α) (l : Loc) : Except Err (Dict Str (MItem α)) :=
  match w.heap[l]? with
  | none => .error .unmodelled
  | some o =>
    match readAll w l (dkeys o.attrs) with
    | .error e => .error e
    | .ok as => .ok ((py! "_module__state", .state o.uid) :: (dkeys o.attrs).zip (as.map .attr))

/-- The values of two dictionaries for the same key. `ModuleState` has no `__eq__` (nnx/module.py:383-408). -/
def compareItem (E : ModuleEqs α) (rec : Loc → Loc → Except Err Bool) : MItem α → MItem α → Except Err Bool
  | .state a, .state b => .ok (decide (a = b))
  | .attr a, .attr b => compareAttr E rec a b
  | _, _ => .ok false

/-- The entries of the first dictionary are looked up in the second, up to the first that is missing or different. -/
def compareEntries (E : ModuleEqs α) (rec : Loc → Loc → Except Err Bool) : Dict Str (MItem α) → Dict Str (MItem α) → Except Err Bool
  | [], _ => .ok true
  | (k, x) :: rest, b =>
    match dget b k with
    | none => .ok false
    | some y =>
      match compareItem E rec x y with
      | .ok true => compareEntries E rec rest b
      | .ok false => .ok false
      | .error e => .error e

/-- `==` of two dictionaries. Not code of the repository. -/
def compareDicts (E : ModuleEqs α) (rec : Loc → Loc → Except Err Bool) (a b : Dict Str (MItem α)) : Except Err Bool :=
  if a.length = b.length then compareEntries E rec a b else .ok false

/-- `x == y` for Modules `x` and `y`; the fuel is Python's recursion limit. `object.__eq__` is identity; `Mapping.__eq__` is NotImplemented unless the other one
is a Mapping and else compares `dict(self.items())` with `dict(other.items())`; the `__eq__` of dataclasses is NotImplemented unless the classes are the same
and else compares the tuples of the fields. Where both are NotImplemented Python compares identities. -/
def moduleEq (E : ModuleEqs α) (w : World α) : Nat → Loc → Loc → Except Err Bool
  | 0, _, _ => .error .recursionError
  | fuel + 1, x, y =>
    match w.heap[x]?, w.heap[y]? with
    | some o, some o' =>
      match E.kind o.cls with
      | .object => .ok (decide (x = y))
      | .mapping =>
        match E.kind o'.cls with
        | .mapping =>
          match mappingItems w x with
          | .error e => .error e
          | .ok a =>
            match mappingItems w y with
            | .error e => .error e
            | .ok b => compareDicts E (moduleEq E w fuel) a b
        | _ => .ok (decide (x = y))
      | .dataclass fields =>
        if o'.cls = o.cls then
          match readAll w x fields with
          | .error e => .error e
          | .ok a =>
            match readAll w y fields with
            | .error e => .error e
            | .ok b => compareTuples E (moduleEq E w fuel) a b
        else .ok (decide (x = y))
    | _, _ => .error .unmodelled

/-- `d == other` for a Module `d` of class `Dict` and a plain dictionary -/
def mappingEqDict (E : ModuleEqs α) (w : World α) (fuel : Nat) (l : Loc) (other : Dict Str (Attr α)) : Except Err Bool :=
  match mappingItems w l with
  | .error e => .error e
  | .ok a => compareDicts E (moduleEq E w fuel) a (other.map fun s => (s.1, .attr s.2))

end Nnx
