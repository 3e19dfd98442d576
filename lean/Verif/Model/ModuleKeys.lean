import Verif.Model.Module
/-
Modules as keys of Python dictionaries: nnx/module.py (`__hash__`), nnx/ids.py and nnx/dataclasses.py.
-/
namespace Nnx
variable {α V : Type}

/-- What `hash` needs to know besides the Modules: the classes that were made with `nnx.dataclass` or `dataclasses.dataclass` with the default `eq=True`
(nnx/dataclasses.py:167-191), which, as documented for Python's dataclasses, have `__hash__ = None`; and `hash` of integers. `nnx.Dropout`
(nnx/nn/stochastic.py:11-12) is such a class. Not modelled: `frozen=True` and `unsafe_hash=True`, and classes that define `__eq__` or `__hash__` themselves. -/
structure KeyHash where
  dataclass : Cls → Bool
  int : Nat → Nat

/-- `hash(module)`: `Module.__hash__` (nnx/module.py:470-471), which is the hash of the id, `UUID.__hash__` (nnx/ids.py:54-55). -/
def moduleHash (H : KeyHash) (h : Heap α) (l : Loc) : Except Err Nat :=
  match h[l]? with
  | none => .error .unmodelled
  | some o => if H.dataclass o.cls then .error .typeError else .ok (H.int o.uid)

/-- A Python dictionary whose keys are Modules: each entry remembers the hash its key had when it was inserted. Not code of the repository. -/
abbrev KeyDict (V : Type) := List (Nat × Loc × V)

/-- The value found for a key with this hash: entries with another hash are not looked at, and Modules that are not dataclasses are equal if they are the same
object (Module defines no `__eq__`). This also holds for `nnx.Dict`, which has `Mapping.__eq__`: the comparison begins with the entries "_module__state",
which are different objects for different Modules (except for copies made with `copy.copy`). -/
def KeyDict.find (d : KeyDict V) (hash : Nat) (l : Loc) : Option V :=
  match d with
  | [] => none
  | (k, m, v) :: rest => if k = hash ∧ m = l then some v else KeyDict.find rest hash l

/-- Replacing the value of the entry that is found, or a new entry at the end. -/
def KeyDict.put (d : KeyDict V) (hash : Nat) (l : Loc) (v : V) : KeyDict V :=
  match d with
  | [] => [(hash, l, v)]
  | (k, m, u) :: rest => if k = hash ∧ m = l then (k, m, v) :: rest else (k, m, u) :: KeyDict.put rest hash l v

/-- Without the entry that is found. -/
def KeyDict.erase (d : KeyDict V) (hash : Nat) (l : Loc) : KeyDict V :=
  match d with
  | [] => []
  | (k, m, u) :: rest => if k = hash ∧ m = l then rest else (k, m, u) :: KeyDict.erase rest hash l

/-- `d[module]` -/
def keyGet (H : KeyHash) (h : Heap α) (d : KeyDict V) (l : Loc) : Except Err V :=
  match moduleHash H h l with
  | .error e => .error e
  | .ok k =>
    match d.find k l with
    | none => .error .keyError
    | some v => .ok v

/-- `d[module] = v` -/
def keySet (H : KeyHash) (h : Heap α) (d : KeyDict V) (l : Loc) (v : V) : Except Err (KeyDict V) :=
  match moduleHash H h l with
  | .error e => .error e
  | .ok k => .ok (d.put k l v)

/-- `del d[module]` -/
def keyDel (H : KeyHash) (h : Heap α) (d : KeyDict V) (l : Loc) : Except Err (KeyDict V) :=
  match moduleHash H h l with
  | .error e => .error e
  | .ok k =>
    match d.find k l with
    | none => .error .keyError
    | some _ => .ok (d.erase k l)

end Nnx
