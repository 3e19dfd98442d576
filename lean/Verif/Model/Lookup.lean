import Verif.Model.Helpers
/-
Which names of a Module mean what: Python's attribute lookup as nnx/module.py:446-453 uses it, and the methods of Module that call other methods by name.
-/
namespace Nnx
variable {α : Type}

/-- The names a class of Modules defines or inherits: properties, which Python looks up before the attributes of the object, and everything else (methods, class
attributes), which Python looks up after them. -/
structure ClassNames where
  props : Cls → List Str
  members : Cls → List Str

/-- What a name of a Module stands for. -/
inductive Found (α : Type) where
  /-- the property of the class is computed -/
  | property (name : Str)
  /-- the internal `ModuleState` (nnx/module.py:416) -/
  | state (uid : Nat)
  /-- an attribute of the Module -/
  | attr (a : Attr α)
  /-- a method, or another member of the class -/
  | member (name : Str)
deriving DecidableEq

/-- `module.name`: `Module.__getattribute__` (nnx/module.py:446-453) with `object.__getattribute__`, which is Python's: properties of the class, `vars(module)`,
other members of the class. Without `unbox_fn` (see `unboxed` in Model/Containers.lean). `Dict.__getattr__` (nnx/helpers.py:36-37) repeats the lookup and fails
again. -/
def lookup (N : ClassNames) (w : World α) (l : Loc) (name : Str) : Except Err (Found α) :=
  match w.heap[l]? with
  | none => .error .unmodelled
  | some o =>
    if name ∈ N.props o.cls then .ok (.property name)
    else if name = py! "_module__state" then .ok (.state o.uid)
    else
      match dget o.attrs name with
      | some a => .ok (.attr a.unbox)
      | none => if name ∈ N.members o.cls then .ok (.member name) else .error .attributeError

/-- The lookup in `module.name(...)` where `name` should be a method: TypeError if there is something that cannot be called. `callable` says what can. -/
def findMethod (N : ClassNames) (callable : Attr α → Bool) (w : World α) (l : Loc) (name : Str) : Except Err Unit :=
  match lookup N w l name with
  | .error e => .error e
  | .ok (.member _) => .ok ()
  | .ok (.attr a) => if callable a then .error .unmodelled else .error .typeError
  | .ok _ => .error .unmodelled

/-- `key in d` for a Module `d` of class `Dict`: `Mapping.__contains__` (inherited, nnx/helpers.py:16) is `d[key]`, that is `getattr(d, key)`
(nnx/helpers.py:30-31), with KeyError caught. -/
def containsByName (N : ClassNames) (w : World α) (l : Loc) (key : Str) : Except Err Bool :=
  match lookup N w l key with
  | .ok _ => .ok true
  | .error .keyError => .ok false
  | .error e => .error e

variable [DecidableEq α]

/-- `module.clone()` (nnx/module.py:520-521): looks up `clone`, then `self.partition`. -/
def cloneByName (N : ClassNames) (callable : Attr α → Bool) (fuel : Nat) (l : Loc) (w : World α) : World α × Except Err Loc :=
  match findMethod N callable w l (py! "clone") with
  | .error e => (w, .error e)
  | .ok () =>
    match findMethod N callable w l (py! "partition") with
    | .error e => (w, .error e)
    | .ok () => cloneModule fuel l w

/-- `module.apply.method(...)` (nnx/module.py:625-635): `apply` is a property; it calls `self.clone()` and then `body`, the method on the clone, and returns the
output and the clone. -/
def applyByName {β : Type} (N : ClassNames) (callable : Attr α → Bool) (fuel : Nat) (l : Loc) (body : Loc → World α → World α × Except Err β) (w : World α) :
    World α × Except Err (β × Loc) :=
  match lookup N w l (py! "apply") with
  | .error e => (w, .error e)
  | .ok (.property _) =>
    match cloneByName N callable fuel l w with
    | (w, .error e) => (w, .error e)
    | (w, .ok c) =>
      match body c w with
      | (w, .error e) => (w, .error e)
      | (w, .ok out) => (w, .ok (out, c))
  | .ok _ => (w, .error .unmodelled)

end Nnx
