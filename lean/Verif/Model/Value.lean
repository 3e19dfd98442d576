import Verif.Basic.Sort
/-
Python classes, values and exceptions.
-/
namespace Nnx

/-- The exceptions raised by the modelled code, as values. -/
inductive Err where
  | typeError | valueError | keyError | attributeError | indexError | assertionError
  /-- `nnx.errors.TraceContextError` (nnx/errors.py) -/
  | traceContextError
  /-- Python's `RecursionError` (the model's recursion budget is exhausted) -/
  | recursionError
  /-- an exception raised by user code, e.g. a method body -/
  | user (n : Nat)
  /-- a branch of Python behaviour that is outside the model (each use says which) -/
  | unmodelled
deriving DecidableEq, Repr

deriving instance DecidableEq for Except

/-- A Python class: its name, the names of all its proper ancestors, and the names
defined on the class itself or inherited (methods, properties), which `hasattr` sees. -/
structure Cls where
  name : Str
  ancestors : List Str := []
  members : List Str := []
deriving DecidableEq, Repr

/-- `issubclass(c, d)` -/
def Cls.isSub (c d : Cls) : Bool := decide (d.name = c.name) || decide (d.name ∈ c.ancestors)

/-- nnx/containers.py:44 -/
def cContainer : Cls := { name := py! "Container" }
/-- nnx/containers.py:107 -/
def cNodeBase : Cls := { name := py! "NodeBase", ancestors := [py! "Container"] }
/-- nnx/containers.py:139 -/
def cNode : Cls := { name := py! "Node", ancestors := [py! "NodeBase", py! "Container"] }
/-- nnx/containers.py:143 -/
def cVariable : Cls :=
  { name := py! "Variable", ancestors := [py! "Node", py! "NodeBase", py! "Container"] }

/-- A direct subclass of `Variable`. -/
def variableSubclass (n : Str) : Cls :=
  { name := n, ancestors := [py! "Variable", py! "Node", py! "NodeBase", py! "Container"] }

/-- nnx/containers.py:155 -/
def cParam : Cls := variableSubclass (py! "Param")
/-- nnx/containers.py:159 -/
def cBatchStat : Cls := variableSubclass (py! "BatchStat")
/-- nnx/containers.py:163 -/
def cCache : Cls := variableSubclass (py! "Cache")
/-- nnx/containers.py:167 -/
def cIntermediate : Cls := variableSubclass (py! "Intermediate")
/-- nnx/containers.py:171 -/
def cStatic : Cls := { name := py! "Static", ancestors := [py! "Container"] }

/-- Classes registered by `nodes.register_node_type` that are not containers:
jax.Array, np.ndarray (nnx/nodes.py:20-21), State (nnx/state.py:195), Pure (nnx/module.py:952),
Pytree (nnx/pytreelib.py:264). -/
def cArray : Cls := { name := py! "jax.Array" }
def cNdarray : Cls := { name := py! "np.ndarray" }
def cState : Cls := { name := py! "State" }
def cPure : Cls := { name := py! "Pure" }
def cPytree : Cls := { name := py! "Pytree" }
/-- nnx/pytreelib.py:19-20 -/
def cTreeNode : Cls := { name := py! "TreeNode", ancestors := [py! "NodeBase", py! "Container"] }
def cStr : Cls := { name := py! "str" }
def cTuple : Cls := { name := py! "tuple" }
def cDict : Cls := { name := py! "dict" }
def cNoneType : Cls := { name := py! "NoneType" }
def cContainerMetadata : Cls := { name := py! "ContainerMetadata" }
/-- nnx/module.py:441 -/
def cModule : Cls := { name := py! "Module" }

/-- Python values other than Modules. `data c a` is an opaque object of class `c` (an array, a
number, a function, ...) with payload `a` from an arbitrary type.  Simplification: containers are
values here. `Model/Identity.lean` has container objects, and C121 shows that Modules behave the same. -/
inductive PyVal (α : Type) where
  | none
  | str (s : Str)
  | data (c : Cls) (a : α)
  | tup (xs : List (PyVal α))
  /-- an instance of a subclass of `Container`: class, `.value`, and the rest of `vars` -/
  | cont (c : Cls) (value : PyVal α) (md : List (Str × PyVal α))
  /-- `ContainerMetadata` (nnx/containers.py:18-21) -/
  | cmeta (value : PyVal α) (md : List (Str × PyVal α))
  /-- an instance of a subclass of `Pytree` (nnx/pytreelib.py): its class and `vars`. Simplification: `==` on such
  objects, which is identity in Python unless the class defines it, is equality of the fields here. -/
  | tree (c : Cls) (vars : List (Str × PyVal α))
  /-- a `dict` with string keys -/
  | dict (items : List (Str × PyVal α))
deriving Repr

namespace PyVal
variable {α : Type} [DecidableEq α]

mutual
/-- Decidable equality (used for Python's `==` on values). -/
def decEq : (a b : PyVal α) → Decidable (a = b)
  | .none, .none => isTrue rfl
  | .str s, .str t => if h : s = t then isTrue (by rw [h]) else isFalse (by simp [h])
  | .data c a, .data d b =>
    if h : c = d ∧ a = b then isTrue (by rw [h.1, h.2]) else isFalse (by simpa using h)
  | .tup xs, .tup ys =>
    match decEqL xs ys with
    | isTrue h => isTrue (by rw [h])
    | isFalse h => isFalse (by simp [h])
  | .cont c v m, .cont d w n =>
    if hc : c = d then
      match decEq v w, decEqM m n with
      | isTrue h1, isTrue h2 => isTrue (by rw [hc, h1, h2])
      | isFalse h1, _ => isFalse (by simp [h1])
      | _, isFalse h2 => isFalse (by simp [h2])
    else isFalse (by simp [hc])
  | .cmeta v m, .cmeta w n =>
    match decEq v w, decEqM m n with
    | isTrue h1, isTrue h2 => isTrue (by rw [h1, h2])
    | isFalse h1, _ => isFalse (by simp [h1])
    | _, isFalse h2 => isFalse (by simp [h2])
  | .tree c m, .tree d n =>
    if hc : c = d then
      match decEqM m n with
      | isTrue h => isTrue (by rw [hc, h])
      | isFalse h => isFalse (by simp [h])
    else isFalse (by simp [hc])
  | .dict m, .dict n =>
    match decEqM m n with
    | isTrue h => isTrue (by rw [h])
    | isFalse h => isFalse (by simp [h])
  | .none, .str _ => isFalse (by simp)
  | .none, .data _ _ => isFalse (by simp)
  | .none, .tup _ => isFalse (by simp)
  | .none, .cont _ _ _ => isFalse (by simp)
  | .none, .cmeta _ _ => isFalse (by simp)
  | .none, .tree _ _ => isFalse (by simp)
  | .none, .dict _ => isFalse (by simp)
  | .str _, .none => isFalse (by simp)
  | .str _, .data _ _ => isFalse (by simp)
  | .str _, .tup _ => isFalse (by simp)
  | .str _, .cont _ _ _ => isFalse (by simp)
  | .str _, .cmeta _ _ => isFalse (by simp)
  | .str _, .tree _ _ => isFalse (by simp)
  | .str _, .dict _ => isFalse (by simp)
  | .data _ _, .none => isFalse (by simp)
  | .data _ _, .str _ => isFalse (by simp)
  | .data _ _, .tup _ => isFalse (by simp)
  | .data _ _, .cont _ _ _ => isFalse (by simp)
  | .data _ _, .cmeta _ _ => isFalse (by simp)
  | .data _ _, .tree _ _ => isFalse (by simp)
  | .data _ _, .dict _ => isFalse (by simp)
  | .tup _, .none => isFalse (by simp)
  | .tup _, .str _ => isFalse (by simp)
  | .tup _, .data _ _ => isFalse (by simp)
  | .tup _, .cont _ _ _ => isFalse (by simp)
  | .tup _, .cmeta _ _ => isFalse (by simp)
  | .tup _, .tree _ _ => isFalse (by simp)
  | .tup _, .dict _ => isFalse (by simp)
  | .cont _ _ _, .none => isFalse (by simp)
  | .cont _ _ _, .str _ => isFalse (by simp)
  | .cont _ _ _, .data _ _ => isFalse (by simp)
  | .cont _ _ _, .tup _ => isFalse (by simp)
  | .cont _ _ _, .cmeta _ _ => isFalse (by simp)
  | .cont _ _ _, .tree _ _ => isFalse (by simp)
  | .cont _ _ _, .dict _ => isFalse (by simp)
  | .cmeta _ _, .none => isFalse (by simp)
  | .cmeta _ _, .str _ => isFalse (by simp)
  | .cmeta _ _, .data _ _ => isFalse (by simp)
  | .cmeta _ _, .tup _ => isFalse (by simp)
  | .cmeta _ _, .cont _ _ _ => isFalse (by simp)
  | .cmeta _ _, .tree _ _ => isFalse (by simp)
  | .cmeta _ _, .dict _ => isFalse (by simp)
  | .tree _ _, .none => isFalse (by simp)
  | .tree _ _, .str _ => isFalse (by simp)
  | .tree _ _, .data _ _ => isFalse (by simp)
  | .tree _ _, .tup _ => isFalse (by simp)
  | .tree _ _, .cont _ _ _ => isFalse (by simp)
  | .tree _ _, .cmeta _ _ => isFalse (by simp)
  | .tree _ _, .dict _ => isFalse (by simp)
  | .dict _, .none => isFalse (by simp)
  | .dict _, .str _ => isFalse (by simp)
  | .dict _, .data _ _ => isFalse (by simp)
  | .dict _, .tup _ => isFalse (by simp)
  | .dict _, .cont _ _ _ => isFalse (by simp)
  | .dict _, .cmeta _ _ => isFalse (by simp)
  | .dict _, .tree _ _ => isFalse (by simp)
def decEqL : (a b : List (PyVal α)) → Decidable (a = b)
  | [], [] => isTrue rfl
  | [], _ :: _ => isFalse (by simp)
  | _ :: _, [] => isFalse (by simp)
  | a :: as, b :: bs =>
    match decEq a b, decEqL as bs with
    | isTrue h1, isTrue h2 => isTrue (by rw [h1, h2])
    | isFalse h1, _ => isFalse (by simp [h1])
    | _, isFalse h2 => isFalse (by simp [h2])
def decEqM : (a b : List (Str × PyVal α)) → Decidable (a = b)
  | [], [] => isTrue rfl
  | [], _ :: _ => isFalse (by simp)
  | _ :: _, [] => isFalse (by simp)
  | (k, a) :: as, (k', b) :: bs =>
    if hk : k = k' then
      match decEq a b, decEqM as bs with
      | isTrue h1, isTrue h2 => isTrue (by rw [hk, h1, h2])
      | isFalse h1, _ => isFalse (by simp [h1])
      | _, isFalse h2 => isFalse (by simp [h2])
    else isFalse (by simp [hk])
end

instance : DecidableEq (PyVal α) := decEq

omit [DecidableEq α] in
/-- `type(v)` -/
def cls : PyVal α → Cls
  | .none => cNoneType
  | .str _ => cStr
  | .data c _ => c
  | .tup _ => cTuple
  | .cont c _ _ => c
  | .cmeta _ _ => cContainerMetadata
  | .tree c _ => c
  | .dict _ => cDict

omit [DecidableEq α] in
/-- `isinstance(v, c)` -/
def isInstance (v : PyVal α) (c : Cls) : Bool := v.cls.isSub c

omit [DecidableEq α] in
/-- `isinstance(v, Container)` -/
def isContainer : PyVal α → Bool
  | .cont _ _ _ => true
  | _ => false

omit [DecidableEq α] in
/-- `nodes.is_node(v)` (nnx/nodes.py:14-15) with the registered types
jax.Array, np.ndarray, Node, State, Pure, Pytree, TreeNode (nnx/nodes.py:20-21, nnx/containers.py:203,
nnx/state.py:195, nnx/module.py:952, nnx/pytreelib.py:264-265).  Simplification: a user type registered with
`register_node_type` is represented by giving its class one of these ancestors. -/
def isNode (v : PyVal α) : Bool :=
  [cArray, cNdarray, cNode, cState, cPure, cPytree, cTreeNode].any (fun c => v.isInstance c)

end PyVal

example : (PyVal.tup [PyVal.data cArray 2, PyVal.none] : PyVal Nat) ≠ PyVal.tup [PyVal.none] := by decide

end Nnx
