import Verif.Model.Pytree
import Verif.Spec.Containers
/-
Independent specification vocabulary for Pytree objects.
-/
namespace Nnx
variable {α : Type}

/-- A value that may be assigned to a field: not a bare `ContainerMetadata`, and containers are well formed. -/
def GoodField (v : PyVal α) : Prop := v.Plain ∨ WFContainer v

/-- What a field holds after `v` was assigned to it while it held `old`: a container keeps its class and metadata and
takes the new value, also when the new value comes in an equivalent container; other fields hold `v`. -/
inductive Stored : Option (PyVal α) → PyVal α → PyVal α → Prop
  | new {old : Option (PyVal α)} {v : PyVal α} (h : ∀ c w m, old ≠ some (.cont c w m)) : Stored old v v
  | keep {c : Cls} {w v : PyVal α} {m : Md α} (h : v.Plain) : Stored (some (.cont c w m)) v (.cont c v m)
  | unwrap {c : Cls} {w v : PyVal α} {m n : Md α} (h : MdSame m n) : Stored (some (.cont c w m)) (.cont c v n) (.cont c v m)

/-- The assignment of `v` over `old` is refused: both are containers and they differ in class or metadata. -/
def Refused (old : Option (PyVal α)) (v : PyVal α) : Prop :=
  ∃ c w m d u n, old = some (.cont c w m) ∧ v = .cont d u n ∧ ¬ (c = d ∧ MdSame m n)

/-- `vars` of an object on which no constructor and no `replace` is running. -/
structure Sealed (vars : Md α) : Prop where
  nodup : DNodup vars
  noInit : kInit ∉ dkeys vars
  noMut : kMutable ∉ dkeys vars

/-- `vars` of a Pytree object as its constructor leaves it. -/
structure WFPytree (vars : Md α) : Prop extends Sealed vars where
  /-- the list of field names is there and is the sorted list of all names -/
  sorted : dget vars kSorted = some (.tup ((sortItems vars).map (fun kv => .str kv.1)))
  good : ∀ k v, dget vars k = some v → GoodField v

/-- The three names that the library itself uses in `vars`. -/
def ReservedPy (k : Str) : Prop := k = kSorted ∨ k = kMutable ∨ k = kInit

/-- Assignment to the object is blocked by its class. -/
def PInfo.Immutable (i : PInfo α) : Prop := i.mutable = false ∨ ∃ fs, i.dataclass = some (fs, true)

/-- One thing a program may do with Pytree objects. -/
inductive PyOp (α : Type) where
  /-- construct an object of class `c`; `steps` is what its `__init__` assigns -/
  | create (c : Cls) (steps : List (Str × PyVal α))
  /-- `obj.name = value` -/
  | assign (l : Nat) (name : Str) (value : PyVal α)
  /-- `obj.replace(**kw)` -/
  | replace (l : Nat) (kw : Md α)

variable [DecidableEq α]

/-- Run one operation; exceptions are caught by the program. -/
def PyOp.run (env : PEnv α) (h : PHeap α) : PyOp α → PHeap α
  | .create c steps =>
    match callVars (env c) steps with
    | .error _ => h
    | .ok vars => h ++ [(c, vars)]
  | .assign l name value => (hSetattr env l name value h).1
  | .replace l kw => (hReplace env l kw h).1

/-- Run a history. -/
def PyOp.runAll (env : PEnv α) (h : PHeap α) (ops : List (PyOp α)) : PHeap α := ops.foldl (PyOp.run env) h

/-- `a` and `b` are the same value up to the order of the entries in the `vars` of Pytrees. -/
inductive PySame : PyVal α → PyVal α → Prop
  | refl (v : PyVal α) : PySame v v
  | tree {c : Cls} {m n : Md α} (dom : ∀ k, dget m k = none ↔ dget n k = none)
      (vals : ∀ k v w, dget m k = some v → dget n k = some w → PySame v w) : PySame (.tree c m) (.tree c n)

/-- `None`, a string, an array, a number, ...: something without parts. -/
def PyVal.Leaf : PyVal α → Prop
  | .none => True
  | .str _ => True
  | .data _ _ => True
  | _ => False

/-- The object's fields are what its dataclass declares: exactly the declared fields, each in the container its
declaration asks for, or in none. -/
structure Declared (fs : List (PField α)) (vars : Md α) : Prop where
  nodup : (fs.map (·.name)).Nodup
  dom : ∀ k, k ∈ dkeys vars ↔ k = kSorted ∨ k ∈ fs.map (·.name)
  plain : ∀ f ∈ fs, f.kind.containerFn = none → ∃ v, dget vars f.name = some v ∧ v.Plain
  boxed : ∀ f ∈ fs, ∀ fn, f.kind.containerFn = some fn →
    ∃ c v m, dget vars f.name = some (.cont c v m) ∧ v.Plain ∧ fn v = .ok (.cont c v m)
  names : ∀ f ∈ fs, ¬ ReservedPy f.name

/-- Objects for which the state-dict round trip holds: node fields are arrays, containers of values without
parts, or such objects themselves (not in a container). -/
inductive Restorable (env : PEnv α) : PyVal α → Prop
  | leaf {v : PyVal α} (h : v.Leaf) : Restorable env v
  | box {c : Cls} {v : PyVal α} {m : Md α} (h : v.Leaf) (wf : WFContainer (.cont c v m)) : Restorable env (.cont c v m)
  | tree {c : Cls} {vars : Md α} (wf : WFPytree vars)
      (decl : ∀ fs fr, (env c).dataclass = some (fs, fr) → Declared fs vars)
      (fields : ∀ k v, dget vars k = some v → v.isNode = true → Restorable env v) : Restorable env (.tree c vars)

end Nnx
