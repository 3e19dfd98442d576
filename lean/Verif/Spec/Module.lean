import Verif.Model.Module
import Verif.Spec.Containers
/-
Independent specification vocabulary for module graphs.
-/
namespace Nnx
variable {α : Type}

/-- The content of attribute `n` of the module at `l`. -/
def attrAt (h : Heap α) (l : Loc) (n : Str) : Option (Attr α) :=
  match h[l]? with
  | some o => dget o.attrs n
  | none => none

/-- Following the attribute names `p` from module `a` leads to module `b`. -/
inductive Walk (h : Heap α) : Loc → List Str → Loc → Prop
  | here {a : Loc} : a < h.length → Walk h a [] a
  | step {a b c : Loc} {n : Str} {p : List Str} :
      attrAt h a n = some (.ref b) → Walk h b p c → Walk h a (n :: p) c

/-- Module `b` can be reached from module `a` through attributes. -/
def Reaches (h : Heap α) (a b : Loc) : Prop := ∃ p, Walk h a p b

/-- An attribute name without "/". -/
def NoSlash (n : Str) : Prop := '/' ∉ n

/-- The path string `path` leads from the root to attribute `n` of module `l`. -/
def LeadsTo (h : Heap α) (root : Loc) (path : Str) (l : Loc) (n : Str) : Prop :=
  ∃ p, Walk h root p l ∧ path = joinSlash (p ++ [n])

/-- What every heap made by the library looks like: attribute dicts have distinct keys, references point to
existing modules, distinct modules have distinct ids, containers are well formed. Attribute names contain no "/"
and are not in the namespace reserved by the library (`_module__...`). -/
structure WFHeap (h : Heap α) : Prop where
  nodup : ∀ (l : Loc) (o : ModObj α), h[l]? = some o → DNodup o.attrs
  refs : ∀ (l : Loc) (n : Str) (l' : Loc), attrAt h l n = some (.ref l') → l' < h.length
  uids : ∀ (l l' : Loc) (o o' : ModObj α), h[l]? = some o → h[l']? = some o' → o.uid = o'.uid → l = l'
  conts : ∀ (l : Loc) (n : Str) (c : Cls) (v : PyVal α) (m : Md α),
    attrAt h l n = some (.val (.cont c v m)) → WFContainer (.cont c v m)
  slash : ∀ (l : Loc) (n : Str) (a : Attr α), attrAt h l n = some a → NoSlash n
  reserved : ∀ (l : Loc) (n : Str) (a : Attr α), attrAt h l n = some a → isReserved n = false

/-- A value a State may hold: a plain value or a well-formed container. -/
def WFVal (v : PyVal α) : Prop := v.Plain ∨ WFContainer v

/-- Whether a value may be assigned to an attribute: when both are containers they must have the same class
and metadata. -/
def Compatible (old : Option (Attr α)) (v : PyVal α) : Prop :=
  ∀ c x m d y n, old = some (.val (.cont c x m)) → v = .cont d y n → c = d ∧ MdSame m n

/-- What an attribute holds after assigning `v`: a container keeps its class and metadata and takes over the
value; anything else is replaced. -/
def newValue (old : Option (Attr α)) (v : PyVal α) : PyVal α :=
  match old with
  | some (.val (.cont c _ m)) => .cont c v.valueOf m
  | _ => v

/-- The path string `path` of an update addresses attribute `n` (existing or not) of module `l`: all its
parts but the last lead from the root to `l`. -/
def Addresses (h : Heap α) (root : Loc) (path : Str) (l : Loc) (n : Str) : Prop :=
  ∃ p, splitSlash path = p ++ [n] ∧ Walk h root p l

/-- The value a tuple of update States gives to a path: the last State that has the path wins. -/
def given (us : List (State (PyVal α))) (path : Str) : Option (PyVal α) :=
  us.reverse.findSome? (fun t => t.get path)

/-- No update path addresses an attribute that holds a Module. -/
def LeafPaths (h : Heap α) (root : Loc) (us : List (State (PyVal α))) : Prop :=
  ∀ k v, given us k = some v → ∀ l n, Addresses h root k l n → ∀ b, attrAt h l n ≠ some (.ref b)

/-- Different paths of the update that address one attribute of a shared module give it the same value. -/
def NoConflict (h : Heap α) (root : Loc) (us : List (State (PyVal α))) : Prop :=
  ∀ k v k' v', given us k = some v → given us k' = some v' → ∀ l n, Addresses h root k l n →
    Addresses h root k' l n → v = v'

/-- No module that can be reached from `root` can be reached from itself by following attributes. -/
def Acyclic (h : Heap α) (root : Loc) : Prop := ∀ a, Reaches h root a → ∀ p, Walk h a p a → p = []

/-- Nothing but attribute contents differs between two worlds. -/
structure SameObjects (w w' : World α) : Prop where
  len : w'.heap.length = w.heap.length
  obj : ∀ (l : Loc) (o o' : ModObj α), w.heap[l]? = some o → w'.heap[l]? = some o' →
    o'.cls = o.cls ∧ o'.uid = o.uid ∧ o'.isInit = o.isInit ∧ o'.trace = o.trace
  nextId : w'.nextId = w.nextId
  jax : w'.jaxTrace = w.jaxTrace
  stack : w'.nnxStack = w.nnxStack

/-- The same attribute content with every reference redirected by `f`. -/
def Attr.redirect (f : Loc → Loc) : Attr α → Attr α
  | .ref b => .ref (f b)
  | .val v => .val v

/-- The graph reachable from `r` in `h` and the one reachable from `r'` in `h'` are the same up to the
addresses of the modules: same classes, same initialization flags, same attributes with identical leaf and
static values, and references that correspond; `f` maps addresses and is one-to-one, so sharing and cycles
are the same. -/
structure GraphIso (h : Heap α) (r : Loc) (h' : Heap α) (r' : Loc) (f : Loc → Loc) : Prop where
  root : f r = r'
  inj : ∀ a b, Reaches h r a → Reaches h r b → f a = f b → a = b
  obj : ∀ a o, Reaches h r a → h[a]? = some o → ∃ o', h'[f a]? = some o' ∧ o'.cls = o.cls ∧ o'.isInit = o.isInit
  attr : ∀ a, Reaches h r a → ∀ n, attrAt h' (f a) n =
    (attrAt h a n).map (Attr.redirect f)

/-- The class of the value has this name, or derives from a class with this name. -/
def IsA (v : PyVal α) (n : Str) : Prop := n = v.cls.name ∨ n ∈ v.cls.ancestors

/-- Nodes: arrays, the containers that are nodes (`Node`, of which `Variable` is a subclass, and `TreeNode`), Pytree objects, States and Pure
values. Everything else is static. -/
def IsNode (v : PyVal α) : Prop :=
  IsA v (py! "jax.Array") ∨ IsA v (py! "np.ndarray") ∨ IsA v (py! "Node") ∨ IsA v (py! "TreeNode") ∨ IsA v (py! "Pytree") ∨
  IsA v (py! "State") ∨ IsA v (py! "Pure")

end Nnx
