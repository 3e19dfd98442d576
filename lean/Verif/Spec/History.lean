import Verif.Model.ModuleOps
import Verif.Spec.Module
/-
Access paths, and histories of API calls made by someone who holds references to some Modules.
-/
namespace Nnx
variable {α : Type}

/-! ### What an access path shows -/

/-- The result of `x.n1.n2...` starting from `a`, before containers are unboxed. -/
def access (h : Heap α) : Attr α → List Str → Option (Attr α)
  | a, [] => some a
  | .ref l, n :: p =>
    match attrAt h l n with
    | none => none
    | some a => access h a p
  | .val _, _ :: _ => none

/-- What can be seen of an object without its identity: a module shows its class and its `is_initializing`
flag, another value shows itself. -/
inductive Shown (α : Type) where
  | module (c : Cls) (isInit : Bool)
  | value (v : PyVal α)
deriving DecidableEq

/-- What an attribute shows. -/
def shown (h : Heap α) : Attr α → Option (Shown α)
  | .ref l => (h[l]?).map (fun o => .module o.cls o.isInit)
  | .val v => some (.value v)

/-- What the access path `p` shows from the module at `root`. -/
def observe (h : Heap α) (root : Loc) (p : List Str) : Option (Shown α) :=
  (access h (.ref root) p).bind (shown h)

/-- Two access paths lead to the very same Module object. -/
def SameModule (h : Heap α) (root : Loc) (p q : List Str) : Prop :=
  ∃ l, access h (.ref root) p = some (.ref l) ∧ access h (.ref root) q = some (.ref l)

/-- Observational equality of two module graphs: every access path shows the same, and the same pairs of
access paths lead to one object. -/
def SameGraph (h : Heap α) (r : Loc) (h' : Heap α) (r' : Loc) : Prop :=
  (∀ p, observe h' r' p = observe h r p) ∧ (∀ p q, SameModule h' r' p q ↔ SameModule h r p q)

/-! ### Histories -/

/-- A world as the library produces it: a well-formed heap and an id counter that is ahead of all ids. -/
structure WFWorld (w : World α) : Prop where
  heap : WFHeap w.heap
  ids : ∀ (l : Loc) (o : ModObj α), w.heap[l]? = some o → o.uid ≤ w.nextId

/-- An attribute name that may be assigned: no "/" and not in the reserved namespace. -/
def GoodName (n : Str) : Prop := NoSlash n ∧ isReserved n = false

/-- Update States whose values are plain or well-formed containers and whose paths end in a non-reserved name. -/
def GoodUpdates (us : List (State (PyVal α))) : Prop :=
  ∀ t ∈ us, ∀ k v, (k, v) ∈ t.items → WFVal v ∧ isReserved ((splitSlash k).getLastD []) = false

variable [DecidableEq α]

/-- One API call by a party that holds references to the Modules `K`: the worlds before and after, and
the Modules held afterwards. Calls that raise may have changed the world before raising. -/
inductive Step : List Loc → World α → List Loc → World α → Prop
  /-- `x = m.name`, obtaining a submodule -/
  | read {K w l n l'} : l ∈ K → attrAt w.heap l n = some (.ref l') → Step K w (l' :: K) w
  /-- `m.name = value` -/
  | assign {K w w' l n v} : l ∈ K → GoodName n → WFVal v → setAttr w l n (.val v) = .ok w' → Step K w K w'
  /-- `m.name = other_module` -/
  | link {K w w' l n l'} : l ∈ K → l' ∈ K → GoodName n → setAttr w l n (.ref l') = .ok w' → Step K w K w'
  /-- `del m.name` -/
  | delete {K w l n h'} : l ∈ K → delAttr w.heap l n = .ok h' → Step K w K { w with heap := h' }
  /-- `x = SomeModule(...)` (followed by assignments made by `__init__`) -/
  | create {K w} (c : Cls) : Step K w ((newModule c w).2 :: K) (newModule c w).1
  /-- `x = m.clone()` -/
  | clone {K w w' fuel l l'} : l ∈ K → cloneModule fuel l w = (w', .ok l') → Step K w (l' :: K) w'
  /-- `m.update_state(us)`, whether or not it raises -/
  | update {K w w' fuel l us r} : l ∈ K → GoodUpdates us → updateState fuel l us w = (w', r) → Step K w K w'
  /-- `m.pop_state(fs)`, whether or not it raises -/
  | pop {K w h' fuel l fs r} : l ∈ K → popState fuel l fs w.heap = (h', r) → Step K w K { w with heap := h' }
  /-- `m.sow(vt, name, value)` -/
  | sow {K w w' l vt n v} : l ∈ K → GoodName n → v.Plain → sow l vt n v w = .ok w' → Step K w K w'
  /-- setting or clearing the `is_initializing` flags through `m.init` -/
  | flags {K w w' fuel l ty b r} : l ∈ K → forEach World.heap fuel l ty (setIsInit b) w = (w', r) → Step K w K w'
  /-- entering or leaving any jax or nnx trace -/
  | trace {K w} (j : Nat) (s : List Nat) : Step K w K { w with jaxTrace := j, nnxStack := s }

/-- A history of API calls by one party. -/
inductive Steps : List Loc → World α → List Loc → World α → Prop
  | done {K w} : Steps K w K w
  | more {K w K1 w1 K' w'} : Step K w K1 w1 → Steps K1 w1 K' w' → Steps K w K' w'

/-- A history of two parties, with handles `A` and `B`, whose calls are interleaved in any order. -/
inductive Run : List Loc → List Loc → World α → List Loc → List Loc → World α → Prop
  | done {A B w} : Run A B w A B w
  | first {A B w A1 w1 A' B' w'} : Step A w A1 w1 → Run A1 B w1 A' B' w' → Run A B w A' B' w'
  | second {A B w B1 w1 A' B' w'} : Step B w B1 w1 → Run A B1 w1 A' B' w' → Run A B w A' B' w'

/-- No Module can be reached both from a handle in `A` and from a handle in `B`. -/
def Apart (w : World α) (A B : List Loc) : Prop :=
  ∀ a ∈ A, ∀ b ∈ B, ∀ l, Reaches w.heap a l → ¬ Reaches w.heap b l

end Nnx
