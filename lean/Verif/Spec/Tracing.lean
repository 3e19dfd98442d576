import Verif.Model.Tracing
/-
Programs that use Modules under transformations, and tracers in Modules.
-/
namespace Nnx
variable {α : Type}

/-- The array (or other object) `a` is somewhere in the value. -/
inductive Occurs (a : α) : PyVal α → Prop
  | data {c : Cls} : Occurs a (.data c a)
  | tup {xs : List (PyVal α)} {x : PyVal α} (m : x ∈ xs) (h : Occurs a x) : Occurs a (.tup xs)
  | value {c : Cls} {v : PyVal α} {md : Md α} (h : Occurs a v) : Occurs a (.cont c v md)
  | metadata {c : Cls} {v x : PyVal α} {md : Md α} {k : Str} (m : (k, x) ∈ md) (h : Occurs a x) : Occurs a (.cont c v md)
  | boxed {v : PyVal α} {md : Md α} (h : Occurs a v) : Occurs a (.cmeta v md)
  | boxMeta {v x : PyVal α} {md : Md α} {k : Str} (m : (k, x) ∈ md) (h : Occurs a x) : Occurs a (.cmeta v md)
  | field {c : Cls} {vars : Md α} {k : Str} {x : PyVal α} (m : (k, x) ∈ vars) (h : Occurs a x) : Occurs a (.tree c vars)
  | entry {items : Md α} {k : Str} {x : PyVal α} (m : (k, x) ∈ items) (h : Occurs a x) : Occurs a (.dict items)

/-- The array `a` is in an attribute of the Module `l`. -/
def HasArray (w : World α) (l : Loc) (a : α) : Prop :=
  ∃ o n v, w.heap[l]? = some o ∧ (n, Attr.val v) ∈ o.attrs ∧ Occurs a v

/-- The traces that have been entered and not left. -/
def Tracing.Entered (T : Tracing) (id : Nat) : Prop := ∃ m ∈ T.mains, m.id = id

/-- A transformation that the guard of Modules takes notice of. -/
def Transform.Noticed : Transform → Prop
  | .staged => True
  | .mapped => False
  | .nnxJit _ => True
  | .nnxGrad n => 0 < n

variable [DecidableEq α]

/-- One use of the API of Modules, with the world before and after. Calls that raise may have changed the world before. -/
inductive ApiCall : World α → World α → Prop
  /-- `m.name = x`, where `x` is a value or a Module -/
  | assign {w w' l n x} : setAttr w l n x = .ok w' → ApiCall w w'
  /-- `del m.name` -/
  | delete {w l n h'} : delAttr w.heap l n = .ok h' → ApiCall w { w with heap := h' }
  /-- `SomeModule(...)` -/
  | create {w} (c : Cls) : ApiCall w (newModule c w).1
  /-- `moduledef.merge(*states)`, `pure.merge()`, and with the State of a Module: `m.clone()` -/
  | merge {w w' d ss r} : mergeDef d ss w = (w', r) → ApiCall w w'
  /-- `m.update_state(*updates)` -/
  | update {w w' fuel l us r} : updateState fuel l us w = (w', r) → ApiCall w w'
  /-- `m.pop_state(*filters)` -/
  | pop {w h' fuel l fs r} : popState fuel l fs w.heap = (h', r) → ApiCall w { w with heap := h' }
  /-- `m.sow(variable_type, name, value)` -/
  | sow {w w' l vt n v} : sow l vt n v w = .ok w' → ApiCall w w'
  /-- setting or clearing the `is_initializing` flags through `m.init` -/
  | flags {w w' fuel l ty b r} : forEach World.heap fuel l ty (setIsInit b) w = (w', r) → ApiCall w w'

/-- What a program may do under the traces `T`, with transformations that satisfy `P`: calls of the API, one after the other and inside of
transformations, nested in any way, with Modules of any origin. `tracer a` is the trace that the array `a` is a tracer of. What a call brings into a
Module is not a tracer, or a tracer of a trace that has not been left (a program that keeps tracers for later in a variable is an error jax reports). -/
inductive Runs (tracer : α → Option Nat) (P : Transform → Prop) : Tracing → World α → Tracing → World α → Prop
  | done {T w} : Runs tracer P T w T w
  | call {T w w'} : ApiCall (w.under T) w' →
      (∀ l a id, HasArray w' l a → tracer a = some id → HasArray w l a ∨ T.Entered id) → Runs tracer P T w T w'
  | inside {T w T' w'} {k : Transform} : P k → Runs tracer P (T.enter k) w T' w' → Runs tracer P T w (T.leave T') w'
  | seq {T w T1 w1 T2 w2} : Runs tracer P T w T1 w1 → Runs tracer P T1 w1 T2 w2 → Runs tracer P T w T2 w2

/-- Traces as they can be: all trace objects were made before, and the levels are not above the number of traces entered. -/
structure Tracing.Good (T : Tracing) : Prop where
  made : ∀ m ∈ T.mains, m.id < T.next
  dynamic : T.dynamic.id < T.next
  level : T.dynamic.level ≤ T.mains.length
  nonempty : T.nnx ≠ []
  stack : ∀ m ∈ T.nnx, m.id < T.next

/-- All Modules were made under traces made before. -/
def MadeBefore (w : World α) (T : Tracing) : Prop :=
  ∀ (l : Loc) (o : ModObj α), w.heap[l]? = some o → o.trace.jax < T.next ∧ o.trace.nnx < T.next

end Nnx
