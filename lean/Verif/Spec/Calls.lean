import Verif.Spec.History
/-
Vocabulary for for_each, init and sow.
-/
namespace Nnx
variable {α : Type}

/-- Call `fn` on the modules of a list, in order; the first exception ends the loop. -/
def runCalls {σ : Type} (fn : Loc → σ → σ × Option Err) : List Loc → σ → σ × Option Err
  | [], s => (s, none)
  | l :: ls, s =>
    match fn l s with
    | (s, some e) => (s, some e)
    | (s, none) => runCalls fn ls s

/-- The references to Modules held by an attribute dict, in order. -/
def moduleRefs (as : List (Str × Attr α)) : List (Str × Loc) :=
  as.filterMap (fun na => match na.2 with | .ref b => some (na.1, b) | .val _ => none)

/-- Two heaps have the same modules with the same ids, classes and references to each other. -/
def SameRefs (h h' : Heap α) : Prop :=
  ∀ l : Loc, (h'[l]?).map (fun o => (o.cls, o.uid, moduleRefs o.attrs)) = (h[l]?).map (fun o => (o.cls, o.uid, moduleRefs o.attrs))

/-- `w'` is `w` with the `is_initializing` flag of every Module reachable from `root` set to `b`, and nothing
else changed. -/
structure Marked (w w' : World α) (root : Loc) (b : Bool) : Prop where
  inside : ∀ (l : Loc) (o : ModObj α), Reaches w.heap root l → w.heap[l]? = some o → o.cls.isSub cModule = true →
    w'.heap[l]? = some { o with isInit := b }
  outside : ∀ l : Loc, (¬ Reaches w.heap root l ∨ ∀ o, w.heap[l]? = some o → o.cls.isSub cModule = false) →
    w'.heap[l]? = w.heap[l]?
  rest : w'.nextId = w.nextId ∧ w'.jaxTrace = w.jaxTrace ∧ w'.nnxStack = w.nnxStack

/-- One call of `sow`. -/
structure SowCall (α : Type) where
  module : Loc
  type : Cls
  name : Str
  value : PyVal α

variable [DecidableEq α]

/-- A sequence of calls of `sow`; the first exception ends it. -/
def runSows : List (SowCall α) → World α → World α × Option Err
  | [], w => (w, none)
  | c :: cs, w =>
    match sow c.module c.type c.name c.value w with
    | .error e => (w, some e)
    | .ok w => runSows cs w

omit [DecidableEq α] in
/-- The values sown to one attribute by a sequence of calls, in order. -/
def sown (cs : List (SowCall α)) (l : Loc) (n : Str) : List (PyVal α) :=
  (cs.filter (fun c => decide (c.module = l ∧ c.name = n))).map (·.value)

end Nnx
