import Verif.Model.ModuleThreads
import Verif.Spec.Module
/-
Threads with their own Modules.
-/
namespace Nnx
variable {α : Type} [DecidableEq α]

omit [DecidableEq α] in
/-- A set of Modules that contains the submodules of its members. -/
def SelfContained (h : Heap α) (A : Loc → Prop) : Prop :=
  ∀ (l : Loc) (o : ModObj α), A l → h[l]? = some o → ∀ n b, (n, Attr.ref b) ∈ o.attrs → A b

/-- The call names Modules of the set only. -/
def ModCall.Within (A : Loc → Prop) : ModCall α → Prop
  | .update root _ => A root
  | .set l _ (.ref b) => A l ∧ A b
  | .set l _ (.val _) => A l
  | .get root => A root
  | .pop root _ => A root
  | .del l _ => A l
  | .sow l _ _ _ => A l

/-- The call can delete attributes. -/
def ModCall.deletes : ModCall α → Bool
  | .pop _ _ | .del _ _ => true
  | _ => false

/-- Every thread only calls on Modules of its own. -/
def OwnCalls (A : Nat → Loc → Prop) (evs : List (ModEvent α)) : Prop :=
  ∀ t c, ModEvent.call t c ∈ evs → c.Within (A t)

omit [DecidableEq α] in
/-- A call returned, or raised this exception. -/
def ModResult.outcome : Option Err → ModResult α
  | none => .done
  | some e => .raised e

omit [DecidableEq α] in
/-- `pop_state` returned these States, or raised. -/
def ModResult.popped : Except Err (List (State (PyVal α))) → ModResult α
  | .ok ss => .states ss
  | .error e => .raised e

/-- No thread is in a call and nothing has been returned. -/
def ModMachine.start (w : World α) (tr : Nat → Nat × List Nat) : ModMachine α := ⟨w, tr, fun _ => .idle, []⟩

/-- The same Modules, seen with other traces. -/
def World.withTraces (w : World α) (tr : Nat × List Nat) : World α := { w with jaxTrace := tr.1, nnxStack := tr.2 }

/-- The trace state that a thread gives to the Modules it makes now (`TraceState()`). -/
def traceOf (tr : Nat × List Nat) : Trace := ⟨tr.1, tr.2.getLastD 0⟩

omit [DecidableEq α] in
/-- These Modules were made at this trace. -/
def MadeAt (h : Heap α) (A : Loc → Prop) (tr : Trace) : Prop :=
  ∀ (l : Loc) (o : ModObj α), A l → h[l]? = some o → o.trace = tr

end Nnx
