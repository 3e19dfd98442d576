import Verif.Spec.Calls
import Verif.Spec.Filters
import Verif.Model.ModuleOps
/-
Calls of a model that sow values among other things, and the collection of what they have sown with `pop_state`.
-/
namespace Nnx
variable {α : Type}

/-- What a call does to the Modules of a model: it sows values, and it assigns other attributes. -/
inductive CallEvent (α : Type) where
  | sow (c : SowCall α)
  | assign (l : Loc) (n : Str) (v : PyVal α)

/-- The calls of `sow` among the events. -/
def eventSows : List (CallEvent α) → List (SowCall α)
  | [] => []
  | .sow c :: es => c :: eventSows es
  | .assign .. :: es => eventSows es

/-- The same events without the calls of `sow`. -/
def withoutSows : List (CallEvent α) → List (CallEvent α)
  | [] => []
  | .sow _ :: es => withoutSows es
  | .assign l n v :: es => .assign l n v :: withoutSows es

variable [DecidableEq α]

/-- The events, one after the other; the first exception ends them. -/
def runEvents : List (CallEvent α) → World α → World α × Option Err
  | [], w => (w, none)
  | .sow c :: es, w =>
    match sow c.module c.type c.name c.value w with
    | .error e => (w, some e)
    | .ok w => runEvents es w
  | .assign l n v :: es, w =>
    match setAttr w l n (.val v) with
    | .error e => (w, some e)
    | .ok w => runEvents es w

/-- The events of a call, given the world without any of the sown values: the names sown to are free, the assignments are to
other attributes, with proper names and values. -/
def ProperEvents (es : List (CallEvent α)) (w : World α) : Prop :=
  (∀ c ∈ eventSows es, GoodName c.name ∧ attrAt w.heap c.module c.name = none) ∧
  ∀ l n v, .assign l n v ∈ es → GoodName n ∧ WFVal v ∧ sown (eventSows es) l n = []

/-- Calls of a model, after each of which the variables of class `T` are popped from it. -/
inductive Rounds (root : Loc) (T : Cls) : List (List (CallEvent α)) → World α → List (State (PyVal α)) → World α → Prop
  | done {w} : Rounds root T [] w [] w
  | more {es ess w w1 fuel h t ts w'} : runEvents es w = (w1, none) → w1.heap.length < fuel →
      popState fuel root [.ofType T] w1.heap = (h, .ok [t]) →
      Rounds root T ess { w1 with heap := h } ts w' → Rounds root T (es :: ess) w (t :: ts) w'

/-- Two worlds with the same Modules, which have the same attributes with the same values (perhaps in another order). -/
def SameContent (w w' : World α) : Prop :=
  SameObjects w w' ∧ ∀ l n, attrAt w'.heap l n = attrAt w.heap l n

/-- The State `t` holds what the calls `cs` have sown and nothing else: under the path that `path` gives a Module, with the name, the tuple of
all values sown to that name of that Module in order, in a container of the class that was asked for. -/
def Collected (cs : List (SowCall α)) (path : Loc → List Str) (t : State (PyVal α)) : Prop :=
  (∀ l n, sown cs l n ≠ [] → ∃ c m, t.get (joinSlash (path l ++ [n])) = some (.cont c (.tup (sown cs l n)) m) ∧
    ∀ d ∈ cs, d.module = l → d.name = n → d.type = c) ∧
  ∀ k v, t.get k = some v → ∃ l n, sown cs l n ≠ [] ∧ k = joinSlash (path l ++ [n])

/-- All calls sow variables of class `T` to Modules that are reachable from `root`. -/
def SowsBelow (h : Heap α) (root : Loc) (T : Cls) (cs : List (SowCall α)) : Prop :=
  ∀ c ∈ cs, Reaches h root c.module ∧ c.type.isSub T = true ∧ c.type.isSub cNode = true

/-- No Module reachable from `root` has a variable of class `T`. -/
def FreeOf (h : Heap α) (root : Loc) (T : Cls) : Prop :=
  ∀ l n v, Reaches h root l → attrAt h l n = some (.val v) → v.isNode = true → v.isInstance T = false

/-- Calls that sow variables of class `T` into a model that has none, given the world without any of the sown values before and after the calls. -/
inductive ProperRounds (root : Loc) (T : Cls) : List (List (CallEvent α)) → World α → World α → Prop
  | done {v} : ProperRounds root T [] v v
  | more {es ess v v1 v'} : ProperEvents es v → runEvents (withoutSows es) v = (v1, none) → SowsBelow v1.heap root T (eventSows es) →
      FreeOf v1.heap root T → ProperRounds root T ess v1 v' → ProperRounds root T (es :: ess) v v'

end Nnx
