import Verif.Model.ReprThreads
/-
Schedules of threads that print Modules.
-/
namespace Nnx
variable {α : Type}

/-- A thread is inside `repr`. -/
def ReprStatus.busy : ReprStatus α → Bool
  | .printing _ _ _ => true
  | _ => false

/-- Nobody has printed anything. -/
def ReprWorld.start : ReprWorld α := ⟨none, fun _ => .idle⟩

/-- `repr` is called only while no thread is inside `repr`, on Modules that exist. -/
def OneAtATime (showVal : PyVal α → Except Err Str) (h : Heap α) : ReprWorld α → List ReprEvent → Prop
  | _, [] => True
  | g, .call t l :: evs => (∀ u, (g.threads u).busy = false) ∧ l < h.length ∧ OneAtATime showVal h (reprEvent showVal h g (.call t l)) evs
  | g, .step t :: evs => OneAtATime showVal h (reprEvent showVal h g (.step t)) evs

end Nnx
