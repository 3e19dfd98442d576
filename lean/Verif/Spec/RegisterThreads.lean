import Verif.Model.RegisterThreads
import Verif.Spec.NodeTypes
/-
Schedules of threads that register node types.
-/
namespace Nnx

/-- No thread is registering a type. -/
def RegWorld.quiet (g : RegWorld) : Prop := ∀ t, g.threads t = .idle

/-- The threads take turns: a registration only begins when none is under way. -/
inductive InTurn : RegWorld → List RegEvent → Prop
  | nil {g : RegWorld} : InTurn g []
  | load {g : RegWorld} {t : Nat} {c : Cls} {evs : List RegEvent} : g.quiet → InTurn (g.step (.load t c)) evs → InTurn g (.load t c :: evs)
  | store {g : RegWorld} {t : Nat} {evs : List RegEvent} : InTurn (g.step (.store t)) evs → InTurn g (.store t :: evs)

end Nnx
