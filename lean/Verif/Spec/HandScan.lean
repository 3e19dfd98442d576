import Verif.Spec.ScanInit
/-
What a scan over layers that is written by hand should do.
-/
namespace Nnx
variable {α : Type}

/-- `fin` has the paths that each of the States `ss` has, and at each of them the values of the States, stacked along the first axis. -/
structure IsStack (R : Arrays α) (ss : List (State (PyVal α))) (fin : State (PyVal α)) : Prop where
  sorted : StrictSorted fin.mapping
  paths : ∀ t ∈ ss, ∀ k, (t.get k).isSome = (fin.get k).isSome
  values : ∀ k v, fin.get k = some v → StackedVal R 0 (ss.filterMap fun t => t.get k) v

end Nnx
