import Verif.Spec.Filters
/-
What converting a malformed filter raises.
-/
namespace Nnx
variable {α : Type}

mutual
/-- The exceptions that the malformed parts of a filter raise, from left to right: a string is a TypeError. -/
def Filter.faults : Filter α → List Err
  | .str _ => [.typeError]
  | .invalid e => [e]
  | .tup fs => allFaults fs
  | .any fs => allFaults fs
  | .all fs => allFaults fs
  | .not f => f.faults
  | .ofType _ => []
  | .ellipsis => []
  | .none => []
  | .pred _ => []
def allFaults : List (Filter α) → List Err
  | [] => []
  | f :: fs => f.faults ++ allFaults fs
end

end Nnx
