import Verif.Model.TraceInterrupt
/-
The outermost blocks of a program.
-/
namespace Nnx

/-- The traces of the blocks that are not inside of another block. -/
def TProg.outermost : TProg → List Nat
  | .seq p q => p.outermost ++ q.outermost
  | .block tr _ => [tr]
  | .underJax _ p => p.outermost
  | .tryExcept p h => p.outermost ++ h.outermost
  | _ => []

/-- The `logical_axis_rules` blocks that are not inside of another block: the rules of each and its body. -/
def RProg.outermost : RProg → List (List LRule × RProg)
  | .seq p q => p.outermost ++ q.outermost
  | .block rules p => [(rules, p)]
  | .tryExcept p h => p.outermost ++ h.outermost
  | _ => []

end Nnx
