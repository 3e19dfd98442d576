import Verif.Spec.Module
/-
Specification: the size of a graph of Modules.
-/
namespace Nnx
variable {α : Type}

/-- The number of attributes of a Module. -/
def attrCount (h : Heap α) (l : Loc) : Nat := match h[l]? with | some o => o.attrs.length | none => 0

/-- `mods` lists the Modules that can be reached from `root`, each of them once. -/
def Lists (h : Heap α) (root : Loc) (mods : List Loc) : Prop := mods.Nodup ∧ ∀ a, a ∈ mods ↔ Reaches h root a

end Nnx
