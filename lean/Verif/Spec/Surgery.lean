import Verif.Spec.Module
/-
Specification for C105: submodules that share nothing with the rest of a model.
-/
namespace Nnx
variable {α : Type}

/-- Whatever can be reached from `m` can be reached from `r` only through the attribute `n` of `r`. -/
def OnlyThrough (h : Heap α) (r : Loc) (n : Str) (m : Loc) : Prop :=
  ∀ a, Reaches h m a → ∀ p, Walk h r p a → ∃ q, p = n :: q

/-- The path `k` below the attribute `n`: `f"{n}/{k}"`. -/
def below (n k : Str) : Str := n ++ '/' :: k

/-- The State `u` is the State `t` with all paths below the attribute `n`. -/
def IsBelow {V : Type} (n : Str) (t u : State V) : Prop :=
  ∀ k v, u.get k = some v ↔ ∃ k', k = below n k' ∧ t.get k' = some v

end Nnx
