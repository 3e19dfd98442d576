import Verif.Model.PureTree
import Verif.Spec.Tree
/-
Vocabulary for Pures as trees.
-/
namespace Nnx
variable {α : Type} [DecidableEq α]

/-- The Pure `r` has the structure of `p`: both have a State, or tuples of equally many States, the States fit, and the ModuleDefs have equal
data. -/
structure PureFits (p r : Pure' α) : Prop where
  kind : p.states.isTuple = r.states.isTuple
  length : r.states.toList.length = p.states.toList.length
  fits : ∀ (i : Nat) s t, p.states.toList[i]? = some s → r.states.toList[i]? = some t → FitsState s t
  moduledef : p.moduledef.auxEqv r.moduledef = true

/-- All States of a Pure are good trees. -/
def TreePure (p : Pure' α) : Prop := ∀ s ∈ p.states.toList, TreeState s

/-- `zs` are the values of the Pures `rest` under the path `k`, and there the subtrees at `q`. -/
def PureOthers (rest : List (Pure' α)) (k : Str) (q : List TreeKey) (zs : List (PyVal α)) : Prop :=
  zs.length = rest.length ∧ ∀ (j : Nat) r z, rest[j]? = some r → zs[j]? = some z →
    ∃ t ∈ r.states.toList, ∃ u, t.get k = some u ∧ Sub u q z

/-- `y` is what `f` returns for the leaf `x` at the place `k`, `q` and for what is at the same place in the other Pures. -/
def PureApplied (f : List (PyVal α) → Except Err (PyVal α)) (rest : List (Pure' α)) (k : Str) (q : List TreeKey) (x y : PyVal α) : Prop :=
  ∃ zs, PureOthers rest k q zs ∧ f (x :: zs) = .ok y

end Nnx
