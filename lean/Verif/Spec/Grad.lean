import Verif.Spec.Programs
/-
What nnx.grad should differentiate.
-/
namespace Nnx
variable {α β L : Type} [DecidableEq α]

/-- `m.update_state(x); loss, aux = f(m)`: the loss of `f` as a function of the values `x` given to some entries of the module's
state; `none` if an exception is raised. -/
def directLoss (f : Loc → World α → World α × Except Err (L × β)) (fuel : Nat) (l : Loc) (w : World α) (x : State (PyVal α)) : Option L :=
  match updateState fuel l [x] w with
  | (wx, none) =>
    match f l wx with
    | (_, .ok (loss, _)) => some loss
    | (_, .error _) => none
  | (_, some _) => none

end Nnx
