import Verif.Model.Transforms
import Verif.Model.Interrupt
/-
nnx/transforms.py: calls of jitted functions, gradients and remat interrupted by an asynchronous exception while the Module is updated.
-/
namespace Nnx
variable {α : Type} [DecidableEq α]

/-- `JitTransform.__call__` (nnx/transforms.py:62-74) stopped by the exception `kbd`, which does not come from the code itself (KeyboardInterrupt, a signal handler), when the update of the
Module (nnx/transforms.py:73) has completed `n` assignments. Before the update no Module of the caller changes: interruptions there are exceptions of `body`. -/
def jitInterrupted {β : Type} (kbd : Err) (n fuel : Nat) (j t : Nat) (l : Loc) (body : Loc → World α → World α × Except Err β) (w : World α) : World α × Except Err β :=
  match partitionModule fuel w.heap l [] with
  | .error e => (w, .error e)
  | .ok (ss, d) =>
    match insideTrace j (some t) (mergeAndRun d ss body) w with
    | (w, .error e) => (w, .error e)
    | (w, .ok (l', _)) =>
      match getState fuel w.heap l' with
      | none => (w, .error .recursionError)
      | some updates => (updateInterrupted n fuel l [updates] w, .error kbd)

/-- `GradTransform.__call__` (nnx/transforms.py:180-200), stateful, stopped when the update of the Module (nnx/transforms.py:196) has completed `n` assignments. The gradient has been
computed then, and is lost. -/
def gradInterrupted {L β : Type} (kbd : Err) (n fuel : Nat) (j t : Nat) (wrt : Filter α) (l : Loc) (body : Loc → World α → World α × Except Err (L × β)) (w : World α) :
    World α × Except Err (State (PyVal α) × β) :=
  match toPredicate wrt with
  | .error e => (w, .error e)
  | .ok p =>
    match partitionModule fuel w.heap l [.pred p, .ellipsis] with
    | .ok ([diff, nondiff], d) =>
      match insideTrace j (some t) (mergeAndRun d [diff, nondiff] body) w with
      | (w, .error e) => (w, .error e)
      | (w, .ok (l', _)) =>
        match getState fuel w.heap l' with
        | none => (w, .error .recursionError)
        | some updates => (updateInterrupted n fuel l [updates] w, .error kbd)
    | .ok _ => (w, .error .unmodelled)
    | .error e => (w, .error e)

/-- `remat_apply` (nnx/transforms.py:850-891) stopped when the update of the Module (nnx/transforms.py:889) has completed `n` assignments. -/
def rematInterrupted {β : Type} (kbd : Err) (n fuel : Nat) (j : Nat) (l : Loc) (body : Loc → World α → World α × Except Err β) (w : World α) : World α × Except Err β :=
  match partitionModule fuel w.heap l [] with
  | .error e => (w, .error e)
  | .ok (ss, d) =>
    match insideTrace j none (mergeAndRun d ss body) w with
    | (w, .error e) => (w, .error e)
    | (w, .ok (l', _)) =>
      match partitionModule fuel w.heap l' [] with
      | .ok ([s], _) => (updateInterrupted n fuel l [s] w, .error kbd)
      | .ok _ => (w, .error .unmodelled)
      | .error e => (w, .error e)

end Nnx
