import Verif.Spec.Functional
import Verif.Spec.Helpers
/-
The training step with a TrainState (examples/03_train_state.py:57-72).
-/
namespace Nnx
variable {α κ L β : Type} [DecidableEq α]

/-- The `loss_fn` with a TrainState: `y, (updates, _) = state.apply(params, name)(...)` and `return loss, updates.filter(other)`, inside of the trace `j` of
`jax.grad`; `vars` are the attributes of the TrainState. -/
def stateLoss (J : Jax α κ L) (asDef : PyVal α → Option (ModuleDef α)) (j : Nat) (other : Filter α) (name : Str) (f : Routine α κ L β) (vars : Md α)
    (u : World α) (params : State (PyVal α)) : Except Err (β × State (PyVal α)) :=
  match (unlimited (fun fuel => insideTrace j none
      (trainStateApply asDef fuel vars [.state params, .name name] fun l w => f.run J [l] w)) u).2 with
  | .error e => .error e
  | .ok (b, updates, _) =>
    match updates.filter [other] with
    | .error e => .error e
    | .ok [r] => .ok (b, r)
    | .ok _ => .error .unmodelled

/-- `train_step(state)`: `grads, rest = jax.grad(loss_fn, has_aux=True)(state.params)` and `state = state.apply_gradients(grads=grads, name=rest)`. The new TrainState is
at the returned address. -/
def trainStateStep (O : OptaxOps α) (env : PEnv α) (J : Jax α κ L) (asDef : PyVal α → Option (ModuleDef α)) (j : Nat) (other : Filter α) (name : Str)
    (loss : β → L) (u : World α) (f : Routine α κ L β) (t : Nat) (h : PHeap α) : PHeap α × Except Err (β × Nat) :=
  match h[t]? with
  | none => (h, .error .unmodelled)
  | some (_, vars) =>
    match pyGetattr vars (py! "params") with
    | .error e => (h, .error e)
    | .ok v =>
      match asState v with
      | none => (h, .error .unmodelled)
      | some params =>
        match stateLoss J asDef j other name f vars u params with
        | .error e => (h, .error e)
        | .ok (b, rest) =>
          match applyGradients O env t (stateVal (J.gradOf (fun x => lossOf loss (stateLoss J asDef j other name f vars u x)) params))
              [(name, stateVal rest)] h with
          | (h, .error e) => (h, .error e)
          | (h, .ok t) => (h, .ok (b, t))

/-- The training loop: `for ...: state = train_step(state)`. -/
def trainStateLoop (O : OptaxOps α) (env : PEnv α) (J : Jax α κ L) (asDef : PyVal α → Option (ModuleDef α)) (j : Nat) (other : Filter α) (name : Str)
    (loss : β → L) (u : World α) : List (Routine α κ L β) → β → Nat → PHeap α → PHeap α × Except Err (β × Nat)
  | [], b, t, h => (h, .ok (b, t))
  | f :: fs, _, t, h =>
    match trainStateStep O env J asDef j other name loss u f t h with
    | (h, .error e) => (h, .error e)
    | (h, .ok (b, t)) => trainStateLoop O env J asDef j other name loss u fs b t h

/-- The optimiser (for instance `optax.sgd`) updates as `jax.tree_map(step, params, grads)` does, whatever its state is. -/
def ActsBy (O : OptaxOps α) (tx : PyVal α) (step : List (PyVal α) → Except Err (PyVal α)) : Prop :=
  ∀ o p g p', stateTreeMap step p [g] = .ok p' →
    ∃ u o', O.update tx (stateVal g) o (stateVal p) = .ok (u, o') ∧ O.applyUpdates (stateVal p) u = stateVal p'

omit [DecidableEq α] in
/-- A TrainState with the attributes `vars` that holds the ModuleDef `d`, the optimiser `tx`, the parameters `params`, and the rest of the model in the attribute `name`. -/
structure HoldsModel (asDef : PyVal α → Option (ModuleDef α)) (name : Str) (vars : Md α) (d : ModuleDef α) (tx : PyVal α) (params rest : State (PyVal α)) : Prop where
  wf : WFPytree vars
  moduledef : ∃ v, Reads vars (py! "moduledef") v ∧ asDef v = some d
  tx : Reads vars (py! "tx") tx
  params : Reads vars (py! "params") (stateVal params)
  rest : Reads vars name (stateVal rest)
  own : name ∉ [py! "moduledef", py! "params", py! "tx", py! "opt_state", py! "step", kSorted]

end Nnx
