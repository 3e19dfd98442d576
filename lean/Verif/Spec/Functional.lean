import Verif.Spec.TrainStep
import Verif.Model.ModuleOps
/-
The training step of the documentation with the functional API (README.md:69-95, examples/01_functional_api.py:44-79).
-/
namespace Nnx
variable {α κ L β : Type} [DecidableEq α]

/-- `y, (updates, _) = moduledef.apply(params, rest)(...)` and `return loss, updates.filter(other)`: the `loss_fn` of the functional API, where the method that is
called is the function `f` of the Module. It is called inside of the trace `j` of `jax.grad`, in the world `u`; the Modules it makes are lost. -/
def functionalLoss (J : Jax α κ L) (j : Nat) (other : Filter α) (f : Routine α κ L β) (d : ModuleDef α) (rest : State (PyVal α)) (u : World α)
    (params : State (PyVal α)) : Except Err (β × State (PyVal α)) :=
  match (unlimited (fun fuel => insideTrace j none (applyDef fuel d [params, rest] fun l w => f.run J [l] w)) u).2 with
  | .error e => .error e
  | .ok (b, updates, _) =>
    match updates.filter [other] with
    | .error e => .error e
    | .ok [r] => .ok (b, r)
    | .ok _ => .error .unmodelled

/-- The value of the loss, if there is one. -/
def lossOf (loss : β → L) : Except Err (β × State (PyVal α)) → Option L
  | .ok (b, _) => some (loss b)
  | .error _ => none

/-- `train_step(params, rest)` of the functional API: `grads, rest = jax.grad(loss_fn, has_aux=True)(params)` and
`params = jax.tree_map(step, params, grads)`. (`b` is what the function of the Module returns.) -/
def functionalStep (J : Jax α κ L) (j : Nat) (other : Filter α) (step : List (PyVal α) → Except Err (PyVal α)) (loss : β → L) (d : ModuleDef α)
    (u : World α) (f : Routine α κ L β) (params rest : State (PyVal α)) : Except Err (β × State (PyVal α) × State (PyVal α)) :=
  match functionalLoss J j other f d rest u params with
  | .error e => .error e
  | .ok (b, rest') =>
    match stateTreeMap step params [J.gradOf (fun x => lossOf loss (functionalLoss J j other f d rest u x)) params] with
    | .error e => .error e
    | .ok params' => .ok (b, params', rest')

/-- The training loop of the functional API: `for ...: params, rest = train_step(params, rest)`. -/
def functionalLoop (J : Jax α κ L) (j : Nat) (other : Filter α) (step : List (PyVal α) → Except Err (PyVal α)) (loss : β → L) (d : ModuleDef α)
    (u : World α) : List (Routine α κ L β) → β → State (PyVal α) → State (PyVal α) → Except Err (β × State (PyVal α) × State (PyVal α))
  | [], b, params, rest => .ok (b, params, rest)
  | f :: fs, _, params, rest =>
    match functionalStep J j other step loss d u f params rest with
    | .error e => .error e
    | .ok (b, params, rest) => functionalLoop J j other step loss d u fs b params rest

omit [DecidableEq α] in
/-- The filter looks at paths and types only. -/
def SeesTypes (f : Filter α) : Prop := ∀ k u v, u.cls = v.cls → (f.Matches k u ↔ f.Matches k v)

omit [DecidableEq α] in
/-- `step(x, ...)` has the type of `x`. -/
def KeepsType (step : List (PyVal α) → Except Err (PyVal α)) : Prop := ∀ x zs y, step (x :: zs) = .ok y → y.cls = x.cls

/-- A step in which the model (with the ModuleDef `d`) can be trained both ways: the loss function returns `b`, does not change the parameters or the ModuleDef, and leaves a model in which the entries
that match `other` are those that do not match `wrt`. -/
structure BothWays (J : Jax α κ L) (wrt other : Filter α) (step : List (PyVal α) → Except Err (PyVal α)) (loss : β → L) (d : ModuleDef α)
    (f : Routine α κ L β) (l : Loc) (w wd : World α) (b : β) : Prop where
  good : f.Good
  runs : LossRuns J wrt f l w wd b
  structure_ : getModuleDef (wd.heap.length + 1) wd.heap l = some d
  params : ∀ s sd, getState (w.heap.length + 1) w.heap l = some s → getState (wd.heap.length + 1) wd.heap l = some sd → SameParams wrt s sd
  rest : ∀ sd k v, getState (wd.heap.length + 1) wd.heap l = some sd → sd.get k = some v → (other.Matches k v ↔ ¬ wrt.Matches k v)
  can : CanStep step (gradientAt J wrt loss f l w) (selected wrt l wd)

/-- The same for all steps of a loop, where `train` is the training step on the Module. -/
def LoopBothWays (J : Jax α κ L) (wrt other : Filter α) (step : List (PyVal α) → Except Err (PyVal α)) (loss : β → L) (d : ModuleDef α) (l : Loc)
    (train : Routine α κ L β → World α → World α × Except Err β) : List (Routine α κ L β) → World α → Prop
  | [], _ => True
  | f :: fs, w => (∃ wd b, BothWays J wrt other step loss d f l w wd b) ∧ LoopBothWays J wrt other step loss d l train fs (train f w).1

end Nnx
