import Verif.Spec.Nested
import Verif.Spec.Tree
/-
The training step of the documentation (README.md:97-115, examples/02_lifted_transforms.py:51-67) as a function of the model, and what it
should do to the state of the model.
-/
namespace Nnx
variable {α κ L β : Type} [DecidableEq α]

/-- `jax.tree_map(step, model.filter(wrt), grads)`, for the state `s` of the model. -/
def newParams (wrt : Filter α) (step : List (PyVal α) → Except Err (PyVal α)) (s g : State (PyVal α)) : Except Err (State (PyVal α)) :=
  match s.filter [wrt] with
  | .error e => .error e
  | .ok [p] => stateTreeMap step p [g]
  | .ok _ => .error .unmodelled

/-- After `model.update_state(...)`: its exception, or `return b`. -/
def afterUpdate (b : β) : Seen α → Routine α κ L β
  | .outcome (some e) => .fail e
  | _ => .ret b

/-- With the state of the model at hand: `model.update_state(jax.tree_map(step, model.filter(wrt), grads))`. -/
def afterState (wrt : Filter α) (step : List (PyVal α) → Except Err (PyVal α)) (g : State (PyVal α)) (b : β) : Seen α → Routine α κ L β
  | .state s =>
    match newParams wrt step s g with
    | .error e => .fail e
    | .ok p => .op (.update 0 [p]) (afterUpdate b)
  | _ => .fail .unmodelled

/-- The body of `train_step`: `grads, b = nnx.grad(loss_fn, wrt, has_aux=True)(model)`, then
`model.update_state(jax.tree_map(step, model.filter(wrt), grads))`, then `return b`. `loss_fn` may itself use transforms; the loss is a part of what it
returns (README.md: it is all of it). -/
def trainStep (j t : Nat) (wrt : Filter α) (step : List (PyVal α) → Except Err (PyVal α)) (loss : β → L) (lossFn : Routine α κ L β) :
    Routine α κ L β :=
  .grad true j t wrt loss 0 lossFn fun g b => .op (.state 0) (afterState wrt step g b)

/-- The training loop: one call of `train_step`, transformed in the way `how`, for each loss function (one per batch); returns what the last one returns. -/
def trainLoop (how : How) (j t : Nat) (wrt : Filter α) (step : List (PyVal α) → Except Err (PyVal α)) (loss : β → L) :
    List (Routine α κ L β) → β → Routine α κ L β
  | [], b => .ret b
  | f :: fs, _ => .call how 0 (trainStep j t wrt step loss f) fun b => trainLoop how j t wrt step loss fs b

omit [DecidableEq α] in
/-- `step` (`lambda w, g: w - 0.1 * g`) returns arrays. -/
def MakesArrays (step : List (PyVal α) → Except Err (PyVal α)) : Prop :=
  ∀ xs y, step xs = .ok y → ∃ c a, y = .data c a ∧ y.isNode = true

omit [DecidableEq α] in
/-- `new` is the state `old` after the parameter update along `g`: in the entries that match `wrt`, each leaf is replaced by what `step` returns for it and the part
of `g` at the same place, and nothing else in the entry is changed; all other entries are the same, and there are no new ones. -/
structure Updated (wrt : Filter α) (step : List (PyVal α) → Except Err (PyVal α)) (g old new : State (PyVal α)) : Prop where
  params : ∀ k v, old.get k = some v → wrt.Matches k v →
    ∃ u v', g.get k = some u ∧ new.get k = some v' ∧ Mapped (LeafApplied step [u]) v v'
  others : ∀ k v, old.get k = some v → ¬ wrt.Matches k v → new.get k = some v
  keys : ∀ k, old.get k = none → new.get k = none

/-- The gradient that `nnx.grad(loss_fn, wrt)(model)` returns: `jax.grad` of the loss of a direct call after `model.update_state(x)`, as a function of `x`, at the entries of
the model that match `wrt`. -/
def gradientAt (J : Jax α κ L) (wrt : Filter α) (loss : β → L) (f : Routine α κ L β) (l : Loc) (w : World α) : State (PyVal α) :=
  J.gradOf (directLoss (withLoss loss fun l w => f.plain J [l] w) (w.heap.length + 1) l w) (selected wrt l w)

/-- The loss function works on the model: the effects of the calls it makes through transforms can be carried back (also for other values of the parameters),
a direct call returns `b` and leaves the world `wd`, in which only nodes of the model were written. -/
structure LossRuns (J : Jax α κ L) (wrt : Filter α) (f : Routine α κ L β) (l : Loc) (w wd : World α) (b : β) : Prop where
  carried : f.Carried J [l] w
  elsewhere : ∀ x wx, LikeState (selected wrt l w) x → updateState (w.heap.length + 1) l [x] w = (wx, none) → f.Carried J [l] wx
  returns : f.plain J [l] w = (wd, .ok b)
  writes : NodeWrites w wd l

omit [DecidableEq α] in
/-- The update can be made: the gradient `g` and the entries `p` that match `wrt` are trees of the same structure (containers being `Variable`s or other nodes), and `step` is
defined where it is needed. -/
structure CanStep (step : List (PyVal α) → Except Err (PyVal α)) (g p : State (PyVal α)) : Prop where
  grads : TreeState g
  good : ∀ k v, p.get k = some v → GoodTree v
  nodes : ∀ k c v m, p.get k = some (.cont c v m) → c.isSub cNodeBase = true
  fits : FitsState p g
  defined : ∀ k v u q x z, p.get k = some v → g.get k = some u → Sub v q x → TreeLeaf x → Sub u q z → ∃ y, step [x, z] = .ok y

omit [DecidableEq α] in
/-- What is assumed of `jax.grad` here: for a State of trees it returns one with the same paths and structure. -/
def GradShape (gradOf : (State (PyVal α) → Option L) → State (PyVal α) → State (PyVal α)) : Prop :=
  ∀ F x, TreeState x → (∀ k v, x.get k = some v → WFVal v) → TreeState (gradOf F x) ∧ FitsState x (gradOf F x)

omit [DecidableEq α] in
/-- The entries of the states `s` and `s'` that match `wrt` are the same. -/
def SameParams (wrt : Filter α) (s s' : State (PyVal α)) : Prop := ∀ k v, wrt.Matches k v → (s.get k = some v ↔ s'.get k = some v)

omit [DecidableEq α] in
/-- The entries of the state `s` that match `wrt` are trees (for instance `Variable`s that hold arrays, or tuples of arrays). -/
structure TreeParams (wrt : Filter α) (s : State (PyVal α)) : Prop where
  good : ∀ k v, s.get k = some v → wrt.Matches k v → GoodTree v
  nodes : ∀ k c v m, s.get k = some (.cont c v m) → wrt.Matches k (.cont c v m) → c.isSub cNodeBase = true

end Nnx
