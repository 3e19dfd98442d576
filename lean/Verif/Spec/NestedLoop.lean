import Verif.Spec.Nested
import Verif.Spec.Scan
/-
Functions that call other functions through nnx transforms, and the same functions without any transforms: direct calls instead of jit
and remat, gradients of direct calls instead of grad, and Python loops instead of scan.
-/
namespace Nnx
variable {α κ L β C X B : Type} [DecidableEq α]

/-- The loop of `LoopRun` for a body that is given by its runs: `runs x c w w' r` says that the call of the body with `x` and the carry
`c` leads from the world `w` to `w'`, and returns or raises `r`. -/
inductive LoopOf (runs : X → C → World α → World α → Except Err (C × B) → Prop) (m : Loc) :
    World α → C → List (State (PyVal α) × X) → World α → C → List (State (PyVal α) × B) → Prop
  | done {w c} : LoopOf runs m w c [] w c []
  | next {w w1 w2 w' : World α} {c c' c'' : C} {inp s : State (PyVal α)} {x : X} {y : B}
      {ins : List (State (PyVal α) × X)} {outs : List (State (PyVal α) × B)} :
      updateState (w.heap.length + 1) m [inp] w = (w1, none) →
      runs x c w1 w2 (.ok (c', y)) → NodesOnly w1 w2 m →
      getState (w2.heap.length + 1) w2.heap m = some s →
      LoopOf runs m w2 c' ins w' c'' outs →
      LoopOf runs m w c ((inp, x) :: ins) w' c'' ((s, y) :: outs)

omit [DecidableEq α] in
/-- In the order of the iterations: the last slice first with `reverse=True`. -/
def ScanOptions.order {γ : Type} (o : ScanOptions α) (xs : List γ) : List γ := if o.reverse then xs.reverse else xs

/-- `nnx.scan` of a body that is given by its runs, as a loop on the Module `l`. From world and carry to world, and the carry and the
outputs or an exception. -/
inductive ScanLoop (J : Jax α κ L) (fuel : Nat) (o : ScanOptions α) (l : Loc) (xs : Option (List β)) (ctx : Option (PureContext κ))
    (runs : Option (PureContext κ) × Option β → β → World α → World α → Except Err (β × β) → Prop) (w : World α) (c : β) :
    World α → Except Err (β × List β) → Prop
  /-- The loop, followed by an update with the stacked axes variables and the original broadcast variables. (With `reverse=True` the
  iterations create no variables.) -/
  | done {s0 ss n p ins vl c' outs fin w'} :
      getState fuel w.heap l = some s0 → s0.partition o.filters = .ok ss → dhas o.metadata kPartitionName = false →
      HasLength J.arrays o s0 xs n → 0 < n → (ctx.isSome = true → toRngPredicate o.splitRngs = .ok p) →
      LoopInputs J.arrays o s0 xs (fun i => ctx.map (stepCtx J.split p n i)) n ins →
      LoopOf runs l w c (o.order ins) vl c' outs → Uniform o s0 (outs.map (·.1)) →
      (o.reverse = true → ∀ t ∈ outs, ∀ k, s0.get k = none → t.1.get k = none) →
      IsStacked J.arrays o s0 (o.order (outs.map (·.1))) fin → updateState (vl.heap.length + 1) l [fin] vl = (w', none) →
      ScanLoop J fuel o l xs ctx runs w c w' (.ok (c', o.order (outs.map (·.2))))
  /-- An iteration raises: the Module is left as it was. -/
  | raises {s0 ss n p ins i inp x rest v v1 v2 c1 outs e} :
      getState fuel w.heap l = some s0 → s0.partition o.filters = .ok ss → dhas o.metadata kPartitionName = false →
      HasLength J.arrays o s0 xs n → (ctx.isSome = true → toRngPredicate o.splitRngs = .ok p) →
      LoopInputs J.arrays o s0 xs (fun i => ctx.map (stepCtx J.split p n i)) n ins → o.order ins = i ++ (inp, x) :: rest →
      LoopOf runs l w c i v c1 outs → Uniform o s0 (outs.map (·.1)) →
      (o.reverse = true → ∀ t ∈ outs, ∀ k, s0.get k = none → t.1.get k = none) →
      updateState (v.heap.length + 1) l [inp] v = (v1, none) → runs x c1 v1 v2 (.error e) →
      ScanLoop J fuel o l xs ctx runs w c w (.error e)
  /-- The filters do not cover the state. -/
  | filters {s0 e} : getState fuel w.heap l = some s0 → s0.partition o.filters = .error e →
      ScanLoop J fuel o l xs ctx runs w c w (.error e)
  /-- There is no length that all arrays, the argument and `length` agree on. -/
  | length {s0 ss} : getState fuel w.heap l = some s0 → s0.partition o.filters = .ok ss → dhas o.metadata kPartitionName = false →
      (∀ k x (g : Nat) f a, s0.get k = some x → o.variableAxes[g]? = some (f, a) → FirstMatch o.filters k x g →
        AllArrays (fun y => (J.arrays.size a y).isSome) x) →
      (∀ n, ¬ HasLength J.arrays o s0 xs n) →
      ScanLoop J fuel o l xs ctx runs w c w (.error .valueError)

/-- The runs of a function without transforms. `p.Direct J K w w' r`: called with the references `K` in the world `w`, the function returns
or raises `r` and leaves the world `w'`, where
- functions are called directly; for a transform that keeps the effect, the effect has to be node writes, and for `stateful=False` it is
  forgotten;
- `nnx.grad(f, wrt)` is the gradient of a function `F` that gives for all values `x` of the entries that match `wrt` the loss of the direct call
  `m.update_state(x); f(m)` (with the given structure of `x`);
- `nnx.scan(f)` is a loop. -/
def Routine.Direct (J : Jax α κ L) : Routine α κ L β → List Loc → World α → World α → Except Err β → Prop
  | .ret b, _, w, w', r => w' = w ∧ r = .ok b
  | .fail e, _, w, w', r => w' = w ∧ r = .error e
  | .op o k, K, w, w', r =>
    (∃ e, o.run K w = .error e ∧ w' = w ∧ r = .error e) ∨
    ∃ x K1 w1, o.run K w = .ok (x, K1, w1) ∧ (k x).Direct J K1 w1 w' r
  | .call how m body k, K, w, w', r => ∃ l, K[m]? = some l ∧
    ((∃ e, body.Direct J [l] w w' (.error e) ∧ r = .error e) ∨
     ∃ w1 b, body.Direct J [l] w w1 (.ok b) ∧ (how ≠ .direct → how.kept = true → NodeWrites w w1 l) ∧
      (k b).Direct J K (if how.kept then w1 else w) w' r)
  | .grad stateful _ _ wrt loss m body k, K, w, w', r => ∃ l F, K[m]? = some l ∧
    (∀ x wx, LikeState (selected wrt l w) x → updateState (w.heap.length + 1) l [x] w = (wx, none) →
      ∃ wx' rx, body.Direct J [l] wx wx' rx ∧ F x = rx.toOption.map loss) ∧
    ((∃ e, body.Direct J [l] w w' (.error e) ∧ r = .error e) ∨
     ∃ w1 b, body.Direct J [l] w w1 (.ok b) ∧ (stateful = true → NodeWrites w w1 l) ∧
      (k (J.gradOf F (selected wrt l w)) b).Direct J K (if stateful then w1 else w) w' r)
  | .scan fuel _ o out m c xs ctx body k, K, w, w', r => ∃ l, K[m]? = some l ∧
    ((∃ e, ScanLoop J fuel o l xs ctx (fun x c w w' r => ∃ b, (body x.1 c x.2).Direct J [l] w w' b ∧ r = b.map out) w c w' (.error e) ∧
        r = .error e) ∨
     ∃ w1 c' ys, ScanLoop J fuel o l xs ctx (fun x c w w' r => ∃ b, (body x.1 c x.2).Direct J [l] w w' b ∧ r = b.map out) w c w1 (.ok (c', ys)) ∧
      (k c' ys).Direct J K w1 w' r)

end Nnx
