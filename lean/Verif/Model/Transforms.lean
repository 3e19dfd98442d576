import Verif.Model.ModuleOps
/-
nnx/transforms.py: jit, grad and remat. The jax transformations themselves are not modelled: `jax.jit(f)` and
`jax.checkpoint(f)` are taken to call `f` once on values equal to their arguments (the flattening and
unflattening of the arguments is the identity, see C03 and C38), and `jax.grad` is a parameter.
-/
namespace Nnx

variable {α : Type} [DecidableEq α]

/-- Run `f` inside the jax trace `j` and, for `some t`, inside `with tracers.nnx_trace(t)`
(nnx/transforms.py:47-50, nnx/tracers.py:52-72). Both traces are left again however `f` ends. -/
def insideTrace {γ : Type} (j : Nat) (t : Option Nat) (f : World α → World α × γ) (w : World α) : World α × γ :=
  let r := f { w with jaxTrace := j, nnxStack := w.nnxStack ++ t.toList }
  ({ r.1 with jaxTrace := w.jaxTrace, nnxStack := w.nnxStack }, r.2)

/-- `module = moduledef.merge(*states); out = fun(module, *args)`: the common core of the transformed functions
(nnx/transforms.py:49-50, 161-162, 874-875). The arguments of `fun` are part of `body`. -/
def mergeAndRun {β : Type} (d : ModuleDef α) (ss : List (State (PyVal α)))
    (body : Loc → World α → World α × Except Err β) (w : World α) : World α × Except Err (Loc × β) :=
  match mergeDef d ss w with
  | (w, .error e) => (w, .error e)
  | (w, .ok l) =>
    match body l w with
    | (w, .error e) => (w, .error e)
    | (w, .ok out) => (w, .ok (l, out))

/-- `updates = module.get_state()` of the inner module, and `module.update_state(updates)` on the outer one
(nnx/transforms.py:52-54, 69-72). -/
def writeBack (fuel : Nat) (inner outer : Loc) (w : World α) : World α × Option Err :=
  match getState fuel w.heap inner with
  | none => (w, some .recursionError)
  | some updates => updateState fuel outer [updates] w

/-- `JitTransform.__call__` with `jitted_fn` (nnx/transforms.py:43-73). `j` and `t` are the jax trace and the
nnx trace of this compilation. Not modelled: the compilation cache (see `jitCached`). With a `ctx` see `Model/TransformsCtx.lean`. -/
def jitCall {β : Type} (fuel : Nat) (stateful : Bool) (j t : Nat) (l : Loc)
    (body : Loc → World α → World α × Except Err β) (w : World α) : World α × Except Err β :=
  match partitionModule fuel w.heap l [] with
  | .error e => (w, .error e)
  | .ok (ss, d) =>
    match insideTrace j (some t) (mergeAndRun d ss body) w with
    | (w, .error e) => (w, .error e)
    | (w, .ok (l', out)) =>
      if stateful then
        match writeBack fuel l' l w with
        | (w, some e) => (w, .error e)
        | (w, none) => (w, .ok out)
      else (w, .ok out)

/-- Equality of the auxiliary data of a flattened ModuleDef (nnx/module.py:168-175): the fields of the definition
itself are compared, including index and module_state, and submodule definitions by `ModuleDef.__eq__`. -/
def ModuleDef.auxEqv (d e : ModuleDef α) : Bool :=
  decide (d.cls = e.cls) && decide (d.index = e.index) && d.subs.eqv e.subs && decide (d.statics = e.statics) &&
    decide (d.isInit = e.isInit)

/-- `JitTransform.__call__` with the compilation cache of `jax.jit`: if the ModuleDef of an earlier call is equal
(as a static part of the argument, nnx/transforms.py:68), the function traced with that earlier ModuleDef is
run. `cache` holds the ModuleDefs of earlier calls, oldest first. Simplification: the other parts of the cache key (shapes,
dtypes, the other arguments) are assumed to be equal, so that a traced function is the function it was traced from
with the earlier ModuleDef. Returns the new cache as well. -/
def jitCachedCall {β : Type} (fuel : Nat) (stateful : Bool) (j t : Nat) (cache : List (ModuleDef α)) (l : Loc)
    (body : Loc → World α → World α × Except Err β) (w : World α) :
    (World α × Except Err β) × List (ModuleDef α) :=
  match partitionModule fuel w.heap l [] with
  | .error e => ((w, .error e), cache)
  | .ok (ss, d) =>
    let d' := (cache.find? fun c => c.auxEqv d).getD d
    let cache' := if cache.any (fun c => c.auxEqv d) then cache else cache ++ [d]
    match insideTrace j (some t) (mergeAndRun d' ss body) w with
    | (w, .error e) => ((w, .error e), cache)
    | (w, .ok (l', out)) =>
      if stateful then
        match writeBack fuel l' l w with
        | (w, some e) => ((w, .error e), cache')
        | (w, none) => ((w, .ok out), cache')
      else ((w, .ok out), cache')

/-- What `jax.grad` differentiates (nnx/transforms.py:154-173): the loss as a function of the State `x` given for
the selected entries; `none` if the function raises. -/
def lossAt {L β : Type} (j t : Nat) (d : ModuleDef α) (nondiff : State (PyVal α))
    (body : Loc → World α → World α × Except Err (L × β)) (w : World α) (x : State (PyVal α)) : Option L :=
  match insideTrace j (some t) (mergeAndRun d [x, nondiff] body) w with
  | (_, .ok (_, loss, _)) => some loss
  | (_, .error _) => none

/-- `nnx.grad(fun, wrt)(module)`: `grad` (nnx/transforms.py:243), which converts the filter, and
`GradTransform.__call__` (nnx/transforms.py:180-200), for a function that returns a loss and an auxiliary output
(`has_aux=False` is the case where the latter is trivial). `gradOf` is `jax.grad` (argnums=0). -/
def gradCall {L β : Type} (fuel : Nat) (stateful : Bool) (j t : Nat) (wrt : Filter α)
    (gradOf : (State (PyVal α) → Option L) → State (PyVal α) → State (PyVal α)) (l : Loc)
    (body : Loc → World α → World α × Except Err (L × β)) (w : World α) :
    World α × Except Err (State (PyVal α) × β) :=
  match toPredicate wrt with
  | .error e => (w, .error e)
  | .ok p =>
    match partitionModule fuel w.heap l [.pred p, .ellipsis] with
    | .ok ([diff, nondiff], d) =>
      match insideTrace j (some t) (mergeAndRun d [diff, nondiff] body) w with
      | (w', .error e) => (w', .error e)
      | (w', .ok (l', _, aux)) =>
        let grads := gradOf (lossAt j t d nondiff body w) diff
        if stateful then
          match writeBack fuel l' l w' with
          | (w', some e) => (w', .error e)
          | (w', none) => (w', .ok (grads, aux))
        else (w', .ok (grads, aux))
    | .ok _ => (w, .error .unmodelled)
    | .error e => (w, .error e)

/-- `remat_apply` (nnx/transforms.py:850-891), always stateful; there is no nnx trace. With a `ctx` see `Model/TransformsCtx.lean`. -/
def rematCall {β : Type} (fuel : Nat) (j : Nat) (l : Loc)
    (body : Loc → World α → World α × Except Err β) (w : World α) : World α × Except Err β :=
  match partitionModule fuel w.heap l [] with
  | .error e => (w, .error e)
  | .ok (ss, d) =>
    match insideTrace j none (mergeAndRun d ss body) w with
    | (w, .error e) => (w, .error e)
    | (w, .ok (l', out)) =>
      match partitionModule fuel w.heap l' [] with
      | .ok ([s], _) =>
        match updateState fuel l [s] w with
        | (w, some e) => (w, .error e)
        | (w, none) => (w, .ok out)
      | .ok _ => (w, .error .unmodelled)
      | .error e => (w, .error e)

/-- `RematOptions.__post_init__` (nnx/transforms.py:786-791) on one index: `x + 2 if x >= 0 else x`. -/
def rematArgnum (x : Int) : Int := if 0 ≤ x then x + 2 else x

/-- Python indexing `args[i]` with an int: negative indices count from the end. -/
def pyIndex {A : Type} (xs : List A) (i : Int) : Option A :=
  if 0 ≤ i then xs[i.toNat]? else if -i ≤ xs.length then xs[xs.length - (-i).toNat]? else none

end Nnx
