import Verif.Model.Transforms
import Verif.Model.Context
/-
The `ctx` argument of `nnx.remat` and `nnx.jit` (nnx/transforms.py). The Modules and the Contexts of a program are kept in two worlds that are changed
together; both record the current traces.
-/
namespace Nnx
variable {α κ β : Type}

/-- The Modules and the Contexts. -/
abbrev Joint (α κ : Type) := World α × RngWorld κ

/-- Set the current jax trace. -/
def RngWorld.inJax (r : RngWorld κ) (j : Nat) : RngWorld κ := { r with jaxTrace := j }

variable [DecidableEq α]

/-- `ctxdef.merge(keys)`, `moduledef.merge(state)` and the call of the function in `_remat_fn` (nnx/transforms.py:871-877). -/
def mergeAndRunCtx (d : ModuleDef α) (ss : List (State (PyVal α))) (p : PureContext κ)
    (body : Loc → Nat → Joint α κ → Joint α κ × Except Err β) (x : Joint α κ) : Joint α κ × Except Err (Loc × β) :=
  match mergeCtx p x.2 with
  | (r, .error e) => ((x.1, r), .error e)
  | (r, .ok c) =>
    match mergeDef d ss x.1 with
    | (w, .error e) => ((w, r), .error e)
    | (w, .ok l) =>
      match body l c (w, r) with
      | (x, .error e) => (x, .error e)
      | (x, .ok b) => (x, .ok (l, b))

omit [DecidableEq α] in
/-- Run inside the trace `j` that `jax.checkpoint` opens (nnx/transforms.py:883-888). -/
def insideJax {γ : Type} (j : Nat) (f : Joint α κ → Joint α κ × γ) (x : Joint α κ) : Joint α κ × γ :=
  let y := f ({ x.1 with jaxTrace := j }, x.2.inJax j)
  (({ y.1.1 with jaxTrace := x.1.jaxTrace, nnxStack := x.1.nnxStack }, y.1.2.inJax x.2.jaxTrace), y.2)

/-- `remat_apply` with a Context (nnx/transforms.py:850-891): the Module is partitioned before the Context. -/
def rematCtxCall (fuel : Nat) (j : Nat) (l : Loc) (c : Nat) (body : Loc → Nat → Joint α κ → Joint α κ × Except Err β) (x : Joint α κ) :
    Joint α κ × Except Err β :=
  match partitionModule fuel x.1.heap l [] with
  | .error e => (x, .error e)
  | .ok (ss, d) =>
    match partitionCtx c x.2 with
    | (r, .error e) => ((x.1, r), .error e)
    | (r, .ok p) =>
      match insideJax j (mergeAndRunCtx d ss p body) (x.1, r) with
      | (x, .error e) => (x, .error e)
      | (x, .ok (l', out)) =>
        match partitionModule fuel x.1.heap l' [] with
        | .ok ([s], _) =>
          match updateState fuel l [s] x.1 with
          | (w, some e) => ((w, x.2), .error e)
          | (w, none) => ((w, x.2), .ok out)
        | .ok _ => (x, .error .unmodelled)
        | .error e => (x, .error e)

/-- A leaf of the arguments of a function given to `jax.jit`. -/
inductive ArgLeaf (κ : Type) where
  | array (k : κ)
  | contextDef

/-- The leaves of a PureContext as a tree (nnx/contextlib.py:61-71): the keys, and the ContextDef, whose type is not registered with jax. -/
def pureContextLeaves (p : PureContext κ) : List (ArgLeaf κ) :=
  (sortItems p.keys).map (fun kv => .array kv.2) ++ [.contextDef]

/-- Whether `jax.jit` accepts a leaf of its arguments (an external fact: it must be an array or a number). -/
def ArgLeaf.traceable : ArgLeaf κ → Bool
  | .array _ => true
  | .contextDef => false

/-- How `ctx` is passed on to `jax.jit`: as an ordinary argument, or named in `static_argnames`, in which case it must be hashable; a PureContext is a
tuple with a dict in it. -/
def jitCtxArg (isStatic : Bool) (p : PureContext κ) : Except Err (PureContext κ) :=
  if isStatic then .error .valueError
  else if (pureContextLeaves p).all ArgLeaf.traceable then .ok p else .error .typeError

/-- `jitted_fn` with a Context, if `jax.jit` accepted it, and what follows in `__call__` (nnx/transforms.py:43-58, 69-73): the Context is merged before the nnx trace `t` is
entered. -/
def jitCtxRun (fuel : Nat) (stateful : Bool) (j t : Nat) (l : Loc) (ss : List (State (PyVal α))) (d : ModuleDef α) (p : PureContext κ)
    (body : Loc → Nat → Joint α κ → Joint α κ × Except Err β) (x : Joint α κ) : Joint α κ × Except Err β :=
  let leave (y : Joint α κ) : Joint α κ := ({ y.1 with jaxTrace := x.1.jaxTrace, nnxStack := x.1.nnxStack },
    { y.2 with jaxTrace := x.2.jaxTrace, nnxStack := x.2.nnxStack })
  match mergeCtx p (x.2.inJax j) with
  | (r, .error e) => (leave (x.1, r), .error e)
  | (r, .ok c) =>
    match mergeDef d ss { x.1 with jaxTrace := j, nnxStack := x.1.nnxStack ++ [t] } with
    | (w, .error e) => (leave (w, r), .error e)
    | (w, .ok l') =>
      match body l' c (w, { r with nnxStack := r.nnxStack ++ [t] }) with
      | (y, .error e) => (leave y, .error e)
      | (y, .ok b) =>
        if stateful then
          match writeBack fuel l' l (leave y).1 with
          | (w, some e) => ((w, (leave y).2), .error e)
          | (w, none) => ((w, (leave y).2), .ok b)
        else (leave y, .ok b)

/-- `JitTransform.__call__` with a Context (nnx/transforms.py:61-73): the Context is partitioned before the Module; `isStatic` says whether "ctx" is one of the
`static_argnames`. -/
def jitCtxCall (fuel : Nat) (stateful isStatic : Bool) (j t : Nat) (l : Loc) (c : Nat) (body : Loc → Nat → Joint α κ → Joint α κ × Except Err β) (x : Joint α κ) :
    Joint α κ × Except Err β :=
  match partitionCtx c x.2 with
  | (r, .error e) => ((x.1, r), .error e)
  | (r, .ok p) =>
    match partitionModule fuel x.1.heap l [] with
    | .error e => ((x.1, r), .error e)
    | .ok (ss, d) =>
      match jitCtxArg isStatic p with
      | .error e => ((x.1, r), .error e)
      | .ok p => jitCtxRun fuel stateful j t l ss d p body (x.1, r)

end Nnx
