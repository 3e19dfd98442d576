import Verif.Model.ModuleOps
/-
nnx/tracers.py and the places that use it: which trace a Module is made in, and which traces the transformations of jax and of nnx enter.
-/
namespace Nnx

/-- `jax.core.MainTrace`, an object compared by identity (`id`), with its `level`. jax is external. -/
structure Main where
  level : Nat
  id : Nat
deriving DecidableEq, Repr

/-- What jax and nnx keep per thread: the traces that have been entered and not left (innermost first, without the base trace), jax's `dynamic`
trace, `TRACE_CONTEXT.nnx_trace_stack` (nnx/tracers.py:52-59; the last is the current one), and a number that is larger than the identities of all
trace objects made so far. -/
structure Tracing where
  mains : List Main
  dynamic : Main
  nnx : List Main
  next : Nat
deriving DecidableEq, Repr

/-- At the start: the base trace of jax, which is also the only entry of the nnx stack (nnx/tracers.py:55-57). -/
def Tracing.start : Tracing := ⟨[], ⟨0, 0⟩, [⟨0, 0⟩], 1⟩

/-- `max((x for x in xs if isinstance(x, Tracer)), key=lambda x: x._trace.level)`: of the traces of the tracers, the first of the highest level. A
leaf is `some m` if it is a tracer of the trace `m`. -/
def topTracer : List (Option Main) → Option Main
  | [] => none
  | none :: xs => topTracer xs
  | some m :: xs =>
    match topTracer xs with
    | none => some m
    | some n => if m.level < n.level then some n else some m

/-- `jax.core.find_top_trace(leaves).main`: the trace of the highest tracer, or the dynamic trace if that is higher (or there is no tracer). jax is
external. -/
def findTopTrace (dynamic : Main) (leaves : List (Option Main)) : Main :=
  match topTracer leaves with
  | none => dynamic
  | some m => if m.level < dynamic.level then dynamic else m

/-- `get_top_trace(pytree)` (nnx/tracers.py:20-25); the first case is that of a single tracer. -/
def getTopTrace (dynamic : Main) (leaves : List (Option Main)) : Main := findTopTrace dynamic leaves

/-- `current_jax_trace()` (nnx/tracers.py:28-30) -/
def currentJaxTrace (dynamic : Main) : Main := getTopTrace dynamic []

/-- The ways to run a function under a new trace. -/
inductive Transform where
  /-- `jax.jit`, `jax.lax.scan`, `jax.checkpoint`, `jax.eval_shape`: the function is run once, with tracers, and jax makes the new trace the dynamic
  one. `nnx.remat` (nnx/transforms.py:867-891) and `nnx.scan` (nnx/transforms.py:549-763) do this and do not use `nnx_trace`. -/
  | staged
  /-- `jax.grad`, `jax.jvp`, `jax.vmap`: the function is run with tracers of a new trace; the dynamic trace stays the same. Simplification:
  `jax.grad` enters two traces, one after the other; this is the second, to which the tracers belong. -/
  | mapped
  /-- `nnx.jit`, where the arguments besides the Module have `n` arrays (nnx/transforms.py:43-50) -/
  | nnxJit (n : Nat)
  /-- `nnx.grad`, where the State that is differentiated has `n` arrays (nnx/transforms.py:147-164) -/
  | nnxGrad (n : Nat)
deriving DecidableEq, Repr

/-- The traces while the function runs. The new trace is one level above those that have been entered; the arrays given to the function are tracers of
it. `nnx.jit` and `nnx.grad` push `get_top_trace` of the arguments (nnx/transforms.py:48-49, 162). -/
def Tracing.enter (T : Tracing) : Transform → Tracing
  | .staged =>
    let m : Main := ⟨T.mains.length + 1, T.next⟩
    { mains := m :: T.mains, dynamic := m, nnx := T.nnx, next := T.next + 1 }
  | .mapped =>
    let m : Main := ⟨T.mains.length + 1, T.next⟩
    { mains := m :: T.mains, dynamic := T.dynamic, nnx := T.nnx, next := T.next + 1 }
  | .nnxJit n =>
    let m : Main := ⟨T.mains.length + 1, T.next⟩
    { mains := m :: T.mains, dynamic := m, nnx := T.nnx ++ [getTopTrace m (List.replicate n (some m))], next := T.next + 1 }
  | .nnxGrad n =>
    let m : Main := ⟨T.mains.length + 1, T.next⟩
    { mains := m :: T.mains, dynamic := T.dynamic, nnx := T.nnx ++ [getTopTrace T.dynamic (List.replicate n (some m))], next := T.next + 1 }

/-- The traces after the function has returned or raised: those from before (`T`); trace objects are not made twice. -/
def Tracing.leave (T inner : Tracing) : Tracing := { T with next := inner.next }

variable {α : Type}

/-- The world as the guard of Modules sees it (nnx/tracers.py:78-80, 90-94): `current_jax_trace()` and the stack of nnx traces. -/
def World.under (w : World α) (T : Tracing) : World α := { w with jaxTrace := (currentJaxTrace T.dynamic).id, nnxStack := T.nnx.map Main.id }

end Nnx
