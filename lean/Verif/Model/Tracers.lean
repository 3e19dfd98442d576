import Verif.Model.Value
/-
nnx/tracers.py: the stack of nnx traces and trace states.
-/
namespace Nnx

/-- What a TraceState remembers (nnx/tracers.py:75-88); traces are objects compared by identity, here numbers. -/
structure TraceState where
  jaxTrace : Nat
  nnxTrace : Nat
deriving DecidableEq, Repr

/-- Code that uses the tracing API. The exceptions a program raises are numbered. -/
inductive TProg where
  /-- do nothing -/
  | skip
  /-- raise an exception -/
  | raise (e : Nat)
  /-- one after the other -/
  | seq (p q : TProg)
  /-- `with nnx_trace(tr): p` -/
  | block (tr : Nat) (p : TProg)
  /-- run `p` under another innermost jax trace, as jax transformations do -/
  | underJax (tr : Nat) (p : TProg)
  /-- `try: p except: h` -/
  | tryExcept (p h : TProg)
  /-- record `current_nnx_trace()` -/
  | observe
  /-- create a `TraceState()`, and record it -/
  | create
  /-- record `ts.is_valid()` -/
  | check (ts : TraceState)
deriving Repr

/-- What a program records. -/
inductive TObs where
  | current (tr : Nat)
  | created (ts : TraceState)
  | valid (b : Bool)
deriving DecidableEq, Repr

/-- `current_nnx_trace()` (nnx/tracers.py:71-72); `none` is IndexError. -/
def currentNnxTrace (stack : List Nat) : Option Nat := stack.getLast?

/-- `TraceState()` (nnx/tracers.py:78-80) -/
def newTraceState (jax : Nat) (stack : List Nat) : Option TraceState :=
  (currentNnxTrace stack).map (fun n => ⟨jax, n⟩)

/-- `ts.is_valid()` (nnx/tracers.py:90-94) -/
def TraceState.isValid (ts : TraceState) (jax : Nat) (stack : List Nat) : Option Bool :=
  (currentNnxTrace stack).map (fun n => decide (ts.jaxTrace = jax) && decide (ts.nnxTrace = n))

/-- The outcome of a program: what it recorded, the stack afterwards, and the exception it ended with, if any
(`some none` is an IndexError from an empty stack). -/
structure TOut where
  obs : List TObs
  stack : List Nat
  exc : Option (Option Nat)
deriving DecidableEq, Repr

/-- Record something that is computed from the stack. -/
def record (stack : List Nat) : Option TObs → TOut
  | some o => ⟨[o], stack, none⟩
  | none => ⟨[], stack, some none⟩

/-- The steps of `nnx_trace` on the thread-local stack (`TraceContext(threading.local)`, nnx/tracers.py:52-59):
`append` and `pop` (nnx/tracers.py:64, 68). -/
inductive StackOp where
  | push (tr : Nat)
  | pop
deriving DecidableEq, Repr

/-- One step on one stack. -/
def StackOp.apply : StackOp → List Nat → List Nat
  | .push tr, s => s ++ [tr]
  | .pop, s => s.dropLast

/-- Run a program with innermost jax trace `jax` on the stack `TRACE_CONTEXT.nnx_trace_stack` of its thread.
`nnx_trace` (nnx/tracers.py:62-68) appends, runs the body, and pops in the `finally` clause. -/
def TProg.run : TProg → Nat → List Nat → TOut
  | .skip, _, stack => ⟨[], stack, none⟩
  | .raise e, _, stack => ⟨[], stack, some (some e)⟩
  | .seq p q, jax, stack =>
    let r := p.run jax stack
    match r.exc with
    | some e => ⟨r.obs, r.stack, some e⟩
    | none =>
      let r2 := q.run jax r.stack
      ⟨r.obs ++ r2.obs, r2.stack, r2.exc⟩
  | .block tr p, jax, stack =>
    let r := p.run jax ((StackOp.push tr).apply stack)
    match r.stack with
    | [] => ⟨r.obs, [], some none⟩
    | x :: xs => ⟨r.obs, StackOp.pop.apply (x :: xs), r.exc⟩
  | .underJax tr p, _, stack => p.run tr stack
  | .tryExcept p h, jax, stack =>
    let r := p.run jax stack
    match r.exc with
    | none => r
    | some _ =>
      let r2 := h.run jax r.stack
      ⟨r.obs ++ r2.obs, r2.stack, r2.exc⟩
  | .observe, _, stack => record stack ((currentNnxTrace stack).map .current)
  | .create, jax, stack => record stack ((newTraceState jax stack).map .created)
  | .check ts, jax, stack => record stack ((ts.isValid jax stack).map .valid)

/-- A schedule of steps of several threads: each has its own stack. -/
def runStacks (sched : List (Nat × StackOp)) (st : Nat → List Nat) : Nat → List Nat :=
  sched.foldl (fun st top => fun u => if u = top.1 then top.2.apply (st u) else st u) st

end Nnx
