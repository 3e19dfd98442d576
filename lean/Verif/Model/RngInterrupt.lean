import Verif.Model.Context
/-
make_rng and partition interrupted by an asynchronous exception.
-/
namespace Nnx
variable {κ η : Type}

/-- `ctx.make_rng(name)` (nnx/contextlib.py:96-105) stopped by the exception `kbd`, which does not come from the code itself (KeyboardInterrupt, a signal handler). Its only write is
`stream.count += 1` (line 104): the exception arrives before it (`counted = false`: in the checks, at the hash) or after it (in `fold_in`). The exceptions of the checks come first. -/
def makeRngInterrupted (kbd : Err) (counted : Bool) (c : Nat) (name : Str) (w : RngWorld κ) : RngWorld κ × Err :=
  match w.ctxs[c]? with
  | none => (w, .unmodelled)
  | some ctx =>
    match dget ctx.rngs name with
    | none => (w, .valueError)
    | some s =>
      if ctx.trace = w.curTrace then
        match w.streams[s]? with
        | none => (w, .unmodelled)
        | some st => (if counted then { w with streams := bump w.streams s st } else w, kbd)
      else (w, .traceContextError)

/-- `ctx.partition()` (nnx/contextlib.py:116-128) stopped by `kbd` when the first `n` streams of the comprehension (line 125) have been counted up (all of them when `n` is at least their number:
the exception arrives in the rest of the method). The forked streams are local to the call and are lost. -/
def partitionInterrupted (kbd : Err) (n : Nat) (c : Nat) (w : RngWorld κ) : RngWorld κ × Err :=
  match w.ctxs[c]? with
  | none => (w, .unmodelled)
  | some ctx =>
    if ctx.trace = w.curTrace then
      match forkAll (ctx.rngs.take n) w.streams with
      | none => (w, .unmodelled)
      | some (ss, _) => ({ w with streams := ss }, kbd)
    else (w, .traceContextError)

end Nnx
