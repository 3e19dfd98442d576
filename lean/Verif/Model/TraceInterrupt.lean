import Verif.Model.Tracers
import Verif.Model.Spmd
/-
Programs with nnx_trace or logical_axis_rules blocks interrupted by an asynchronous exception.
-/
namespace Nnx

/-- Where a program stopped: `left` is the number of steps that were left before the interruption (`none`: it was interrupted), the stack, and the exception of its own. -/
structure TStop where
  left : Option Nat
  stack : List Nat
  exc : Option (Option Nat)
deriving DecidableEq, Repr

/-- One step that does not change the stack. -/
def TStop.step (n : Nat) (r : TOut) (stack : List Nat) : TStop :=
  match n with
  | 0 => ⟨none, stack, none⟩
  | n + 1 => ⟨some n, r.stack, r.exc⟩

/-- The program run until an asynchronous exception (KeyboardInterrupt, a signal handler) arrives, after `n` steps. In `nnx_trace` (nnx/tracers.py:62-68) the steps are: `append` (line 64), which
comes before the `try` (line 65); the body; and `pop` in the `finally` clause (line 68). An exception between `append` and `try` does not run the `finally` clause; one in the `finally` clause
before `pop` leaves it. Simplification: `except` clauses catch the exceptions of programs, not the interruption (KeyboardInterrupt is no Exception). -/
def TProg.interrupted : TProg → Nat → Nat → List Nat → TStop
  | .seq p q, n, jax, stack =>
    match p.interrupted n jax stack with
    | ⟨some n, stack, none⟩ => q.interrupted n jax stack
    | r => r
  | .block _ _, 0, _, stack => ⟨none, stack, none⟩
  | .block tr _, 1, _, stack => ⟨none, (StackOp.push tr).apply stack, none⟩
  | .block tr p, n + 2, jax, stack =>
    match p.interrupted n jax ((StackOp.push tr).apply stack) with
    | ⟨none, stack, e⟩ => ⟨none, StackOp.pop.apply stack, e⟩
    | ⟨some 0, stack, _⟩ => ⟨none, stack, none⟩
    | ⟨some (n + 1), stack, e⟩ => ⟨some n, StackOp.pop.apply stack, e⟩
  | .underJax tr p, n, _, stack => p.interrupted n tr stack
  | .tryExcept p h, n, jax, stack =>
    match p.interrupted n jax stack with
    | ⟨some n, stack, some _⟩ => h.interrupted n jax stack
    | r => r
  | .skip, n, jax, stack => .step n (TProg.skip.run jax stack) stack
  | .raise e, n, jax, stack => .step n ((TProg.raise e).run jax stack) stack
  | .observe, n, jax, stack => .step n (TProg.observe.run jax stack) stack
  | .create, n, jax, stack => .step n (TProg.create.run jax stack) stack
  | .check ts, n, jax, stack => .step n ((TProg.check ts).run jax stack) stack

/-- Where a program with rules stopped. -/
structure RStop where
  left : Option Nat
  rules : List LRule
  exc : Option Nat
deriving DecidableEq, Repr

/-- One step that is interrupted before it has an effect or not at all. -/
def RStop.step (n : Nat) (a : ROut) (r : List LRule) : RStop :=
  match n with
  | 0 => ⟨none, r, none⟩
  | n + 1 => ⟨some n, a.rules, a.exc⟩

/-- The program run until an asynchronous exception arrives, after `n` steps. `logical_axis_rules` (nnx/spmd.py:129-137) sets the new rules (line 134) inside of the `try`, so that an exception
right after it still runs the `finally` clause, which is the second step (line 137); an exception in that clause before the assignment leaves the rules of the body in force. `except` clauses as
in `TProg.interrupted`. -/
def RProg.interrupted : RProg → Nat → List LRule → RStop
  | .seq p q, n, r =>
    match p.interrupted n r with
    | ⟨some n, r, none⟩ => q.interrupted n r
    | a => a
  | .block _ _, 0, r => ⟨none, r, none⟩
  | .block rules p, n + 1, r =>
    match p.interrupted n rules with
    | ⟨none, _, e⟩ => ⟨none, r, e⟩
    | ⟨some 0, rules, _⟩ => ⟨none, rules, none⟩
    | ⟨some (n + 1), _, e⟩ => ⟨some n, r, e⟩
  | .tryExcept p h, n, r =>
    match p.interrupted n r with
    | ⟨some n, r, some _⟩ => h.interrupted n r
    | a => a
  | .skip, n, r => .step n (RProg.skip.run r) r
  | .raise e, n, r => .step n ((RProg.raise e).run r) r
  | .set rules, n, r => .step n ((RProg.set rules).run r) r
  | .observe, n, r => .step n (RProg.observe.run r) r

end Nnx
