import Verif.Model.Context
/-
Drawing keys in several threads (nnx/contextlib.py). `Context._rngs` never changes after construction, so that calls are given the stream object that
`self._rngs[name]` is. The field `count` of a stream is the only thing that calls change; one step here is one access to it. Simplification: the check of the trace level
(nnx/contextlib.py:99, 117) is passed. A Context made in another thread does not pass it (each thread has JAX and nnx traces of its own, see ModuleThreads), but
`ctx.copy()` (nnx/contextlib.py:107-108), called in the thread, makes one that does and has the same stream objects.
-/
namespace Nnx
variable {κ η : Type}

/-- `make_rng` on a stream (nnx/contextlib.py:102-105), or `fork` in `partition` (nnx/contextlib.py:120-123) with the RngStream that `ContextDef.merge` makes of the
result (nnx/contextlib.py:36). -/
inductive RngCall where
  | draw (s : Nat)
  | fork (s : Nat)
deriving DecidableEq, Repr

/-- The stream that is used. -/
def RngCall.stream : RngCall → Nat
  | .draw s => s
  | .fork s => s

/-- Where a thread is. -/
inductive RngPc where
  | idle
  /-- before `stream.count_path + (stream.count,)` (nnx/contextlib.py:103, 121) -/
  | start (c : RngCall)
  /-- after it, before the read in `stream.count += 1` (nnx/contextlib.py:104, 122) -/
  | counted (c : RngCall) (path : List Nat)
  /-- after that read, before the write -/
  | bumping (c : RngCall) (path : List Nat) (n : Nat)
deriving DecidableEq, Repr

/-- What a call returns. -/
inductive RngResult (κ : Type) where
  | key (k : κ)
  | stream (s : Nat)
deriving DecidableEq, Repr

/-- The streams, where each thread is, and the calls that have returned, in this order. -/
structure RngMachine (κ : Type) where
  streams : List (RngStream κ)
  threads : Nat → RngPc
  log : List (Nat × RngCall × RngResult κ)

/-- Thread `t` is now there. -/
def RngMachine.goto (m : RngMachine κ) (t : Nat) (pc : RngPc) : RngMachine κ :=
  { m with threads := fun u => if u = t then pc else m.threads u }

/-- What happens: a thread calls, or makes its next step, or an asynchronous exception (such as KeyboardInterrupt) is raised in it. -/
inductive RngEvent where
  | call (t : Nat) (c : RngCall)
  | step (t : Nat)
  | abort (t : Nat)
deriving DecidableEq, Repr

/-- The streams and the result when a call returns: `count` has been written, the key is folded in (nnx/contextlib.py:105), or the new stream is there
(nnx/contextlib.py:123, 36). -/
def rngReturn (P : RngPrims κ η) (c : RngCall) (path : List Nat) (n : Nat) (st : RngStream κ) (ss : List (RngStream κ)) :
    List (RngStream κ) × RngResult κ :=
  match c with
  | .draw s => (ss.set s { st with count := n + 1 }, .key (P.foldIn st.key (P.hash (encodeCounts path))))
  | .fork s => (ss.set s { st with count := n + 1 } ++ [⟨st.key, 0, path⟩], .stream ss.length)

/-- The next step of a thread (nnx/contextlib.py:102-105, 120-123). -/
def rngStep (P : RngPrims κ η) (t : Nat) (m : RngMachine κ) : RngMachine κ :=
  match m.threads t with
  | .idle => m
  | .start c =>
    match m.streams[c.stream]? with
    | none => m.goto t .idle
    | some st => m.goto t (.counted c (st.path ++ [st.count]))
  | .counted c path =>
    match m.streams[c.stream]? with
    | none => m.goto t .idle
    | some st => m.goto t (.bumping c path st.count)
  | .bumping c path n =>
    match m.streams[c.stream]? with
    | none => m.goto t .idle
    | some st =>
      { (m.goto t .idle) with
        streams := (rngReturn P c path n st m.streams).1
        log := m.log ++ [(t, c, (rngReturn P c path n st m.streams).2)] }

/-- One event; a thread that is inside a call does not begin another one. An exception ends a call before its write to `count`; one that comes after the write discards the result of a
call that is complete here. -/
def rngEvent (P : RngPrims κ η) (m : RngMachine κ) : RngEvent → RngMachine κ
  | .call t c =>
    match m.threads t with
    | .idle => m.goto t (.start c)
    | _ => m
  | .step t => rngStep P t m
  | .abort t => m.goto t .idle

/-- A schedule. -/
def rngEvents (P : RngPrims κ η) (m : RngMachine κ) (evs : List RngEvent) : RngMachine κ := evs.foldl (rngEvent P) m

end Nnx
