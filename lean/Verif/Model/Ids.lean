import Verif.Basic.Dict
/-
nnx/ids.py: the id counter, called from any number of threads.
-/
namespace Nnx

/-- `UUID` (nnx/ids.py:45-65): `==` and `hash` are those of the number. -/
structure UUID where
  id : Nat
deriving DecidableEq, Repr

/-- A way to ask for an id: `ids.uuid()`, `copy.copy(u)` or `copy.deepcopy(u)`. The latter two ignore `u` and call
`ids.uuid()` (nnx/ids.py:60-65). -/
inductive IdCall where
  | new
  | copy (u : UUID)
  | deepcopy (u : UUID)
deriving DecidableEq, Repr

/-- Where a thread is inside `UUIDManager.__call__` (nnx/ids.py:36-39). -/
inductive IdPc where
  /-- not inside a call -/
  | idle
  /-- at `with self._lock:`, not in yet -/
  | wait
  /-- holds the lock, about to read `self._id` for `+=` -/
  | entered
  /-- has read `v`, about to write `v + 1` -/
  | loaded (v : Nat)
  /-- has written, about to read `self._id` for `UUID(self._id)` -/
  | stored
  /-- has the result, about to release the lock and return -/
  | ready (u : UUID)
deriving DecidableEq, Repr

/-- The manager (`_lock` and `_id`, nnx/ids.py:32-34), the threads, and all ids returned so far by any call. -/
structure IdState where
  lock : Option Nat
  counter : Nat
  pc : Nat → IdPc
  returned : List UUID

/-- `uuid = UUIDManager()` (nnx/ids.py:42) -/
def IdState.init : IdState := ⟨none, 0, fun _ => .idle, []⟩

/-- What the scheduler may let a thread do. -/
inductive IdAct where
  /-- start a call -/
  | call (k : IdCall)
  /-- execute the next atomic step of the call it is in -/
  | run
  /-- an asynchronous exception (such as KeyboardInterrupt) is raised in the thread -/
  | interrupt
deriving DecidableEq, Repr

/-- A thread moves to another point. -/
def IdState.goto (s : IdState) (t : Nat) (p : IdPc) : Nat → IdPc := fun u => if u = t then p else s.pc u

/-- One atomic step of thread `t` (nnx/ids.py:36-39). A thread waiting for a lock that is held does not move. Leaving the
`with` block, normally or by an exception, releases the lock. -/
def idStep (t : Nat) (a : IdAct) (s : IdState) : IdState :=
  match a with
  | .call _ =>
    match s.pc t with
    | .idle => { s with pc := s.goto t .wait }
    | _ => s
  | .run =>
    match s.pc t with
    | .idle => s
    | .wait =>
      match s.lock with
      | none => { s with lock := some t, pc := s.goto t .entered }
      | some _ => s
    | .entered => { s with pc := s.goto t (.loaded s.counter) }
    | .loaded v => { s with counter := v + 1, pc := s.goto t .stored }
    | .stored => { s with pc := s.goto t (.ready ⟨s.counter⟩) }
    | .ready u => { s with lock := none, pc := s.goto t .idle, returned := u :: s.returned }
  | .interrupt =>
    match s.pc t with
    | .idle => s
    | .wait => { s with pc := s.goto t .idle }
    | _ => { s with lock := none, pc := s.goto t .idle }

/-- The state after a schedule: any sequence of steps of any threads. -/
def idRun (sched : List (Nat × IdAct)) (s : IdState) : IdState :=
  sched.foldl (fun s ta => idStep ta.1 ta.2 s) s

end Nnx
