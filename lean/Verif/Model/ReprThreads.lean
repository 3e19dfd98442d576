import Verif.Model.Repr
/-
`repr` of Modules in several threads (nnx/module.py:473-497, nnx/reprlib.py). The global variable `SEEN_MODULES_REPR` (nnx/module.py:378) is shared by all threads;
the indentation (`ReprContext(threading.local)`, nnx/reprlib.py:8-13) is not. One step here is one access to the shared variable, or the code
between two of them.
-/
namespace Nnx
variable {α : Type}

/-- A call of `get_repr` on a Module in progress: the generator `__nnx_repr__` is in its loop, inside `try`. The first element of `todo` is the attribute that is
being printed, if it is a Module; `lines` are the elements so far. -/
structure ReprFrame (α : Type) where
  loc : Loc
  clear : Bool
  todo : List (Str × Attr α)
  lines : List Str
deriving DecidableEq, Repr

/-- Where a thread is. -/
inductive ReprPhase where
  /-- before line 476: `if SEEN_MODULES_REPR is None` -/
  | enter (l : Loc)
  /-- before line 477: `SEEN_MODULES_REPR = set()` -/
  | create (l : Loc)
  /-- before line 482: `if id in SEEN_MODULES_REPR`; the flag is `clear_seen` -/
  | test (l : Loc) (clear : Bool)
  /-- before line 487: `SEEN_MODULES_REPR.add(id)` -/
  | add (l : Loc) (clear : Bool)
  /-- in the loop of the innermost call -/
  | loop
  /-- `repr` of a Module returns a text to the innermost call -/
  | ret (s : Str)
  /-- an exception has left all calls, and the generators are not yet collected -/
  | raised (e : Err)
deriving DecidableEq, Repr

/-- What a thread does: nothing, printing, or it has printed: `root` is the Module it was asked to print. -/
inductive ReprStatus (α : Type) where
  | idle
  | printing (root : Loc) (phase : ReprPhase) (frames : List (ReprFrame α))
  | finished (root : Loc) (r : Except Err Str)
deriving DecidableEq, Repr

/-- `REPR_CONTEXT.indent_stack` (nnx/reprlib.py:10) inside `n` calls of `add_indent` -/
def indents : Nat → List Str
  | 0 => [[]]
  | n + 1 => ((indents n).headD [] ++ py! "  ") :: indents n

/-- The printer state of a thread as far as the formatting of lines needs it. -/
def ctxAt (n : Nat) : ReprCtx := ⟨indents n, none, []⟩

/-- The text of an attribute that is not a Module (nnx/reprlib.py:73), inside `n` calls of `add_indent` -/
def valueText (showVal : PyVal α → Except Err Str) (n : Nat) : PyVal α → Except Err Str
  | .str s => .ok s
  | .cont c v m => (reprContainer showVal c v m (ctxAt n)).2
  | v => showVal v

/-- One step in the loop of the innermost call: the next attribute (nnx/module.py:490-494, nnx/reprlib.py:69-78), or the end of the loop, with the
`finally` clause (nnx/module.py:495-497) and the assembly of the text (nnx/reprlib.py:82-91). -/
def loopStep (showVal : PyVal α → Except Err Str) (h : Heap α) (root : Loc) (seen : Option (List Nat)) :
    List (ReprFrame α) → Option (List Nat) × ReprStatus α
  | [] => (seen, .finished root (.error .unmodelled))
  | f :: fs =>
    match f.todo with
    | [] =>
      match h[f.loc]? with
      | none => (seen, .finished root (.error .unmodelled))
      | some o => (if f.clear then none else seen, .printing root (.ret (finishRepr (ctxAt fs.length) o.cls.name [] f.lines)) fs)
    | (name, a) :: rest =>
      if listed name a = false then (seen, .printing root .loop ({ f with todo := rest } :: fs))
      else
        match a with
        | .ref l => (seen, .printing root (.enter l) (f :: fs))
        | .val v =>
          match valueText showVal (fs.length + 1) v with
          | .error e => (seen, .printing root (.raised e) (f :: fs))
          | .ok s => (seen, .printing root .loop
              ({ f with todo := rest, lines := f.lines ++ [elemLine (ctxAt (fs.length + 1)) (Attr.representable (.val v)) name s] } :: fs))

/-- The text of a Module arrives in the innermost call, or at the end. -/
def retStep (root : Loc) (seen : Option (List Nat)) (s : Str) : List (ReprFrame α) → Option (List Nat) × ReprStatus α
  | [] => (seen, .finished root (.ok s))
  | f :: fs =>
    match f.todo with
    | [] => (seen, .finished root (.error .unmodelled))
    | (name, _) :: rest => (seen, .printing root .loop
        ({ f with todo := rest, lines := f.lines ++ [elemLine (ctxAt (fs.length + 1)) true name s] } :: fs))

/-- One step of a thread that prints. `id in None` is a TypeError, `None.add` an AttributeError; both leave the generator before its `try`. When the generators are
collected after an exception, the `finally` clauses of those in their loops run (nnx/module.py:495-497). -/
def reprStep (showVal : PyVal α → Except Err Str) (h : Heap α) (root : Loc) (seen : Option (List Nat)) :
    ReprPhase → List (ReprFrame α) → Option (List Nat) × ReprStatus α
  | .enter l, fs => if seen.isNone then (seen, .printing root (.create l) fs) else (seen, .printing root (.test l false) fs)
  | .create l, fs => (some [], .printing root (.test l true) fs)
  | .test l clear, fs =>
    match seen, h[l]? with
    | none, _ => (seen, .printing root (.raised .typeError) fs)
    | some _, none => (seen, .printing root (.raised .unmodelled) fs)
    | some ids, some o =>
      if o.uid ∈ ids then (seen, .printing root (.ret (finishRepr (ctxAt fs.length) o.cls.name (py! "...") [])) fs)
      else (seen, .printing root (.add l clear) fs)
  | .add l clear, fs =>
    match seen, h[l]? with
    | none, _ => (seen, .printing root (.raised .attributeError) fs)
    | some _, none => (seen, .printing root (.raised .unmodelled) fs)
    | some ids, some o => (some (ids ++ [o.uid]), .printing root .loop (⟨l, clear, o.attrs, []⟩ :: fs))
  | .loop, fs => loopStep showVal h root seen fs
  | .ret s, fs => retStep root seen s fs
  | .raised e, fs => (if fs.any (·.clear) then none else seen, .finished root (.error e))

/-- All threads: the shared variable, and what each thread does. -/
structure ReprWorld (α : Type) where
  seen : Option (List Nat)
  threads : Nat → ReprStatus α

/-- What can happen: a thread calls `repr(module)`, or a thread makes its next step. -/
inductive ReprEvent where
  | call (t : Nat) (l : Loc)
  | step (t : Nat)
deriving DecidableEq, Repr

/-- Thread `t` is now in this state. -/
def ReprWorld.set (g : ReprWorld α) (t : Nat) (seen : Option (List Nat)) (st : ReprStatus α) : ReprWorld α :=
  ⟨seen, fun u => if u = t then st else g.threads u⟩

/-- One event. A thread that is printing cannot start to print, and one that is not does nothing in a step. -/
def reprEvent (showVal : PyVal α → Except Err Str) (h : Heap α) (g : ReprWorld α) : ReprEvent → ReprWorld α
  | .call t l =>
    match g.threads t with
    | .printing _ _ _ => g
    | _ => g.set t g.seen (.printing l (.enter l) [])
  | .step t =>
    match g.threads t with
    | .printing root phase fs => g.set t (reprStep showVal h root g.seen phase fs).1 (reprStep showVal h root g.seen phase fs).2
    | _ => g

/-- A schedule. -/
def reprEvents (showVal : PyVal α → Except Err Str) (h : Heap α) (g : ReprWorld α) (evs : List ReprEvent) : ReprWorld α :=
  evs.foldl (reprEvent showVal h) g

end Nnx
