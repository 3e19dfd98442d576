import Verif.Basic.Dict
/-
nnx/contextlib.py: whose dictionary the flags of a Context are. In Model/Context.lean the flags of a Context are a value; here they are a dictionary object.
-/
namespace Nnx

/-- The dictionaries of flags (Python objects, at addresses), the `_flags` of the Contexts and of the ContextDefs (nnx/contextlib.py:23-31, 81-91), and the dictionaries that the program has made
and can change. -/
structure FlagWorld where
  dicts : List (Dict Str Bool) := []
  ctxs : List Nat := []
  defs : List (List (Str × Bool)) := []
  held : List Nat := []
deriving DecidableEq, Repr

/-- What a program can do; dictionaries, Contexts and ContextDefs are numbered in the order in which the program got them. -/
inductive FlagOp where
  /-- `d = {...}` -/
  | dict (items : List (Str × Bool))
  /-- `d[name] = b` -/
  | set (d : Nat) (name : Str) (b : Bool)
  /-- `d.pop(name, None)` -/
  | del (d : Nat) (name : Str)
  /-- `nnx.context(...)` or `nnx.context(..., flags=d)` -/
  | context (d : Option Nat)
  /-- `ctx.copy()` -/
  | copy (c : Nat)
  /-- `ctx.partition()` -/
  | partition (c : Nat)
  /-- `contextdef.merge(keys)` -/
  | merge (p : Nat)
deriving DecidableEq, Repr

/-- The flags that `ctx.has_flag` and `ctx.get_flag` look at (nnx/contextlib.py:110-114). -/
def FlagWorld.flags (w : FlagWorld) (c : Nat) : Option (Dict Str Bool) := w.ctxs[c]?.bind fun a => w.dicts[a]?

/-- What is in a dictionary of the program. -/
def FlagWorld.dict (w : FlagWorld) (d : Nat) : Option (Dict Str Bool) := w.held[d]?.bind fun a => w.dicts[a]?

/-- A new Context whose flags are a new dictionary that nobody else has. -/
def FlagWorld.fresh (w : FlagWorld) (x : Dict Str Bool) : FlagWorld :=
  { w with dicts := w.dicts ++ [x], ctxs := w.ctxs ++ [w.dicts.length] }

/-- Change the dictionary `d` of the program. -/
def FlagWorld.change (w : FlagWorld) (d : Nat) (f : Dict Str Bool → Dict Str Bool) : FlagWorld :=
  match w.held[d]? with
  | none => w
  | some a =>
    match w.dicts[a]? with
    | none => w
    | some x => { w with dicts := w.dicts.set a (f x) }

/-- One step. `context` stores the dictionary it was given, except that `flags or {}` is a new one if that is empty (nnx/contextlib.py:137, 151); `copy` hands on the dictionary
(nnx/contextlib.py:107-108); `partition` stores a tuple of the items (nnx/contextlib.py:128); `merge` makes a dictionary of them (nnx/contextlib.py:38). Simplifications: only the flags; the Contexts
are used at the trace level that made them (partition raises otherwise, C31_trace_level), the keys given to `merge` are complete, and steps that refer to things that do not exist do nothing. -/
def FlagWorld.step (w : FlagWorld) : FlagOp → FlagWorld
  | .dict items => { w with dicts := w.dicts ++ [dofList items], held := w.held ++ [w.dicts.length] }
  | .set d name b => w.change d fun x => dset x name b
  | .del d name => w.change d fun x => ddel x name
  | .context none => w.fresh []
  | .context (some d) =>
    match w.held[d]? with
    | none => w
    | some a =>
      match w.dicts[a]? with
      | none => w
      | some [] => w.fresh []
      | some (_ :: _) => { w with ctxs := w.ctxs ++ [a] }
  | .copy c =>
    match w.ctxs[c]? with
    | none => w
    | some a => { w with ctxs := w.ctxs ++ [a] }
  | .partition c =>
    match w.flags c with
    | none => w
    | some x => { w with defs := w.defs ++ [x] }
  | .merge p =>
    match w.defs[p]? with
    | none => w
    | some items => w.fresh (dofList items)

/-- A run of a program. -/
def FlagWorld.run (w : FlagWorld) (ops : List FlagOp) : FlagWorld := ops.foldl FlagWorld.step w

end Nnx
