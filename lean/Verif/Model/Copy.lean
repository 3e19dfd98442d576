import Verif.Model.Module
/-
Python's `copy.copy(module)` and `copy.deepcopy(module)`. Neither `Module` nor `ModuleState` nor `TraceState`
defines `__copy__`, `__deepcopy__` or `__reduce__`, so both functions use the default protocol (the object's
`vars()` and slots); `ids.UUID` defines both (nnx/ids.py:60-65).
-/
namespace Nnx
variable {α : Type} [DecidableEq α]

/-- `copy.copy(module)`: a new object of the same class whose `vars()` is a copy of the dict of the original. The
entry "_module__state" (nnx/module.py:383-389) is the very same `ModuleState` object, so id and trace are the same;
`UUID.__copy__` (nnx/ids.py:64-65) is not called.
Simplified: later changes of the shared `is_initializing` flag through one of the two objects are not propagated to
the other. -/
def shallowCopy (l : Loc) (w : World α) : Except Err (Loc × World α) :=
  match w.heap[l]? with
  | none => .error .unmodelled
  | some o => .ok (w.heap.length, { w with heap := w.heap ++ [o] })

/-- The deep copy of a `TraceState` (slots `_jax_trace` and `_nnx_trace`, nnx/tracers.py:75-80): both `MainTrace`
objects are copied too. `fresh` gives the identity of the copy of a trace; within one call of `deepcopy` the same
object is copied once. -/
def copyTrace (fresh : Nat → Nat) (t : Trace) : Trace := ⟨fresh t.jax, fresh t.nnx⟩

/-- Deep copy of the items of `vars(module)` in order. Module attributes are copied by `rec`, other values are
replaced by equal copies. `memo` maps the Modules copied so far to their copies. -/
def deepCopyAttrs (rec : Loc → World α → Dict Loc Loc → Option (Loc × World α × Dict Loc Loc)) :
    List (Str × Attr α) → World α → Dict Loc Loc → Option (List (Str × Attr α) × World α × Dict Loc Loc)
  | [], w, memo => some ([], w, memo)
  | (n, .val v) :: rest, w, memo =>
    match deepCopyAttrs rec rest w memo with
    | none => none
    | some (as, w, memo) => some ((n, .val v) :: as, w, memo)
  | (n, .ref l) :: rest, w, memo =>
    match rec l w memo with
    | none => none
    | some (l', w, memo) =>
      match deepCopyAttrs rec rest w memo with
      | none => none
      | some (as, w, memo) => some ((n, .ref l') :: as, w, memo)

/-- `copy.deepcopy(module, memo)`: if the Module was copied before, that copy; otherwise a new object is made and put
in the memo, then a copy of `vars()` becomes its `vars()`. The slots of the `ModuleState` (nnx/module.py:383-389) are
deep-copied: the id by `UUID.__deepcopy__`, which draws a new id (nnx/ids.py:60-62), the trace state by `copyTrace`,
the flag as it is. Simplified: the id is drawn before the other attributes are copied ("_module__state" may also come
last in `vars()`; ids are only compared). `none` means that the recursion budget is exhausted (RecursionError). -/
def deepCopyRec (fresh : Nat → Nat) : Nat → Loc → World α → Dict Loc Loc → Option (Loc × World α × Dict Loc Loc)
  | 0, _, _, _ => none
  | fuel + 1, l, w, memo =>
    match dget memo l with
    | some l' => some (l', w, memo)
    | none =>
      match w.heap[l]? with
      | none => none
      | some o =>
        let l' := w.heap.length
        let o' : ModObj α := ⟨o.cls, [], w.nextId + 1, o.isInit, copyTrace fresh o.trace⟩
        match deepCopyAttrs (deepCopyRec fresh fuel) o.attrs { w with heap := w.heap ++ [o'], nextId := w.nextId + 1 }
            (dset memo l l') with
        | none => none
        | some (as, w, memo) => some (l', w.setAttrs l' o' as, memo)

/-- `copy.deepcopy(module)`. Simplified: when the recursion budget is exhausted the partial copies, which nobody can
reach, are not kept. -/
def deepCopy (fresh : Nat → Nat) (fuel : Nat) (l : Loc) (w : World α) : World α × Except Err Loc :=
  match deepCopyRec fresh fuel l w [] with
  | none => (w, .error .recursionError)
  | some (l', w, _) => (w, .ok l')

end Nnx
