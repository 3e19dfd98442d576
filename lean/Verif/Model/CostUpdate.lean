import Verif.Model.Module
/-
What assignments of States cost: the functions of Model/Module.lean, which also count attribute accesses.
-/
namespace Nnx
variable {α : Type} [DecidableEq α]

/-- `_set_value_at_path` (nnx/module.py:837-843) with a counter: the number of times it is called, which is the number of attributes it reads or assigns. -/
def countSetPath (w : World α) : Attr α → List Str → PyVal α → Except Err (World α × Nat)
  | .ref l, [p], v => (setAttr w l p (.val v)).map fun w => (w, 1)
  | .ref l, p :: q :: ps, v =>
    match varsGet w.heap l p with
    | .error e => .error e
    | .ok a => (countSetPath w a (q :: ps) v).map fun x => (x.1, 1 + x.2)
  | .ref _, [], _ => .error .indexError
  | .val _, _, _ => .error .unmodelled

/-- The second loop of `_update_module` (nnx/module.py:938-940) with the counter. -/
def countAssign (root : Loc) : List (Str × PyVal α) → World α → World α × Option Err × Nat
  | [], w => (w, none, 0)
  | (path, v) :: rest, w =>
    match countSetPath w (.ref root) (splitSlash path) v with
    | .error e => (w, some e, 0)
    | .ok (w, n) =>
      let r := countAssign root rest w
      (r.1, r.2.1, n + r.2.2)

/-- `Module.update_state` (nnx/module.py:637-649, 924-940) with the counter. -/
def countUpdateState (fuel : Nat) (root : Loc) (updates : List (State (PyVal α))) (w : World α) : World α × Option Err × Nat :=
  match getState fuel w.heap root with
  | none => (w, some .recursionError, 0)
  | some current => countAssign root ((current :: updates).foldl (fun d s => dupdate d s.items) []) w

end Nnx
