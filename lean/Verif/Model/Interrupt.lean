import Verif.Model.Module
import Verif.Model.ModuleOps
/-
update_state and pop_state interrupted by an asynchronous exception.
-/
namespace Nnx
variable {α : Type} [DecidableEq α]

/-- `Module.update_state(updates)` (nnx/module.py:637-649) stopped by an exception that does not come from the
code itself (KeyboardInterrupt, a signal handler): the loop of `_update_module` (nnx/module.py:938-940) has
completed `n` assignments. Between two assignments nothing of the Module changes: the state is collected and the
updates are joined in local variables, and `_setattr` (nnx/module.py:458-468) changes the Module by one store into
`vars(self)`. -/
def updateInterrupted (n fuel : Nat) (root : Loc) (updates : List (State (PyVal α))) (w : World α) : World α :=
  match getState fuel w.heap root with
  | none => w
  | some current => (assignAll root (((current :: updates).foldl (fun d s => dupdate d s.items) []).take n) w).1

/-! ### pop_state -/

/-- The heap that is left and, unless the call has been stopped or has raised: how many more attributes may be
deleted before the interruption, `module_index` and the dicts. -/
abbrev PopUpTo (α : Type) := Heap α × Option (Nat × List Nat × List (Dict Str (PyVal α)))

/-- The loop of `_pop_recursive` (nnx/module.py:907-919), stopped when `budget` attributes have been deleted and
one more would be. Between two deletions only local variables change. -/
def popAttrsUpTo (rec : Nat → Loc → Heap α → List Nat → List Str → List (Dict Str (PyVal α)) → PopUpTo α)
    (preds : List (Pred α)) (l : Loc) :
    List (Str × Attr α) → Nat → Heap α → List Nat → List Str → List (Dict Str (PyVal α)) → PopUpTo α
  | [], budget, h, idx, _, states => (h, some (budget, idx, states))
  | (name, .ref l') :: rest, budget, h, idx, parts, states =>
    match rec budget l' h idx (parts ++ [name]) states with
    | (h, none) => (h, none)
    | (h, some (budget, idx, states)) => popAttrsUpTo rec preds l rest budget h idx parts states
  | (name, .val v) :: rest, budget, h, idx, parts, states =>
    if v.isNode then
      match popInsert preds states (joinSlash (parts ++ [name])) v with
      | none => popAttrsUpTo rec preds l rest budget h idx parts states
      | some states =>
        match budget with
        | 0 => (h, none)
        | budget + 1 =>
          match delAttr h l name with
          | .error _ => (h, none)
          | .ok h => popAttrsUpTo rec preds l rest budget h idx parts states
    else popAttrsUpTo rec preds l rest budget h idx parts states

/-- `_pop_recursive` (nnx/module.py:897-921), stopped after `budget` deletions. -/
def popRecUpTo (preds : List (Pred α)) :
    Nat → Nat → Loc → Heap α → List Nat → List Str → List (Dict Str (PyVal α)) → PopUpTo α
  | 0, _, _, h, _, _, _ => (h, none)
  | fuel + 1, budget, l, h, idx, parts, states =>
    match h[l]? with
    | none => (h, none)
    | some o =>
      if o.uid ∈ idx then (h, some (budget, idx, states))
      else
        match popAttrsUpTo (popRecUpTo preds fuel) preds l o.attrs budget h idx parts states with
        | (h, none) => (h, none)
        | (h, some (budget, idx, states)) => (h, some (budget, idx ++ [o.uid], states))

/-- `Module.pop_state(*filters)` (nnx/module.py:612-623, 884-894) stopped by an exception that does not come from
the code itself when `n` attributes have been deleted (all of them, if there are at most `n`: the call is stopped
before it returns). The values are in local dicts, which are dropped. -/
def popInterrupted (n fuel : Nat) (l : Loc) (filters : List (Filter α)) (h : Heap α) : Heap α :=
  if filters.isEmpty then h
  else
    match toPredicates filters with
    | .error _ => h
    | .ok preds => (popRecUpTo preds fuel n l h [] [] (List.replicate preds.length [])).1

end Nnx
