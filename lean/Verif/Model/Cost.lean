import Verif.Model.Module
/-
What the traversals of a Module graph cost: the same functions as in Model/Module.lean, which also count how
often the body of the `for` loop over the attributes of a Module runs.
-/
namespace Nnx
variable {α : Type}

/-- The loop of `_iter_state_recursive` (nnx/module.py:828-834) with a counter: the number of times that its body,
and the body of the same loop in the recursive calls, runs. -/
def countStateAttrs (rec : Loc → List Nat → List Str → Option (List (Str × PyVal α) × List Nat × Nat)) :
    List (Str × Attr α) → List Nat → List Str → Option (List (Str × PyVal α) × List Nat × Nat)
  | [], seen, _ => some ([], seen, 0)
  | (name, .ref l) :: rest, seen, parts =>
    match rec l seen (parts ++ [name]) with
    | none => none
    | some (ys, seen, n) =>
      match countStateAttrs rec rest seen parts with
      | none => none
      | some (zs, seen, m) => some (ys ++ zs, seen, 1 + n + m)
  | (name, .val v) :: rest, seen, parts =>
    match countStateAttrs rec rest seen parts with
    | none => none
    | some (zs, seen, m) =>
      if v.isNode then some ((joinSlash (parts ++ [name]), v) :: zs, seen, 1 + m) else some (zs, seen, 1 + m)

/-- `_iter_state_recursive` (nnx/module.py:820-834) with the counter. -/
def countStateRec (h : Heap α) :
    Nat → Loc → List Nat → List Str → Option (List (Str × PyVal α) × List Nat × Nat)
  | 0, _, _, _ => none
  | fuel + 1, l, seen, parts =>
    match h[l]? with
    | none => none
    | some o =>
      if o.uid ∈ seen then some ([], seen, 0)
      else countStateAttrs (countStateRec h fuel) (sortItems o.attrs) (seen ++ [o.uid]) parts

/-- `Module.get_state()` (nnx/module.py:559, 767-768, 813-817) with the counter. -/
def countGetState (fuel : Nat) (h : Heap α) (l : Loc) : Option (State (PyVal α) × Nat) :=
  match countStateRec h fuel l [] [] with
  | none => none
  | some (items, _, n) => some (.new items, n)

/-- The loop of `_make_module_def_recursive` (nnx/module.py:795-801) with a counter. -/
def countDefAttrs (rec : Loc → List Nat → Option ((Nat ⊕ ModuleDef α) × List Nat × Nat)) :
    List (Str × Attr α) → List Nat → Option (Subs α × List (Str × PyVal α) × List Nat × Nat)
  | [], idx => some (.nil, [], idx, 0)
  | (name, .ref l) :: rest, idx =>
    match rec l idx with
    | none => none
    | some (d, idx, n) =>
      match countDefAttrs rec rest idx with
      | none => none
      | some (subs, statics, idx, m) => some (.cons name d subs, statics, idx, 1 + n + m)
  | (name, .val v) :: rest, idx =>
    match countDefAttrs rec rest idx with
    | none => none
    | some (subs, statics, idx, m) =>
      if !v.isNode && !isReserved name then some (subs, (name, v) :: statics, idx, 1 + m)
      else some (subs, statics, idx, 1 + m)

/-- `_make_module_def_recursive` (nnx/module.py:781-810) with the counter. -/
def countDefRec (h : Heap α) : Nat → Loc → List Nat → Option ((Nat ⊕ ModuleDef α) × List Nat × Nat)
  | 0, _, _ => none
  | fuel + 1, l, idx =>
    match h[l]? with
    | none => none
    | some o =>
      if o.uid ∈ idx then some (.inl (idx.findIdx (· == o.uid)), idx, 0)
      else
        match countDefAttrs (countDefRec h fuel) (sortItems o.attrs) (idx ++ [o.uid]) with
        | none => none
        | some (subs, statics, idx', n) => some (.inr ⟨o.cls, idx.length, subs, statics, o.isInit⟩, idx', n)

/-- `Module.get_module_def()` (nnx/module.py:562, 771-778) with the counter. -/
def countGetModuleDef (fuel : Nat) (h : Heap α) (l : Loc) : Option (ModuleDef α × Nat) :=
  match countDefRec h fuel l [] with
  | some (.inr d, _, n) => some (d, n)
  | _ => none

end Nnx
