import Verif.Model.Containers
/-
nnx/pytreelib.py and nnx/dataclasses.py: Pytree objects.
-/
namespace Nnx

variable {α : Type}

/-- "_pytree__sorted_fields", the entry of `vars` that lists the fields -/
def kSorted : Str := py! "_pytree__sorted_fields"
/-- "_pytree__is_mutable", present in `vars` inside `_mutable` (nnx/pytreelib.py:23-29) -/
def kMutable : Str := py! "_pytree__is_mutable"
/-- "_pytree__initializing", present in `vars` inside `_initializing` (nnx/pytreelib.py:32-38) -/
def kInit : Str := py! "_pytree__initializing"

/-- How a dataclass field was declared (nnx/dataclasses.py:11-146). -/
inductive FieldKind (α : Type) where
  /-- `field()` -/
  | plain
  /-- `node_field()` -/
  | node
  /-- `static_field()` -/
  | static
  /-- `var_field(vt, sharding=...)`, and `param_field()` with `vt = Param`, `sharding = None` -/
  | var (vt : Cls) (sharding : PyVal α)

/-- A dataclass field; `default` is the default value or the result of the default factory.
Simplification: `init=False` fields are not modelled. -/
structure PField (α : Type) where
  name : Str
  kind : FieldKind α
  default : Option (PyVal α)

/-- What the class of a Pytree object declares: the `mutable` argument of the class statement
(nnx/pytreelib.py:102-106), and for dataclasses the fields and `frozen`. -/
structure PInfo (α : Type) where
  mutable : Bool
  dataclass : Option (List (PField α) × Bool)

/-- The declarations of all classes. -/
abbrev PEnv (α : Type) := Cls → PInfo α

variable [DecidableEq α]

/-- `field.metadata["nnx_container_fn"]` (nnx/dataclasses.py:52, 83, 113) -/
def FieldKind.containerFn : FieldKind α → Option (PyVal α → Except Err (PyVal α))
  | .plain => none
  | .node => some (fun v => construct cNode v [])
  | .static => some (fun v => construct cStatic v [])
  | .var vt sh => some (fun v => construct vt v [(py! "sharding", sh)])

/-- `Pytree._setattr` (nnx/pytreelib.py:86-100) on `vars(self)` -/
def setattrVars (mutable : Bool) (vars : Md α) (name : Str) (value : PyVal α) : Except Err (Md α) :=
  if !dhas vars kInit && !dhas vars name then .error .attributeError
  else if !dhas vars kInit && (!dhas vars kMutable && !mutable) then .error .attributeError
  else
    match dget vars name, value with
    | some (.cont c v m), value => (replace (.cont c v m) [(py! "value", value)]).map (dset vars name)
    | _, .cont c v m => (copy (.cont c v m)).map (dset vars name)
    | _, value => .ok (dset vars name value)

/-- `obj.name = value`: a frozen dataclass has its own `__setattr__`, which raises FrozenInstanceError, an
AttributeError. -/
def PInfo.setattr (i : PInfo α) (vars : Md α) (name : Str) (value : PyVal α) : Except Err (Md α) :=
  match i.dataclass with
  | some (_, true) => .error .attributeError
  | _ => setattrVars i.mutable vars name value

/-- An assignment in `__init__`. The generated `__init__` of a frozen dataclass writes with `object.__setattr__`. -/
def PInfo.initSetattr (i : PInfo α) (vars : Md α) (name : Str) (value : PyVal α) : Except Err (Md α) :=
  match i.dataclass with
  | some (_, true) => .ok (dset vars name value)
  | _ => setattrVars i.mutable vars name value

/-- `__init__`: the assignments it makes, in order. -/
def runInit (i : PInfo α) : List (Str × PyVal α) → Md α → Except Err (Md α)
  | [], vars => .ok vars
  | (name, value) :: rest, vars =>
    match i.initSetattr vars name value with
    | .error e => .error e
    | .ok vars => runInit i rest vars

/-- The loop of `PytreeMeta.call` over dataclass fields (nnx/pytreelib.py:54-63) -/
def wrapFields : List (PField α) → Md α → Except Err (Md α)
  | [], vars => .ok vars
  | f :: fs, vars =>
    match f.kind.containerFn with
    | none => wrapFields fs vars
    | some fn =>
      match dget vars f.name with
      | none => .error .keyError
      | some value =>
        match fn value with
        | .error e => .error e
        | .ok value => wrapFields fs (dset vars f.name value)

omit [DecidableEq α] in
/-- The value stored under "_pytree__sorted_fields": `sorted(vars(obj))` (nnx/pytreelib.py:65) -/
def sortedNames (vars : Md α) : PyVal α := .tup ((sortItems vars).map (fun kv => .str kv.1))

/-- `PytreeMeta.call` (nnx/pytreelib.py:47-67), given the assignments made by `__init__`: the new object's `vars`. -/
def callVars (i : PInfo α) (steps : List (Str × PyVal α)) : Except Err (Md α) :=
  match runInit i steps (dset (dset [(kSorted, .tup [.str kSorted])] kMutable .none) kInit .none) with
  | .error e => .error e
  | .ok vars =>
    match wrapFields (i.dataclass.elim [] (·.1)) (ddel (ddel vars kInit) kMutable) with
    | .error e => .error e
    | .ok vars => .ok (dset vars kSorted (sortedNames vars))

omit [DecidableEq α] in
/-- The assignments of the `__init__` that `dataclasses.dataclass` generates, for keyword arguments `kw`: a missing
argument without default, or an unknown one, is a TypeError. -/
def dataclassSteps (kw : Md α) : List (PField α) → Except Err (List (Str × PyVal α))
  | [] => .ok []
  | f :: fs =>
    match (dget kw f.name).orElse (fun _ => f.default) with
    | none => .error .typeError
    | some v =>
      match dataclassSteps kw fs with
      | .error e => .error e
      | .ok steps => .ok ((f.name, v) :: steps)

/-- `cls(**kw)` for a dataclass Pytree -/
def callDataclass (i : PInfo α) (fs : List (PField α)) (kw : Md α) : Except Err (Md α) :=
  if kw.any (fun kv => !(fs.map (·.name)).contains kv.1) then .error .typeError
  else
    match dataclassSteps kw fs with
    | .error e => .error e
    | .ok steps => callVars i steps

omit [DecidableEq α] in
/-- `Pytree.__getattribute__` on a stored value (nnx/pytreelib.py:77-81) -/
def unwrap : PyVal α → PyVal α
  | .cont _ v _ => v
  | v => v

/-! ### Objects with identity -/

/-- The Pytree objects that exist: class and `vars`, by address. Field values are values: that two fields hold the same
mutable object is not modelled. -/
abbrev PHeap (α : Type) := List (Cls × Md α)

/-- `obj.name = value` -/
def hSetattr (env : PEnv α) (l : Nat) (name : Str) (value : PyVal α) (h : PHeap α) : PHeap α × Option Err :=
  match h[l]? with
  | none => (h, some .unmodelled)
  | some (c, vars) =>
    match (env c).setattr vars name value with
    | .error e => (h, some e)
    | .ok vars => (h.set l (c, vars), none)

/-- The loop of `replace` (nnx/pytreelib.py:252-253) -/
def hSetattrs (env : PEnv α) (l : Nat) : Md α → PHeap α → PHeap α × Option Err
  | [], h => (h, none)
  | (name, value) :: rest, h =>
    match hSetattr env l name value h with
    | (h, some e) => (h, some e)
    | (h, none) => hSetattrs env l rest h

omit [DecidableEq α] in
/-- Change the `vars` of one object. -/
def hModify (l : Nat) (f : Md α → Md α) (h : PHeap α) : PHeap α :=
  match h[l]? with
  | none => h
  | some (c, vars) => h.set l (c, f vars)

omit [DecidableEq α] in
/-- The keyword arguments of `dataclasses.replace`: fields that are not replaced are read with `getattr`. -/
def replaceArgs (vars kw : Md α) : List (PField α) → Except Err (Md α)
  | [] => .ok kw
  | f :: fs =>
    match replaceArgs vars kw fs with
    | .error e => .error e
    | .ok kw' =>
      if dhas kw f.name then .ok kw'
      else
        match dget vars f.name with
        | none => .error .attributeError
        | some v => .ok ((f.name, unwrap v) :: kw')

/-- `obj.replace(**kw)` (nnx/pytreelib.py:233-255): returns the address of the new object. -/
def hReplace (env : PEnv α) (l : Nat) (kw : Md α) (h : PHeap α) : PHeap α × Except Err Nat :=
  match h[l]? with
  | none => (h, .error .unmodelled)
  | some (c, vars) =>
    match (env c).dataclass with
    | some (fs, _) =>
      match replaceArgs vars kw fs with
      | .error e => (h, .error e)
      | .ok kw =>
        match callDataclass (env c) fs kw with
        | .error e => (h, .error e)
        | .ok vars => (h ++ [(c, vars)], .ok h.length)
    | none =>
      if kw.any (fun kv => !dhas vars kv.1) && !(env c).mutable then (h, .error .valueError)
      else
        let l' := h.length
        match hSetattrs env l' kw (hModify l' (fun vars => dset vars kMutable .none) (h ++ [(c, vars)])) with
        | (h, some e) => (hModify l' (fun vars => ddel vars kMutable) h, .error e)
        | (h, none) => (hModify l' (fun vars => ddel vars kMutable) h, .ok l')

/-! ### JAX pytree functions -/

omit [DecidableEq α] in
/-- `pytree._pytree__sorted_fields` -/
def sortedFields (vars : Md α) : Option (List Str) :=
  match dget vars kSorted with
  | some (.tup xs) => xs.mapM (fun x => match x with | .str s => some s | _ => none)
  | _ => none

omit [DecidableEq α] in
/-- The loop of `_pytree__flatten` (nnx/pytreelib.py:165-175): node fields and static fields. -/
def flattenFields (vars : Md α) : List Str → Except Err (List (Str × PyVal α) × Md α)
  | [] => .ok ([], [])
  | f :: fs =>
    match dget vars f with
    | none => .error .keyError
    | some v =>
      match flattenFields vars fs with
      | .error e => .error e
      | .ok (nodes, static) => if v.isNode then .ok ((f, v) :: nodes, static) else .ok (nodes, (f, v) :: static)

omit [DecidableEq α] in
/-- `_pytree__flatten(pytree, with_key_paths=True)` (nnx/pytreelib.py:153-177): children with their keys, node names, static
fields. -/
def pytreeFlattenKeys : PyVal α → Except Err (List (Str × PyVal α) × (List Str × Md α))
  | .tree _ vars =>
    match sortedFields vars with
    | none => .error .attributeError
    | some fs =>
      match flattenFields vars fs with
      | .error e => .error e
      | .ok (nodes, static) => .ok (nodes, (nodes.map (·.1), static))
  | _ => .error .attributeError

omit [DecidableEq α] in
/-- `_pytree__flatten(pytree, with_key_paths=False)` -/
def pytreeFlatten (p : PyVal α) : Except Err (List (PyVal α) × (List Str × Md α)) :=
  match pytreeFlattenKeys p with
  | .error e => .error e
  | .ok (nodes, aux) => .ok (nodes.map (·.2), aux)

omit [DecidableEq α] in
/-- `_pytree__unflatten` (nnx/pytreelib.py:179-189) -/
def pytreeUnflatten (c : Cls) (aux : List Str × Md α) (values : List (PyVal α)) : PyVal α :=
  .tree c (dupdate (dupdate [] (aux.1.zip values)) aux.2)

/-! ### flax state dicts -/

omit [DecidableEq α] in
mutual
/-- `flax.serialization.to_state_dict`, which calls `_to_flax_state_dict` (nnx/pytreelib.py:191-200) for Pytrees. flax is
external: other values are returned as they are (flax also converts lists, tuples and dicts of these; not modelled). -/
def toStateDict : PyVal α → PyVal α
  | .tree _ vars => .dict (toStateDictVars vars)
  | v => v
def toStateDictVars : List (Str × PyVal α) → List (Str × PyVal α)
  | [] => []
  | (name, .cont c v m) :: rest =>
    if (PyVal.cont c v m).isNode then (name, toStateDict v) :: toStateDictVars rest else toStateDictVars rest
  | (name, v) :: rest => if v.isNode then (name, toStateDict v) :: toStateDictVars rest else toStateDictVars rest
end

/-- `obj.replace(**kw)` as a function on values -/
def replaceVal (env : PEnv α) (c : Cls) (vars kw : Md α) : Except Err (PyVal α) :=
  match hReplace env 0 kw [(c, vars)] with
  | (_, .error e) => .error e
  | (h, .ok l) =>
    match h[l]? with
    | none => .error .unmodelled
    | some (c, vars) => .ok (.tree c vars)

mutual
/-- `flax.serialization.from_state_dict(target, state)`, which calls `_from_flax_state_dict` (nnx/pytreelib.py:202-231) for
Pytrees; for a target of an unregistered type (an array, a container) it returns the state. -/
def fromStateDict (env : PEnv α) : PyVal α → PyVal α → Except Err (PyVal α)
  | .tree c vars, .dict state =>
    match restoreVars env vars state with
    | .error e => .error e
    | .ok (updates, []) => replaceVal env c vars updates
    | .ok (_, _ :: _) => .error .valueError
  | .tree _ _, _ => .error .unmodelled
  | .tup _, _ => .error .unmodelled
  | .dict _, _ => .error .unmodelled
  | _, state => .ok state
/-- The loop at nnx/pytreelib.py:213-223: the updates, and what is left of the state dict. -/
def restoreVars (env : PEnv α) : List (Str × PyVal α) → Md α → Except Err (Md α × Md α)
  | [], state => .ok ([], state)
  | (name, v) :: rest, state =>
    if v.isNode then
      match dget state name with
      | none => .error .valueError
      | some vs =>
        match fromStateDict env v vs with
        | .error e => .error e
        | .ok x =>
          match restoreVars env rest (ddel state name) with
          | .error e => .error e
          | .ok (updates, state) => .ok ((name, x) :: updates, state)
    else restoreVars env rest state
end

end Nnx
