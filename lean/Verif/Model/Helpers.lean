import Verif.Model.ModuleOps
import Verif.Model.Pytree
/-
nnx/helpers.py (Sequence, Dict, TrainState, has_keyword_arg) and dataclass Modules (nnx/module.py:414-431).
-/
namespace Nnx

variable {α : Type} [DecidableEq α]

/-! ### Attribute access -/

/-- The properties of `Module` (nnx/module.py:499, 516, 625). Python looks up properties of the class before the instance's
own attributes. -/
def moduleProperties : List Str := [py! "init", py! "is_initializing", py! "apply"]

omit [DecidableEq α] in
/-- `Module.__getattribute__` on what the attribute holds (nnx/module.py:447-453), without `unbox_fn` metadata (see
`unboxed` in Model/Containers.lean). -/
def Attr.unbox : Attr α → Attr α
  | .val (.cont _ v _) => .val v
  | a => a

omit [DecidableEq α] in
/-- `getattr(module, name)` (nnx/module.py:446-453): an attribute of the instance, unboxed. Class members, properties,
"_module__state" and names with "_" that are not attributes (Python's own members have such names) are not modelled; see Model/Lookup.lean. -/
def getAttr (w : World α) (l : Loc) (name : Str) : Except Err (Attr α) :=
  match w.heap[l]? with
  | none => .error .unmodelled
  | some o =>
    if name ∈ moduleProperties ∨ name = py! "_module__state" then .error .unmodelled
    else
      match dget o.attrs name with
      | some a => .ok a.unbox
      | none => if name ∈ o.cls.members ∨ name.head? = some '_' then .error .unmodelled else .error .attributeError

/-- A series of attribute assignments, as `__init__` makes them; it stops at the first exception. -/
def setAttrAll (l : Loc) : List (Str × Attr α) → World α → World α × Option Err
  | [], w => (w, none)
  | (name, value) :: rest, w =>
    match setAttr w l name value with
    | .error e => (w, some e)
    | .ok w => setAttrAll l rest w

/-! ### Sequence -/

/-- Python's `int` inside the opaque values. -/
structure PyInts (α : Type) where
  ofNat : Nat → α
  toNat : α → Option Nat
  toNat_ofNat : ∀ n, toNat (ofNat n) = some n

def cInt : Cls := { name := py! "int" }

/-- `str(n)` -/
def natStr (n : Nat) : Str := Nat.toDigits 10 n

/-- `str(i)` for an int -/
def intStr : Int → Str
  | .ofNat n => natStr n
  | .negSucc n => '-' :: natStr (n + 1)

/-- `self._length` -/
def kLength : Str := py! "_length"

/-- The class `Sequence` (nnx/helpers.py:49). -/
def cSequence : Cls := { name := py! "Sequence", ancestors := [py! "Module"] }

omit [DecidableEq α] in
/-- The assignments of `Sequence.__init__` (nnx/helpers.py:51-55): after the loop `i` is the last index, or 0 if there
was nothing to iterate over. -/
def sequenceSteps (I : PyInts α) (xs : List (Attr α)) : List (Str × Attr α) :=
  (xs.mapIdx fun i x => (natStr i, x)) ++ [(kLength, .val (.data cInt (I.ofNat ((xs.length - 1) + 1))))]

/-- `Sequence(xs)` (nnx/module.py:414-416, nnx/helpers.py:51-55) -/
def sequenceNew (I : PyInts α) (xs : List (Attr α)) (w : World α) : World α × Except Err Loc :=
  let (w, l) := newModule cSequence w
  match setAttrAll l (sequenceSteps I xs) w with
  | (w, some e) => (w, .error e)
  | (w, none) => (w, .ok l)

omit [DecidableEq α] in
/-- `len(seq)` (nnx/helpers.py:66-67) -/
def sequenceLen (I : PyInts α) (w : World α) (l : Loc) : Except Err Nat :=
  match getAttr w l kLength with
  | .error e => .error e
  | .ok (.val (.data _ a)) =>
    match I.toNat a with
    | some n => .ok n
    | none => .error .typeError
  | .ok _ => .error .typeError

omit [DecidableEq α] in
/-- `seq[key]` (nnx/helpers.py:57-60) -/
def sequenceGet (I : PyInts α) (w : World α) (l : Loc) (key : Int) : Except Err (Attr α) :=
  match sequenceLen I w l with
  | .error e => .error e
  | .ok n => if key ≥ n then .error .indexError else getAttr w l (intStr key)

omit [DecidableEq α] in
/-- `list(seq)` (nnx/helpers.py:62-64) -/
def sequenceIter (I : PyInts α) (w : World α) (l : Loc) : Except Err (List (Attr α)) :=
  match sequenceLen I w l with
  | .error e => .error e
  | .ok n => mapE (fun i => getAttr w l (natStr i)) (List.range n)
where
  /-- Collect the results of the items, stopping at the first exception. -/
  mapE {A B : Type} (f : A → Except Err B) : List A → Except Err (List B)
    | [] => .ok []
    | a :: as =>
      match f a with
      | .error e => .error e
      | .ok b =>
        match mapE f as with
        | .error e => .error e
        | .ok bs => .ok (b :: bs)

/-- `inspect.Parameter.kind` -/
inductive ParamKind where
  | positionalOnly
  | positionalOrKeyword
  | varPositional
  | keywordOnly
  | varKeyword
deriving DecidableEq, Repr

/-- `has_keyword_arg(func, name)` (nnx/helpers.py:146-152) on the parameters of the signature. -/
def hasKeywordArg (params : List (Str × ParamKind)) (name : Str) : Bool :=
  params.any fun p => decide (p.1 = name) && (decide (p.2 = .keywordOnly) || decide (p.2 = .positionalOrKeyword))

/-- What a layer returns, as far as `Sequence.__call__` looks at it. -/
inductive Out (V : Type) where
  | tup (xs : List V)
  | dict (kw : Dict Str V)
  | other (v : V)
deriving DecidableEq, Repr

/-- A layer as `Sequence.__call__` sees it: whether it is callable, its signature, and what calling it does. -/
structure Layer (σ V : Type) where
  callable : Bool
  params : List (Str × ParamKind)
  run : List V → Dict Str V → σ → σ × Except Err (Out V)

/-- The arguments for the next layer (nnx/helpers.py:75-84) -/
def nextArgs {V : Type} : Out V → List V × Dict Str V
  | .tup xs => (xs, [])
  | .dict kw => ([], kw)
  | .other v => ([v], [])

/-- `kwargs["ctx"] = ctx` under its condition (nnx/helpers.py:85-86) -/
def addCtx {σ V : Type} (ctx : Option V) (f : Layer σ V) (kwargs : Dict Str V) : Dict Str V :=
  match ctx with
  | some c => if hasKeywordArg f.params (py! "ctx") then dset kwargs (py! "ctx") c else kwargs
  | none => kwargs

/-- The loop of `Sequence.__call__` (nnx/helpers.py:72-90) from index `i` on; `fetch i` is item `i` of the iteration,
read when the loop gets there. -/
def sequenceLoop {σ V : Type} (fetch : Nat → σ → Except Err (Layer σ V)) (ctx : Option V) :
    Nat → Nat → List V → Dict Str V → Out V → σ → σ × Except Err (Out V)
  | 0, _, _, _, output, s => (s, .ok output)
  | n + 1, i, args, kwargs, output, s =>
    match fetch i s with
    | .error e => (s, .error e)
    | .ok f =>
      if f.callable = false then (s, .error .typeError)
      else
        let (args, kwargs) := if i > 0 then nextArgs output else (args, kwargs)
        match f.run args (addCtx ctx f kwargs) s with
        | (s, .error e) => (s, .error e)
        | (s, .ok output) => sequenceLoop fetch ctx n (i + 1) args kwargs output s

omit [DecidableEq α] in
/-- `seq(*args, ctx=ctx, **kwargs)` (nnx/helpers.py:69-90); `layerOf` says what calling an attribute's value does,
`noneV` is Python's `None`. The length is read once, each item when it is needed. -/
def sequenceCall {V : Type} (I : PyInts α) (layerOf : Attr α → Layer (World α) V) (noneV : V) (l : Loc)
    (args : List V) (ctx : Option V) (kwargs : Dict Str V) (w : World α) : World α × Except Err (Out V) :=
  match sequenceLen I w l with
  | .error e => (w, .error e)
  | .ok n =>
    sequenceLoop (fun i w => (getAttr w l (natStr i)).map layerOf) ctx n 0 args kwargs (.other noneV) w

/-! ### Dict -/

/-- The methods of `Module` whose names do not begin with "_" (nnx/module.py:520, 541, 559, 562, 579, 612, 637, 651, 654, 681). -/
def moduleMethods : List Str :=
  [py! "clone", py! "partition", py! "get_state", py! "get_module_def", py! "filter", py! "pop_state", py! "update_state", py! "mutable_state_dict",
    py! "sow", py! "for_each"]

/-- The class `Dict` (nnx/helpers.py:16) with what it inherits from `Module` and `Mapping`. -/
def cDictModule : Cls :=
  { name := py! "Dict", ancestors := [py! "Module"],
    members := moduleMethods ++ [py! "keys", py! "values", py! "items", py! "get"] }

/-- `Dict(items)` (nnx/module.py:414-416, nnx/helpers.py:26-28) -/
def dictNew (items : Dict Str (Attr α)) (w : World α) : World α × Except Err Loc :=
  let (w, l) := newModule cDictModule w
  match setAttrAll l items w with
  | (w, some e) => (w, .error e)
  | (w, none) => (w, .ok l)

omit [DecidableEq α] in
/-- `list(d)` (nnx/helpers.py:42-43): the keys of `vars(self)`, of which "_module__state" is the first
(nnx/module.py:416). -/
def dictKeys (w : World α) (l : Loc) : Except Err (List Str) :=
  match w.heap[l]? with
  | none => .error .unmodelled
  | some o => .ok (py! "_module__state" :: dkeys o.attrs)

omit [DecidableEq α] in
/-- `len(d)` (nnx/helpers.py:45-46) -/
def dictLen (w : World α) (l : Loc) : Except Err Nat :=
  match dictKeys w l with
  | .error e => .error e
  | .ok ks => .ok ks.length

omit [DecidableEq α] in
/-- `d[key]` (nnx/helpers.py:30-31) -/
def dictGet (w : World α) (l : Loc) (key : Str) : Except Err (Attr α) := getAttr w l key

omit [DecidableEq α] in
/-- `key in d`: `Mapping.__contains__` (inherited, nnx/helpers.py:16) is `d[key]` with KeyError caught. -/
def dictContains (w : World α) (l : Loc) (key : Str) : Except Err Bool :=
  match dictGet w l key with
  | .ok _ => .ok true
  | .error .keyError => .ok false
  | .error e => .error e

/-! ### TrainState -/

/-- The optimiser and the arithmetic a `TrainState` uses, as parameters. -/
structure OptaxOps (α : Type) where
  /-- `tx.init(params)` -/
  init : PyVal α → PyVal α → PyVal α
  /-- `tx.update(grads, opt_state, params)` -/
  update : PyVal α → PyVal α → PyVal α → PyVal α → Except Err (PyVal α × PyVal α)
  /-- `optax.apply_updates(params, updates)` -/
  applyUpdates : PyVal α → PyVal α → PyVal α
  /-- `step + 1` -/
  succ : PyVal α → PyVal α

/-- `class TrainState(pytreelib.Pytree)` (nnx/helpers.py:99) -/
def cTrainState : Cls := { name := py! "TrainState", ancestors := [py! "Pytree"] }

omit [DecidableEq α] in
/-- `TreeNode(value)`: containers without metadata -/
def treeNode (v : PyVal α) : PyVal α := .cont cTreeNode v []

omit [DecidableEq α] in
/-- The assignments of `TrainState.__init__` (nnx/helpers.py:101-117); reading `self.params` unboxes it. `step` is the
array `jnp.asarray(step)`. -/
def trainStateSteps (O : OptaxOps α) (moduledef params tx step : PyVal α) (kwargs : Md α) : List (Str × PyVal α) :=
  [(py! "moduledef", moduledef), (py! "params", treeNode params), (py! "tx", tx),
   (py! "opt_state", treeNode (O.init tx params)), (py! "step", treeNode step)] ++ kwargs

omit [DecidableEq α] in
/-- `getattr(self, name)` for a Pytree (nnx/pytreelib.py:77-81) -/
def pyGetattr (vars : Md α) (name : Str) : Except Err (PyVal α) :=
  match dget vars name with
  | some v => .ok (unwrap v)
  | none => .error .attributeError

/-- `state.apply_gradients(grads, **kwargs)` (nnx/helpers.py:134-144): the address of the new TrainState. Keyword
arguments called like one of the three updated fields are a TypeError. -/
def applyGradients (O : OptaxOps α) (env : PEnv α) (l : Nat) (grads : PyVal α) (kwargs : Md α) (h : PHeap α) :
    PHeap α × Except Err Nat :=
  match h[l]? with
  | none => (h, .error .unmodelled)
  | some (_, vars) =>
    match pyGetattr vars (py! "tx"), pyGetattr vars (py! "opt_state"), pyGetattr vars (py! "params") with
    | .ok tx, .ok optState, .ok params =>
      match O.update tx grads optState params with
      | .error e => (h, .error e)
      | .ok (updates, optState) =>
        match pyGetattr vars (py! "step") with
        | .error e => (h, .error e)
        | .ok step =>
          if dhas kwargs (py! "params") || dhas kwargs (py! "opt_state") || dhas kwargs (py! "step") then
            (h, .error .typeError)
          else
            hReplace env l ([(py! "params", O.applyUpdates params updates), (py! "opt_state", optState),
              (py! "step", O.succ step)] ++ kwargs) h
    | .error e, _, _ => (h, .error e)
    | _, .error e, _ => (h, .error e)
    | _, _, .error e => (h, .error e)

omit [DecidableEq α] in
/-- A State as the value of an attribute. Simplification: it is written as an object of the class State with its entries as `vars` (`State._mapping`,
nnx/state.py:28-31). -/
def stateVal (s : State (PyVal α)) : PyVal α := .tree cState s.mapping

omit [DecidableEq α] in
/-- The State that a value is, if it is one. -/
def asState : PyVal α → Option (State (PyVal α))
  | .tree c items => if c = cState then some ⟨items⟩ else none
  | _ => none

/-- An argument of `TrainState.apply`: a State, or the name of an attribute (nnx/helpers.py:124). -/
inductive StateArg (α : Type) where
  | state (s : State (PyVal α))
  | name (n : Str)

omit [DecidableEq α] in
/-- The generator `_states` (nnx/helpers.py:128-130), which runs when its items are passed on. Not modelled: an attribute that is not a State. -/
def resolveStates (vars : Md α) : List (StateArg α) → Except Err (List (State (PyVal α)))
  | [] => .ok []
  | .state s :: args =>
    match resolveStates vars args with
    | .error e => .error e
    | .ok ss => .ok (s :: ss)
  | .name n :: args =>
    match pyGetattr vars n with
    | .error e => .error e
    | .ok v =>
      match asState v with
      | none => .error .unmodelled
      | some s =>
        match resolveStates vars args with
        | .error e => .error e
        | .ok ss => .ok (s :: ss)

/-- `state.apply(*args).method(...)` (nnx/helpers.py:123-132) for the TrainState with the attributes `vars`; `body` is the call of the method on the merged
Module. `asDef` says which ModuleDef a value is; other values in the attribute `moduledef` are not modelled. -/
def trainStateApply {β : Type} (asDef : PyVal α → Option (ModuleDef α)) (fuel : Nat) (vars : Md α) (args : List (StateArg α))
    (body : Loc → World α → World α × Except Err β) (w : World α) : World α × Except Err (β × State (PyVal α) × ModuleDef α) :=
  match pyGetattr vars (py! "moduledef") with
  | .error e => (w, .error e)
  | .ok v =>
    match asDef v with
    | none => (w, .error .unmodelled)
    | some d =>
      match resolveStates vars args with
      | .error e => (w, .error e)
      | .ok states => applyDef fuel d states body w

/-! ### Dataclass Modules -/

/-- One field of a dataclass Module: as for Pytrees (`PField`), but the value may be a Module. -/
structure MField (α : Type) where
  name : Str
  kind : FieldKind α
  default : Option (Attr α)

omit [DecidableEq α] in
/-- The assignments of the `__init__` generated by `dataclasses.dataclass`. -/
def moduleSteps (kw : Dict Str (Attr α)) : List (MField α) → Except Err (List (Str × Attr α))
  | [] => .ok []
  | f :: fs =>
    match (dget kw f.name).orElse (fun _ => f.default) with
    | none => .error .typeError
    | some v =>
      match moduleSteps kw fs with
      | .error e => .error e
      | .ok steps => .ok ((f.name, v) :: steps)

/-- The loop over the fields in `ModuleMeta._meta_call` (nnx/module.py:419-429). Not modelled: a Module in a field
with a container. -/
def wrapModuleFields (l : Loc) : List (MField α) → World α → World α × Option Err
  | [], w => (w, none)
  | f :: fs, w =>
    match f.kind.containerFn with
    | none => wrapModuleFields l fs w
    | some fn =>
      match varsGet w.heap l f.name, w.heap[l]? with
      | .error e, _ => (w, some e)
      | .ok (.ref _), _ => (w, some .unmodelled)
      | .ok (.val _), none => (w, some .unmodelled)
      | .ok (.val value), some o =>
        match fn value with
        | .error e => (w, some e)
        | .ok value => wrapModuleFields l fs (w.setAttrs l o (dset o.attrs f.name (.val value)))

/-- `cls(**kw)` for a dataclass Module (nnx/module.py:414-431) -/
def dataclassModule (c : Cls) (fs : List (MField α)) (kw : Dict Str (Attr α)) (w : World α) : World α × Except Err Loc :=
  let (w, l) := newModule c w
  if kw.any (fun kv => !(fs.map (·.name)).contains kv.1) then (w, .error .typeError)
  else
    match moduleSteps kw fs with
    | .error e => (w, .error e)
    | .ok steps =>
      match setAttrAll l steps w with
      | (w, some e) => (w, .error e)
      | (w, none) =>
        match wrapModuleFields l fs w with
        | (w, some e) => (w, .error e)
        | (w, none) => (w, .ok l)

end Nnx
