import Verif.Model.State
import Verif.Model.Containers
/-
nnx/module.py (and the parts of nnx/tracers.py and nnx/ids.py it uses): Modules as heap objects.
-/
namespace Nnx

variable {α : Type} [DecidableEq α]

/-- The address of a Module object. -/
abbrev Loc := Nat

/-- What an attribute of a Module holds: a reference to a Module, or another value. -/
inductive Attr (α : Type) where
  | ref (l : Loc)
  | val (v : PyVal α)
deriving DecidableEq, Repr

/-- `tracers.TraceState` (nnx/tracers.py:75-80): the jax and the nnx trace at creation. Traces are
compared by identity, so they are represented by numbers. -/
structure Trace where
  jax : Nat
  nnx : Nat
deriving DecidableEq, Repr

/-- A Module object: its class, its `vars()` without "_module__state", and the three fields of the
`ModuleState` stored under "_module__state" (nnx/module.py:383-389). `uid` is the `ids.UUID`. -/
structure ModObj (α : Type) where
  cls : Cls
  attrs : Dict Str (Attr α)
  uid : Nat
  isInit : Bool
  trace : Trace
deriving DecidableEq, Repr

abbrev Heap (α : Type) := List (ModObj α)

/-- Everything the code reads or writes globally: the heap of Modules, the id counter
(nnx/ids.py:33,37), the current jax trace, and `TRACE_CONTEXT.nnx_trace_stack` (nnx/tracers.py:52-59;
the last element is the current nnx trace). -/
structure World (α : Type) where
  heap : Heap α
  nextId : Nat
  jaxTrace : Nat
  nnxStack : List Nat
deriving DecidableEq, Repr

/-- `TraceState()` (nnx/tracers.py:78-80) -/
def World.curTrace (w : World α) : Trace := ⟨w.jaxTrace, w.nnxStack.getLastD 0⟩

/-- `trace_state.is_valid()` (nnx/tracers.py:90-94) -/
def World.traceValid (w : World α) (t : Trace) : Bool :=
  decide (t.jax = w.curTrace.jax) && decide (t.nnx = w.curTrace.nnx)

/-- `isinstance(value, Module)` -/
def Attr.isModule : Attr α → Bool
  | .ref _ => true
  | .val _ => false

/-- `nodes.is_node(value)` for an attribute; a Module is not a node. -/
def Attr.isNode : Attr α → Bool
  | .ref _ => false
  | .val v => v.isNode

/-! ### Attribute assignment -/

/-- The value stored by `Module._setattr` (nnx/module.py:462-468), given what the attribute holds now.
A container attribute keeps its kind: `replace(value=value)`; otherwise containers are copied.
Not modelled: storing a Module inside a container. -/
def storedAttr (old : Option (Attr α)) (new : Attr α) : Except Err (Attr α) :=
  match old, new with
  | some (.val (.cont c v m)), .val nv => (replace (.cont c v m) [(py! "value", nv)]).map .val
  | some (.val (.cont _ _ _)), .ref _ => .error .unmodelled
  | _, .val (.cont c v m) => (copy (.cont c v m)).map .val
  | _, new => .ok new

/-- Replace the attribute dict of one Module. -/
def World.setAttrs (w : World α) (l : Loc) (o : ModObj α) (attrs : Dict Str (Attr α)) : World α :=
  { w with heap := w.heap.set l { o with attrs := attrs } }

/-- `Module._setattr(name, value)` (nnx/module.py:458-468), i.e. `module.name = value`. Not modelled:
overwriting the internal "_module__state". -/
def setAttr (w : World α) (l : Loc) (name : Str) (new : Attr α) : Except Err (World α) :=
  match w.heap[l]? with
  | none => .error .unmodelled
  | some o =>
    if w.traceValid o.trace = false then .error .traceContextError
    else if name = py! "_module__state" then .error .unmodelled
    else
      match storedAttr (dget o.attrs name) new with
      | .error e => .error e
      | .ok a => .ok (w.setAttrs l o (dset o.attrs name a))

/-- `vars(module)[name]` for a Module; KeyError if absent. -/
def varsGet (h : Heap α) (l : Loc) (name : Str) : Except Err (Attr α) :=
  match h[l]? with
  | none => .error .unmodelled
  | some o =>
    match dget o.attrs name with
    | none => .error .keyError
    | some a => .ok a

/-- `_get_value_path(module, path)` (nnx/module.py:846-850). Not modelled: paths that continue through a
value that is not a Module (TypeError, or the inside of a container). -/
def getValuePath (h : Heap α) : Attr α → List Str → Except Err (Attr α)
  | a, [] => .ok a
  | .ref l, p :: ps =>
    match varsGet h l p with
    | .error e => .error e
    | .ok a => getValuePath h a ps
  | .val _, _ :: _ => .error .unmodelled

/-- `_set_value_at_path(module, path_parts, value)` (nnx/module.py:837-843). Not modelled: paths that
continue through a value that is not a Module. -/
def setValueAtPath (w : World α) : Attr α → List Str → PyVal α → Except Err (World α)
  | .ref l, [p], v => setAttr w l p (.val v)
  | .ref l, p :: q :: ps, v =>
    match varsGet w.heap l p with
    | .error e => .error e
    | .ok a => setValueAtPath w a (q :: ps) v
  | .ref _, [], _ => .error .indexError
  | .val _, _, _ => .error .unmodelled

/-! ### get_state -/

/-- The loop of `_iter_state_recursive` (nnx/module.py:828-834) over sorted attributes. `rec` is the
recursive call. Returns the yielded pairs and the set of seen ids. -/
def iterStateAttrs (rec : Loc → List Nat → List Str → Option (List (Str × PyVal α) × List Nat)) :
    List (Str × Attr α) → List Nat → List Str → Option (List (Str × PyVal α) × List Nat)
  | [], seen, _ => some ([], seen)
  | (name, .ref l) :: rest, seen, parts =>
    match rec l seen (parts ++ [name]) with
    | none => none
    | some (ys, seen) =>
      match iterStateAttrs rec rest seen parts with
      | none => none
      | some (zs, seen) => some (ys ++ zs, seen)
  | (name, .val v) :: rest, seen, parts =>
    match iterStateAttrs rec rest seen parts with
    | none => none
    | some (zs, seen) =>
      if v.isNode then some ((joinSlash (parts ++ [name]), v) :: zs, seen) else some (zs, seen)

/-- `_iter_state_recursive` (nnx/module.py:820-834). `none` means that the recursion budget is exhausted
(Python: RecursionError), or a dangling reference. -/
def iterStateRec (h : Heap α) : Nat → Loc → List Nat → List Str → Option (List (Str × PyVal α) × List Nat)
  | 0, _, _, _ => none
  | fuel + 1, l, seen, parts =>
    match h[l]? with
    | none => none
    | some o =>
      if o.uid ∈ seen then some ([], seen)
      else iterStateAttrs (iterStateRec h fuel) (sortItems o.attrs) (seen ++ [o.uid]) parts

/-- `Module.get_state()` / `_get_module_state` (nnx/module.py:559, 767-768, 813-817). -/
def getState (fuel : Nat) (h : Heap α) (l : Loc) : Option (State (PyVal α)) :=
  match iterStateRec h fuel l [] [] with
  | none => none
  | some (items, _) => some (.new items)

/-! ### ModuleDef -/

/-- The `submodules` tuple of a ModuleDef (nnx/module.py:93): a list of (name, index of an already
listed module) and (name, ModuleDef), written as one inductive type in first-child/next-sibling form. -/
inductive Subs (α : Type) where
  | nil
  | ref (name : Str) (index : Nat) (rest : Subs α)
  | sub (name : Str) (cls : Cls) (index : Nat) (subs : Subs α) (statics : List (Str × PyVal α))
      (isInit : Bool) (rest : Subs α)
deriving DecidableEq, Repr

/-- `ModuleDef` (nnx/module.py:86-101). -/
structure ModuleDef (α : Type) where
  cls : Cls
  index : Nat
  subs : Subs α
  statics : List (Str × PyVal α)
  isInit : Bool
deriving DecidableEq, Repr

/-- Prepend `(name, submodule_def)` (nnx/module.py:799). -/
def Subs.cons (name : Str) (d : Nat ⊕ ModuleDef α) (rest : Subs α) : Subs α :=
  match d with
  | .inl i => .ref name i rest
  | .inr d => .sub name d.cls d.index d.subs d.statics d.isInit rest

/-- `name.startswith("_module__")` (nnx/module.py:800) -/
def isReserved (name : Str) : Bool := (py! "_module__").isPrefixOf name

/-- The loop of `_make_module_def_recursive` (nnx/module.py:795-801). -/
def makeDefAttrs (rec : Loc → List Nat → Option ((Nat ⊕ ModuleDef α) × List Nat)) :
    List (Str × Attr α) → List Nat → Option (Subs α × List (Str × PyVal α) × List Nat)
  | [], idx => some (.nil, [], idx)
  | (name, .ref l) :: rest, idx =>
    match rec l idx with
    | none => none
    | some (d, idx) =>
      match makeDefAttrs rec rest idx with
      | none => none
      | some (subs, statics, idx) => some (.cons name d subs, statics, idx)
  | (name, .val v) :: rest, idx =>
    match makeDefAttrs rec rest idx with
    | none => none
    | some (subs, statics, idx) =>
      if !v.isNode && !isReserved name then some (subs, (name, v) :: statics, idx)
      else some (subs, statics, idx)

/-- `_make_module_def_recursive` (nnx/module.py:781-810). `module_index` maps ids to 0,1,2,... in order of
insertion, so it is represented by the list of ids. -/
def makeDefRec (h : Heap α) : Nat → Loc → List Nat → Option ((Nat ⊕ ModuleDef α) × List Nat)
  | 0, _, _ => none
  | fuel + 1, l, idx =>
    match h[l]? with
    | none => none
    | some o =>
      if o.uid ∈ idx then some (.inl (idx.findIdx (· == o.uid)), idx)
      else
        match makeDefAttrs (makeDefRec h fuel) (sortItems o.attrs) (idx ++ [o.uid]) with
        | none => none
        | some (subs, statics, idx') => some (.inr ⟨o.cls, idx.length, subs, statics, o.isInit⟩, idx')

/-- `Module.get_module_def()` / `_get_module_def` (nnx/module.py:562, 771-778). -/
def getModuleDef (fuel : Nat) (h : Heap α) (l : Loc) : Option (ModuleDef α) :=
  match makeDefRec h fuel l [] with
  | some (.inr d, _) => some d
  | _ => none

/-- `ModuleDef.__eq__` (nnx/module.py:114-121) on submodules: index and module_state are ignored. -/
def Subs.eqv : Subs α → Subs α → Bool
  | .nil, .nil => true
  | .ref n i r, .ref n' i' r' => decide (n = n') && decide (i = i') && r.eqv r'
  | .sub n c _ s st _ r, .sub n' c' _ s' st' _ r' =>
    decide (n = n') && decide (c = c') && s.eqv s' && decide (st = st') && r.eqv r'
  | _, _ => false

/-- `ModuleDef.__eq__` (nnx/module.py:114-121) -/
def ModuleDef.eqv (d e : ModuleDef α) : Bool :=
  decide (d.cls = e.cls) && d.subs.eqv e.subs && decide (d.statics = e.statics)

/-! ### Building a module from its definition -/

/-- Allocate `object.__new__(type)` (nnx/module.py:869): no attributes and no ModuleState yet (`uid` 0
is never produced by the id counter). -/
def World.allocDummy (w : World α) (c : Cls) : World α :=
  { w with heap := w.heap ++ [⟨c, [], 0, false, ⟨0, 0⟩⟩] }

/-- Fill in a built module (nnx/module.py:877-879): static fields, submodules, and a new ModuleState with a
fresh id (nnx/ids.py:37-38) and the current trace. -/
def World.finish (w : World α) (l : Loc) (c : Cls) (statics : List (Str × PyVal α))
    (subs : List (Str × Loc)) (isInit : Bool) : World α :=
  { w with
    heap := w.heap.set l
      ⟨c, dupdate (dupdate [] (statics.map (fun kv => (kv.1, .val kv.2))))
            (dofList (subs.map (fun kv => (kv.1, .ref kv.2)))),
        w.nextId + 1, isInit, w.curTrace⟩
    nextId := w.nextId + 1 }

/-- `_build_module_recursive` (nnx/module.py:859-881) on the submodules of a definition, in order.
`im` is `index_module`. -/
def buildSubs : Subs α → World α → Dict Nat Loc → Except Err (List (Str × Loc) × World α × Dict Nat Loc)
  | .nil, w, im => .ok ([], w, im)
  | .ref name i rest, w, im =>
    match dget im i with
    | none => .error .keyError
    | some l =>
      match buildSubs rest w im with
      | .error e => .error e
      | .ok (ls, w, im) => .ok ((name, l) :: ls, w, im)
  | .sub name c i subs statics isInit rest, w, im =>
    if dhas im i then .error .assertionError
    else
      let l := w.heap.length
      match buildSubs subs (w.allocDummy c) (dset im i l) with
      | .error e => .error e
      | .ok (children, w, im) =>
        match buildSubs rest (w.finish l c statics children isInit) im with
        | .error e => .error e
        | .ok (ls, w, im) => .ok ((name, l) :: ls, w, im)

/-- `_build_module` (nnx/module.py:853-856). -/
def buildModule (d : ModuleDef α) (w : World α) : Except Err (Loc × World α) :=
  let l := w.heap.length
  match buildSubs d.subs (w.allocDummy d.cls) (dset [] d.index l) with
  | .error e => .error e
  | .ok (children, w, _) => .ok (l, w.finish l d.cls d.statics children d.isInit)

/-! ### Updating -/

/-- The final loop of `_update_module` (nnx/module.py:938-940): assign entries one after the other. The
world returned with an error is the partially updated one. -/
def assignAll (root : Loc) : List (Str × PyVal α) → World α → World α × Option Err
  | [], w => (w, none)
  | (path, v) :: rest, w =>
    match setValueAtPath w (.ref root) (splitSlash path) v with
    | .error e => (w, some e)
    | .ok w => assignAll root rest w

/-- `_update_module(module, current_state, updates)` (nnx/module.py:924-940). -/
def updateModule (root : Loc) (current : State (PyVal α)) (updates : List (State (PyVal α))) (w : World α) :
    World α × Option Err :=
  assignAll root ((current :: updates).foldl (fun d s => dupdate d s.items) []) w

/-- `Module.update_state(updates)` (nnx/module.py:637-649) for a State (or Pure) or tuple of States. -/
def updateState (fuel : Nat) (root : Loc) (updates : List (State (PyVal α))) (w : World α) :
    World α × Option Err :=
  match getState fuel w.heap root with
  | none => (w, some .recursionError)
  | some current => updateModule root current updates w

/-- `ModuleDef.merge(state, *states)` (nnx/module.py:145-152). -/
def mergeDef (d : ModuleDef α) (states : List (State (PyVal α))) (w : World α) :
    World α × Except Err Loc :=
  match buildModule d w with
  | .error e => (w, .error e)
  | .ok (l, w) =>
    match updateModule l (.new []) states w with
    | (w, none) => (w, .ok l)
    | (w, some e) => (w, .error e)

/-- `Module.partition(*filters)` (nnx/module.py:541-557). With no filter there is a single State. -/
def partitionModule (fuel : Nat) (h : Heap α) (l : Loc) (filters : List (Filter α)) :
    Except Err (List (State (PyVal α)) × ModuleDef α) :=
  match getModuleDef fuel h l, getState fuel h l with
  | some d, some s =>
    match filters with
    | [] => .ok ([s], d)
    | fs =>
      match s.partition fs with
      | .error e => .error e
      | .ok ss => .ok (ss, d)
  | _, _ => .error .recursionError

/-- `Module.clone()` (nnx/module.py:520-521). -/
def cloneModule (fuel : Nat) (l : Loc) (w : World α) : World α × Except Err Loc :=
  match partitionModule fuel w.heap l [] with
  | .error e => (w, .error e)
  | .ok (ss, d) => mergeDef d ss w

end Nnx
