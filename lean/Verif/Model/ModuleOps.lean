import Verif.Model.Module
/-
nnx/module.py: pop_state, for_each, init, sow, mutable_state_dict, apply, Pure, first_from.
-/
namespace Nnx

variable {α : Type} [DecidableEq α]

/-! ### Creating a Module -/

/-- The first two lines of `ModuleMeta._meta_call` (nnx/module.py:415-416): a new object with a new
`ModuleState` (nnx/module.py:386-389). `__init__`, which runs next, is a sequence of attribute assignments. -/
def newModule (c : Cls) (w : World α) : World α × Loc :=
  ({ w with heap := w.heap ++ [⟨c, [], w.nextId + 1, false, w.curTrace⟩], nextId := w.nextId + 1 },
   w.heap.length)

/-! ### pop_state -/

/-- The inner loop of `_pop_recursive` (nnx/module.py:915-919): the dict of the first matching predicate
receives the value. `none` if no predicate matches. -/
def popInsert (preds : List (Pred α)) (states : List (Dict Str (PyVal α))) (path : Str) (v : PyVal α) :
    Option (List (Dict Str (PyVal α))) :=
  match preds, states with
  | p :: ps, d :: ds =>
    if p path v then some (dset d path v :: ds)
    else (popInsert ps ds path v).map (d :: ·)
  | _, _ => none

/-- `delattr(module, name)` (nnx/module.py:918); Module has no `__delattr__`, so there is no trace check. -/
def delAttr (h : Heap α) (l : Loc) (name : Str) : Except Err (Heap α) :=
  match h[l]? with
  | none => .error .unmodelled
  | some o =>
    if dhas o.attrs name then .ok (h.set l { o with attrs := ddel o.attrs name })
    else .error .attributeError

/-- What `_pop_recursive` returns or mutates: the heap, and (unless it raises) `module_index` and the dicts. -/
abbrev PopResult (α : Type) := Heap α × Except Err (List Nat × List (Dict Str (PyVal α)))

/-- The loop of `_pop_recursive` (nnx/module.py:907-919) over the snapshot `list(vars(module).items())`. -/
def popAttrs (rec : Loc → Heap α → List Nat → List Str → List (Dict Str (PyVal α)) → PopResult α)
    (preds : List (Pred α)) (l : Loc) :
    List (Str × Attr α) → Heap α → List Nat → List Str → List (Dict Str (PyVal α)) → PopResult α
  | [], h, idx, _, states => (h, .ok (idx, states))
  | (name, .ref l') :: rest, h, idx, parts, states =>
    match rec l' h idx (parts ++ [name]) states with
    | (h, .error e) => (h, .error e)
    | (h, .ok (idx, states)) => popAttrs rec preds l rest h idx parts states
  | (name, .val v) :: rest, h, idx, parts, states =>
    if v.isNode then
      match popInsert preds states (joinSlash (parts ++ [name])) v with
      | none => popAttrs rec preds l rest h idx parts states
      | some states =>
        match delAttr h l name with
        | .error e => (h, .error e)
        | .ok h => popAttrs rec preds l rest h idx parts states
    else popAttrs rec preds l rest h idx parts states

/-- `_pop_recursive` (nnx/module.py:897-921). The module is entered in `module_index` only after its
attributes have been processed. -/
def popRec (preds : List (Pred α)) :
    Nat → Loc → Heap α → List Nat → List Str → List (Dict Str (PyVal α)) → PopResult α
  | 0, _, h, _, _, _ => (h, .error .recursionError)
  | fuel + 1, l, h, idx, parts, states =>
    match h[l]? with
    | none => (h, .error .unmodelled)
    | some o =>
      if o.uid ∈ idx then (h, .ok (idx, states))
      else
        match popAttrs (popRec preds fuel) preds l o.attrs h idx parts states with
        | (h, .error e) => (h, .error e)
        | (h, .ok (idx, states)) => (h, .ok (idx ++ [o.uid], states))

/-- `Module.pop_state(*filters)` (nnx/module.py:612-623, 884-894). Always returns a list of States. -/
def popState (fuel : Nat) (l : Loc) (filters : List (Filter α)) (h : Heap α) :
    Heap α × Except Err (List (State (PyVal α))) :=
  if filters.isEmpty then (h, .error .valueError)
  else
    match toPredicates filters with
    | .error e => (h, .error e)
    | .ok preds =>
      match popRec preds fuel l h [] [] (List.replicate preds.length []) with
      | (h, .error e) => (h, .error e)
      | (h, .ok (_, states)) => (h, .ok (states.map .new))

/-! ### for_each and init -/

/-- The loop of `_on_all` (nnx/module.py:699-701). Simplification: it ranges over the attributes as they
were when the loop started; Python raises RuntimeError if `fn` adds or deletes attributes of a module that
is being iterated over. -/
def onAllAttrs {σ : Type} (rec : Loc → σ → List Nat → σ × Except Err (List Nat)) :
    List (Str × Attr α) → σ → List Nat → σ × Except Err (List Nat)
  | [], s, visited => (s, .ok visited)
  | (_, .ref l) :: rest, s, visited =>
    match rec l s visited with
    | (s, .error e) => (s, .error e)
    | (s, .ok visited) => onAllAttrs rec rest s visited
  | (_, .val _) :: rest, s, visited => onAllAttrs rec rest s visited

/-- `Module._on_all(module_type, fn, visited)` (nnx/module.py:685-701). `σ` is everything `fn` can see
and change, `heapOf` the heap in it. -/
def onAll {σ : Type} (heapOf : σ → Heap α) (ty : Cls) (fn : Loc → σ → σ × Option Err) :
    Nat → Loc → σ → List Nat → σ × Except Err (List Nat)
  | 0, _, s, _ => (s, .error .recursionError)
  | fuel + 1, l, s, visited =>
    match (heapOf s)[l]? with
    | none => (s, .error .unmodelled)
    | some o =>
      if o.uid ∈ visited then (s, .ok visited)
      else
        match (if o.cls.isSub ty then fn l s else (s, none)) with
        | (s, some e) => (s, .error e)
        | (s, none) =>
          match (heapOf s)[l]? with
          | none => (s, .error .unmodelled)
          | some o' => onAllAttrs (onAll heapOf ty fn fuel) o'.attrs s (visited ++ [o.uid])

/-- `Module.for_each(module_type, fn)` (nnx/module.py:681-683) -/
def forEach {σ : Type} (heapOf : σ → Heap α) (fuel : Nat) (l : Loc) (ty : Cls)
    (fn : Loc → σ → σ × Option Err) (s : σ) : σ × Option Err :=
  match onAll heapOf ty fn fuel l s [] with
  | (s, .error e) => (s, some e)
  | (s, .ok _) => (s, none)

/-- `_set_is_initializing` (nnx/module.py:504-505): writes to the ModuleState object, no trace check. -/
def setIsInit (value : Bool) (l : Loc) (w : World α) : World α × Option Err :=
  match w.heap[l]? with
  | none => (w, some .unmodelled)
  | some o => ({ w with heap := w.heap.set l { o with isInit := value } }, none)

/-- `module.init.method(*args)` (nnx/module.py:499-514) where `body` is the call to the method. -/
def initCall {β : Type} (fuel : Nat) (l : Loc) (body : World α → World α × Except Err β) (w : World α) :
    World α × Except Err β :=
  match forEach World.heap fuel l cModule (setIsInit true) w with
  | (w, some e) => (w, .error e)
  | (w, none) =>
    let (w, r) := body w
    match forEach World.heap fuel l cModule (setIsInit false) w with
    | (w, some e) => (w, .error e)
    | (w, none) => (w, r)

/-! ### sow and mutable_state_dict -/

/-- `Module.sow(variable_type, name, value)` (nnx/module.py:654-679). `hasattr` sees instance attributes
and class members. -/
def sow (l : Loc) (vt : Cls) (name : Str) (value : PyVal α) (w : World α) : Except Err (World α) :=
  match w.heap[l]? with
  | none => .error .unmodelled
  | some o =>
    if name = py! "_module__state" then .error .valueError
    else
      match dget o.attrs name with
      | some (.val (.cont c cur _)) =>
        if c.isSub cVariable = false then .error .valueError
        else if c ≠ vt then .error .valueError
        else
          match cur with
          | .tup xs => setAttr w l name (.val (.tup (xs ++ [value])))
          | _ => .error .valueError
      | some _ => .error .valueError
      | none =>
        if name ∈ o.cls.members then .error .keyError
        else
          match construct vt (.tup [value]) [] with
          | .error e => .error e
          | .ok x => setAttr w l name (.val x)

/-- `MutableLeaf(root, path)` (nnx/module.py:735-748): the module and attribute name addressed. -/
def mutableLeaf (h : Heap α) (root : Loc) (path : Str) : Except Err (Loc × Str) :=
  let parts := splitSlash path
  match getValuePath h (.ref root) parts.dropLast with
  | .error e => .error e
  | .ok (.val _) => .error .valueError
  | .ok (.ref l) => .ok (l, parts.getLastD [])

/-- Collect the leaves of `mutable_state_dict` (nnx/module.py:651-652) from the yielded pairs. -/
def mutableLeaves (h : Heap α) (root : Loc) : List (Str × PyVal α) → Except Err (List (Str × (Loc × Str)))
  | [] => .ok []
  | (path, _) :: rest =>
    match mutableLeaf h root path with
    | .error e => .error e
    | .ok leaf =>
      match mutableLeaves h root rest with
      | .error e => .error e
      | .ok ls => .ok ((path, leaf) :: ls)

/-- `Module.mutable_state_dict()` (nnx/module.py:651-652) -/
def mutableStateDict (fuel : Nat) (h : Heap α) (root : Loc) : Except Err (Dict Str (Loc × Str)) :=
  match iterStateRec h fuel root [] [] with
  | none => .error .recursionError
  | some (items, _) =>
    match mutableLeaves h root items with
    | .error e => .error e
    | .ok ls => .ok (dofList ls)

/-- `leaf.value` (nnx/module.py:750-752) without `unbox_fn`: `getattr(module, name)`, for names that are not properties of the class; a property would
hide the leaf (Model/Lookup.lean). -/
def leafGet (h : Heap α) (leaf : Loc × Str) : Except Err (PyVal α) :=
  match varsGet h leaf.1 leaf.2 with
  | .ok (.val v) => .ok (unboxed (fun _ _ => none) v)
  | .ok (.ref _) => .error .unmodelled
  | .error .keyError => .error .attributeError
  | .error e => .error e

/-- `leaf.value = v` (nnx/module.py:754-756) -/
def leafSet (w : World α) (leaf : Loc × Str) (v : PyVal α) : Except Err (World α) :=
  setAttr w leaf.1 leaf.2 (.val v)

/-! ### apply -/

/-- `ModuleDef.apply(*states).method(*args)` (nnx/module.py:154-163): `body` is the call of the method
on the merged module. Returns the output and `module.partition()`. -/
def applyDef {β : Type} (fuel : Nat) (d : ModuleDef α) (states : List (State (PyVal α)))
    (body : Loc → World α → World α × Except Err β) (w : World α) :
    World α × Except Err (β × State (PyVal α) × ModuleDef α) :=
  match mergeDef d states w with
  | (w, .error e) => (w, .error e)
  | (w, .ok l) =>
    match body l w with
    | (w, .error e) => (w, .error e)
    | (w, .ok out) =>
      match partitionModule fuel w.heap l [] with
      | .ok ([s], d) => (w, .ok (out, s, d))
      | .ok _ => (w, .error .unmodelled)
      | .error e => (w, .error e)

/-- `module.apply.method(*args)` (nnx/module.py:625-635) -/
def applyModule {β : Type} (fuel : Nat) (l : Loc)
    (body : Loc → World α → World α × Except Err β) (w : World α) :
    World α × Except Err (β × Loc) :=
  match cloneModule fuel l w with
  | (w, .error e) => (w, .error e)
  | (w, .ok l') =>
    match body l' w with
    | (w, .error e) => (w, .error e)
    | (w, .ok out) => (w, .ok (out, l'))

/-- One step of an access chain: `.name` or `[key]`. -/
inductive Access where
  | attr (name : Str)
  | item (key : Str)
deriving DecidableEq, Repr

/-- What the `_proxy_callable` of a `CallableProxy` is (nnx/module.py:30-33): a `DelayedAccessor`, or the plain function that was read from the field `accessor` of one.
Calling either performs `fn`: nothing for `none`, and exactly the access `a` for `some a`. -/
inductive Proxied where
  | delayed (fn : Option Access)
  | plain (fn : Option Access)
deriving DecidableEq, Repr

/-- The access that is performed (nnx/module.py:49-54). -/
def Proxied.fn : Proxied → Option Access
  | .delayed a => a
  | .plain a => a

/-- Names that are not looked up by `CallableProxy.__getattr__`: its two fields (nnx/module.py:32-33), and the attributes of every Python object, all of which begin with two underscores. -/
def proxyOwn (n : Str) : Bool :=
  decide (n = py! "_proxy_context") || decide (n = py! "_proxy_callable") || n.take 2 == py! "__"

/-- `CallableProxy.__getattr__`/`__getitem__` (nnx/module.py:38-42) with those of `DelayedAccessor` (nnx/module.py:49-60), which return an accessor for the new access only. `__getattr__` is
not asked for the field `accessor`, so that `proxy.accessor` is a proxy for the function that the field holds; a function has no further attributes and no items. Not modelled: the names of `proxyOwn`. -/
def Proxied.extend : Proxied → Access → Except Err Proxied
  | .delayed a, .attr n =>
    if proxyOwn n then .error .unmodelled
    else if n = py! "accessor" then .ok (.plain a)
    else .ok (.delayed (some (.attr n)))
  | .delayed _, .item k => .ok (.delayed (some (.item k)))
  | .plain _, .attr n => if proxyOwn n then .error .unmodelled else .error .attributeError
  | .plain _, .item _ => .error .typeError

/-- `proxy.a.b[k]...` for a chain of accesses, starting from `CallableProxy(_context, DelayedAccessor())` (nnx/module.py:154-163, 625-635): which accessor the final call receives. -/
def accessorOf (chain : List Access) : Except Err (Option Access) :=
  (chain.foldlM Proxied.extend (.delayed none)).map Proxied.fn

/-- Applying an accessor to an object (nnx/module.py:53-60), given the semantics of single accesses. -/
def runAccessor {O : Type} (access : O → Access → Option O) (a : Option Access) (x : O) : Option O :=
  match a with
  | none => some x
  | some a => access x a

/-! ### Pure -/

/-- The first component of a `Pure`: one State or a tuple of States (nnx/module.py:192-204). -/
inductive States (α : Type) where
  | one (s : State (PyVal α))
  | many (ss : List (State (PyVal α)))

/-- `Pure` (nnx/module.py:192-196) -/
structure Pure' (α : Type) where
  states : States α
  moduledef : ModuleDef α

/-- The States of a Pure as a list. -/
def States.toList : States α → List (State (PyVal α))
  | .one s => [s]
  | .many ss => ss

namespace Pure'

/-- `Pure.get_state()` (nnx/module.py:230-233); `State.merge()` without arguments is a TypeError. -/
def getState (p : Pure' α) : Except Err (State (PyVal α)) :=
  match p.states with
  | .one s => .ok s
  | .many [] => .error .typeError
  | .many (s :: ss) => .ok (s.merge ss)

/-- A list of States as Python returns it: unpacked when there is exactly one. -/
def unpack : List (State (PyVal α)) → States α
  | [s] => .one s
  | ss => .many ss

/-- `Pure.filter(*filters)` (nnx/module.py:253-262) -/
def filter (p : Pure' α) (filters : List (Filter α)) : Except Err (States α) :=
  match p.getState with
  | .error e => .error e
  | .ok s =>
    match s.filter filters with
    | .error e => .error e
    | .ok ss => .ok (unpack ss)

/-- `Pure.partition(*filters)` (nnx/module.py:282-297) -/
def partition (p : Pure' α) (filters : List (Filter α)) : Except Err (Pure' α) :=
  match p.getState with
  | .error e => .error e
  | .ok s =>
    match filters with
    | [] => .ok ⟨.one s, p.moduledef⟩
    | fs =>
      match s.partition fs with
      | .error e => .error e
      | .ok ss => .ok ⟨unpack ss, p.moduledef⟩

/-- `Pure.pop_state(*filters)` (nnx/module.py:315-328) -/
def popState (p : Pure' α) (filters : List (Filter α)) : Except Err (States α × Pure' α) :=
  match p.getState with
  | .error e => .error e
  | .ok s =>
    match s.partition (filters ++ [.ellipsis]) with
    | .error e => .error e
    | .ok ss => .ok (unpack ss.dropLast, ⟨.one (ss.getLastD ⟨[]⟩), p.moduledef⟩)

/-- `Pure.update_state(updates)` (nnx/module.py:330-362) for a State, a tuple of States or a Pure: the
*current* states are appended after the updates. -/
def updateState (p : Pure' α) (updates : List (State (PyVal α))) : Except Err (Pure' α) :=
  match updates ++ p.states.toList with
  | [] => .error .typeError
  | s :: ss => .ok ⟨.one (s.merge ss), p.moduledef⟩

/-- `Pure.merge()` (nnx/module.py:206-210); with an empty tuple of states, `merge` lacks an argument. -/
def merge (p : Pure' α) (w : World α) : World α × Except Err Loc :=
  match p.states.toList with
  | [] => (w, .error .typeError)
  | ss => mergeDef p.moduledef ss w

end Pure'

/-- `first_from(*args)` (nnx/module.py:943-948) -/
def firstFrom {A : Type} : List (Option A) → Except Err A
  | [] => .error .valueError
  | some a :: _ => .ok a
  | none :: rest => firstFrom rest

end Nnx
