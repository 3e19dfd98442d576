import Verif.Model.ModuleOps
/-
nnx/module.py with the identity of container objects. In the rest of the model an attribute or an entry of a State holds the
contents of a container; here it holds a reference to a container object, as in Python, so that a Module, a State and the
program may hold the very same object. Simplification: containers inside of other values (of tuples, Pytrees or containers)
are still values.
-/
namespace Nnx
variable {α : Type} [DecidableEq α]

/-- What an attribute or an entry of a State refers to: a container object, or something else, which is a value. -/
inductive Held (α : Type) where
  | box (b : Nat)
  | val (v : PyVal α)
deriving DecidableEq, Repr

/-- The container objects that exist, with their present contents (`type(container)` and `vars(container)`). -/
abbrev Boxes (α : Type) := List (PyVal α)

omit [DecidableEq α] in
/-- What one sees when one looks at the object now. -/
def Held.seen (B : Boxes α) : Held α → PyVal α
  | .box b => B.getD b .none
  | .val v => v

omit [DecidableEq α] in
/-- A reference as an attribute or an entry holds it: the class of the object, and which object it is. So what looks only at
classes (`is_node`, `isinstance`) is the same for references as for values. -/
def Held.obj (B : Boxes α) (x : Held α) : PyVal (Held α) := .data (x.seen B).cls x

omit [DecidableEq α] in
/-- What one sees when one looks at what an attribute or an entry holds. -/
def PyVal.seen (B : Boxes α) : PyVal (Held α) → PyVal α
  | .data _ x => x.seen B
  | _ => .none

/-- The Modules, whose attributes hold references, and the container objects. -/
structure BoxWorld (α : Type) where
  world : World (Held α)
  boxes : Boxes α

/-- A new container object with these contents. -/
def newBox (B : Boxes α) (v : PyVal α) : Boxes α × PyVal (Held α) := (B ++ [v], .data v.cls (.box B.length))

/-- `Container.replace` or `copy` made a new object, or raised (nnx/containers.py:72-90, 98-99). -/
def madeBox (B : Boxes α) : Except Err (PyVal α) → Except Err (Boxes α × Attr (Held α))
  | .error e => .error e
  | .ok v => .ok ((newBox B v).1, .val (newBox B v).2)

/-- What `Module._setattr` stores (nnx/module.py:462-468), given the attribute: a container held by the attribute is asked for a
new container, `replace(value=value)`; otherwise a container is copied and the copy is stored; anything else is
stored itself. Not modelled: a Module inside of a container. -/
def storedBox (B : Boxes α) (old : Option (Attr (Held α))) (new : Attr (Held α)) : Except Err (Boxes α × Attr (Held α)) :=
  match old, new with
  | some (.val (.data _ (.box b))), .val nv => madeBox B (replace ((Held.box b).seen B) [(py! "value", nv.seen B)])
  | some (.val (.data _ (.box _))), .ref _ => .error .unmodelled
  | _, .val (.data _ (.box b)) => madeBox B (copy ((Held.box b).seen B))
  | _, new => .ok (B, new)

/-- `Module._setattr(name, value)` (nnx/module.py:458-468). -/
def setBoxAttr (w : BoxWorld α) (l : Loc) (name : Str) (new : Attr (Held α)) : Except Err (BoxWorld α) :=
  match w.world.heap[l]? with
  | none => .error .unmodelled
  | some o =>
    if w.world.traceValid o.trace = false then .error .traceContextError
    else if name = py! "_module__state" then .error .unmodelled
    else
      match storedBox w.boxes (dget o.attrs name) new with
      | .error e => .error e
      | .ok (B, a) => .ok ⟨w.world.setAttrs l o (dset o.attrs name a), B⟩

/-- `_set_value_at_path` (nnx/module.py:837-843). -/
def setBoxPath (w : BoxWorld α) : Attr (Held α) → List Str → PyVal (Held α) → Except Err (BoxWorld α)
  | .ref l, [p], v => setBoxAttr w l p (.val v)
  | .ref l, p :: q :: ps, v =>
    match varsGet w.world.heap l p with
    | .error e => .error e
    | .ok a => setBoxPath w a (q :: ps) v
  | .ref _, [], _ => .error .indexError
  | .val _, _, _ => .error .unmodelled

/-- The final loop of `_update_module` (nnx/module.py:938-940). -/
def assignBoxes (root : Loc) : List (Str × PyVal (Held α)) → BoxWorld α → BoxWorld α × Option Err
  | [], w => (w, none)
  | (path, v) :: rest, w =>
    match setBoxPath w (.ref root) (splitSlash path) v with
    | .error e => (w, some e)
    | .ok w => assignBoxes root rest w

/-- `_update_module` (nnx/module.py:924-940). -/
def updateBoxModule (root : Loc) (current : State (PyVal (Held α))) (updates : List (State (PyVal (Held α)))) (w : BoxWorld α) :
    BoxWorld α × Option Err :=
  assignBoxes root ((current :: updates).foldl (fun d s => dupdate d s.items) []) w

/-- `Module.update_state(updates)` (nnx/module.py:637-649). `get_state` looks only at classes: it is the function of
`Model/Module.lean`, and the State holds the very objects that the attributes hold. -/
def updateBoxState (fuel : Nat) (root : Loc) (updates : List (State (PyVal (Held α)))) (w : BoxWorld α) :
    BoxWorld α × Option Err :=
  match getState fuel w.world.heap root with
  | none => (w, some .recursionError)
  | some current => updateBoxModule root current updates w

/-- `ModuleDef.merge(state, *states)` (nnx/module.py:145-152). `_build_module` (the function of `Model/Module.lean`) puts the
objects of the static fields themselves into the new Modules. -/
def mergeBoxDef (d : ModuleDef (Held α)) (states : List (State (PyVal (Held α)))) (w : BoxWorld α) :
    BoxWorld α × Except Err Loc :=
  match buildModule d w.world with
  | .error e => (w, .error e)
  | .ok (l, w1) =>
    match updateBoxModule l (.new []) states ⟨w1, w.boxes⟩ with
    | (w, none) => (w, .ok l)
    | (w, some e) => (w, .error e)

/-- A predicate looks at the object. -/
def seenPred (B : Boxes α) (p : Pred α) : Pred (Held α) := fun path v => p path (v.seen B)

/-- `_split_state` (nnx/state.py:166-191). -/
def splitBoxState (B : Boxes α) (items : List (Str × PyVal (Held α))) (filters : List (Filter α)) :
    Except Err (List (Dict Str (PyVal (Held α)))) :=
  if ellipsisMisplaced filters then .error .valueError
  else
    match toPredicates filters with
    | .error e => .error e
    | .ok preds =>
      .ok (items.foldl (fun ds kv => splitInsert (preds.map (seenPred B)) ds kv.1 kv.2)
        (List.replicate (preds.length + 1) []))

/-- `State.partition` (nnx/state.py:62-78). -/
def partitionBoxState (B : Boxes α) (s : State (PyVal (Held α))) (filters : List (Filter α)) :
    Except Err (List (State (PyVal (Held α)))) :=
  match splitBoxState B s.items filters with
  | .error e => .error e
  | .ok dicts =>
    if (dicts.getLastD []).length ≠ 0 then .error .valueError
    else .ok (dicts.dropLast.map .new)

/-- `Module.partition(*filters)` (nnx/module.py:541-557). -/
def partitionBoxModule (fuel : Nat) (w : BoxWorld α) (l : Loc) (filters : List (Filter α)) :
    Except Err (List (State (PyVal (Held α))) × ModuleDef (Held α)) :=
  match getModuleDef fuel w.world.heap l, getState fuel w.world.heap l with
  | some d, some s =>
    match filters with
    | [] => .ok ([s], d)
    | fs =>
      match partitionBoxState w.boxes s fs with
      | .error e => .error e
      | .ok ss => .ok (ss, d)
  | _, _ => .error .recursionError

/-- `Module.pop_state(*filters)` (nnx/module.py:612-623, 884-921): the popped objects themselves go into the States. -/
def popBoxState (fuel : Nat) (l : Loc) (filters : List (Filter α)) (w : BoxWorld α) :
    BoxWorld α × Except Err (List (State (PyVal (Held α)))) :=
  if filters.isEmpty then (w, .error .valueError)
  else
    match toPredicates filters with
    | .error e => (w, .error e)
    | .ok preds =>
      match popRec (preds.map (seenPred w.boxes)) fuel l w.world.heap [] [] (List.replicate preds.length []) with
      | (h, .error e) => (⟨{ w.world with heap := h }, w.boxes⟩, .error e)
      | (h, .ok (_, states)) => (⟨{ w.world with heap := h }, w.boxes⟩, .ok (states.map .new))

/-- `Module.sow(variable_type, name, value)` (nnx/module.py:654-679). The container that `variable_type((value,))` makes is
copied by `_setattr`. The value is put into a tuple, so it is a value here even if it is a container. -/
def sowBox (l : Loc) (vt : Cls) (name : Str) (value : PyVal α) (w : BoxWorld α) : Except Err (BoxWorld α) :=
  match w.world.heap[l]? with
  | none => .error .unmodelled
  | some o =>
    if name = py! "_module__state" then .error .valueError
    else
      match dget o.attrs name with
      | some (.val (.data _ (.box b))) =>
        match (Held.box b).seen w.boxes with
        | .cont c cur _ =>
          if c.isSub cVariable = false then .error .valueError
          else if c ≠ vt then .error .valueError
          else
            match cur with
            | .tup xs => setBoxAttr w l name (.val ((Held.val (.tup (xs ++ [value]))).obj w.boxes))
            | _ => .error .valueError
        | _ => .error .unmodelled
      | some _ => .error .valueError
      | none =>
        if name ∈ o.cls.members then .error .keyError
        else
          match construct vt (.tup [value]) [] with
          | .error e => .error e
          | .ok x => setBoxAttr ⟨w.world, (newBox w.boxes x).1⟩ l name (.val (newBox w.boxes x).2)

/-- `c(value, **metadata)` (nnx/containers.py:26-41): a new container object, held by no Module. -/
def makeBox (c : Cls) (x : Held α) (md : Md α) (w : BoxWorld α) : Except Err (BoxWorld α × PyVal (Held α)) :=
  match construct c (x.seen w.boxes) md with
  | .error e => .error e
  | .ok v => .ok (⟨w.world, (newBox w.boxes v).1⟩, (newBox w.boxes v).2)

/-- The program writes to a container object itself, `container.value = v` or `container.name = v`: `Container` has no
`__setattr__`. The class stays. -/
def writeBox (b : Nat) (value : PyVal α) (md : Md α) (w : BoxWorld α) : BoxWorld α :=
  match w.boxes[b]? with
  | some (.cont c _ _) => ⟨w.world, w.boxes.set b (.cont c value md)⟩
  | _ => w

end Nnx
