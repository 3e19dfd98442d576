import Verif.Model.ModuleOps
/-
Threads that read and change Modules.
-/
namespace Nnx
variable {α : Type} [DecidableEq α]

/-- The calls a thread makes: `m.update_state(us)`, `m.name = value`, `m.get_state()`, `m.pop_state(*filters)`, `del m.name`,
`m.sow(variable_type, name, value)`. -/
inductive ModCall (α : Type) where
  | update (root : Loc) (us : List (State (PyVal α)))
  | set (l : Loc) (name : Str) (a : Attr α)
  | get (root : Loc)
  | pop (root : Loc) (filters : List (Filter α))
  | del (l : Loc) (name : Str)
  | sow (l : Loc) (vt : Cls) (name : Str) (v : PyVal α)

/-- A Module whose attributes `_iter_state_recursive` goes through (nnx/module.py:828-834): those that are left of the
sorted copy it has made of them, and the path of the Module. -/
structure ReadFrame (α : Type) where
  rest : List (Str × Attr α)
  parts : List Str

/-- Where the generator `_iter_state` is (nnx/module.py:813-834): the ids it has seen, the Modules it is inside of (the
innermost one first), and what it has yielded. -/
structure Reading (α : Type) where
  seen : List Nat
  stack : List (ReadFrame α)
  out : List (Str × PyVal α)

/-- The call `_iter_state_recursive(module, ..)` up to its loop (nnx/module.py:823-828). `none` is RecursionError. -/
def Reading.enter (fuel : Nat) (h : Heap α) (r : Reading α) (l : Loc) (parts : List Str) : Option (Reading α) :=
  if fuel ≤ r.stack.length then none
  else
    match h[l]? with
    | none => none
    | some o =>
      if o.uid ∈ r.seen then some r
      else some { r with seen := r.seen ++ [o.uid], stack := ⟨sortItems o.attrs, parts⟩ :: r.stack }

/-- The next step of the generator: the next attribute of the innermost Module, or its end (nnx/module.py:828-834). -/
def Reading.next (fuel : Nat) (h : Heap α) (r : Reading α) : Option (Reading α) :=
  match r.stack with
  | [] => some r
  | ⟨[], _⟩ :: st => some { r with stack := st }
  | ⟨(n, .ref l) :: rest, parts⟩ :: st => Reading.enter fuel h { r with stack := ⟨rest, parts⟩ :: st } l (parts ++ [n])
  | ⟨(n, .val v) :: rest, parts⟩ :: st =>
    some { r with
      stack := ⟨rest, parts⟩ :: st
      out := if v.isNode then r.out ++ [(joinSlash (parts ++ [n]), v)] else r.out }

/-- A Module whose attributes `_pop_recursive` goes through (nnx/module.py:904-921): the Module and its id, the attributes that
are left of the copy of them, and the path of the Module. -/
structure PopFrame (α : Type) where
  loc : Loc
  uid : Nat
  rest : List (Str × Attr α)
  parts : List Str

/-- Where `pop_state` is (nnx/module.py:884-921): the predicates, the ids of the Modules it is through with, the Modules it is
inside of (the innermost one first), and the dicts with what it has removed. -/
structure Popping (α : Type) where
  preds : List (Pred α)
  index : List Nat
  stack : List (PopFrame α)
  states : List (Dict Str (PyVal α))

/-- The call `_pop_recursive(module, ..)` up to its loop (nnx/module.py:904-907). -/
def Popping.enter (fuel : Nat) (h : Heap α) (r : Popping α) (l : Loc) (parts : List Str) : Except Err (Popping α) :=
  if fuel ≤ r.stack.length then .error .recursionError
  else
    match h[l]? with
    | none => .error .unmodelled
    | some o =>
      if o.uid ∈ r.index then .ok r
      else .ok { r with stack := ⟨l, o.uid, o.attrs, parts⟩ :: r.stack }

/-- The next step of `_pop_recursive`: the next attribute of the innermost Module, or its end (nnx/module.py:907-921).
Simplification: entering a value in the dict and deleting the attribute are one step. -/
def Popping.next (fuel : Nat) (h : Heap α) (r : Popping α) : Except Err (Heap α × Popping α) :=
  match r.stack with
  | [] => .ok (h, r)
  | ⟨_, uid, [], _⟩ :: st => .ok (h, { r with index := r.index ++ [uid], stack := st })
  | ⟨l, uid, (n, .ref l') :: rest, parts⟩ :: st =>
    match Popping.enter fuel h { r with stack := ⟨l, uid, rest, parts⟩ :: st } l' (parts ++ [n]) with
    | .error e => .error e
    | .ok r => .ok (h, r)
  | ⟨l, uid, (n, .val v) :: rest, parts⟩ :: st =>
    if v.isNode then
      match popInsert r.preds r.states (joinSlash (parts ++ [n])) v with
      | none => .ok (h, { r with stack := ⟨l, uid, rest, parts⟩ :: st })
      | some states =>
        match delAttr h l n with
        | .error e => .error e
        | .ok h => .ok (h, { r with stack := ⟨l, uid, rest, parts⟩ :: st, states := states })
    else .ok (h, { r with stack := ⟨l, uid, rest, parts⟩ :: st })

/-- The first part of `sow` (nnx/module.py:660-679): what it is going to assign, from what the attribute holds now. -/
def sowRead (h : Heap α) (l : Loc) (vt : Cls) (name : Str) (value : PyVal α) : Except Err (PyVal α) :=
  match h[l]? with
  | none => .error .unmodelled
  | some o =>
    if name = py! "_module__state" then .error .valueError
    else
      match dget o.attrs name with
      | some (.val (.cont c cur _)) =>
        if c.isSub cVariable = false then .error .valueError
        else if c ≠ vt then .error .valueError
        else
          match cur with
          | .tup xs => .ok (.tup (xs ++ [value]))
          | _ => .error .valueError
      | some _ => .error .valueError
      | none => if name ∈ o.cls.members then .error .keyError else construct vt (.tup [value]) []

/-- Where a thread is: outside of the calls, before the first step of a call, reading the state of a Module (for
`get_state`, or for `update_state` with these States), or in the loop of `_update_module` (nnx/module.py:938-940) with the
entries that are not yet assigned: between two assignments, or on the way of `_set_value_at_path` (nnx/module.py:837-843) to
the Module that has the attribute; or in `pop_state`. -/
inductive ModPc (α : Type) where
  | idle
  | pending (c : ModCall α)
  | reading (root : Loc) (us : Option (List (State (PyVal α)))) (r : Reading α)
  | assigning (root : Loc) (rest : List (Str × PyVal α))
  | walking (root : Loc) (rest : List (Str × PyVal α)) (at_ : Attr α) (path : List Str) (v : PyVal α)
  | popping (r : Popping α)

/-- What a call gives back. -/
inductive ModResult (α : Type) where
  | done
  | state (s : State (PyVal α))
  | states (ss : List (State (PyVal α)))
  | raised (e : Err)

/-- The Modules, the current JAX trace and the nnx trace stack of each thread (JAX keeps its trace stack in a
`threading.local`, whose first trace is made anew for every thread, and so does nnx, nnx/tracers.py:52-59), where each thread
is, and the results of the calls that have ended, in this order. The traces of `world` itself are not used. -/
structure ModMachine (α : Type) where
  world : World α
  traces : Nat → Nat × List Nat
  threads : Nat → ModPc α
  log : List (Nat × ModResult α)

/-- What happens: a thread calls, makes its next step, or an asynchronous exception ends its call. -/
inductive ModEvent (α : Type) where
  | call (t : Nat) (c : ModCall α)
  | step (t : Nat)
  | abort (t : Nat)

/-- The thread of an event. -/
def ModEvent.thread : ModEvent α → Nat
  | .call t _ => t
  | .step t => t
  | .abort t => t

omit [DecidableEq α] in
/-- What a thread has before it: the Modules, and its own traces. -/
def ModMachine.view (m : ModMachine α) (t : Nat) : World α := { m.world with jaxTrace := (m.traces t).1, nnxStack := (m.traces t).2 }

omit [DecidableEq α] in
/-- The Modules are now these. -/
def ModMachine.put (m : ModMachine α) (h : Heap α) : ModMachine α := { m with world := { m.world with heap := h } }

omit [DecidableEq α] in
/-- Thread `t` is now there. -/
def ModMachine.goto (m : ModMachine α) (t : Nat) (pc : ModPc α) : ModMachine α :=
  { m with threads := fun u => if u = t then pc else m.threads u }

omit [DecidableEq α] in
/-- The call of thread `t` ends. -/
def ModMachine.finish (m : ModMachine α) (t : Nat) (r : ModResult α) : ModMachine α :=
  { (m.goto t .idle) with log := m.log ++ [(t, r)] }

omit [DecidableEq α] in
/-- The thread goes on with the reading, or has run into the recursion limit. -/
def ModMachine.read (m : ModMachine α) (t : Nat) (root : Loc) (us : Option (List (State (PyVal α)))) : Option (Reading α) → ModMachine α
  | none => m.finish t (.raised .recursionError)
  | some r => m.goto t (.reading root us r)

omit [DecidableEq α] in
/-- The thread goes on with `pop_state`, or its call has raised. -/
def ModMachine.pop (m : ModMachine α) (t : Nat) : Except Err (Popping α) → ModMachine α
  | .error e => m.finish t (.raised e)
  | .ok r => m.goto t (.popping r)

/-- The next step of a thread. `get_state` and the first part of `update_state` (nnx/module.py:637-649, 767-768) go through the
Modules one attribute at a time; the attributes of a Module are copied (`sorted(vars(module).items())`) in the step that
reaches it. `update_state` then makes its assignments one at a time (nnx/module.py:924-940), each of them after following its
path one name at a time. `pop_state` (nnx/module.py:612-623, 884-921) goes through the Modules in the same way and deletes as it goes. `sow` reads in
one step and assigns in the next one. Simplification: `_setattr` (nnx/module.py:458-468) is one step.
The traces of a thread stay the same: a call that begins inside of a transform ends inside of it. -/
def modStep (fuel : Nat) (t : Nat) (m : ModMachine α) : ModMachine α :=
  match m.threads t with
  | .idle => m
  | .pending (.update root us) => m.read t root (some us) (Reading.enter fuel m.world.heap ⟨[], [], []⟩ root [])
  | .pending (.get root) => m.read t root none (Reading.enter fuel m.world.heap ⟨[], [], []⟩ root [])
  | .pending (.set l n a) =>
    match setAttr (m.view t) l n a with
    | .error e => m.finish t (.raised e)
    | .ok w => (m.finish t .done).put w.heap
  | .pending (.pop root filters) =>
    if filters.isEmpty then m.finish t (.raised .valueError)
    else
      match toPredicates filters with
      | .error e => m.finish t (.raised e)
      | .ok preds => m.pop t (Popping.enter fuel m.world.heap ⟨preds, [], [], List.replicate preds.length []⟩ root [])
  | .pending (.del l n) =>
    match delAttr m.world.heap l n with
    | .error e => m.finish t (.raised e)
    | .ok h => (m.finish t .done).put h
  | .pending (.sow l vt n v) =>
    match sowRead m.world.heap l vt n v with
    | .error e => m.finish t (.raised e)
    | .ok v => m.goto t (.pending (.set l n (.val v)))
  | .popping r =>
    match r.stack with
    | [] => m.finish t (.states (r.states.map .new))
    | _ :: _ =>
      match r.next fuel m.world.heap with
      | .error e => m.finish t (.raised e)
      | .ok (h, r) => (m.goto t (.popping r)).put h
  | .reading root us r =>
    match r.stack, us with
    | [], none => m.finish t (.state (.new r.out))
    | [], some us => m.goto t (.assigning root ((State.new r.out :: us).foldl (fun d u => dupdate d u.items) []))
    | _ :: _, us => m.read t root us (r.next fuel m.world.heap)
  | .assigning _ [] => m.finish t .done
  | .assigning root ((k, v) :: rest) => m.goto t (.walking root rest (.ref root) (splitSlash k) v)
  | .walking root rest (.ref l) (p :: q :: ps) v =>
    match varsGet m.world.heap l p with
    | .error e => m.finish t (.raised e)
    | .ok a => m.goto t (.walking root rest a (q :: ps) v)
  | .walking root rest a path v =>
    match setValueAtPath (m.view t) a path v with
    | .error e => m.finish t (.raised e)
    | .ok w => (m.goto t (.assigning root rest)).put w.heap

/-- One event; a thread that is inside a call does not begin another one. -/
def modEvent (fuel : Nat) (m : ModMachine α) : ModEvent α → ModMachine α
  | .call t c =>
    match m.threads t with
    | .idle => m.goto t (.pending c)
    | _ => m
  | .step t => modStep fuel t m
  | .abort t => m.goto t .idle

/-- A schedule. -/
def modEvents (fuel : Nat) (m : ModMachine α) (evs : List (ModEvent α)) : ModMachine α := evs.foldl (modEvent fuel) m

end Nnx
