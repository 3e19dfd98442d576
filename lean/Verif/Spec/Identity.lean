import Verif.Model.Identity
import Verif.Spec.Module
/-
Programs that operate on Modules, States and containers, when containers are objects and when they are values.
-/
namespace Nnx
variable {α : Type}

/-! ### What one sees -/

/-- Entries, attributes, Modules, States and definitions with every reference replaced by what one sees there. -/
def Attr.seen (B : Boxes α) : Attr (Held α) → Attr α
  | .ref l => .ref l
  | .val v => .val (v.seen B)

def ModObj.seen (B : Boxes α) (o : ModObj (Held α)) : ModObj α :=
  ⟨o.cls, o.attrs.map fun kv => (kv.1, kv.2.seen B), o.uid, o.isInit, o.trace⟩

def World.seen (B : Boxes α) (w : World (Held α)) : World α :=
  ⟨w.heap.map (ModObj.seen B), w.nextId, w.jaxTrace, w.nnxStack⟩

def BoxWorld.seen (w : BoxWorld α) : World α := w.world.seen w.boxes

def State.seen (B : Boxes α) (s : State (PyVal (Held α))) : State (PyVal α) := ⟨s.mapping.map fun kv => (kv.1, kv.2.seen B)⟩

def Subs.seen (B : Boxes α) : Subs (Held α) → Subs α
  | .nil => .nil
  | .ref n i r => .ref n i (r.seen B)
  | .sub n c i s st f r => .sub n c i (s.seen B) (st.map fun kv => (kv.1, kv.2.seen B)) f (r.seen B)

def ModuleDef.seen (B : Boxes α) (d : ModuleDef (Held α)) : ModuleDef α :=
  ⟨d.cls, d.index, d.subs.seen B, d.statics.map fun kv => (kv.1, kv.2.seen B), d.isInit⟩

/-! ### References to objects that exist -/

/-- A reference to an existing container object, or to something that is not a container; with the right class. -/
def RefOk (B : Boxes α) (v : PyVal (Held α)) : Prop :=
  ∃ x : Held α, v = x.obj B ∧
    match x with
    | .box b => ∃ c u m, B[b]? = some (.cont c u m)
    | .val u => u.isContainer = false

def Attr.RefOk (B : Boxes α) : Attr (Held α) → Prop
  | .ref _ => True
  | .val v => Nnx.RefOk B v

def ItemsOk (B : Boxes α) (items : List (Str × PyVal (Held α))) : Prop := ∀ kv ∈ items, RefOk B kv.2

/-- The static fields are references to things that are not nodes. -/
def StaticsOk (B : Boxes α) (items : List (Str × PyVal (Held α))) : Prop := ∀ kv ∈ items, RefOk B kv.2 ∧ kv.2.isNode = false

def Subs.Ok (B : Boxes α) : Subs (Held α) → Prop
  | .nil => True
  | .ref _ _ r => r.Ok B
  | .sub _ _ _ s st _ r => s.Ok B ∧ StaticsOk B st ∧ r.Ok B

def ModuleDef.Ok (B : Boxes α) (d : ModuleDef (Held α)) : Prop := d.subs.Ok B ∧ StaticsOk B d.statics

def HeapOk (B : Boxes α) (h : Heap (Held α)) : Prop :=
  ∀ o ∈ h, DNodup o.attrs ∧ ∀ kv ∈ o.attrs, kv.2.RefOk B

/-- The attributes of every Module form a dict, and all references in them are to existing objects. -/
def BoxWorld.Ok (w : BoxWorld α) : Prop := HeapOk w.boxes w.world.heap

/-! ### Programs -/

/-- What a program does. The objects in the arguments are any objects that exist at that time. -/
inductive BoxOp (α : Type)
  /-- `c(x, **md)` for a container class `c` -/
  | make (c : Cls) (x : Held α) (md : Md α)
  /-- a new Module -/
  | create (c : Cls)
  /-- `m.name = x` -/
  | assign (l : Loc) (name : Str) (new : Attr (Held α))
  /-- `del m.name` -/
  | delete (l : Loc) (name : Str)
  /-- `m.get_state()` -/
  | getState (l : Loc)
  /-- `m.partition(*fs)` -/
  | partition (l : Loc) (fs : List (Filter α))
  /-- `moduledef.merge(*ss)` -/
  | merge (d : ModuleDef (Held α)) (ss : List (State (PyVal (Held α))))
  /-- `m.update_state(ss)` -/
  | update (l : Loc) (ss : List (State (PyVal (Held α))))
  /-- `m.pop_state(*fs)` -/
  | pop (l : Loc) (fs : List (Filter α))
  /-- `m.sow(vt, name, value)` -/
  | sow (l : Loc) (vt : Cls) (name : Str) (value : PyVal α)

/-- What an operation returns. -/
inductive OpResult (α : Type)
  | done
  | raised (e : Err)
  | object (v : PyVal α)
  | module (l : Loc)
  | states (ss : List (State (PyVal α)))
  | parts (ss : List (State (PyVal α))) (d : ModuleDef α)

def OpResult.seen (B : Boxes α) : OpResult (Held α) → OpResult α
  | .done => .done
  | .raised e => .raised e
  | .object v => .object (v.seen B)
  | .module l => .module l
  | .states ss => .states (ss.map (State.seen B))
  | .parts ss d => .parts (ss.map (State.seen B)) (d.seen B)

/-- The arguments are objects that exist. -/
def BoxOp.Valid (B : Boxes α) : BoxOp α → Prop
  | .make _ x _ => RefOk B (x.obj B)
  | .assign _ _ new => new.RefOk B
  | .merge d ss => d.Ok B ∧ ∀ s ∈ ss, ItemsOk B s.items
  | .update _ ss => ∀ s ∈ ss, ItemsOk B s.items
  | _ => True

/-- The results are objects that exist. -/
def OpResult.Ok (B : Boxes α) : OpResult (Held α) → Prop
  | .object v => RefOk B v
  | .states ss => ∀ s ∈ ss, ItemsOk B s.items
  | .parts ss d => (∀ s ∈ ss, ItemsOk B s.items) ∧ d.Ok B
  | _ => True

variable [DecidableEq α]

/-- Package what a call that returns nothing did. -/
def returned {W β : Type} (w : W) : Except Err W → W × OpResult β
  | .ok w' => (w', .done)
  | .error e => (w, .raised e)

/-- Package what `_update_module` did. -/
def updated {W β : Type} : W × Option Err → W × OpResult β
  | (w, none) => (w, .done)
  | (w, some e) => (w, .raised e)

/-- The operation on Modules whose attributes refer to container objects. -/
def BoxOp.run (fuel : Nat) : BoxOp α → BoxWorld α → BoxWorld α × OpResult (Held α)
  | .make c x md, w =>
    match makeBox c x md w with
    | .ok (w', v) => (w', .object v)
    | .error e => (w, .raised e)
  | .create c, w => (⟨(newModule c w.world).1, w.boxes⟩, .module (newModule c w.world).2)
  | .assign l name new, w => returned w (setBoxAttr w l name new)
  | .delete l name, w =>
    match delAttr w.world.heap l name with
    | .ok h => (⟨{ w.world with heap := h }, w.boxes⟩, .done)
    | .error e => (w, .raised e)
  | .getState l, w =>
    match Nnx.getState fuel w.world.heap l with
    | some s => (w, .states [s])
    | none => (w, .raised .recursionError)
  | .partition l fs, w =>
    match partitionBoxModule fuel w l fs with
    | .ok (ss, d) => (w, .parts ss d)
    | .error e => (w, .raised e)
  | .merge d ss, w =>
    match mergeBoxDef d ss w with
    | (w, .ok l) => (w, .module l)
    | (w, .error e) => (w, .raised e)
  | .update l ss, w => updated (updateBoxState fuel l ss w)
  | .pop l fs, w =>
    match popBoxState fuel l fs w with
    | (w, .ok ss) => (w, .states ss)
    | (w, .error e) => (w, .raised e)
  | .sow l vt name value, w => returned w (sowBox l vt name value w)

/-- The operation on Modules whose attributes are values (the functions of `Model/Module.lean` and `Model/ModuleOps.lean`). `B` is
used only to look at the arguments. -/
def BoxOp.onValues (fuel : Nat) (B : Boxes α) : BoxOp α → World α → World α × OpResult α
  | .make c x md, w =>
    match construct c (x.seen B) md with
    | .ok v => (w, .object v)
    | .error e => (w, .raised e)
  | .create c, w => ((newModule c w).1, .module (newModule c w).2)
  | .assign l name new, w => returned w (setAttr w l name (new.seen B))
  | .delete l name, w =>
    match delAttr w.heap l name with
    | .ok h => ({ w with heap := h }, .done)
    | .error e => (w, .raised e)
  | .getState l, w =>
    match Nnx.getState fuel w.heap l with
    | some s => (w, .states [s])
    | none => (w, .raised .recursionError)
  | .partition l fs, w =>
    match partitionModule fuel w.heap l fs with
    | .ok (ss, d) => (w, .parts ss d)
    | .error e => (w, .raised e)
  | .merge d ss, w =>
    match mergeDef (d.seen B) (ss.map (State.seen B)) w with
    | (w, .ok l) => (w, .module l)
    | (w, .error e) => (w, .raised e)
  | .update l ss, w => updated (updateState fuel l (ss.map (State.seen B)) w)
  | .pop l fs, w =>
    match popState fuel l fs w.heap with
    | (h, .ok ss) => ({ w with heap := h }, .states ss)
    | (h, .error e) => ({ w with heap := h }, .raised e)
  | .sow l vt name value, w => returned w (Nnx.sow l vt name value w)

/-- The worlds a program can reach from one without Modules and containers: by operations on what exists, and by writing to
containers. -/
inductive BoxReachable : BoxWorld α → Prop
  | start (n : Nat) (t : Nat) (s : List Nat) : BoxReachable ⟨⟨[], n, t, s⟩, []⟩
  | op {w w' : BoxWorld α} {fuel : Nat} {o : BoxOp α} {r : OpResult (Held α)} :
      BoxReachable w → o.Valid w.boxes → o.run fuel w = (w', r) → BoxReachable w'
  | write {w : BoxWorld α} (b : Nat) (value : PyVal α) (md : Md α) : BoxReachable w → BoxReachable (writeBox b value md w)
  /-- a trace begins or ends -/
  | traces {w : BoxWorld α} (t : Nat) (s : List Nat) :
      BoxReachable w → BoxReachable ⟨{ w.world with jaxTrace := t, nnxStack := s }, w.boxes⟩

/-- The attribute holds this container object. -/
def Holds (w : BoxWorld α) (l : Loc) (n : Str) (b : Nat) : Prop := ∃ c, attrAt w.world.heap l n = some (.val (.data c (.box b)))

end Nnx
