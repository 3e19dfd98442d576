import Verif.Model.Value
/-
nnx/containers.py: Container, Node, Variable, Static, with_metadata.
-/
namespace Nnx

variable {α : Type} [DecidableEq α]

abbrev Md (α : Type) := Dict Str (PyVal α)

/-- Python's `==` between two metadata dicts (order irrelevant). -/
def mdEq (m n : Md α) : Bool :=
  m.all (fun kv => decide (dget n kv.1 = some kv.2)) && n.all (fun kv => decide (dget m kv.1 = some kv.2))

omit [DecidableEq α] in
/-- `Container.__init__` (nnx/containers.py:47-52). `vars(self).update(metadata, value=value)`: a metadata
entry called "value" is overwritten by the value, so it is dropped from the metadata. -/
def containerInit (c : Cls) (value : PyVal α) (md : Md α) : PyVal α :=
  match value with
  | .cmeta v m => .cont c v (ddel (dupdate md m) (py! "value"))
  | v => .cont c v md

omit [DecidableEq α] in
/-- `type.__call__` on a container class: `Static.__init__` accepts only a value
(nnx/containers.py:173-174), `Variable.__init__` has `sharding=None` (nnx/containers.py:146-152),
other containers use `Container.__init__`. A keyword called `value` besides the positional value is a
TypeError. Simplifications: subclasses do not override `__init__`, and no metadata is called `self` (which Python rejects, being the name of a parameter). -/
def classInit (c : Cls) (value : PyVal α) (md : Md α) : Except Err (PyVal α) :=
  if dhas md (py! "value") then .error .typeError
  else if c.isSub cStatic then
    if md.isEmpty then .ok (containerInit c value []) else .error .typeError
  else if c.isSub cVariable then
    .ok (containerInit c value (dupdate [(py! "sharding", .none)] md))
  else .ok (containerInit c value md)

/-- `Container.is_equivalent` (nnx/containers.py:92-96) -/
def isEquivalent : PyVal α → PyVal α → Bool
  | .cont c _ m, .cont d _ n => decide (c = d) && mdEq m n
  | _, _ => false

/-- `ContainerMetaclass.__call__` (nnx/containers.py:26-41): `c(value, **md)`. -/
def construct (c : Cls) (value : PyVal α) (md : Md α) : Except Err (PyVal α) :=
  match value with
  | .cont c0 v0 m0 =>
    match classInit c v0 md with
    | .error e => .error e
    | .ok obj => if isEquivalent (.cont c0 v0 m0) obj then .ok obj else .error .valueError
  | v => classInit c v md

/-- `Container.__eq__` (nnx/containers.py:59-62) -/
def containerEq : PyVal α → PyVal α → Bool
  | .cont c v m, .cont d w n => decide (c = d) && decide (v = w) && mdEq n m
  | _, _ => false

/-- The attribute dict `vars(container)`. -/
def varsOf (v : PyVal α) (m : Md α) : Md α := m ++ [(py! "value", v)]

/-- The first block of `Container.replace` (nnx/containers.py:73-81): unwrap a container passed as the
new value, after checking that it is equivalent. -/
def replaceUnwrap (self : PyVal α) (kwargs : Md α) : Except Err (Md α) :=
  match dget kwargs (py! "value") with
  | some (.cont d w n) =>
    if isEquivalent self (.cont d w n) then .ok (dset kwargs (py! "value") w) else .error .valueError
  | _ => .ok kwargs

/-- `Container.replace(**kwargs)` (nnx/containers.py:72-90). -/
def replace (self : PyVal α) (kwargs : Md α) : Except Err (PyVal α) :=
  match self with
  | .cont c v m =>
    match replaceUnwrap self kwargs with
    | .error e => .error e
    | .ok kw =>
      if kw.any (fun kv => !dhas (varsOf v m) kv.1) then .error .valueError
      else
        let attrs := dupdate (varsOf v m) kw
        match dget attrs (py! "value") with
        | some value => construct c value (ddel attrs (py! "value"))
        | none => .error .typeError
  | _ => .error .attributeError

/-- `Container.copy()` (nnx/containers.py:98-99) -/
def copy : PyVal α → Except Err (PyVal α)
  | .cont c v m => construct c v m
  | _ => .error .attributeError

/-- `_node_flatten` (nnx/containers.py:112-124) for a subclass of NodeBase: one child, the metadata as
auxiliary data; `_static_flatten` (nnx/containers.py:180-181): no child, the value as auxiliary data. -/
def flattenContainer : PyVal α → Option (List (PyVal α) × (Cls × Md α × Option (PyVal α)))
  | .cont c v m =>
    if c.isSub cNodeBase then some ([v], (c, m, none))
    else if c = cStatic then some ([], (c, m, some v))
    else none
  | _ => none

/-- `_node_unflatten` (nnx/containers.py:126-129) / `_static_unflatten` (nnx/containers.py:184-185). -/
def unflattenContainer : (Cls × Md α × Option (PyVal α)) → List (PyVal α) → Except Err (PyVal α)
  | (c, m, none), child :: _ => construct c child m
  | (_, _, some v), [] => construct cStatic v []
  | _, _ => .error .typeError

/-- `with_metadata(init, **md)` (nnx/containers.py:191-199) applied to arguments: the initializer's result
wrapped in `ContainerMetadata`. -/
def withMetadata {A : Type} (init : A → PyVal α) (md : Md α) : A → PyVal α :=
  fun args => .cmeta (init args) md

/-- `Module.__getattribute__` on a stored value (nnx/module.py:447-453): a container is unwrapped with its
`unbox_fn` if it has one (the parameter `unbox` returns the function found on the container, if any). -/
def unboxed (unbox : Cls → Md α → Option (PyVal α → PyVal α)) : PyVal α → PyVal α
  | .cont c v m =>
    match unbox c m with
    | some f => f (.cont c v m)
    | none => v
  | v => v

end Nnx
