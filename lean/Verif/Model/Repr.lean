import Verif.Model.Module
/-
nnx/reprlib.py and `Module.__nnx_repr__`: printing.
-/
namespace Nnx
variable {α : Type}

/-- The global state of the printer: `REPR_CONTEXT.indent_stack` (nnx/reprlib.py:8-13, the last element is the head
here) and `SEEN_MODULES_REPR` (nnx/module.py). `expanded` is a ghost: the Modules whose attributes were listed. -/
structure ReprCtx where
  indent : List Str
  seen : Option (List Nat)
  expanded : List Loc
deriving DecidableEq, Repr

/-- The state of the printer when nothing is being printed. -/
def ReprCtx.clean : ReprCtx := ⟨[[]], none, []⟩

/-- `get_indent()` (nnx/reprlib.py:55-56) -/
def ReprCtx.top (ctx : ReprCtx) : Str := ctx.indent.headD []

/-- Entering `add_indent("  ")` (nnx/reprlib.py:46-47); every `Object` of the modelled classes has the default
`elem_indent` (nnx/reprlib.py:22). -/
def ReprCtx.push (ctx : ReprCtx) : ReprCtx := { ctx with indent := (ctx.top ++ py! "  ") :: ctx.indent }

/-- Leaving it (nnx/reprlib.py:51-52) -/
def ReprCtx.pop (ctx : ReprCtx) : ReprCtx := { ctx with indent := ctx.indent.tail }

/-- `value.replace("\n", "\n" + get_indent())` (nnx/reprlib.py:76) -/
def reindent (indent : Str) : Str → Str
  | [] => []
  | c :: s => if c = '\n' then '\n' :: (indent ++ reindent indent s) else c :: reindent indent s

/-- `_repr_elem` once `repr(elem.value)` is known (nnx/reprlib.py:75-78) -/
def elemLine (ctx : ReprCtx) (representable : Bool) (key value : Str) : Str :=
  ctx.top ++ key ++ py! "=" ++ (if representable then value else reindent ctx.top value)

/-- `",\n".join(elems)` (nnx/reprlib.py:82) -/
def joinElems : List Str → Str
  | [] => []
  | [e] => e
  | e :: es => e ++ py! ",\n" ++ joinElems es

/-- The end of `get_repr` (nnx/reprlib.py:82-91) -/
def finishRepr (ctx : ReprCtx) (typeName empty : Str) (elems : List Str) : Str :=
  let text := joinElems elems
  typeName ++ py! "(" ++ (if text = [] then empty else py! "\n" ++ text ++ py! "\n" ++ ctx.top) ++ py! ")"

/-- The elements of a container (nnx/containers.py:101-104): `showVal` is Python's `repr` of a value, which may raise.
Simplification: it does not depend on the indentation; that of a Pytree does, see `reprIn` in Model/ReprTree.lean. -/
def containerElems (showVal : PyVal α → Except Err Str) (ctx : ReprCtx) : List (Str × PyVal α) → Except Err (List Str)
  | [] => .ok []
  | (name, v) :: rest =>
    match showVal v with
    | .error e => .error e
    | .ok s =>
      match containerElems showVal ctx rest with
      | .error e => .error e
      | .ok ls => .ok (elemLine ctx false name s :: ls)

/-- `repr(container)` (nnx/reprlib.py:59-91 with nnx/containers.py:101-104); `vars(container)` is the metadata and then
the value. -/
def reprContainer (showVal : PyVal α → Except Err Str) (c : Cls) (v : PyVal α) (m : Md α) (ctx : ReprCtx) :
    ReprCtx × Except Err Str :=
  match containerElems showVal ctx.push (m ++ [(py! "value", v)]) with
  | .error e => (ctx.push.pop, .error e)
  | .ok ls => (ctx.push.pop, .ok (finishRepr ctx.push.pop c.name [] ls))

/-- Whether `__nnx_repr__` lists an attribute (nnx/module.py:490-492) -/
def listed (name : Str) : Attr α → Bool
  | .ref _ => true
  | .val v => !v.isNode && !(name.head? == some '_')

/-- `elem.value if isinstance(elem.value, str) else repr(elem.value)` (nnx/reprlib.py:73); `sub` prints a Module. -/
def showAttr (sub : Loc → ReprCtx → Option (ReprCtx × Except Err Str)) (showVal : PyVal α → Except Err Str) (ctx : ReprCtx) :
    Attr α → Option (ReprCtx × Except Err Str)
  | .ref l => sub l ctx
  | .val (.str s) => some (ctx, .ok s)
  | .val (.cont c v m) => some (reprContainer showVal c v m ctx)
  | .val v => some (ctx, showVal v)

/-- `isinstance(elem.value, Representable)` (nnx/reprlib.py:75) -/
def Attr.representable : Attr α → Bool
  | .ref _ => true
  | .val (.cont _ _ _) => true
  | .val _ => false

/-- The next line in front of the remaining ones. -/
def consLine (line : Str) : Option (ReprCtx × Except Err (List Str)) → Option (ReprCtx × Except Err (List Str))
  | none => none
  | some (ctx, .error e) => some (ctx, .error e)
  | some (ctx, .ok ls) => some (ctx, .ok (line :: ls))

/-- `list(map(_repr_elem, iterator))` (nnx/reprlib.py:81) over the attributes of a Module; `sub` prints a Module.
`none`: out of fuel. -/
def reprElems (sub : Loc → ReprCtx → Option (ReprCtx × Except Err Str)) (showVal : PyVal α → Except Err Str) :
    List (Str × Attr α) → ReprCtx → Option (ReprCtx × Except Err (List Str))
  | [], ctx => some (ctx, .ok [])
  | (name, a) :: rest, ctx =>
    if listed name a = false then reprElems sub showVal rest ctx
    else
      match showAttr sub showVal ctx a with
      | none => none
      | some (ctx, .error e) => some (ctx, .error e)
      | some (ctx, .ok s) =>
        consLine (elemLine ctx a.representable name s) (reprElems sub showVal rest ctx)

/-- `repr(module)` (nnx/reprlib.py:42-43, 59-91 with nnx/module.py:473-497). `none` is "out of fuel".
When an exception passes through, `add_indent` pops its indentation, but the generator `__nnx_repr__` is not finished:
its `finally` runs when the generator object is collected (see `closeGenerator`). -/
def reprModule (showVal : PyVal α → Except Err Str) (h : Heap α) : Nat → Loc → ReprCtx → Option (ReprCtx × Except Err Str)
  | 0, _, _ => none
  | fuel + 1, l, ctx =>
    match h[l]? with
    | none => some (ctx, .error .unmodelled)
    | some o =>
      let clearSeen := ctx.seen.isNone
      let seen := ctx.seen.getD []
      if o.uid ∈ seen then
        -- the iterator has no elements: `add_indent` is entered and left
        let ctx := ({ ctx with seen := some seen }.push).pop
        some (ctx, .ok (finishRepr ctx o.cls.name (py! "...") []))
      else
        let ctx1 := { ctx with seen := some (seen ++ [o.uid]), expanded := ctx.expanded ++ [l] }.push
        match reprElems (reprModule showVal h fuel) showVal o.attrs ctx1 with
        | none => none
        | some (ctx2, .error e) => some (ctx2.pop, .error e)
        | some (ctx2, .ok elems) =>
          let ctx3 := if clearSeen then { ctx2 with seen := none } else ctx2
          some (ctx3.pop, .ok (finishRepr ctx3.pop o.cls.name [] elems))

/-- The `finally` of the outermost `__nnx_repr__` (nnx/module.py:494-497), run when the generator is collected: with the
traceback of the exception that passed through `repr`. -/
def closeGenerator (ctx : ReprCtx) : ReprCtx := { ctx with seen := none }

end Nnx
