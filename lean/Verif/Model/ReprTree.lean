import Verif.Model.Repr
/-
`repr` of States, ModuleDefs, containers and Pytrees (nnx/reprlib.py and the `__nnx_repr__` methods).
-/
namespace Nnx
variable {α : Type}

/-- What Python's `repr` prints for values that nnx does not print itself: strings, and opaque objects. Simplification:
the text of an opaque object does not depend on what is being printed around it. -/
structure Printer (α : Type) where
  quote : Str → Str
  data : Cls → α → Str

/-- `reprlib.Object` (nnx/reprlib.py:16-23); every `Object` of nnx has the default `elem_indent`. -/
structure ReprObject where
  type : Str
  start : Str := py! "("
  stop : Str := py! ")"
  sep : Str := py! "="
  empty : Str := []

/-- `reprlib.Attr` (nnx/reprlib.py:26-31) when its value has been printed; `representable`: the value is a Representable
(nnx/reprlib.py:75). -/
structure ReprAttr where
  key : Str
  text : Str
  representable : Bool
  start : Str := []
  stop : Str := []

/-- `_repr_elem` (nnx/reprlib.py:69-78); `indent` is `get_indent()`. -/
def ReprAttr.line (indent : Str) (o : ReprObject) (a : ReprAttr) : Str :=
  indent ++ a.start ++ a.key ++ o.sep ++ (if a.representable then a.text else reindent indent a.text) ++ a.stop

/-- `get_repr` (nnx/reprlib.py:59-91) where `indent` is `get_indent()` around it; the attributes have been printed with
two more spaces (nnx/reprlib.py:80-81). -/
def getRepr (indent : Str) (o : ReprObject) (attrs : List ReprAttr) : Str :=
  let elems := joinElems (attrs.map (ReprAttr.line (indent ++ py! "  ") o))
  o.type ++ o.start ++ (if elems = [] then o.empty else py! "\n" ++ elems ++ py! "\n" ++ indent) ++ o.stop

/-- `", ".join(texts)` in the texts of tuples and dicts (Python). -/
def commaSep : List Str → Str
  | [] => []
  | [t] => t
  | t :: ts => t ++ py! ", " ++ commaSep ts

/-- The text of a tuple, from the texts of its items (Python). -/
def tupleText (items : List Str) : Str :=
  match items with
  | [t] => py! "(" ++ t ++ py! ",)"
  | ts => py! "(" ++ commaSep ts ++ py! ")"

mutual
/-- `repr(value)` while `get_indent()` is `indent`: containers (nnx/containers.py:101-104) and Pytrees
(nnx/pytreelib.py:257-260) yield `repr` of their fields, that is, strings; a `ContainerMetadata` is a dataclass
(nnx/containers.py:18-21); the rest is Python's. -/
def reprIn (P : Printer α) (indent : Str) : PyVal α → Str
  | .none => py! "None"
  | .str s => P.quote s
  | .data c a => P.data c a
  | .tup xs => tupleText (reprItems P indent xs)
  | .cont c v md => getRepr indent { type := c.name } (reprFields P (indent ++ py! "  ") md ++
      [{ key := py! "value", text := reprIn P (indent ++ py! "  ") v, representable := false }])
  | .cmeta v md => py! "ContainerMetadata(value=" ++ reprIn P indent v ++ py! ", metadata={" ++
      commaSep (reprPairs P indent md) ++ py! "})"
  | .tree c vars => getRepr indent { type := c.name } (reprFields P (indent ++ py! "  ") vars)
  | .dict items => py! "{" ++ commaSep (reprPairs P indent items) ++ py! "}"
/-- The texts of the items of a tuple. -/
def reprItems (P : Printer α) (indent : Str) : List (PyVal α) → List Str
  | [] => []
  | v :: vs => reprIn P indent v :: reprItems P indent vs
/-- The texts of the items of a dict. -/
def reprPairs (P : Printer α) (indent : Str) : List (Str × PyVal α) → List Str
  | [] => []
  | (k, v) :: rest => (P.quote k ++ py! ": " ++ reprIn P indent v) :: reprPairs P indent rest
/-- `for name, value in vars(self).items(): yield reprlib.Attr(name, repr(value))` (nnx/containers.py:103-104,
nnx/pytreelib.py:259-260) -/
def reprFields (P : Printer α) (indent : Str) : List (Str × PyVal α) → List ReprAttr
  | [] => []
  | (n, v) :: rest => { key := n, text := reprIn P indent v, representable := false } :: reprFields P indent rest
end

/-- `isinstance(value, Representable)` for values that are no Modules -/
def PyVal.representable : PyVal α → Bool
  | .cont _ _ _ => true
  | .tree _ _ => true
  | _ => false

/-- `elem.value if isinstance(elem.value, str) else repr(elem.value)` (nnx/reprlib.py:73) -/
def elemText (P : Printer α) (indent : Str) : PyVal α → Str
  | .str s => s
  | v => reprIn P indent v

/-- `repr(state)` (nnx/state.py:42-46) while `get_indent()` is `indent` -/
def reprState (P : Printer α) (indent : Str) (s : State (PyVal α)) : Str :=
  getRepr indent { type := py! "State", start := py! "({", stop := py! "})", sep := py! ": " }
    (s.items.map fun kv =>
      { key := P.quote kv.1, text := elemText P (indent ++ py! "  ") kv.2, representable := kv.2.representable })

/-- `repr` of an index. -/
def natText (n : Nat) : Str := (toString n).toList

/-- `repr` of the static fields, a tuple of pairs -/
def staticsText (P : Printer α) (indent : Str) (statics : List (Str × PyVal α)) : Str :=
  tupleText (statics.map fun nv => tupleText [P.quote nv.1, reprIn P indent nv.2])

/-- The Object and the elements of `ModuleDef.__nnx_repr__` (nnx/module.py:103-109) once its submodules are printed. -/
def defText (P : Printer α) (indent : Str) (cls : Cls) (index : Nat) (submodules : Str)
    (statics : List (Str × PyVal α)) : Str :=
  getRepr indent { type := py! "ModuleDef" }
    [{ key := py! "type", text := cls.name, representable := false },
     { key := py! "index", text := natText index, representable := false },
     { key := py! "submodules", text := submodules, representable := true },
     { key := py! "static_fields", text := staticsText P (indent ++ py! "  ") statics, representable := false }]

/-- The Object of `_SubmodulesRepr` (nnx/module.py:80). -/
def submodulesObject : ReprObject := { type := [], sep := py! ", " }

/-- The elements of `_SubmodulesRepr.__nnx_repr__` (nnx/module.py:82-83); `indent` is `get_indent()` for them. -/
def reprSubs (P : Printer α) : Str → Subs α → List ReprAttr
  | _, .nil => []
  | indent, .ref name index rest =>
    { key := P.quote name, text := natText index, representable := false, start := py! "(", stop := py! ")" } ::
      reprSubs P indent rest
  | indent, .sub name cls index subs statics _ rest =>
    { key := P.quote name,
      text := defText P indent cls index
        (getRepr (indent ++ py! "  ") submodulesObject (reprSubs P (indent ++ py! "  " ++ py! "  ") subs)) statics,
      representable := true, start := py! "(", stop := py! ")" } :: reprSubs P indent rest

/-- `repr(moduledef)` (nnx/module.py:76-109) while `get_indent()` is `indent` -/
def reprDef (P : Printer α) (indent : Str) (d : ModuleDef α) : Str :=
  defText P indent d.cls d.index
    (getRepr (indent ++ py! "  ") submodulesObject (reprSubs P (indent ++ py! "  " ++ py! "  ") d.subs)) d.statics

end Nnx
