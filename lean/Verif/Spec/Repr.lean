import Verif.Model.Module
import Mathlib.Data.List.Forall2
/-
What the text of `repr(module)` is.
-/
namespace Nnx
variable {α : Type}

/-- Two spaces for every level. -/
def margin (depth : Nat) : Str := List.replicate (2 * depth) ' '

/-- A text of several lines moved to the right. -/
def shifted (depth : Nat) (s : Str) : Str := s.flatMap fun c => if c = '\n' then '\n' :: margin depth else [c]

/-- `Name()`, or the name and in parentheses the lines, separated by commas. -/
def bracketed (depth : Nat) (name : Str) (lines : List Str) : Str :=
  if lines = [] then name ++ py! "()"
  else name ++ py! "(\n" ++ List.intercalate (py! ",\n") lines ++ py! "\n" ++ margin depth ++ py! ")"

/-- The text of an attribute that is no Module: strings as they are, other values as Python prints them; a container is
bracketed. `showVal v t`: Python prints `v` as `t`. -/
inductive ValueText (showVal : PyVal α → Str → Prop) (depth : Nat) : PyVal α → Str → Prop
  | str (s : Str) : ValueText showVal depth (.str s) (shifted depth s)
  | container {c : Cls} {v : PyVal α} {md : List (Str × PyVal α)} {texts : List Str}
      (h : List.Forall₂ (fun nv t => showVal nv.2 t) (md ++ [(py! "value", v)]) texts) :
      ValueText showVal depth (.cont c v md) (bracketed depth c.name
        (List.zipWith (fun nv t => margin (depth + 1) ++ nv.1 ++ py! "=" ++ shifted (depth + 1) t)
          (md ++ [(py! "value", v)]) texts))
  | other {v : PyVal α} {t : Str} (hs : ∀ s, v ≠ .str s) (hc : v.isContainer = false) (h : showVal v t) :
      ValueText showVal depth v (shifted depth t)

mutual
/-- `ModuleText showVal h depth seen l text seen'`: a Module is printed as `text` at this level if the Modules `seen`
were printed before it; afterwards `seen'` were. A Module that was printed before is abbreviated. -/
inductive ModuleText (showVal : PyVal α → Str → Prop) (h : Heap α) : Nat → List Loc → Loc → Str → List Loc → Prop
  | again {depth : Nat} {seen : List Loc} {l : Loc} {o : ModObj α} (ho : h[l]? = some o) (hs : l ∈ seen) :
      ModuleText showVal h depth seen l (o.cls.name ++ py! "(...)") seen
  | first {depth : Nat} {seen seen' : List Loc} {l : Loc} {o : ModObj α} {lines : List Str} (ho : h[l]? = some o) (hs : l ∉ seen)
      (hl : AttrLines showVal h (depth + 1) (seen ++ [l]) o.attrs lines seen') :
      ModuleText showVal h depth seen l (bracketed depth o.cls.name lines) seen'
/-- The lines for the attributes of a Module, in order: all submodules, and the values that are neither nodes nor private. -/
inductive AttrLines (showVal : PyVal α → Str → Prop) (h : Heap α) : Nat → List Loc → List (Str × Attr α) → List Str → List Loc → Prop
  | nil {depth : Nat} {seen : List Loc} : AttrLines showVal h depth seen [] [] seen
  | submodule {depth : Nat} {seen seen1 seen2 : List Loc} {name : Str} {r : Loc} {rest : List (Str × Attr α)} {text : Str}
      {lines : List Str} (hm : ModuleText showVal h depth seen r text seen1) (hr : AttrLines showVal h depth seen1 rest lines seen2) :
      AttrLines showVal h depth seen ((name, .ref r) :: rest) ((margin depth ++ name ++ py! "=" ++ text) :: lines) seen2
  | value {depth : Nat} {seen seen' : List Loc} {name : Str} {v : PyVal α} {rest : List (Str × Attr α)} {text : Str}
      {lines : List Str} (hn : v.isNode = false) (hp : name.head? ≠ some '_') (hv : ValueText showVal depth v text)
      (hr : AttrLines showVal h depth seen rest lines seen') :
      AttrLines showVal h depth seen ((name, .val v) :: rest) ((margin depth ++ name ++ py! "=" ++ text) :: lines) seen'
  | hidden {depth : Nat} {seen seen' : List Loc} {name : Str} {v : PyVal α} {rest : List (Str × Attr α)} {lines : List Str}
      (hv : v.isNode = true ∨ name.head? = some '_') (hr : AttrLines showVal h depth seen rest lines seen') :
      AttrLines showVal h depth seen ((name, .val v) :: rest) lines seen'
end

end Nnx
