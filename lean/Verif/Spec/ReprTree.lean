import Verif.Spec.Repr
import Verif.Model.ReprTree
/-
What the texts of States and ModuleDefs are.
-/
namespace Nnx
variable {α : Type}

/-- A text without line breaks. -/
def OneLine (s : Str) : Prop := '\n' ∉ s

/-- A name, and in brackets the lines, each on a line of its own and moved to the right by two spaces. -/
def itemised (name opening closing : Str) (lines : List Str) : Str :=
  if lines = [] then name ++ opening ++ closing
  else name ++ opening ++ py! "\n" ++ List.intercalate (py! ",\n") (lines.map (margin 1 ++ ·)) ++ py! "\n" ++ closing

mutual
/-- A value without containers and Pytrees inside. -/
def PyVal.simple : PyVal α → Bool
  | .none => true
  | .str _ => true
  | .data _ _ => true
  | .tup xs => simpleL xs
  | .cont _ _ _ => false
  | .cmeta v md => v.simple && simpleM md
  | .tree _ _ => false
  | .dict items => simpleM items
def PyVal.simpleL : List (PyVal α) → Bool
  | [] => true
  | v :: vs => v.simple && simpleL vs
def PyVal.simpleM : List (Str × PyVal α) → Bool
  | [] => true
  | (_, v) :: rest => v.simple && simpleM rest
end

/-- Names without line breaks for values that hold no containers and no Pytrees. -/
def SimpleFields (fields : List (Str × PyVal α)) : Prop := ∀ nv ∈ fields, OneLine nv.1 ∧ nv.2.simple = true

/-- A container or a Pytree of simple values. -/
inductive Tidy : PyVal α → Prop
  | cont {c : Cls} {v : PyVal α} {md : List (Str × PyVal α)} : OneLine c.name → v.simple = true → SimpleFields md → Tidy (.cont c v md)
  | tree {c : Cls} {vars : List (Str × PyVal α)} : OneLine c.name → SimpleFields vars → Tidy (.tree c vars)

/-- A simple value, or a container or a Pytree of such. -/
def Printable (v : PyVal α) : Prop := v.simple = true ∨ Tidy v

/-- The submodules a definition lists, by name: an index or a definition. -/
def Subs.listed : Subs α → List (Str × (Nat ⊕ ModuleDef α))
  | .nil => []
  | .ref name index rest => (name, .inl index) :: rest.listed
  | .sub name cls index subs statics isInit rest => (name, .inr ⟨cls, index, subs, statics, isInit⟩) :: rest.listed

/-- The static fields of all definitions in it are simple, and the names of their classes have no line breaks. -/
def Subs.Tidy : Subs α → Prop
  | .nil => True
  | .ref _ _ rest => rest.Tidy
  | .sub _ cls _ subs statics _ rest => OneLine cls.name ∧ (∀ nv ∈ statics, nv.2.simple = true) ∧ subs.Tidy ∧ rest.Tidy

/-- The same for a definition. -/
def ModuleDef.Tidy (d : ModuleDef α) : Prop := OneLine d.cls.name ∧ (∀ nv ∈ d.statics, nv.2.simple = true) ∧ d.subs.Tidy

/-- How Python prints strings: line breaks are escaped. -/
def Printer.Escapes (P : Printer α) : Prop := ∀ s, OneLine (P.quote s)

/-- A text shown as the value of an attribute: strings without quotes. -/
def shownAlone (P : Printer α) : PyVal α → Str
  | .str s => s
  | v => reprIn P [] v

/-- The text of a submodule in the list: its index, or what `repr` of its definition gives. -/
def subAlone (P : Printer α) : Nat ⊕ ModuleDef α → Str
  | .inl i => natText i
  | .inr d => reprDef P [] d

end Nnx
