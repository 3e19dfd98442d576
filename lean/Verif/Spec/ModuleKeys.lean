import Verif.Model.ModuleKeys
import Verif.Spec.History
/-
Programs that keep something for each Module in a dictionary, and use the Modules in between.
-/
namespace Nnx
variable {α V : Type} [DecidableEq α]

/-- What such a program does to the dictionary. -/
inductive KeyEvent (V : Type) where
  /-- `d[module] = v` -/
  | set (l : Loc) (v : V)
  /-- `del d[module]` -/
  | del (l : Loc)

/-- A run of such a program: any calls of the API (assignments, updates, clones, ...) between operations on the dictionary. Events that raise are not in the
list: they change nothing. -/
inductive KeyRun (H : KeyHash) : List Loc → World α → KeyDict V → List (KeyEvent V) → List Loc → World α → KeyDict V → Prop
  | done {K w d} : KeyRun H K w d [] K w d
  | api {K w K1 w1 d evs K' w' d'} : Step K w K1 w1 → KeyRun H K1 w1 d evs K' w' d' → KeyRun H K w d evs K' w' d'
  | set {K w d d1 evs K' w' d' l v} : l ∈ K → keySet H w.heap d l v = .ok d1 → KeyRun H K w d1 evs K' w' d' →
      KeyRun H K w d (.set l v :: evs) K' w' d'
  | del {K w d d1 evs K' w' d' l} : l ∈ K → keyDel H w.heap d l = .ok d1 → KeyRun H K w d1 evs K' w' d' →
      KeyRun H K w d (.del l :: evs) K' w' d'

/-- What is kept for a Module: what was last stored for this very object, if it was not deleted since. -/
def kept (evs : List (KeyEvent V)) (l : Loc) (before : Option V) : Option V :=
  match evs with
  | [] => before
  | .set m v :: evs => kept evs l (if m = l then some v else before)
  | .del m :: evs => kept evs l (if m = l then none else before)

end Nnx
