import Verif.Spec.History
import Verif.Spec.Filters
import Verif.Model.Transforms
import Verif.Proofs.State
/-
A Module as a dictionary: the path strings of its variables and the variables themselves, and what every operation on
the Module does to that dictionary.  Nothing here mentions how Modules are stored.
-/
namespace Nnx
variable {α : Type}

/-- A dictionary from path strings to variables. -/
abbrev PathMap (α : Type) := Str → Option (PyVal α)

/-- What a program does with a Module. -/
inductive ModelOp (α : Type)
  /-- `m.update_state(*us)` -/
  | update (us : List (State (PyVal α)))
  /-- `m.mutable_state_dict()[path].value = v` -/
  | write (path : Str) (v : PyVal α)
  /-- `m.name = v`, where `m.name` is not a submodule or a Static container -/
  | assign (name : Str) (v : PyVal α)
  /-- `del m.name`, where `m.name` is not a submodule -/
  | delete (name : Str)
  /-- `m.pop_state(*fs)` -/
  | pop (fs : List (Filter α))
  /-- `*states, moduledef = m.partition(*fs)` and `m = moduledef.merge(states')`, where `states'` are the same States in any
  order; done again with the result, this is a `clone`, the start and the end of every transform -/
  | rebuild (fs : List (Filter α)) (states : List (State (PyVal α)))
  /-- anything that does not touch a Module reachable from `m`: creating, changing or merging other Modules,
  entering and leaving traces -/
  | elsewhere

/-- What is kept under a path when `v` is written where `old` was: the box of `old` around `v`.  What is not a variable is
not listed. -/
def rewritten (old : Option (PyVal α)) (v : PyVal α) : Option (PyVal α) :=
  let new := match old with
    | some (.cont c _ m) => .cont c v.valueOf m
    | _ => v
  if new.isNode then some new else none

open Classical in
/-- What each operation does to the dictionary. -/
noncomputable def ModelOp.onDict : ModelOp α → PathMap α → PathMap α
  | .update us, D => fun k =>
    match given us k with
    | some v => rewritten (D k) v
    | none => D k
  | .write path v, D => fun k => if k = path then rewritten (D k) v else D k
  | .assign name v, D => fun k => if k = name then rewritten (D k) v else D k
  | .delete name, D => fun k => if k = name then none else D k
  | .pop fs, D => fun k =>
    match D k with
    | some v => if ∃ f ∈ fs, f.Matches k v then none else some v
    | none => none
  | .rebuild _ _, D => D
  | .elsewhere, D => D

/-- What the theorem asks of an operation, given the dictionary so far: updates are for paths the dictionary has and
hold proper values; filters to pop by look at the variables, not at the paths. -/
def ModelOp.Allowed : ModelOp α → PathMap α → Prop
  | .update us, D => ∀ t ∈ us, t.Canonical ∧ ∀ k v, t.get k = some v → WFVal v ∧ (D k).isSome
  | .write _ v, _ => WFVal v
  | .assign name v, _ => GoodName name ∧ WFVal v
  | .delete _, _ => True
  | .pop fs, _ => ∀ f ∈ fs, ∀ k k' v, f.Matches k v → f.Matches k' v
  | .rebuild _ _, _ => True
  | .elsewhere, _ => True

variable [DecidableEq α]

/-- The operation, done to the Module `r` in the world `w`, returns normally and leaves the world `w'`, in which the
program goes on with the Module `r'`. -/
def ModelOp.Does : ModelOp α → World α → Loc → World α → Loc → Prop
  | .update us, w, r, w', r' => r' = r ∧ ∃ fuel, updateState fuel r us w = (w', none)
  | .write path v, w, r, w', r' => r' = r ∧ ∃ fuel d leaf, w.heap.length < fuel ∧ mutableStateDict fuel w.heap r = .ok d ∧
      dget d path = some leaf ∧ leafSet w leaf v = .ok w'
  | .assign name v, w, r, w', r' => r' = r ∧ setAttr w r name (.val v) = .ok w' ∧
      (∀ b, attrAt w.heap r name ≠ some (.ref b)) ∧
      ∀ c x m, attrAt w.heap r name = some (.val (.cont c x m)) → (PyVal.cont c x m).isNode = true
  | .delete name, w, r, w', r' => r' = r ∧ (∀ b, attrAt w.heap r name ≠ some (.ref b)) ∧
      ∃ h, delAttr w.heap r name = .ok h ∧ w' = { w with heap := h }
  | .pop fs, w, r, w', r' => r' = r ∧ ∃ fuel ss h, w.heap.length < fuel ∧ popState fuel r fs w.heap = (h, .ok ss) ∧ w' = { w with heap := h }
  | .rebuild fs states, w, r, w', r' => ∃ fuel ss d, partitionModule fuel w.heap r fs = .ok (ss, d) ∧ states.Perm ss ∧
      mergeDef d states w = (w', .ok r')
  | .elsewhere, w, r, w', r' => r' = r ∧ WFWorld w' ∧ ∀ l, Reaches w.heap r l → w'.heap[l]? = w.heap[l]?

/-- A program that does these operations to a Module, one after the other. -/
inductive Program : List (ModelOp α) → World α → Loc → World α → Loc → Prop
  | done {w r} : Program [] w r w r
  | more {op ops w r w1 r1 w' r'} : op.Does w r w1 r1 → Program ops w1 r1 w' r' → Program (op :: ops) w r w' r'

/-- The dictionary after the operations. -/
noncomputable def dictAfter : List (ModelOp α) → PathMap α → PathMap α
  | [], D => D
  | op :: ops, D => dictAfter ops (op.onDict D)

/-- Every operation is allowed when its turn comes. -/
def AllAllowed : List (ModelOp α) → PathMap α → Prop
  | [], _ => True
  | op :: ops, D => op.Allowed D ∧ AllAllowed ops (op.onDict D)

end Nnx
