import Verif.Spec.Programs
import Verif.Spec.Filters
import Verif.Spec.Spmd
import Verif.Model.Scan
/-
What nnx.scan should do: a loop over the slices, on the module itself.
-/
namespace Nnx
variable {α κ A B C X : Type}

/-- Both values are containers of the same class with the same metadata, or neither is a container. -/
def SameKind (u v : PyVal α) : Prop :=
  (∀ c x m, u = .cont c x m → ∃ y, v = .cont c y m) ∧ (∀ c y m, v = .cont c y m → ∃ x, u = .cont c x m)

/-- The net effect of a call on the modules that `root` could reach before is that nodes (arrays or Variables) were replaced by
nodes of the same kind, and new nodes were added. -/
def NodesOnly (w w' : World α) (root : Loc) : Prop :=
  ∀ a n, Reaches w.heap root a → attrAt w'.heap a n = attrAt w.heap a n ∨
    ∃ v, attrAt w'.heap a n = some (.val v) ∧ v.isNode = true ∧
      ∀ x, attrAt w.heap a n = some x → ∃ u, x = .val u ∧ u.isNode = true ∧ SameKind u v

/-! ### Trees of arrays -/

/-- The values `us` are trees of the same structure (containers of the same class with the same metadata, tuples of the same length,
dicts with the same keys, None), and `v` is the tree of that structure where `g` gives the array at each place from the arrays of `us` at
that place. -/
inductive TreeOf (g : List α → α → Prop) : List (PyVal α) → PyVal α → Prop
  | none (n : Nat) : TreeOf g (List.replicate n .none) .none
  | array {c : Cls} {as : List α} {b : α} : g as b → TreeOf g (as.map (.data c)) (.data c b)
  | cont {c : Cls} {m : Md α} {us : List (PyVal α)} {v : PyVal α} : TreeOf g us v → TreeOf g (us.map (.cont c · m)) (.cont c v m)
  | tupNil (n : Nat) : TreeOf g (List.replicate n (.tup [])) (.tup [])
  | tupCons {us : List (PyVal α × List (PyVal α))} {v : PyVal α} {vs : List (PyVal α)} :
      TreeOf g (us.map (·.1)) v → TreeOf g (us.map (.tup ·.2)) (.tup vs) → TreeOf g (us.map fun u => .tup (u.1 :: u.2)) (.tup (v :: vs))
  | dictNil (n : Nat) : TreeOf g (List.replicate n (.dict [])) (.dict [])
  | dictCons {name : Str} {us : List (PyVal α × List (Str × PyVal α))} {v : PyVal α} {vs : List (Str × PyVal α)} :
      TreeOf g (us.map (·.1)) v → TreeOf g (us.map (.dict ·.2)) (.dict vs) →
      TreeOf g (us.map fun u => .dict ((name, u.1) :: u.2)) (.dict ((name, v) :: vs))

/-- `v` is the values `us` stacked along axis `a`, array by array. -/
def StackedVal (R : Arrays α) (a : Int) (us : List (PyVal α)) (v : PyVal α) : Prop :=
  us ≠ [] ∧ TreeOf (fun as b => R.stack a as = some b) us v

/-- `y` is slice `i` of `x` along axis `a`, array by array. -/
def SliceVal (R : Arrays α) (a : Int) (i : Nat) (x y : PyVal α) : Prop :=
  TreeOf (fun as b => ∃ z, as = [z] ∧ R.index a i z = some b) [x] y

/-- The two trees have the same structure. -/
def SameTree (x y : PyVal α) : Prop := ∃ z, TreeOf (fun as b => as.head? = some b) [x, y] z

/-- `x` is a tree of arrays that satisfy `P`. -/
def AllArrays (P : α → Prop) (x : PyVal α) : Prop := TreeOf (fun as b => as = [b] ∧ P b) [x] x

/-! ### The loop -/

variable [DecidableEq α]

/-- The loop
```
for inp, x in ins:
  m.update_state(inp)
  c, y = body(x)(m, c)
  outs.append((m.get_state(), y))
```
where each call has a net effect on nodes only. From world, initial carry and inputs to world, last carry and outputs. -/
inductive LoopRun (body : X → C → Loc → World α → World α × Except Err (C × B)) (m : Loc) :
    World α → C → List (State (PyVal α) × X) → World α → C → List (State (PyVal α) × B) → Prop
  | done {w c} : LoopRun body m w c [] w c []
  | next {w w1 w2 w' : World α} {c c' c'' : C} {inp s : State (PyVal α)} {x : X} {y : B}
      {ins : List (State (PyVal α) × X)} {outs : List (State (PyVal α) × B)} :
      updateState (w.heap.length + 1) m [inp] w = (w1, none) →
      body x c m w1 = (w2, .ok (c', y)) → NodesOnly w1 w2 m →
      getState (w2.heap.length + 1) w2.heap m = some s →
      LoopRun body m w2 c' ins w' c'' outs →
      LoopRun body m w c ((inp, x) :: ins) w' c'' ((s, y) :: outs)

omit [DecidableEq α] in
/-- The State to update the module with before the iteration on slice `i`: of an entry whose first matching filter is one of
`variable_axes`, slice `i` along the axis given there; the entries that match `variable_broadcast` as they are. -/
structure IsSlice (R : Arrays α) (o : ScanOptions α) (s : State (PyVal α)) (i : Nat) (inp : State (PyVal α)) : Prop where
  sorted : StrictSorted inp.mapping
  axes : ∀ k x (g : Nat) f a, s.get k = some x → o.variableAxes[g]? = some (f, a) → FirstMatch o.filters k x g →
    ∃ y, SliceVal R a i x y ∧ inp.get k = some y
  broadcast : ∀ k x, s.get k = some x → FirstMatch o.filters k x o.variableAxes.length → inp.get k = some x
  only : ∀ k y, inp.get k = some y → ∃ x g, s.get k = some x ∧ FirstMatch o.filters k x g ∧ g ≤ o.variableAxes.length

/-- The State to update the module with after the loop: of an entry whose first matching filter is one of `variable_axes`, the values
it had after the iterations, stacked along the axis; the entries that match `variable_broadcast` as they were before. -/
structure IsStacked (R : Arrays α) (o : ScanOptions α) (s : State (PyVal α)) (after : List (State (PyVal α)))
    (fin : State (PyVal α)) : Prop where
  sorted : StrictSorted fin.mapping
  axes : ∀ k x (g : Nat) f a, s.get k = some x → o.variableAxes[g]? = some (f, a) → FirstMatch o.filters k x g →
    ∃ v, StackedVal R a (after.filterMap fun t => t.get k) v ∧ fin.get k = some v
  broadcast : ∀ k x, s.get k = some x → FirstMatch o.filters k x o.variableAxes.length → fin.get k = some x
  only : ∀ k y, fin.get k = some y → ∃ x g, s.get k = some x ∧ FirstMatch o.filters k x g ∧ g ≤ o.variableAxes.length

/-- What jax can trace once for all iterations: all iterations leave the same paths; an entry stays in the collection it was in before
the scan, new entries are in the carry collection, and if there are any, one of them holds an array; the entries of the carry
collection keep their tree structure. -/
structure Uniform (o : ScanOptions α) (s : State (PyVal α)) (after : List (State (PyVal α))) : Prop where
  paths : ∀ t ∈ after, ∀ t' ∈ after, ∀ k, (t.get k).isSome = (t'.get k).isSome
  stays : ∀ t ∈ after, ∀ k x y g, s.get k = some x → t.get k = some y → FirstMatch o.filters k x g → FirstMatch o.filters k y g
  fresh : ∀ t ∈ after, ∀ k y, s.get k = none → t.get k = some y → FirstMatch o.filters k y (o.variableAxes.length + 1)
  arrays : ∀ t ∈ after, ∀ k, s.get k = none → (t.get k).isSome →
    ∃ k' y, s.get k' = none ∧ t.get k' = some y ∧ ¬ AllArrays (fun _ => False) y
  trees : ∀ t ∈ s :: after, ∀ t' ∈ after, ∀ k x y, t.get k = some x → t'.get k = some y →
    FirstMatch o.filters k y (o.variableAxes.length + 1) → SameTree x y

omit [DecidableEq α] in
/-- `n` is the length of the scan: of all arrays in the entries of `variable_axes` along their axis, of the argument `xs`, and of
`length`, if given; and one of them is given. -/
structure HasLength (R : Arrays α) (o : ScanOptions α) (s : State (PyVal α)) (xs : Option (List A)) (n : Nat) : Prop where
  leaves : ∀ k x (g : Nat) f a, s.get k = some x → o.variableAxes[g]? = some (f, a) → FirstMatch o.filters k x g →
    AllArrays (fun y => R.size a y = some n) x
  arg : ∀ as, xs = some as → as.length = n
  option : ∀ m, o.length = some m → m = n
  known : o.length = some n ∨ xs ≠ none ∨ ∃ k x g f a, s.get k = some x ∧ o.variableAxes[(g : Nat)]? = some (f, a) ∧
    FirstMatch o.filters k x g ∧ ¬ AllArrays (fun _ => False) x

omit [DecidableEq α] in
/-- The inputs of the loop for slices 0, ..., n-1: what to update the module with, the context and the element of the argument. -/
def LoopInputs (R : Arrays α) (o : ScanOptions α) (s : State (PyVal α)) (xs : Option (List A)) (ctxs : Nat → Option (PureContext κ))
    (n : Nat) (ins : List (State (PyVal α) × (Option (PureContext κ) × Option A))) : Prop :=
  ins.length = n ∧ ∀ (i : Nat) inp x, ins[i]? = some (inp, x) → IsSlice R o s i inp ∧ x = (ctxs i, xs.bind fun as => as[i]?)

/-! ### Scans with a partition name -/

omit [DecidableEq α] in
/-- `x'` is `x` without the name of axis `i`: entry `i` of its sharding, which is the name, is taken out. A value without sharding is
not changed. -/
def AxisRemoved (i : Int) (name x x' : PyVal α) : Prop :=
  (shardingOf x = none ∧ x' = x) ∨
    ∃ xs n, shardingOf x = some xs ∧ i = (n : Nat) ∧ xs[n]? = some name ∧ x' = withSharding x (xs.eraseIdx n)

omit [DecidableEq α] in
/-- `w'` is `w` with the name of the scanned axis taken out of the sharding of all entries of `variable_axes` of the module `l`, whose
state is `s`. That does not move an entry to another collection. -/
structure Unnamed (o : ScanOptions α) (name : PyVal α) (l : Loc) (s : State (PyVal α)) (w w' : World α) : Prop where
  objects : SameObjects w w'
  axes : ∀ k x (g : Nat) f i a n, s.get k = some x → o.variableAxes[g]? = some (f, i) → FirstMatch o.filters k x g →
    Addresses w.heap l k a n → ∃ x', AxisRemoved i name x x' ∧ FirstMatch o.filters k x' g ∧ attrAt w'.heap a n = some (.val x')
  rest : ∀ a n, (∀ k x (g : Nat), s.get k = some x → g < o.variableAxes.length → FirstMatch o.filters k x g →
    ¬ Addresses w.heap l k a n) → attrAt w'.heap a n = attrAt w.heap a n

end Nnx
