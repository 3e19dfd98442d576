import Verif.Spec.Scan
/-
What nnx.scan does with variables that the body creates.
-/
namespace Nnx
variable {α κ A B C X : Type}

/-- The world without the attributes that `del` selects. -/
def World.without (v : World α) (del : Loc → Str → Bool) : World α :=
  { v with heap := v.heap.mapIdx fun a o => { o with attrs := o.attrs.filter fun kv => !del a kv.1 } }

/-- `v'` is `v` without those variables of the module `l` that are not in the State `s0` and whose first matching filter of the scan
(counting those of `variable_axes`, then `variable_broadcast` and `variable_carry`) has a number that satisfies `P`. -/
def Dropped (o : ScanOptions α) (s0 : State (PyVal α)) (P : Nat → Prop) (l : Loc) (v v' : World α) : Prop :=
  ∃ del s, getState (v.heap.length + 1) v.heap l = some s ∧ v' = v.without del ∧
    ∀ a n, del a n = true ↔ ∃ k y g, s.get k = some y ∧ s0.get k = none ∧ FirstMatch o.filters k y g ∧ P g ∧ Addresses v.heap l k a n

variable [DecidableEq α]

/-- The loop
```
for inp, x in ins:
  delete what the previous iteration created, except for variables of the carry collection
  m.update_state(inp)
  c, y = body(x)(m, c)
  outs.append((m.get_state(), y))
```
where each call has a net effect on nodes only. `s0` is the state before the loop. From world, initial carry and inputs to world, last
carry and outputs. -/
inductive FreshLoop (o : ScanOptions α) (s0 : State (PyVal α)) (body : X → C → Loc → World α → World α × Except Err (C × B)) (m : Loc) :
    World α → C → List (State (PyVal α) × X) → World α → C → List (State (PyVal α) × B) → Prop
  | done {w c} : FreshLoop o s0 body m w c [] w c []
  | next {w w0 w1 w2 w' : World α} {c c' c'' : C} {inp s : State (PyVal α)} {x : X} {y : B}
      {ins : List (State (PyVal α) × X)} {outs : List (State (PyVal α) × B)} :
      Dropped o s0 (· ≤ o.variableAxes.length) m w w0 →
      updateState (w0.heap.length + 1) m [inp] w0 = (w1, none) →
      body x c m w1 = (w2, .ok (c', y)) → NodesOnly w1 w2 m →
      getState (w2.heap.length + 1) w2.heap m = some s →
      FreshLoop o s0 body m w2 c' ins w' c'' outs →
      FreshLoop o s0 body m w c ((inp, x) :: ins) w' c'' ((s, y) :: outs)

omit [DecidableEq α] in
/-- The State to update the module with after the loop: of an entry whose first matching filter is one of `variable_axes`, be it
new or not, the values it had after the iterations, stacked along the axis; the old entries that match `variable_broadcast` as they were
before. -/
structure IsStackedNew (R : Arrays α) (o : ScanOptions α) (s : State (PyVal α)) (after : List (State (PyVal α)))
    (fin : State (PyVal α)) : Prop where
  sorted : StrictSorted fin.mapping
  axes : ∀ k t x (g : Nat) f a, t ∈ after → t.get k = some x → o.variableAxes[g]? = some (f, a) → FirstMatch o.filters k x g →
    ∃ v, StackedVal R a (after.filterMap fun t => t.get k) v ∧ fin.get k = some v
  broadcast : ∀ k x, s.get k = some x → FirstMatch o.filters k x o.variableAxes.length → fin.get k = some x
  only : ∀ k y, fin.get k = some y →
    (∃ t x g, t ∈ after ∧ t.get k = some x ∧ FirstMatch o.filters k x g ∧ g < o.variableAxes.length) ∨
    ∃ x, s.get k = some x ∧ FirstMatch o.filters k x o.variableAxes.length

/-- What jax can trace once for all iterations: all iterations leave the same paths; an old entry stays in the collection it was in
before the scan; a new entry is in some collection, the same in all iterations; if there are new entries in the carry collection, one of
them holds an array; the entries of the carry collection keep their tree structure. -/
structure UniformNew (o : ScanOptions α) (s : State (PyVal α)) (after : List (State (PyVal α))) : Prop where
  paths : ∀ t ∈ after, ∀ t' ∈ after, ∀ k, (t.get k).isSome = (t'.get k).isSome
  stays : ∀ t ∈ after, ∀ k x y g, s.get k = some x → t.get k = some y → FirstMatch o.filters k x g → FirstMatch o.filters k y g
  fresh : ∀ t ∈ after, ∀ k y, s.get k = none → t.get k = some y → ∃ g, FirstMatch o.filters k y g
  agree : ∀ t ∈ after, ∀ t' ∈ after, ∀ k x y g, s.get k = none → t.get k = some x → t'.get k = some y →
    FirstMatch o.filters k x g → FirstMatch o.filters k y g
  arrays : ∀ t ∈ after, ∀ k x, s.get k = none → t.get k = some x → FirstMatch o.filters k x (o.variableAxes.length + 1) →
    ∃ k' y, s.get k' = none ∧ t.get k' = some y ∧ FirstMatch o.filters k' y (o.variableAxes.length + 1) ∧ ¬ AllArrays (fun _ => False) y
  trees : ∀ t ∈ s :: after, ∀ t' ∈ after, ∀ k x y, t.get k = some x → t'.get k = some y →
    FirstMatch o.filters k y (o.variableAxes.length + 1) → SameTree x y

end Nnx
