import Verif.Spec.Scan
import Verif.Spec.Context
import Verif.Model.ScanInit
/-
What the constructor of nnx.Scan should do: construct a module for each slice and stack their variables.
-/
namespace Nnx
variable {α κ : Type}

/-- `x'` is `x` with the name of axis `i` put into its sharding (after filling it up with None). A value without sharding is not
changed. -/
def AxisAdded (i : Int) (name x x' : PyVal α) : Prop :=
  (shardingOf x = none ∧ x' = x) ∨ ∃ xs n, shardingOf x = some xs ∧ i = (n : Nat) ∧ x' = withSharding x (grow n name xs)

/-- `x'` is the value of a variable of `variable_axes` whose values for the slices were stacked to `x` along axis `i`: with the axis
name, if the metadata has a partition name. -/
def AxisNamed (o : ScanOptions α) (i : Int) (x x' : PyVal α) : Prop :=
  (dget o.metadata kPartitionName = none ∧ x' = x) ∨ ∃ name, dget o.metadata kPartitionName = some name ∧ AxisAdded i name x x'

/-- What jax can trace once for all slices: the states have the same paths, and an entry is in one of the
collections, the same for all slices;
entries that are not in a collection of `variable_axes` have the same value for all slices. -/
structure UniformInit (o : ScanOptions α) (n : Nat) (ss : Nat → State (PyVal α)) : Prop where
  paths : ∀ i < n, ∀ k, ((ss i).get k).isSome = ((ss 0).get k).isSome
  total : ∀ k x, (ss 0).get k = some x → ∃ g, FirstMatch o.filters k x g
  stays : ∀ i < n, ∀ k x y g, (ss 0).get k = some x → (ss i).get k = some y → FirstMatch o.filters k x g → FirstMatch o.filters k y g
  common : ∀ i < n, ∀ k x g, (ss 0).get k = some x → FirstMatch o.filters k x g → o.variableAxes.length ≤ g → (ss i).get k = some x

/-- The State of the module made from modules with the states `ss 0, ..., ss (n-1)`: of an entry whose first matching filter is one of
`variable_axes`, the values stacked along the axis, with the name of the axis; the common value of the others. -/
structure IsInit [DecidableEq α] (R : Arrays α) (o : ScanOptions α) (n : Nat) (ss : Nat → State (PyVal α)) (fin : State (PyVal α)) :
    Prop where
  sorted : StrictSorted fin.mapping
  axes : ∀ k x (g : Nat) f a, (ss 0).get k = some x → o.variableAxes[g]? = some (f, a) → FirstMatch o.filters k x g →
    ∃ v v', StackedVal R a ((List.range n).filterMap fun i => (ss i).get k) v ∧ AxisNamed o a v v' ∧ fin.get k = some v'
  rest : ∀ k x g, (ss 0).get k = some x → FirstMatch o.filters k x g → o.variableAxes.length ≤ g → fin.get k = some x
  only : ∀ k, (fin.get k).isSome → ((ss 0).get k).isSome

/-- The context for slice `i`, if one is given: `jax.random.split(key, n)[i]` for the streams selected by `split_rngs`, the same key for
all slices for the other streams; everything else as in the context. -/
inductive SliceCtx (split : κ → Nat → Nat → κ) (o : ScanOptions α) (n i : Nat) : Option (PureContext κ) → Option (PureContext κ) → Prop
  | none : SliceCtx split o n i none none
  | some {c c' : PureContext κ} (names : dkeys c'.keys = dkeys c.keys)
      (selected : ∀ name key, dget c.keys name = some key → o.splitRngs.Selects name → dget c'.keys name = some (split key n i))
      (others : ∀ name key, dget c.keys name = some key → ¬ o.splitRngs.Selects name → dget c'.keys name = some key)
      (counts : c'.rngCounts = c.rngCounts) (flags : c'.flags = c.flags) : SliceCtx split o n i (some c) (some c')

/-! ### Calling the layers one after the other -/

/-- What `jnp.stack` and indexing have to do with each other: slice `i` of stacked arrays is array `i`, and there are as many slices as
arrays. -/
structure ArrayLaws (R : Arrays α) : Prop where
  index : ∀ a xs v, R.stack a xs = some v → ∀ i < xs.length, R.index a i v = xs[i]?
  size : ∀ a xs v, R.stack a xs = some v → 0 < xs.length → R.size a v = some xs.length

/-- The loop
```
for m, x in layers:
  c, y = body(x)(m, c)
  outs.append((m.get_state(), y))
```
over separate modules, each in its own world. From the initial carry to the last carry and outputs. -/
inductive LayersRun {X C B : Type} [DecidableEq α] (body : X → C → Loc → World α → World α × Except Err (C × B)) :
    List ((World α × Loc) × X) → C → C → List (State (PyVal α) × B) → Prop
  | done {c} : LayersRun body [] c c []
  | next {w w' : World α} {m : Loc} {x : X} {c c' c'' : C} {y : B} {s : State (PyVal α)} {layers : List ((World α × Loc) × X)}
      {outs : List (State (PyVal α) × B)} :
      body x c m w = (w', .ok (c', y)) → NodesOnly w w' m → getState (w'.heap.length + 1) w'.heap m = some s →
      LayersRun body layers c' c'' outs → LayersRun body (((w, m), x) :: layers) c c'' ((s, y) :: outs)

end Nnx
