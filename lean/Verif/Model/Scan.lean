import Verif.Model.Transforms
import Verif.Model.Spmd
import Verif.Model.Context
/-
nnx/transforms.py: scan_apply. `jax.lax.scan` is modelled by the loop its documentation gives, and `jax.eval_shape` by running the
function once. The arrays that are moved to a leading scan axis, or stacked by `jax.lax.scan`, are represented by the list of their
slices; the array operations are a parameter.
-/
namespace Nnx
variable {α κ A B C : Type}

/-! ### Trees of arrays -/

/-- Array operations, all along one axis: `x.shape[axis]`, `x[:, ..., i, ..., :]` and `jnp.stack(xs, axis)`; `none` if there is no such
axis or index, or if the arrays cannot be stacked. `jnp.moveaxis(x, axis, 0)[i]` is `index axis i x`, and
`jnp.moveaxis(jnp.stack(xs), 0, axis)` is `stack axis xs`. -/
structure Arrays (α : Type) where
  size : Int → α → Option Nat
  index : Int → Nat → α → Option α
  stack : Int → List α → Option α

mutual
/-- `jax.tree_util.tree_leaves(x)`. `none` if there is a leaf that is not an array. Not modelled: Pytree objects. -/
def PyVal.leaves : PyVal α → Option (List α)
  | .none => some []
  | .data _ a => some [a]
  | .tup xs => leavesL xs
  | .cont _ v _ => v.leaves
  | .dict items => leavesM items
  | .str _ => none
  | .cmeta _ _ => none
  | .tree _ _ => none
def leavesL : List (PyVal α) → Option (List α)
  | [] => some []
  | x :: xs =>
    match x.leaves, leavesL xs with
    | some a, some b => some (a ++ b)
    | _, _ => none
def leavesM : List (Str × PyVal α) → Option (List α)
  | [] => some []
  | (_, x) :: xs =>
    match x.leaves, leavesM xs with
    | some a, some b => some (a ++ b)
    | _, _ => none
end

mutual
/-- `jax.tree_map(g, x)`: the metadata of containers is not touched. `none` if there is a leaf that is not an array, or `g` fails. -/
def PyVal.mapLeaves (g : α → Option α) : PyVal α → Option (PyVal α)
  | .none => some .none
  | .data c a => (g a).map (.data c)
  | .tup xs => (mapLeavesL g xs).map .tup
  | .cont c v m => (v.mapLeaves g).map fun y => .cont c y m
  | .dict items => (mapLeavesM g items).map .dict
  | .str _ => none
  | .cmeta _ _ => none
  | .tree _ _ => none
def mapLeavesL (g : α → Option α) : List (PyVal α) → Option (List (PyVal α))
  | [] => some []
  | x :: xs =>
    match x.mapLeaves g, mapLeavesL g xs with
    | some a, some b => some (a :: b)
    | _, _ => none
def mapLeavesM (g : α → Option α) : List (Str × PyVal α) → Option (List (Str × PyVal α))
  | [] => some []
  | (n, x) :: xs =>
    match x.mapLeaves g, mapLeavesM g xs with
    | some a, some b => some ((n, a) :: b)
    | _, _ => none
end

/-- All elements of a list, if each is there. -/
def allSome {X : Type} : List (Option X) → Option (List X)
  | [] => some []
  | none :: _ => none
  | some x :: xs => (allSome xs).map (x :: ·)

variable [DecidableEq α]

omit [DecidableEq α] in
/-- `None` -/
def asNone : PyVal α → Option Unit
  | .none => some ()
  | _ => none
omit [DecidableEq α] in
/-- An array or another object of class `c`. -/
def asData (c : Cls) : PyVal α → Option α
  | .data d a => if d = c then some a else none
  | _ => none
/-- The value of a container of class `c` with metadata `m`. -/
def asCont (c : Cls) (m : Md α) : PyVal α → Option (PyVal α)
  | .cont d v n => if d = c ∧ n = m then some v else none
  | _ => none
omit [DecidableEq α] in
/-- The elements of a tuple of `k` elements. -/
def asTup (k : Nat) : PyVal α → Option (List (PyVal α))
  | .tup xs => if xs.length = k then some xs else none
  | _ => none
omit [DecidableEq α] in
/-- The values of a dict with keys `ks`. -/
def asDict (ks : List Str) : PyVal α → Option (List (PyVal α))
  | .dict items => if items.map (·.1) = ks then some (items.map (·.2)) else none
  | _ => none

mutual
/-- `jax.tree_map(lambda *leaves: g(leaves), *us)`, where `v` is one of the trees `us`; `none` if they do not all have the tree structure
of `v` (kinds, keys, classes and metadata). -/
def PyVal.zipLeaves (g : List α → Option α) : PyVal α → List (PyVal α) → Option (PyVal α)
  | .none, us => (allSome (us.map asNone)).map fun _ => .none
  | .data c _, us =>
    match allSome (us.map (asData c)) with
    | none => none
    | some as => (g as).map (.data c)
  | .cont c v m, us =>
    match allSome (us.map (asCont c m)) with
    | none => none
    | some vs => (v.zipLeaves g vs).map fun y => .cont c y m
  | .tup xs, us =>
    match allSome (us.map (asTup xs.length)) with
    | none => none
    | some xss => (zipLeavesL g xs xss).map .tup
  | .dict items, us =>
    match allSome (us.map (asDict (items.map (·.1)))) with
    | none => none
    | some xss => (zipLeavesM g items xss).map .dict
  | .str _, _ => none
  | .cmeta _ _, _ => none
  | .tree _ _, _ => none
def zipLeavesL (g : List α → Option α) : List (PyVal α) → List (List (PyVal α)) → Option (List (PyVal α))
  | [], _ => some []
  | x :: xs, xss =>
    match x.zipLeaves g (xss.filterMap List.head?), zipLeavesL g xs (xss.map List.tail) with
    | some a, some b => some (a :: b)
    | _, _ => none
def zipLeavesM (g : List α → Option α) : List (Str × PyVal α) → List (List (PyVal α)) → Option (List (Str × PyVal α))
  | [], _ => some []
  | (n, x) :: xs, xss =>
    match x.zipLeaves g (xss.filterMap List.head?), zipLeavesM g xs (xss.map List.tail) with
    | some a, some b => some ((n, a) :: b)
    | _, _ => none
end

/-- The two trees have the same structure, as `jax.lax.scan` requires of the carry. Not modelled: shapes and dtypes. -/
def PyVal.sameTree (u v : PyVal α) : Bool := (u.zipLeaves List.head? [u, v]).isSome

/-- `jax.tree_map` of a list of trees into one whose leaves are stacked along `axis`. -/
def stackVals (R : Arrays α) (axis : Int) : List (PyVal α) → Option (PyVal α)
  | [] => none
  | v :: vs => v.zipLeaves (R.stack axis) (v :: vs)

/-! ### States of arrays -/

omit [DecidableEq α] in
/-- `jax.tree_map` over a State whose values are trees. -/
def State.mapVals (g : PyVal α → Option (PyVal α)) (s : State (PyVal α)) : Option (State (PyVal α)) :=
  (allSome (s.mapping.map fun kv => (g kv.2).map fun v => (kv.1, v))).map State.mk

omit [DecidableEq α] in
/-- Slice `i` of a State along `axis` (nnx/transforms.py:513-517, and the slicing in `jax.lax.scan`). -/
def sliceState (R : Arrays α) (axis : Int) (i : Nat) (s : State (PyVal α)) : Option (State (PyVal α)) :=
  s.mapVals (fun v => v.mapLeaves (R.index axis i))

omit [DecidableEq α] in
/-- `x.shape[0]` of the leaves with `axis` moved to the front (nnx/transforms.py:513-517, 525-528). -/
def leafSizes (R : Arrays α) (axis : Int) (s : State (PyVal α)) : Option (List Nat) :=
  match allSome (s.mapping.map fun kv => kv.2.leaves) with
  | none => none
  | some ls => allSome (ls.flatten.map (R.size axis))

/-- The States that `jax.lax.scan` returns for the steps, stacked along `axis`. They must have the same keys, as the structure of the
output cannot depend on values in jax. Simplification: nothing if there are no steps. -/
def stackStates (R : Arrays α) (axis : Int) (ss : List (State (PyVal α))) : Option (State (PyVal α)) :=
  match ss with
  | [] => some ⟨[]⟩
  | s :: _ =>
    if ss.all (fun t => decide (t.keys = s.keys)) then
      (allSome (s.mapping.map fun kv =>
        (stackVals R axis (ss.filterMap fun t => t.get kv.1)).map fun v => (kv.1, v))).map State.mk
    else none

/-- The carry of `jax.lax.scan` must keep its tree structure. -/
def sameTrees (s t : State (PyVal α)) : Bool :=
  decide (s.keys = t.keys) && (s.mapping.zip t.mapping).all (fun xy => xy.1.2.sameTree xy.2.2)

omit [DecidableEq α] in
/-- `len(jax.tree_util.tree_leaves(state)) > 0` -/
def State.hasLeaves (s : State (PyVal α)) : Bool := s.mapping.any fun kv => decide (kv.2.leaves ≠ some [])

/-! ### scan -/

/-- `ScanOptions` (nnx/transforms.py:258-270). `in_axes` and `out_axes` are arguments of `scanCall` (Model/ScanArgs); in
`scanApply` the argument and the output are given by their slices. Not modelled: `unroll` (no effect on results), `data_transform` (not used by the code). -/
structure ScanOptions (α : Type) where
  variableAxes : List (Filter α × Int) := []
  variableBroadcast : Filter α := .none
  variableCarry : Filter α := .ellipsis
  splitRngs : RngFilter := .none
  length : Option Nat := none
  reverse : Bool := false
  metadata : Md α := []

omit [DecidableEq α] in
/-- nnx/transforms.py:502-506 -/
def ScanOptions.filters (o : ScanOptions α) : List (Filter α) :=
  o.variableAxes.map (·.1) ++ [o.variableBroadcast, o.variableCarry]

/-- The slices given to one step (nnx/transforms.py:574-581, 636, `axes`): the context with the keys of this step, the axes states and
the argument. -/
structure StepIn (α κ A : Type) where
  ctx : Option (PureContext κ)
  axes : List (State (PyVal α))
  arg : Option A

/-- What one step puts out (nnx/transforms.py:622, `out`). -/
structure StepOut (α B : Type) where
  axes : List (State (PyVal α))
  bcastNew : State (PyVal α)
  carryNew : State (PyVal α)
  out : B

omit [DecidableEq α] in
/-- The States of `Module.partition(*filters)`: those of the axes, broadcast and carry. -/
def splitGroups (n : Nat) (ss : List (State (PyVal α))) :
    Option (List (State (PyVal α)) × State (PyVal α) × State (PyVal α)) :=
  match ss[n]?, ss[n + 1]? with
  | some b, some c => some (ss.take n, b, c)
  | _, _ => none

/-- `spmd.add_axis` or `spmd.remove_axis` for each of the axes states, if there is a partition name
(nnx/transforms.py:589-594, 614-619). -/
def onAxes (g : State (PyVal α) → Int → Md α → Except Err (State (PyVal α))) (o : ScanOptions α)
    (ss : List (State (PyVal α))) : Except Err (List (State (PyVal α))) :=
  if dhas o.metadata kPartitionName then
    mapExcept (fun sa => g sa.1 sa.2 o.metadata) (ss.zip (o.variableAxes.map (·.2)))
  else .ok ss

/-- `scan_fn` (nnx/transforms.py:574-624). `f` is the function with its broadcast arguments; the context it is given is the merge
of the pure context (`ctxdef.merge`), which is an object of this step alone. `j` is the jax trace of the scan. -/
def scanFn (fuel : Nat) (o : ScanOptions α) (j : Nat) (d : ModuleDef α) (bcast : State (PyVal α))
    (f : Option (PureContext κ) → C → Option A → Loc → World α → World α × Except Err (C × B))
    (carry : State (PyVal α) × C) (x : StepIn α κ A) (w : World α) :
    World α × Except Err ((State (PyVal α) × C) × StepOut α B) :=
  match onAxes removeAxis o x.axes with
  | .error e => (w, .error e)
  | .ok axes =>
    match insideTrace j none (mergeAndRun d (axes ++ [bcast, carry.1]) (f x.ctx carry.2 x.arg)) w with
    | (w, .error e) => (w, .error e)
    | (w, .ok (l', c, y)) =>
      match partitionModule fuel w.heap l' o.filters with
      | .error e => (w, .error e)
      | .ok (ss, _) =>
        match splitGroups o.variableAxes.length ss with
        | none => (w, .error .unmodelled)
        | some (axesOut, bcastOut, carryOut) =>
          let carryNew := carryOut.sub carry.1
          let bcastNew := bcast.sub bcastOut
          match onAxes addAxis o axesOut with
          | .error e => (w, .error e)
          | .ok axesOut => (w, .ok ((carryOut.sub carryNew, c), ⟨axesOut, bcastNew, carryNew, y⟩))

/-- `jax.lax.scan(scan_fn, carry, axes)` without `reverse`, on the slices `xs`: TypeError if a step changes the structure of the carry
state (structure of the carry argument not modelled). -/
def laxScan (step : State (PyVal α) × C → StepIn α κ A → World α → World α × Except Err ((State (PyVal α) × C) × StepOut α B)) :
    State (PyVal α) × C → List (StepIn α κ A) → World α →
    World α × Except Err ((State (PyVal α) × C) × List (StepOut α B))
  | carry, [], w => (w, .ok (carry, []))
  | carry, x :: xs, w =>
    match step carry x w with
    | (w, .error e) => (w, .error e)
    | (w, .ok (carry', y)) =>
      if sameTrees carry.1 carry'.1 then
        match laxScan step carry' xs w with
        | (w, .error e) => (w, .error e)
        | (w, .ok (carry'', ys)) => (w, .ok (carry'', y :: ys))
      else (w, .error .typeError)

/-- `jax.lax.scan` with `reverse`: the last slice is processed first, and the outputs are put where their inputs were
(nnx/transforms.py:626-633). -/
def laxScanDir (reverse : Bool)
    (step : State (PyVal α) × C → StepIn α κ A → World α → World α × Except Err ((State (PyVal α) × C) × StepOut α B))
    (carry : State (PyVal α) × C) (xs : List (StepIn α κ A)) (w : World α) :
    World α × Except Err ((State (PyVal α) × C) × List (StepOut α B)) :=
  if reverse then
    match laxScan step carry xs.reverse w with
    | (w, .error e) => (w, .error e)
    | (w, .ok (carry, ys)) => (w, .ok (carry, ys.reverse))
  else laxScan step carry xs w

omit [DecidableEq α] in
/-- The length of the scan (nnx/transforms.py:525-546): `sizes` are the lengths of all leaves. -/
def scanLength (o : ScanOptions α) (sizes : List Nat) : Except Err Nat :=
  match sizes with
  | [] =>
    match o.length with
    | none => .error .valueError
    | some n => .ok n
  | n :: rest =>
    if rest.all (fun m => decide (m = n)) then
      match o.length with
      | none => .ok n
      | some m => if m = n then .ok n else .error .valueError
    else .error .valueError

/-- The context of step `i` (nnx/transforms.py:548-572, 583-587): `jax.random.split(key, length)[i]` for the selected streams, the key itself
for the others. -/
def stepCtx (split : κ → Nat → Nat → κ) (p : Str → Bool) (length i : Nat) (c : PureContext κ) : PureContext κ :=
  { c with keys :=
      (c.keys.filter (fun kv => p kv.1)).map (fun kv => (kv.1, split kv.2 length i)) ++
      c.keys.filter (fun kv => !p kv.1) }

omit [DecidableEq α] in
/-- The slices for step `i`. -/
def stepIn (R : Arrays α) (o : ScanOptions α) (axes : List (State (PyVal α))) (xs : Option (List A))
    (ctx : Nat → Option (PureContext κ)) (i : Nat) : Option (StepIn α κ A) :=
  match allSome ((axes.zip (o.variableAxes.map (·.2))).map fun sa => sliceState R sa.2 i sa.1) with
  | none => none
  | some ss =>
    match xs with
    | none => some ⟨ctx i, ss, none⟩
    | some xs => (xs[i]?).map fun a => ⟨ctx i, ss, some a⟩

/-- The axes states of all steps, stacked (nnx/transforms.py:676-680). -/
def stackAxes (R : Arrays α) (o : ScanOptions α) (ys : List (StepOut α B)) : Option (List (State (PyVal α))) :=
  allSome (o.variableAxes.zipIdx.map fun fa => stackStates R fa.1.2 (ys.filterMap fun y => y.axes[fa.2]?))

/-- The end of `scan_apply` (nnx/transforms.py:676-690): `ys` are the outputs of all steps, `ysNew` those of the last `jax.lax.scan`. -/
def scanEnd (R : Arrays α) (fuel : Nat) (o : ScanOptions α) (l : Loc) (carry : State (PyVal α) × C) (ys ysNew : List (StepOut α B))
    (w : World α) : World α × Except Err (C × List B) :=
  match stackAxes R o ys, stackStates R 0 (ysNew.map (·.bcastNew)), stackStates R 0 (ysNew.map (·.carryNew)) with
  | some axes, some bcastNew, some carryNew =>
    match updateState fuel l (axes ++ [carry.1, bcastNew, carryNew]) w with
    | (w, some e) => (w, .error e)
    | (w, none) => (w, .ok (carry.2, ys.map (·.out)))
  | _, _, _ => (w, .error .unmodelled)

/-- Everything after the slices have been determined (nnx/transforms.py:626-690). -/
def scanRun (R : Arrays α) (fuel : Nat) (o : ScanOptions α) (j : Nat) (d : ModuleDef α) (bcast : State (PyVal α)) (l : Loc)
    (f : Option (PureContext κ) → C → Option A → Loc → World α → World α × Except Err (C × B))
    (carry : State (PyVal α) × C) (xs : List (StepIn α κ A)) (w : World α) : World α × Except Err (C × List B) :=
  match (if o.reverse then xs.getLast? else xs.head?) with
  | none => (w, .error .unmodelled)
  | some x =>
    match scanFn fuel o j d bcast f carry x w with
    | (_, .error e) => (w, .error e)
    | (_, .ok (_, y)) =>
      if y.carryNew.hasLeaves then
        match laxScanDir o.reverse (scanFn fuel o j d bcast f) carry (xs.take 1) w with
        | (w, .error e) => (w, .error e)
        | (w, .ok (carry1, ys1)) =>
          match ys1 with
          | [y1] =>
            let bcast2 := bcast.merge [y1.bcastNew]
            match laxScanDir o.reverse (scanFn fuel o j d bcast2 f) (carry1.1.merge [y1.carryNew], carry1.2) (xs.drop 1) w with
            | (w, .error e) => (w, .error e)
            | (w, .ok (carry2, ys2)) => scanEnd R fuel o l carry2 (ys1 ++ ys2) ys2 w
          | _ => (w, .error .unmodelled)
      else
        match laxScanDir o.reverse (scanFn fuel o j d bcast f) carry xs w with
        | (w, .error e) => (w, .error e)
        | (w, .ok (carry, ys)) => scanEnd R fuel o l carry ys ys w

/-- `scan_apply` (nnx/transforms.py:492-690). `xs` are the slices of the argument along `in_axes` (`none` if it has no leaves), the
result has those of the output along `out_axes`. `split key n i` is `jax.random.split(key, n)[i]`; `ctx` is the result of
`ctx.partition()`, if a context is given. Not modelled: a scan of length 0. Simplification: the garbage left by `jax.eval_shape` is
dropped at once (nnx/transforms.py:638). -/
def scanApply (R : Arrays α) (split : κ → Nat → Nat → κ) (fuel : Nat) (o : ScanOptions α) (j : Nat) (l : Loc)
    (f : Option (PureContext κ) → C → Option A → Loc → World α → World α × Except Err (C × B))
    (c : C) (xs : Option (List A)) (ctx : Option (PureContext κ)) (w : World α) : World α × Except Err (C × List B) :=
  match partitionModule fuel w.heap l o.filters with
  | .error e => (w, .error e)
  | .ok (ss, d) =>
    match splitGroups o.variableAxes.length ss with
    | none => (w, .error .unmodelled)
    | some (axes, bcast, carry) =>
      match allSome ((axes.zip (o.variableAxes.map (·.2))).map fun sa => leafSizes R sa.2 sa.1) with
      | none => (w, .error .valueError)
      | some sizes =>
        match scanLength o (sizes.flatten ++ (xs.map List.length).toList) with
        | .error e => (w, .error e)
        | .ok n =>
          match (if ctx.isSome then toRngPredicate o.splitRngs else .ok fun _ => false) with
          | .error e => (w, .error e)
          | .ok p =>
            match allSome ((List.range n).map (stepIn R o axes xs fun i => ctx.map (stepCtx split p n i))) with
            | none => (w, .error .unmodelled)
            | some ins => scanRun R fuel o j d bcast l f (carry, c) ins w

end Nnx
