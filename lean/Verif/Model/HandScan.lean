import Verif.Model.ScanInit
/-
A scan over layers that is written by hand, with `partition`, `merge` and `update_state`, `jax.vmap` and `jax.lax.scan`, as in
examples/06_scan_over_layers.py.
-/
namespace Nnx
variable {α X B C : Type} [DecidableEq α]

/-- `create_block` (examples/06_scan_over_layers.py:35-39): `Block(...).partition()`. -/
def createBlock (fuel : Nat) (ctor : World α → World α × Except Err Loc) (w : World α) :
    World α × Except Err (List (State (PyVal α)) × ModuleDef α) :=
  match ctor w with
  | (w, .error e) => (w, .error e)
  | (w, .ok l) => (w, partitionModule fuel w.heap l [])

/-- `jax.vmap(create_block)(keys).merge()` (examples/06_scan_over_layers.py:29-43).
`ctor i` is the constructor with slice `i` of the keys. As in `vmapInit`, jax calls the constructor once, on tracers, in jax trace `j`: the ModuleDef is
the same for all slices, and the world after it is that of one call. Not modelled: a length of 0. -/
def handInit (R : Arrays α) (fuel : Nat) (j n : Nat) (ctor : Nat → World α → World α × Except Err Loc) (w : World α) :
    World α × Except Err Loc :=
  let run := fun i => insideTrace j none (createBlock fuel (ctor i)) w
  match mapExcept (fun i => (run i).2) (List.range n) with
  | .error e => ((run 0).1, .error e)
  | .ok [] => (w, .error .unmodelled)
  | .ok ((ss, d) :: rest) =>
    if rest.all (fun r => decide (r.2 = d)) then
      match stackStates R 0 (((ss, d) :: rest).flatMap (·.1)) with
      | none => ((run 0).1, .error .unmodelled)
      | some s => mergeDef d [s] (run 0).1
    else ((run 0).1, .error .unmodelled)

/-- `scan_fn` (examples/06_scan_over_layers.py:52-63): `module = moduledef.merge(params)`, the call of the layer, and
`module.partition(nnx.Param)`. `x` is the slice of the keys; as in `jax.lax.scan`, there may be an output besides the carry and the variables. -/
def handStep (fuel : Nat) (filt : Filter α) (d : ModuleDef α) (f : X → C → Loc → World α → World α × Except Err (C × B))
    (c : C) (s : State (PyVal α)) (x : X) (w : World α) : World α × Except Err (C × State (PyVal α) × B) :=
  match mergeAndRun d [s] (f x c) w with
  | (w, .error e) => (w, .error e)
  | (w, .ok (l, c, y)) =>
    match partitionModule fuel w.heap l [filt] with
    | .error e => (w, .error e)
    | .ok ([s], _) => (w, .ok (c, s, y))
    | .ok _ => (w, .error .unmodelled)

/-- `jax.lax.scan(scan_fn, x, (params, dropout_key))` (examples/06_scan_over_layers.py:66) on the slices. -/
def handLoop (fuel : Nat) (filt : Filter α) (d : ModuleDef α) (f : X → C → Loc → World α → World α × Except Err (C × B)) :
    C → List (State (PyVal α) × X) → World α → World α × Except Err (C × List (State (PyVal α) × B))
  | c, [], w => (w, .ok (c, []))
  | c, (s, x) :: ins, w =>
    match handStep fuel filt d f c s x w with
    | (w, .error e) => (w, .error e)
    | (w, .ok (c, out)) =>
      match handLoop fuel filt d f c ins w with
      | (w, .error e) => (w, .error e)
      | (w, .ok (c, outs)) => (w, .ok (c, out :: outs))

/-- The forward pass (examples/06_scan_over_layers.py:45-69): `params, moduledef = layers.partition(filt)`, `jax.lax.scan` over the variables and
the slices `xs`, `layers.update_state(params)`. ValueError if a leaf does not have one slice for each of `xs`. Simplification: the modules that the
steps make stay in the world (nothing refers to them). -/
def handScan (R : Arrays α) (fuel : Nat) (filt : Filter α) (j : Nat) (l : Loc) (f : X → C → Loc → World α → World α × Except Err (C × B))
    (c : C) (xs : List X) (w : World α) : World α × Except Err (C × List B) :=
  match partitionModule fuel w.heap l [filt] with
  | .error e => (w, .error e)
  | .ok ([s], d) =>
    match leafSizes R 0 s with
    | none => (w, .error .valueError)
    | some sizes =>
      if sizes.all (fun m => decide (m = xs.length)) then
        match allSome ((List.range xs.length).map fun i => sliceState R 0 i s) with
        | none => (w, .error .unmodelled)
        | some ss =>
          match insideTrace j none (handLoop fuel filt d f c (ss.zip xs)) w with
          | (w, .error e) => (w, .error e)
          | (w, .ok (c, outs)) =>
            match stackStates R 0 (outs.map (·.1)) with
            | none => (w, .error .unmodelled)
            | some s =>
              match updateState fuel l [s] w with
              | (w, some e) => (w, .error e)
              | (w, none) => (w, .ok (c, outs.map (·.2)))
      else (w, .error .valueError)
  | .ok _ => (w, .error .unmodelled)

end Nnx
