import Verif.Model.Scan
/-
nnx/transforms.py: scan_init, the constructor of nnx.Scan. `jax.vmap(f, axis_size=n)` is modelled by its meaning: slice `i` of each
output is what `f` returns on the slices `i` of its arguments.
-/
namespace Nnx
variable {α κ : Type} [DecidableEq α]

/-- `_init_state` (nnx/transforms.py:441-463). `ctor` is the constructor with its arguments; the context it is given is the merge of the
pure context. -/
def initState (fuel : Nat) (o : ScanOptions α) (ctor : Option (PureContext κ) → World α → World α × Except Err Loc)
    (ctx : Option (PureContext κ)) (w : World α) : World α × Except Err (List (State (PyVal α)) × ModuleDef α) :=
  match ctor ctx w with
  | (w, .error e) => (w, .error e)
  | (w, .ok l) => (w, partitionModule fuel w.heap l o.filters)

omit [DecidableEq α] in
/-- The context of slice `i` (nnx/transforms.py:424-434, 444-448). -/
def initCtx (split : κ → Nat → Nat → κ) (p : Str → Bool) (length i : Nat) (c : PureContext κ) : PureContext κ :=
  { c with keys := c.keys.map fun kv => (kv.1, if p kv.1 then split kv.2 length i else kv.2) }

/-- What `jax.vmap` returns with `out_axes=(*variable_axes.values(), None, None)` (nnx/transforms.py:465-474) if the slices of the
outputs are `sss`: the first States are stacked, and the last two must be the same for all slices (ValueError). Simplification: jax
raises ValueError as well if they depend on the slice of an argument only formally. -/
def vmapOut (R : Arrays α) (o : ScanOptions α) (sss : List (List (State (PyVal α)))) :
    Except Err (List (State (PyVal α)) × State (PyVal α) × State (PyVal α)) :=
  match sss.head? with
  | none => .error .unmodelled
  | some ss =>
    if sss.all (fun ss' => decide (ss'.drop o.variableAxes.length = ss.drop o.variableAxes.length)) then
      match splitGroups o.variableAxes.length ss,
        allSome (o.variableAxes.zipIdx.map fun fa => stackStates R fa.1.2 (sss.filterMap fun ss => ss[fa.2]?)) with
      | some (_, b, c), some axes => .ok (axes, b, c)
      | _, _ => .error .unmodelled
    else .error .valueError

/-- `jax.vmap(_init_state, ...)(*key_values)` (nnx/transforms.py:465-474) with axis size `n`, in jax trace `j`. jax calls the
constructor once, on tracers: the ModuleDef is the same for all slices, and the world after it is that of one call. -/
def vmapInit (R : Arrays α) (fuel : Nat) (o : ScanOptions α) (j n : Nat)
    (ctor : Option (PureContext κ) → World α → World α × Except Err Loc) (ctxs : Nat → Option (PureContext κ)) (w : World α) :
    World α × Except Err ((List (State (PyVal α)) × State (PyVal α) × State (PyVal α)) × ModuleDef α) :=
  let run := fun i => insideTrace j none (initState fuel o ctor (ctxs i)) w
  match mapExcept (fun i => (run i).2) (List.range n) with
  | .error e => ((run 0).1, .error e)
  | .ok [] => (w, .error .unmodelled)
  | .ok ((ss, d) :: rest) =>
    if rest.all (fun r => decide (r.2 = d)) then
      match vmapOut R o (((ss, d) :: rest).map (·.1)) with
      | .error e => ((run 0).1, .error e)
      | .ok states => ((run 0).1, .ok (states, d))
    else ((run 0).1, .error .unmodelled)

/-- The end of `scan_init` (nnx/transforms.py:474-487). -/
def scanInitEnd (o : ScanOptions α) (d : ModuleDef α) (axes : List (State (PyVal α))) (b c : State (PyVal α)) (w : World α) :
    World α × Except Err Loc :=
  match onAxes addAxis o axes with
  | .error e => (w, .error e)
  | .ok axes => mergeDef d (axes ++ [b, c]) w

/-- `scan_init` (nnx/transforms.py:403-489), which makes the `scan_module` of `nnx.Scan(constructor, ...)(*args, ctx=ctx)`
(nnx/transforms.py:292-355). `ctx` is the result of `ctx.partition()`, if a context is given. Not modelled: a `ctx` argument that is not
a Context (TypeError), a length of 0. -/
def scanInit (R : Arrays α) (split : κ → Nat → Nat → κ) (fuel : Nat) (o : ScanOptions α) (j : Nat)
    (ctor : Option (PureContext κ) → World α → World α × Except Err Loc) (ctx : Option (PureContext κ)) (w : World α) :
    World α × Except Err Loc :=
  if o.variableAxes.length ≠ 0 ∧ o.length = none then (w, .error .valueError)
  else
    match (if ctx.isSome then toRngPredicate o.splitRngs else .ok fun _ => false) with
    | .error e => (w, .error e)
    | .ok p =>
      if o.length = none ∧ (ctx.any fun c => c.keys.any fun kv => p kv.1) = true then (w, .error .valueError)
      else if ctx.isSome ∨ o.variableAxes.length ≠ 0 then
        match o.length with
        | none => (w, .error .valueError)
        | some n =>
          match vmapInit R fuel o j n ctor (fun i => ctx.map (initCtx split p n i)) w with
          | (w, .error e) => (w, .error e)
          | (w, .ok ((axes, b, c), d)) => scanInitEnd o d axes b c w
      else
        match initState fuel o ctor none w with
        | (w, .error e) => (w, .error e)
        | (w, .ok (ss, d)) =>
          match splitGroups o.variableAxes.length ss with
          | none => (w, .error .unmodelled)
          | some (axes, b, c) => scanInitEnd o d axes b c w

/-- The `module_constructor` of `init_wrapper` (nnx/transforms.py:729-731). -/
def methodCtor (f : Option (PureContext κ) → World α → World α × Option Err) (self : Loc) (ctx : Option (PureContext κ)) (w : World α) :
    World α × Except Err Loc :=
  match f ctx w with
  | (w, some e) => (w, .error e)
  | (w, none) => (w, .ok self)

/-- The `init_wrapper` of `nnx.scan` on an `__init__` method (nnx/transforms.py:725-736): the constructor of `scan_init` runs the method
on the module itself and returns it; afterwards the module gets the values of the stacked module. The assertion that both have the same
class (nnx/module.py:645) holds, as `scan_init` builds the module from the ModuleDef. -/
def scanInitMethod (R : Arrays α) (split : κ → Nat → Nat → κ) (fuel : Nat) (o : ScanOptions α) (j : Nat)
    (f : Option (PureContext κ) → World α → World α × Option Err) (self : Loc) (ctx : Option (PureContext κ)) (w : World α) :
    World α × Option Err :=
  match scanInit R split fuel o j (methodCtor f self) ctx w with
  | (w, .error e) => (w, some e)
  | (w, .ok lifted) =>
    match getState fuel w.heap self, getState fuel w.heap lifted with
    | some current, some updates => updateModule self current [updates] w
    | _, _ => (w, some .recursionError)

end Nnx
