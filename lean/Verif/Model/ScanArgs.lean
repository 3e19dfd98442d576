import Verif.Model.Scan
/-
nnx/transforms.py: the argument and the output of scan_apply, which are trees of arrays with axes given by `in_axes` and `out_axes`.
-/
namespace Nnx
variable {α κ C : Type}

mutual
/-- `tree_map_upto_left(f, left, right)` (nnx/transforms.py:926-935): `left` is a tree of axes, `right` has its structure, with arbitrary trees
in place of the axes. jax raises ValueError if it does not. -/
def mapUpTo (f : Int → PyVal α → Except Err (PyVal α)) : SpecTree Int → PyVal α → Except Err (PyVal α)
  | .none, .none => .ok .none
  | .leaf a, x => f a x
  | .tup ts, .tup xs =>
    match mapUpToL f ts xs with
    | .error e => .error e
    | .ok ys => .ok (.tup ys)
  | .dict ts, .dict xs =>
    match mapUpToM f ts xs with
    | .error e => .error e
    | .ok ys => .ok (.dict ys)
  | _, _ => .error .valueError
def mapUpToL (f : Int → PyVal α → Except Err (PyVal α)) : List (SpecTree Int) → List (PyVal α) → Except Err (List (PyVal α))
  | [], [] => .ok []
  | t :: ts, x :: xs =>
    match mapUpTo f t x with
    | .error e => .error e
    | .ok y =>
      match mapUpToL f ts xs with
      | .error e => .error e
      | .ok ys => .ok (y :: ys)
  | _, _ => .error .valueError
def mapUpToM (f : Int → PyVal α → Except Err (PyVal α)) : List (Str × SpecTree Int) → List (Str × PyVal α) → Except Err (List (Str × PyVal α))
  | [], [] => .ok []
  | (m, t) :: ts, (n, x) :: xs =>
    if m = n then
      match mapUpTo f t x with
      | .error e => .error e
      | .ok y =>
        match mapUpToM f ts xs with
        | .error e => .error e
        | .ok ys => .ok ((n, y) :: ys)
    else .error .valueError
  | _, _ => .error .valueError
end

/-- `jax.tree_map(lambda x: jnp.moveaxis(x, src, dst), node)`; ValueError if an array does not have the axis. Simplification: the same
for a leaf that is not an array. -/
def moveNode (move : Int → Int → α → Option α) (src dst : Int) (node : PyVal α) : Except Err (PyVal α) :=
  match node.mapLeaves (move src dst) with
  | none => .error .valueError
  | some y => .ok y

/-- `axes_arg` with its axes moved to the front (nnx/transforms.py:518-523). -/
def moveIn (move : Int → Int → α → Option α) (inAxes : SpecTree Int) (arg : PyVal α) : Except Err (PyVal α) :=
  mapUpTo (fun axis => moveNode move axis 0) inAxes arg

/-- `out` with the leading axis moved to where it belongs (nnx/transforms.py:681-686). -/
def moveOut (move : Int → Int → α → Option α) (outAxes : SpecTree Int) (out : PyVal α) : Except Err (PyVal α) :=
  mapUpTo (fun axis => moveNode move 0 axis) outAxes out

variable [DecidableEq α]

omit [DecidableEq α] in
/-- The slices of an argument whose axes are at the front: None if it has no leaves (then every step gets the argument as it is).
ValueError if the lengths of its leaves differ (nnx/transforms.py:525-533). -/
def argSlices (R : Arrays α) (arg : PyVal α) : Except Err (Option (List (PyVal α))) :=
  match arg.leaves with
  | none => .error .unmodelled
  | some ls =>
    match allSome (ls.map (R.size 0)) with
    | none => .error .unmodelled
    | some [] => .ok none
    | some (n :: sizes) =>
      if sizes.all (fun m => decide (m = n)) then
        match allSome ((List.range n).map fun i => arg.mapLeaves (R.index 0 i)) with
        | none => .error .unmodelled
        | some xs => .ok (some xs)
      else .error .valueError

/-- `scan_apply(options, f, module, carry_arg, axes_arg, ...)` (nnx/transforms.py:492-690) with `in_axes` and `out_axes`. The outputs of the
steps are stacked along a new leading axis by `jax.lax.scan`, and then moved; this comes before `module.update_state`, so the module is
as before if it raises. Simplification: the objects made by the steps are then dropped; and if `update_state` would raise too, the
model has its exception. -/
def scanCall (R : Arrays α) (move : Int → Int → α → Option α) (split : κ → Nat → Nat → κ) (fuel : Nat) (o : ScanOptions α)
    (inAxes outAxes : SpecTree Int) (j : Nat) (l : Loc)
    (f : Option (PureContext κ) → C → PyVal α → Loc → World α → World α × Except Err (C × PyVal α))
    (c : C) (arg : PyVal α) (ctx : Option (PureContext κ)) (w : World α) : World α × Except Err (C × PyVal α) :=
  match partitionModule fuel w.heap l o.filters with
  | .error e => (w, .error e)
  | .ok _ =>
    match moveIn move inAxes arg with
    | .error e => (w, .error e)
    | .ok arg =>
      match argSlices R arg with
      | .error e => (w, .error e)
      | .ok xs =>
        match scanApply R split fuel o j l (fun ctx c a => f ctx c (a.getD arg)) c xs ctx w with
        | (w', .error e) => (w', .error e)
        | (w', .ok (c, ys)) =>
          match stackVals R 0 ys with
          | none => (w, .error .unmodelled)
          | some out =>
            match moveOut move outAxes out with
            | .error e => (w, .error e)
            | .ok out => (w', .ok (c, out))

end Nnx
