import Verif.Model.Normalization

/-!
# BatchNorm and LayerNorm on several devices (`axis_name`)

The devices run the same program in lock step on inputs of one shape; `xs[d]` is what device `d` has.  What `lax.pmean`,
`jnp.concatenate` and `jnp.split` do is written down from their documentation.
-/

namespace Nnx
variable {𝕜 : Type}

/-- The entries of `a`, then from position `d` of the first axis on those of `b`. -/
def concatVal (d : Nat) (a b : List Nat → 𝕜) : List Nat → 𝕜
  | [] => a []
  | i :: r => if i < d then a (i :: r) else b ((i - d) :: r)

/-- The entries from position `d` of the first axis on. -/
def shiftVal (d : Nat) (a : List Nat → 𝕜) : List Nat → 𝕜
  | [] => a []
  | i :: r => a ((i + d) :: r)

/-- `jnp.concatenate([a, b])`: along the first axis, which must exist. -/
def concat0 (a b : Tensor 𝕜) : Except Err (Tensor 𝕜) :=
  match a.shape, b.shape with
  | d :: s, e :: t =>
    if s = t then
      .ok ⟨(d + e) :: s, concatVal d a.val b.val⟩
    else .error .typeError
  | _, _ => .error .valueError

/-- `jnp.split(t, 2)`: two equal parts along the first axis. -/
def split2 (t : Tensor 𝕜) : Except Err (Tensor 𝕜 × Tensor 𝕜) :=
  match t.shape with
  | [] => .error .valueError
  | d :: s =>
    if d % 2 = 0 then
      .ok (⟨d / 2 :: s, t.val⟩, ⟨d / 2 :: s, shiftVal (d / 2) t.val⟩)
    else .error .valueError

/-- The devices that a collective of device `d` involves: all of them, or those of its group in
`axis_index_groups`. -/
def groupOf (groups : Option (List (List Nat))) (n d : Nat) : List Nat :=
  match groups with
  | none => List.range n
  | some gs => (gs.find? fun g => g.contains d).getD []

variable [Field 𝕜]

/-- `lax.pmean(t, axis_name, axis_index_groups=groups)`: on each device, the average over the devices of its group. -/
def pmean (groups : Option (List (List Nat))) (ts : List (Tensor 𝕜)) : List (Tensor 𝕜) :=
  ts.mapIdx fun d t =>
    let g := groupOf groups ts.length d
    ⟨t.shape, fun idx => ((g.filterMap fun e => ts[e]?).map fun u => u.val idx).sum / (g.length : 𝕜)⟩

variable [LinearOrder 𝕜]

/-- The two halves of the averaged array and the variance (nnx/nn/normalization.py:80, 90-94) -/
def splitStats (c : Tensor 𝕜) : Except Err (Tensor 𝕜 × Tensor 𝕜) :=
  match split2 c with
  | .error e => .error e
  | .ok (mean, mean2) => statsOf mean mean2

/-- `_compute_stats(x, axes, axis_name=..., axis_index_groups=groups)` (nnx/nn/normalization.py:35-94) on all devices -/
def statsAcross (groups : Option (List (List Nat))) (xs : List (Tensor 𝕜)) (axes : List Int) :
    Except Err (List (Tensor 𝕜 × Tensor 𝕜)) :=
  match mapExcept (fun x => localMeans x axes) xs with
  | .error e => .error e
  | .ok ms =>
    match mapExcept (fun p : Tensor 𝕜 × Tensor 𝕜 => concat0 p.1 p.2) ms with
    | .error e => .error e
    | .ok cs => mapExcept splitStats (pmean groups cs)

/-- The same (nnx/nn/normalization.py:35-94) as seen by device `d` -/
def deviceStats (groups : Option (List (List Nat))) (xs : List (Tensor 𝕜)) (d : Nat) (axes : List Int) :
    Except Err (Tensor 𝕜 × Tensor 𝕜) :=
  match statsAcross groups xs axes with
  | .error e => .error e
  | .ok l =>
    match l[d]? with
    | some p => .ok p
    | none => .error .unmodelled

/-- `BatchNorm.__call__` (nnx/nn/normalization.py:226-276) with `axis_name`: the replicas `bns` of one module, each on
its own input -/
def BatchNorm.callAcross (rsqrt : 𝕜 → 𝕜) (groups : Option (List (List Nat))) (bns : List (BatchNorm 𝕜))
    (xs : List (Tensor 𝕜)) (useRunningAverage flag : Option Bool) : List (BatchNorm 𝕜 × Except Err (Tensor 𝕜)) :=
  (bns.zip xs).mapIdx fun d p => p.1.callWith rsqrt p.2 useRunningAverage flag (deviceStats groups xs d)

/-- `LayerNorm.__call__` (nnx/nn/normalization.py:354-377) with `axis_name`, on all devices -/
def LayerNorm.callAcross (rsqrt : 𝕜 → 𝕜) (groups : Option (List (List Nat))) (lns : List (LayerNorm 𝕜))
    (xs : List (Tensor 𝕜)) : List (Except Err (Tensor 𝕜)) :=
  (lns.zip xs).mapIdx fun d p => p.1.callWith rsqrt p.2 (deviceStats groups xs d)

end Nnx
