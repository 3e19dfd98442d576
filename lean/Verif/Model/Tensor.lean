import Verif.Model.Spmd
import Mathlib.Algebra.Order.Field.Basic

/-!
# The jax.numpy operations the layers of `nnx.nn` are written with

Nothing here is code of the repository: it is the part of `jax.numpy`/`jax.lax` that `nnx/nn` calls, written
down from its documentation.  Arithmetic is exact: the entries are elements of an arbitrary ordered field, not
floating point numbers, and dtypes are not tracked (except in `Model/Dtypes.lean`).
-/

namespace Nnx

/-- An array: its shape and its entries.  Only the entries at multi-indices within the shape mean anything. -/
structure Tensor (V : Type) where
  shape : List Nat
  val : List Nat → V

/-- The number of entries of an array of this shape. -/
def size : List Nat → Nat
  | [] => 1
  | d :: s => d * size s

/-- All multi-indices within a shape, in row-major order. -/
def indices : List Nat → List (List Nat)
  | [] => [[]]
  | d :: s => (List.range d).flatMap fun i => (indices s).map (i :: ·)

/-- The row-major position of a multi-index. -/
def ravel : List Nat → List Nat → Nat
  | _ :: s, i :: idx => i * size s + ravel s idx
  | _, _ => 0

/-- The multi-index at a row-major position. -/
def unravel : List Nat → Nat → List Nat
  | [], _ => []
  | _ :: s, n => n / size s :: unravel s (n % size s)

/-- `t.reshape(s)` for a shape `s` without `-1`: the entries in row-major order are the same. -/
def Tensor.reshape {V : Type} (t : Tensor V) (s : List Nat) : Except Err (Tensor V) :=
  if size s = size t.shape then .ok ⟨s, fun idx => t.val (unravel t.shape (ravel s idx))⟩
  else .error .typeError

/-- An elementwise function of one array. -/
def Tensor.map {V W : Type} (f : V → W) (t : Tensor V) : Tensor W := ⟨t.shape, fun idx => f (t.val idx)⟩

/-- Broadcasting of two shapes, last dimension first. -/
def broadcastRev : List Nat → List Nat → Except Err (List Nat)
  | [], t => .ok t
  | s, [] => .ok s
  | a :: s, b :: t =>
    if a = b ∨ a = 1 ∨ b = 1 then
      match broadcastRev s t with
      | .ok r => .ok ((if a = 1 then b else a) :: r)
      | .error e => .error e
    else .error .typeError

/-- `jnp.broadcast_shapes(s, t)` -/
def broadcastShape (s t : List Nat) : Except Err (List Nat) :=
  match broadcastRev s.reverse t.reverse with
  | .ok r => .ok r.reverse
  | .error e => .error e

/-- The coordinate an array of this shape is read at when it is broadcast: dimensions of size 1 are read at 0. -/
def clip (s idx : List Nat) : List Nat := List.zipWith (fun d i => if d = 1 then 0 else i) s idx

/-- The entry of an array broadcast to a shape of the rank of `idx`: missing leading dimensions are ignored. -/
def Tensor.bget {V : Type} (t : Tensor V) (idx : List Nat) : V :=
  t.val (clip t.shape (idx.drop (idx.length - t.shape.length)))

/-- An elementwise binary operation with broadcasting. -/
def Tensor.bin {V W X : Type} (f : V → W → X) (a : Tensor V) (b : Tensor W) : Except Err (Tensor X) :=
  match broadcastShape a.shape b.shape with
  | .ok s => .ok ⟨s, fun idx => f (a.bget idx) (b.bget idx)⟩
  | .error e => .error e

/-- Which axes of an array of this rank are listed. -/
def axisMask (rank : Nat) (axes : List Int) : List Bool :=
  (List.range rank).map fun i : Nat => decide ((i : Int) ∈ axes)

/-- The elements where the mask is `b`. -/
def pick (b : Bool) : List Bool → List Nat → List Nat
  | m :: ms, x :: xs => if m = b then x :: pick b ms xs else pick b ms xs
  | _, _ => []

/-- The multi-index with the elements of `r` where the mask is set and those of `k` elsewhere. -/
def weave : List Bool → List Nat → List Nat → List Nat
  | true :: m, k, r :: rs => r :: weave m k rs
  | false :: m, k :: ks, rs => k :: weave m ks rs
  | _, _, _ => []

/-- The axis an int names in jax.numpy: negative ones count from the end, others are rejected. -/
def normAxis (rank : Nat) (a : Int) : Except Err Int :=
  if 0 ≤ a ∧ a < rank then .ok a
  else if -(rank : Int) ≤ a ∧ a < 0 then .ok (rank + a)
  else .error .valueError

variable {𝕜 : Type} [Field 𝕜]

/-- `jnp.mean(x, axes)`: the sum over the listed axes divided by the number of summands; axes out of range or
repeated are rejected.  The mean of an empty set of entries (NaN in jax) is 0 here. -/
def jnpMean (x : Tensor 𝕜) (axes : List Int) : Except Err (Tensor 𝕜) :=
  match mapExcept (normAxis x.shape.length) axes with
  | .error e => .error e
  | .ok axes =>
    if axes.Nodup then
      let mask := axisMask x.shape.length axes
      let red := pick true mask x.shape
      .ok ⟨pick false mask x.shape,
        fun idx => ((indices red).map fun r => x.val (weave mask idx r)).sum / (size red : 𝕜)⟩
    else .error .valueError

/-- `xs[i] = v` for a Python list: negative indices count from the end. -/
def pySet {A : Type} (xs : List A) (i : Int) (v : A) : Except Err (List A) :=
  if 0 ≤ i ∧ i < xs.length then .ok (xs.set i.toNat v)
  else if -(xs.length : Int) ≤ i ∧ i < 0 then .ok (xs.set (xs.length + i).toNat v)
  else .error .indexError

/-- `for i in is: xs[i] = v` -/
def pySetAll {A : Type} (v : A) : List Int → List A → Except Err (List A)
  | [], xs => .ok xs
  | i :: is, xs =>
    match pySet xs i v with
    | .ok xs => pySetAll v is xs
    | .error e => .error e

end Nnx
