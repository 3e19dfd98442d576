import Verif.Model.Value

/-! # nnx/nn/dtypes.py -/

namespace Nnx

/-- What `nnx/nn/dtypes.py` uses of jax.numpy's dtypes, as parameters: `D` are the dtypes and `A` the
array-compatible values. -/
structure DtypeOps (A D : Type) where
  dtypeOf : A → D
  /-- `jnp.asarray(x, dtype)` -/
  cast : A → D → A
  /-- `jnp.result_type` of at least one array -/
  resultType : D → List D → D
  /-- `jnp.promote_types` -/
  promote : D → D → D
  /-- `jnp.issubdtype(d, jnp.inexact)` -/
  inexact : D → Bool
  float32 : D

variable {A D : Type}

/-- `canonicalize_dtype(*args, dtype=dtype, inexact=inexact)` (nnx/nn/dtypes.py:10-41); `jnp.result_type()` of no
arguments raises `ValueError`. -/
def canonicalizeDtype (O : DtypeOps A D) (args : List (Option A)) (dtype : Option D) (inexact : Bool) : Except Err D :=
  let inferred : Except Err D :=
    match dtype with
    | some d => .ok d
    | none =>
      match args.filterMap id with
      | [] => .error .valueError
      | a :: as =>
        let d := O.resultType (O.dtypeOf a) (as.map O.dtypeOf)
        if inexact ∧ O.inexact d = false then .ok (O.promote O.float32 d) else .ok d
  match inferred with
  | .error e => .error e
  | .ok d => if inexact ∧ O.inexact d = false then .error .valueError else .ok d

/-- `promote_dtype(*args, dtype=dtype, inexact=inexact)` (nnx/nn/dtypes.py:44-67) -/
def promoteDtype (O : DtypeOps A D) (args : List (Option A)) (dtype : Option D) (inexact : Bool) :
    Except Err (List (Option A)) :=
  match canonicalizeDtype O args dtype inexact with
  | .error e => .error e
  | .ok d => .ok (args.map fun x => match x with | some x => some (O.cast x d) | none => none)

end Nnx
