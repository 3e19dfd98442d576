import Verif.Model.Normalization
import Mathlib.Data.Complex.Basic

/-!
# nnx/nn/normalization.py on complex arrays

Exact arithmetic; `dtype` is not given and there is no `axis_name`.  Real parameters and statistics are complex numbers with imaginary part 0.
-/

namespace Nnx

/-- `_abs_sq` of a complex array: `lax.square(lax.real(x)) + lax.square(lax.imag(x))` (nnx/nn/normalization.py:27-30) -/
def absSq (z : ℂ) : ℝ := z.re * z.re + z.im * z.im

/-- `_compute_stats(x, axes)` (nnx/nn/normalization.py:35-94) of a complex array: the mean is complex, the variance real. -/
noncomputable def complexStats (x : Tensor ℂ) (axes : List Int) : Except Err (Tensor ℂ × Tensor ℝ) :=
  match jnpMean (x.map absSq) axes with
  | .error e => .error e
  | .ok mean2 =>
    match jnpMean x axes with
    | .error e => .error e
    | .ok mean =>
      match Tensor.bin (fun a b => a - b) mean2 (mean.map absSq) with
      | .error e => .error e
      | .ok d => .ok (mean, d.map fun v => max 0 v)

/-- A real array where `_normalize` combines it with complex ones: jax promotes it. -/
noncomputable def promoted : Except Err (Tensor ℂ × Tensor ℝ) → Except Err (Tensor ℂ × Tensor ℂ)
  | .error e => .error e
  | .ok (mean, var) => .ok (mean, var.map Complex.ofReal)

/-- `lax.rsqrt` of a real number in a complex array -/
noncomputable def rsqrtC (rsqrt : ℝ → ℝ) (z : ℂ) : ℂ := (rsqrt z.re : ℂ)

/-- `LayerNorm.__call__` (nnx/nn/normalization.py:354-377) of a complex array -/
noncomputable def LayerNorm.callC (rsqrt : ℝ → ℝ) (ln : LayerNorm ℂ) (x : Tensor ℂ) : Except Err (Tensor ℂ) :=
  ln.callWith (rsqrtC rsqrt) x fun axes => promoted (complexStats x axes)

/-- `BatchNorm.__call__` (nnx/nn/normalization.py:226-276) of a complex array -/
noncomputable def BatchNorm.callC (rsqrt : ℝ → ℝ) (bn : BatchNorm ℂ) (x : Tensor ℂ) (useRunningAverage flag : Option Bool) :
    BatchNorm ℂ × Except Err (Tensor ℂ) :=
  bn.callWith (rsqrtC rsqrt) x useRunningAverage flag fun axes => promoted (complexStats x axes)

end Nnx
