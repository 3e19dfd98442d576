import Verif.Model.Tensor
import Verif.Model.Context
import Verif.Model.ModuleOps

/-!
# nnx/nn/normalization.py and nnx/nn/stochastic.py

Real arrays in exact arithmetic; `dtype` arguments are not modelled.  The collective `lax.pmean` (`axis_name`) is in
`Model/CrossDevice.lean`.
-/

namespace Nnx

/-- Keep the first of equal elements: `set(...)`, whose iteration order Python does not specify. -/
def dedup : List Int → List Int
  | [] => []
  | a :: as => a :: (dedup as).filter (fun b => decide (b ≠ a))

/-- `_canonicalize_axes(rank, axes)` (nnx/nn/normalization.py:20-24).  An `axes` that is an int is the list of that
int.  The order of the result, that of a Python set, is not specified; the model keeps first occurrences. -/
def canonicalizeAxes (rank : Nat) (axes : List Int) : List Int :=
  dedup (axes.map fun a => if a < 0 then rank + a else a)

/-- `tuple(i for i in range(x.ndim) if i not in feature_axes)` (nnx/nn/normalization.py:249) -/
def otherAxes (rank : Nat) (axes : List Int) : List Int :=
  ((List.range rank).map fun i : Nat => (i : Int)).filter fun i => decide (i ∉ axes)

/-- `for ax in feature_axes: feature_shape[ax] = x.shape[ax]` (nnx/nn/normalization.py:129-131) -/
def featureShape (shape : List Nat) : List Int → List Nat → Except Err (List Nat)
  | [], fs => .ok fs
  | ax :: axes, fs =>
    match pyGet shape ax with
    | .error e => .error e
    | .ok d =>
      match pySet fs ax d with
      | .error e => .error e
      | .ok fs => featureShape shape axes fs
where
  /-- `x.shape[ax]` for a Python tuple -/
  pyGet (xs : List Nat) (i : Int) : Except Err Nat :=
    match xs[(if i < 0 then xs.length + i else i).toNat]? with
    | some d => if i < 0 ∧ (xs.length : Int) + i < 0 then .error .indexError else .ok d
    | none => .error .indexError

variable {𝕜 : Type} [Field 𝕜] [LinearOrder 𝕜]

omit [LinearOrder 𝕜] in
/-- The mean and the mean square (nnx/nn/normalization.py:72-76) with `use_mean=True`; `_abs_sq` (27-32) of a real
array is its square. -/
def localMeans (x : Tensor 𝕜) (axes : List Int) : Except Err (Tensor 𝕜 × Tensor 𝕜) :=
  match jnpMean (x.map fun v => v * v) axes with
  | .error e => .error e
  | .ok mean2 =>
    match jnpMean x axes with
    | .error e => .error e
    | .ok mean => .ok (mean, mean2)

/-- `var = jnp.maximum(0.0, mean2 - _abs_sq(mean)); return mean, var` (nnx/nn/normalization.py:90-94) -/
def statsOf (mean mean2 : Tensor 𝕜) : Except Err (Tensor 𝕜 × Tensor 𝕜) :=
  match Tensor.bin (fun a b => a - b) mean2 (mean.map fun v => v * v) with
  | .error e => .error e
  | .ok d => .ok (mean, d.map fun v => max 0 v)

/-- `_compute_stats(x, axes)` (nnx/nn/normalization.py:35-94) without `axis_name` -/
def computeStats (x : Tensor 𝕜) (axes : List Int) : Except Err (Tensor 𝕜 × Tensor 𝕜) :=
  match localMeans x axes with
  | .error e => .error e
  | .ok (mean, mean2) => statsOf mean mean2

omit [Field 𝕜] [LinearOrder 𝕜] in
/-- An optional parameter reshaped and combined with an array (nnx/nn/normalization.py:135-138, 140-142). -/
def withParam (p : Option (Tensor 𝕜)) (shape : List Nat) (f : 𝕜 → 𝕜 → 𝕜) (t : Tensor 𝕜) :
    Except Err (Tensor 𝕜) :=
  match p with
  | none => .ok t
  | some p =>
    match p.reshape shape with
    | .error e => .error e
    | .ok p => Tensor.bin f t p

omit [LinearOrder 𝕜] in
/-- `_normalize` (nnx/nn/normalization.py:97-148); `rsqrt` is `lax.rsqrt`. -/
def normalize (rsqrt : 𝕜 → 𝕜) (x mean var : Tensor 𝕜) (scale bias : Option (Tensor 𝕜))
    (reductionAxes featureAxes : List Int) (epsilon : 𝕜) : Except Err (Tensor 𝕜) :=
  let reductionAxes := canonicalizeAxes x.shape.length reductionAxes
  let featureAxes := canonicalizeAxes x.shape.length featureAxes
  match pySetAll 1 reductionAxes x.shape with
  | .error e => .error e
  | .ok statsShape =>
    match mean.reshape statsShape with
    | .error e => .error e
    | .ok mean =>
      match var.reshape statsShape with
      | .error e => .error e
      | .ok var =>
        match featureShape x.shape featureAxes (x.shape.map fun _ => 1) with
        | .error e => .error e
        | .ok fshape =>
          match Tensor.bin (fun a b => a - b) x mean with
          | .error e => .error e
          | .ok y =>
            match withParam scale fshape (fun a b => a * b) (var.map fun v => rsqrt (v + epsilon)) with
            | .error e => .error e
            | .ok mul =>
              match Tensor.bin (fun a b => a * b) y mul with
              | .error e => .error e
              | .ok y => withParam bias fshape (fun a b => a + b) y

/-- The attributes of a `BatchNorm` (nnx/nn/normalization.py:151-224) that `__call__` uses. -/
structure BatchNorm (𝕜 : Type) where
  mean : Tensor 𝕜
  var : Tensor 𝕜
  scale : Option (Tensor 𝕜)
  bias : Option (Tensor 𝕜)
  useRunningAverage : Option Bool
  axis : List Int
  momentum : 𝕜
  epsilon : 𝕜

/-- `ctx and ctx.get_flag(name)` (nnx/contextlib.py:113-114): `None` without a context or without the flag. -/
def ctxFlag {κ : Type} (w : RngWorld κ) (ctx : Option Nat) (name : Str) : Option Bool :=
  match ctx with
  | none => none
  | some c =>
    match w.ctxs[c]? with
    | none => none
    | some o => o.getFlag name

omit [LinearOrder 𝕜] in
/-- `self.momentum * old + (1 - self.momentum) * new` (nnx/nn/normalization.py:262-263) -/
def emaStep (momentum : 𝕜) (old new : Tensor 𝕜) : Except Err (Tensor 𝕜) :=
  Tensor.bin (fun a b => a + b) (old.map fun v => momentum * v) (new.map fun v => (1 - momentum) * v)

omit [LinearOrder 𝕜] in
/-- `BatchNorm.__call__` (nnx/nn/normalization.py:226-276): the module afterwards and the result.  `flag` is
`ctx and ctx.get_flag("use_running_average")`, `stats` is `_compute_stats` of `x`. -/
def BatchNorm.callWith (rsqrt : 𝕜 → 𝕜) (bn : BatchNorm 𝕜) (x : Tensor 𝕜) (useRunningAverage : Option Bool)
    (flag : Option Bool) (stats : List Int → Except Err (Tensor 𝕜 × Tensor 𝕜)) :
    BatchNorm 𝕜 × Except Err (Tensor 𝕜) :=
  match firstFrom [useRunningAverage, bn.useRunningAverage, flag] with
  | .error e => (bn, .error e)
  | .ok running =>
    let featureAxes := canonicalizeAxes x.shape.length bn.axis
    let reductionAxes := otherAxes x.shape.length featureAxes
    if running then
      (bn, normalize rsqrt x bn.mean bn.var bn.scale bn.bias reductionAxes featureAxes bn.epsilon)
    else
      match stats reductionAxes with
      | .error e => (bn, .error e)
      | .ok (mean, var) =>
        match emaStep bn.momentum bn.mean mean with
        | .error e => (bn, .error e)
        | .ok newMean =>
          let bn := { bn with mean := newMean }
          match emaStep bn.momentum bn.var var with
          | .error e => (bn, .error e)
          | .ok newVar =>
            let bn := { bn with var := newVar }
            (bn, normalize rsqrt x mean var bn.scale bn.bias reductionAxes featureAxes bn.epsilon)

/-- `BatchNorm.__call__` (nnx/nn/normalization.py:226-276) without `axis_name` -/
def BatchNorm.call (rsqrt : 𝕜 → 𝕜) (bn : BatchNorm 𝕜) (x : Tensor 𝕜) (useRunningAverage : Option Bool)
    (flag : Option Bool) : BatchNorm 𝕜 × Except Err (Tensor 𝕜) :=
  bn.callWith rsqrt x useRunningAverage flag (computeStats x)

/-- The attributes of a `LayerNorm` (nnx/nn/normalization.py:279-353) that `__call__` uses. -/
structure LayerNorm (𝕜 : Type) where
  scale : Option (Tensor 𝕜)
  bias : Option (Tensor 𝕜)
  reductionAxes : List Int
  featureAxes : List Int
  epsilon : 𝕜

omit [LinearOrder 𝕜] in
/-- `LayerNorm.__call__` (nnx/nn/normalization.py:354-377); `stats` is `_compute_stats` of `x`. -/
def LayerNorm.callWith (rsqrt : 𝕜 → 𝕜) (ln : LayerNorm 𝕜) (x : Tensor 𝕜)
    (stats : List Int → Except Err (Tensor 𝕜 × Tensor 𝕜)) : Except Err (Tensor 𝕜) :=
  match stats ln.reductionAxes with
  | .error e => .error e
  | .ok (mean, var) => normalize rsqrt x mean var ln.scale ln.bias ln.reductionAxes ln.featureAxes ln.epsilon

/-- `LayerNorm.__call__` (nnx/nn/normalization.py:354-377) without `axis_name` -/
def LayerNorm.call (rsqrt : 𝕜 → 𝕜) (ln : LayerNorm 𝕜) (x : Tensor 𝕜) : Except Err (Tensor 𝕜) :=
  ln.callWith rsqrt x (computeStats x)

/-! ### Dropout -/

/-- `Dropout` (nnx/nn/stochastic.py:12-29) -/
structure Dropout (𝕜 : Type) where
  rate : 𝕜
  broadcastDims : List Int := []
  deterministic : Option Bool := none
  rngCollection : Str := py! "dropout"

variable {κ η : Type}

/-- `Dropout.__call__` (nnx/nn/stochastic.py:31-72).  `bernoulli key p shape` is `random.bernoulli`. -/
def Dropout.call (P : RngPrims κ η) (bernoulli : κ → 𝕜 → List Nat → List Nat → Bool) (d : Dropout 𝕜)
    (inputs : Tensor 𝕜) (deterministic : Option Bool) (ctx : Option Nat) (w : RngWorld κ) :
    RngWorld κ × Except Err (Tensor 𝕜) :=
  match firstFrom [deterministic, d.deterministic, ctxFlag w ctx (py! "deterministic")] with
  | .error e => (w, .error e)
  | .ok det =>
    if d.rate = 0 ∨ det = true then (w, .ok inputs)
    else if d.rate = 1 then (w, .ok ⟨inputs.shape, fun _ => 0⟩)
    else
      match ctx with
      | none => (w, .error .valueError)
      | some c =>
        let keepProb := 1 - d.rate
        match makeRng P c d.rngCollection w with
        | (w, .error e) => (w, .error e)
        | (w, .ok rng) =>
          match pySetAll 1 d.broadcastDims inputs.shape with
          | .error e => (w, .error e)
          | .ok shape =>
            let mask : Tensor Bool := ⟨shape, bernoulli rng keepProb shape⟩
            (w, .ok ⟨inputs.shape, fun idx => if mask.bget idx then inputs.val idx / keepProb else 0⟩)

end Nnx
