import Verif.Model.Tensor
import Verif.Model.Containers

/-!
# nnx/nn/linear.py

Real arrays in exact arithmetic: the `dtype`/`precision` arguments and the casts of `promote_dtype` are not modelled
here (see `Model/Dtypes.lean`).
-/

namespace Nnx

/-! ### Padding and dimension numbers -/

/-- One element of a padding sequence: an int, a tuple of ints, or something else. -/
inductive PadElem where
  | int (p : Int)
  | tuple (ps : List Int)
  | other
deriving DecidableEq, Repr

/-- What can be given as `padding`. -/
inductive Padding where
  | str (s : Str)
  | int (p : Int)
  | seq (ps : List PadElem)
  | other
deriving DecidableEq, Repr

/-- A padding in the format of jax.lax. -/
inductive LaxPadding where
  | str (s : Str)
  | pairs (ps : List (Int × Int))
deriving DecidableEq, Repr

/-- The loop with `break` of `canonicalize_padding` (nnx/nn/linear.py:36-43). -/
def collectPads : List PadElem → List (Int × Int)
  | [] => []
  | .int p :: ps => (p, p) :: collectPads ps
  | .tuple [a, b] :: ps => (a, b) :: collectPads ps
  | _ :: _ => []

/-- `canonicalize_padding(padding, rank)` (nnx/nn/linear.py:29-50) -/
def canonicalizePadding (padding : Padding) (rank : Nat) : Except Err LaxPadding :=
  match padding with
  | .str s => .ok (.str s)
  | .int p => .ok (.pairs (List.replicate rank (p, p)))
  | .seq ps =>
    if ps.length = rank then
      if (collectPads ps).length = rank then .ok (.pairs (collectPads ps)) else .error .valueError
    else .error .valueError
  | .other => .error .valueError

/-- `lax.ConvDimensionNumbers` -/
structure ConvDims where
  lhs : List Nat
  rhs : List Nat
  out : List Nat
deriving DecidableEq, Repr

/-- `_conv_dimension_numbers(input_shape)` (nnx/nn/linear.py:53-59), for rank at least 2. -/
def convDimensionNumbers (ndim : Nat) : ConvDims :=
  let lhs := [0, ndim - 1] ++ List.range' 1 (ndim - 2)
  let rhs := [ndim - 1, ndim - 2] ++ List.range (ndim - 2)
  ⟨lhs, rhs, lhs⟩

/-! ### The jax.lax operations: `pad` and `conv_general_dilated`

Not code of the repository: what `lax.conv_general_dilated` computes, from its documentation. -/

/-- The multi-index whose coordinate on axis `spec[i]` is `vals[i]`. -/
def place (spec vals : List Nat) : List Nat :=
  (List.range spec.length).map fun pos => vals.getD (spec.idxOf pos) 0

/-- The coordinates on the axes `spec[0], spec[1], …`. -/
def unplace (spec idx : List Nat) : List Nat := spec.map fun p => idx.getD p 0

/-- The geometry of a convolution along one spatial dimension. -/
structure SpatialDim where
  /-- input length -/
  inLen : Nat
  /-- kernel length -/
  kLen : Nat
  stride : Nat
  /-- padding before and after -/
  lo : Int
  hi : Int
  /-- input and kernel dilation -/
  inDil : Nat
  kDil : Nat
deriving DecidableEq, Repr

/-- The length of a dilated dimension. -/
def dilated (n d : Nat) : Nat := if n = 0 then 0 else (n - 1) * d + 1

/-- The output length along one dimension. -/
def SpatialDim.outLen (s : SpatialDim) : Nat :=
  let total : Int := dilated s.inLen s.inDil + s.lo + s.hi
  let window : Int := dilated s.kLen s.kDil
  if total < window then 0 else ((total - window) / s.stride).toNat + 1

/-- The input position read for output position `o` and kernel position `k`: none if it is in the padding or between
dilated entries. -/
def SpatialDim.source (s : SpatialDim) (o k : Nat) : Option Nat :=
  let p : Int := o * s.stride + k * s.kDil - s.lo
  if 0 ≤ p ∧ p % s.inDil = 0 ∧ p / s.inDil < s.inLen then some (p / s.inDil).toNat else none

/-- The input positions along all dimensions; none if any of them is. -/
def sources : List SpatialDim → List Nat → List Nat → Option (List Nat)
  | s :: ss, o :: os, k :: ks =>
    match s.source o k, sources ss os ks with
    | some q, some qs => some (q :: qs)
    | _, _ => none
  | _, _, _ => some []

/-- The per-dimension geometry from the separate argument lists; none if their lengths differ. -/
def spatialDims : List Nat → List Nat → List Nat → List (Int × Int) → List Nat → List Nat → Option (List SpatialDim)
  | [], [], [], [], [], [] => some []
  | n :: ns, k :: ks, s :: ss, p :: ps, i :: is, d :: ds =>
    match spatialDims ns ks ss ps is ds with
    | some r => some (⟨n, k, s, p.1, p.2, i, d⟩ :: r)
    | none => none
  | _, _, _, _, _, _ => none

/-- `lax.padtype_to_pads` for "SAME" along one dimension -/
def samePads (inLen window stride : Nat) : Int × Int :=
  let out : Int := ((inLen + stride - 1) / stride : Nat)
  let total : Int := max ((out - 1) * stride + window - inLen) 0
  (total / 2, total - total / 2)

/-- The padding pairs a padding argument of `conv_general_dilated` stands for. -/
def resolvePads (p : LaxPadding) (ins ks strides kDil : List Nat) : Except Err (List (Int × Int)) :=
  match p with
  | .pairs ps => .ok ps
  | .str s =>
    if s = py! "VALID" then .ok (ins.map fun _ => (0, 0))
    else if s = py! "SAME" then
      .ok (List.zipWith (fun (n : Nat × Nat) (k : Nat × Nat) => samePads n.1 (dilated k.1 k.2) n.2)
        (ins.zip strides) (ks.zip kDil))
    else .error .unmodelled

variable {𝕜 : Type} [Field 𝕜]

/-- `lax.conv_general_dilated` -/
def laxConv (x kernel : Tensor 𝕜) (strides : List Nat) (padding : LaxPadding) (inDil kDil : List Nat) (dims : ConvDims)
    (groups : Nat) : Except Err (Tensor 𝕜) :=
  match unplace dims.lhs x.shape, unplace dims.rhs kernel.shape with
  | n :: c :: ins, outF :: inF :: ks =>
    match resolvePads padding ins ks strides kDil with
    | .error e => .error e
    | .ok pads =>
      match spatialDims ins ks strides pads inDil kDil with
      | none => .error .valueError
      | some sd =>
        if dims.lhs.length = x.shape.length ∧ dims.rhs.length = kernel.shape.length ∧ c = inF * groups ∧
            groups ≠ 0 ∧ outF % groups = 0 then
          .ok ⟨place dims.out (n :: outF :: sd.map SpatialDim.outLen), fun idx =>
            match unplace dims.out idx with
            | b :: f :: o =>
              ((indices ks).map fun k => ((List.range inF).map fun i =>
                (match sources sd o k with
                  | some q => x.val (place dims.lhs (b :: (f / (outF / groups) * inF + i) :: q))
                  | none => 0) *
                kernel.val (place dims.rhs (f :: i :: k))).sum).sum
            | _ => 0⟩
        else .error .valueError
  | _, _ => .error .valueError

/-- `jnp.pad(x, pads)` with zeros -/
def padZero (x : Tensor 𝕜) (pads : List (Nat × Nat)) : Except Err (Tensor 𝕜) :=
  if pads.length = x.shape.length then
    .ok ⟨List.zipWith (fun d (p : Nat × Nat) => p.1 + d + p.2) x.shape pads, fun idx =>
      match inside x.shape pads idx with
      | some j => x.val j
      | none => 0⟩
  else .error .valueError
where
  /-- The position in the unpadded array; none in the padding. -/
  inside : List Nat → List (Nat × Nat) → List Nat → Option (List Nat)
    | d :: ds, p :: ps, i :: is =>
      if p.1 ≤ i ∧ i - p.1 < d then
        match inside ds ps is with
        | some js => some ((i - p.1) :: js)
        | none => none
      else none
    | _, _, _ => some []

/-- The position in the unpadded array: periodic in every dimension. -/
def wrapIdx : List Nat → List (Nat × Nat) → List Nat → List Nat
  | d :: ds, p :: ps, i :: is => (((i : Int) - p.1) % d).toNat :: wrapIdx ds ps is
  | _, _, _ => []

omit [Field 𝕜] in
/-- `jnp.pad(x, pads, mode="wrap")` -/
def padWrap (x : Tensor 𝕜) (pads : List (Nat × Nat)) : Except Err (Tensor 𝕜) :=
  if pads.length = x.shape.length then
    .ok ⟨List.zipWith (fun d (p : Nat × Nat) => p.1 + d + p.2) x.shape pads, fun idx => x.val (wrapIdx x.shape pads idx)⟩
  else .error .valueError

/-! ### Conv -/

/-- `Union[None, int, Sequence[int]]` -/
inductive PerDim where
  | none
  | int (n : Nat)
  | seq (l : List Nat)
deriving DecidableEq, Repr

/-- `maybe_broadcast` (nnx/nn/linear.py:256-265) -/
def PerDim.broadcast (x : PerDim) (rank : Nat) : List Nat :=
  match x with
  | .none => List.replicate rank 1
  | .int n => List.replicate rank n
  | .seq l => l

/-- The attributes of a `Conv` (nnx/nn/linear.py:172-231) that `__call__` uses. -/
structure Conv (𝕜 : Type) where
  kernel : Tensor 𝕜
  bias : Option (Tensor 𝕜)
  inFeatures : Nat
  kernelSize : List Nat
  strides : PerDim := .int 1
  padding : Padding := .str (py! "SAME")
  inputDilation : PerDim := .int 1
  kernelDilation : PerDim := .int 1
  featureGroupCount : Nat := 1
  useBias : Bool := true
  maskFn : Option (Tensor 𝕜 → Tensor 𝕜) := none

omit [Field 𝕜] in
/-- `kernel = self.kernel; if self.mask_fn is not None: kernel = self.mask_fn(kernel)` (nnx/nn/linear.py:302-305) -/
def Conv.maskedKernel (cv : Conv 𝕜) : Tensor 𝕜 :=
  match cv.maskFn with
  | none => cv.kernel
  | some f => f cv.kernel

/-- The bias (nnx/nn/linear.py:323-325) -/
def Conv.addBias (cv : Conv 𝕜) (y : Tensor 𝕜) : Except Err (Tensor 𝕜) :=
  if cv.useBias then
    match cv.bias with
    | none => .error .attributeError
    | some b =>
      match b.reshape (List.replicate (y.shape.length - b.shape.length) 1 ++ b.shape) with
      | .error e => .error e
      | .ok b => Tensor.bin (fun a b => a + b) y b
  else .ok y

/-- The padding of the inputs for 'CIRCULAR' and 'CAUSAL' (nnx/nn/linear.py:280-295): the inputs and the padding left
to jax.lax.  Kernel sizes are assumed positive. -/
def Conv.pad (kernelSize kernelDilation : List Nat) (padding : Padding) (x : Tensor 𝕜) :
    Except Err (Tensor 𝕜 × LaxPadding) :=
  match canonicalizePadding padding kernelSize.length with
  | .error e => .error e
  | .ok p =>
    if p = .str (py! "CIRCULAR") then
      let dil := List.zipWith (fun k d => (k - 1) * d + 1) kernelSize kernelDilation
      let pads := [(0, 0)] ++ dil.map (fun k => ((k - 1) / 2, k / 2)) ++ [(0, 0)]
      match padWrap x pads with
      | .error e => .error e
      | .ok x => .ok (x, .str (py! "VALID"))
    else if p = .str (py! "CAUSAL") then
      match kernelSize, kernelDilation with
      | [k], d :: _ =>
        match padZero x [(0, 0), (d * (k - 1), 0), (0, 0)] with
        | .error e => .error e
        | .ok x => .ok (x, .str (py! "VALID"))
      | [_], [] => .error .indexError
      | _, _ => .error .valueError
    else .ok (x, p)

/-- `Conv.__call__` (nnx/nn/linear.py:233-330).  Inputs with fewer than `len(kernel_size) + 1` dimensions are not
modelled. -/
def Conv.call (cv : Conv 𝕜) (inputs : Tensor 𝕜) : Except Err (Tensor 𝕜) :=
  let rank := cv.kernelSize.length
  if inputs.shape.length < rank + 1 then .error .unmodelled
  else
    let numBatch := inputs.shape.length - (rank + 1)
    let batchShape := inputs.shape.take numBatch
    let flat : Except Err (Tensor 𝕜) :=
      if numBatch ≠ 1 then inputs.reshape (size batchShape :: inputs.shape.drop numBatch) else .ok inputs
    match flat with
    | .error e => .error e
    | .ok x =>
      let strides := cv.strides.broadcast rank
      let inputDilation := cv.inputDilation.broadcast rank
      let kernelDilation := cv.kernelDilation.broadcast rank
      match Conv.pad cv.kernelSize kernelDilation cv.padding x with
      | .error e => .error e
      | .ok (x, padding) =>
        let dims := convDimensionNumbers x.shape.length
        if cv.inFeatures % cv.featureGroupCount ≠ 0 then .error .assertionError
        else
          match laxConv x cv.maskedKernel strides padding inputDilation kernelDilation dims cv.featureGroupCount with
          | .error e => .error e
          | .ok y =>
            match cv.addBias y with
            | .error e => .error e
            | .ok y => if numBatch ≠ 1 then y.reshape (batchShape ++ y.shape.drop 1) else .ok y

/-! ### Linear and Embed -/

/-- The attributes of a `Linear` (nnx/nn/linear.py:76-108) that `__call__` uses. -/
structure Linear (𝕜 : Type) where
  kernel : Tensor 𝕜
  bias : Option (Tensor 𝕜)

/-- `lax.dot_general(x, k, (((x.ndim - 1,), (0,)), ((), ())))` for a matrix `k` -/
def dotLast (x k : Tensor 𝕜) : Except Err (Tensor 𝕜) :=
  match x.shape.getLast?, k.shape with
  | some m, [m', n] =>
    if m = m' then
      .ok ⟨x.shape.dropLast ++ [n], fun idx =>
        ((List.range m).map fun i => x.val (idx.dropLast ++ [i]) * k.val [i, idx.getLastD 0]).sum⟩
    else .error .typeError
  | _, _ => .error .typeError

/-- `Linear.__call__` (nnx/nn/linear.py:110-131) with the default `dot_general` -/
def Linear.call (l : Linear 𝕜) (inputs : Tensor 𝕜) : Except Err (Tensor 𝕜) :=
  match dotLast inputs l.kernel with
  | .error e => .error e
  | .ok y =>
    match l.bias with
    | none => .ok y
    | some b =>
      match b.reshape (List.replicate (y.shape.length - 1) 1 ++ [size b.shape]) with
      | .error e => .error e
      | .ok b => Tensor.bin (fun a b => a + b) y b

/-- The attribute of an `Embed` (nnx/nn/linear.py:349-367) that its calls use. -/
structure Embed (𝕜 : Type) where
  embedding : Tensor 𝕜

/-- `Embed.__call__` (nnx/nn/linear.py:369-384): `isInt` says whether the dtype of the inputs is an integer type.
`jnp.take(embedding, inputs, axis=0)`; `oob` is what it gives for indices outside `[0, num_embeddings)`. -/
def Embed.call (e : Embed 𝕜) (isInt : Bool) (oob : Int → Nat → 𝕜) (inputs : Tensor Int) : Except Err (Tensor 𝕜) :=
  if isInt = false then .error .valueError
  else
    match e.embedding.shape with
    | [n, d] =>
      .ok ⟨inputs.shape ++ [d], fun idx =>
        let i := inputs.val idx.dropLast
        if 0 ≤ i ∧ i < n then e.embedding.val [i.toNat, idx.getLastD 0] else oob i (idx.getLastD 0)⟩
    | _ => .error .unmodelled

/-- `x.T` of a matrix -/
def transpose (x : Tensor 𝕜) : Tensor 𝕜 := ⟨x.shape.reverse, fun idx => x.val idx.reverse⟩

/-- `Embed.attend(query)` (nnx/nn/linear.py:386-399): `jnp.dot(query, embedding.T)` for a query of rank at least 1 -/
def Embed.attend (e : Embed 𝕜) (query : Tensor 𝕜) : Except Err (Tensor 𝕜) :=
  dotLast query (transpose e.embedding)

end Nnx
