import Verif.Model.Linear
import Verif.Model.Normalization

/-!
# The constructors of the layers of `nnx.nn`

An initialiser is a function of a key and a shape (`param_dtype` is not tracked, and the initialiser does not raise).
The constructors draw keys from the context they are given, so they change the world also when they raise.
-/

namespace Nnx
variable {κ η 𝕜 : Type}

/-- An initialiser `(key, shape, dtype) -> array`, for one dtype. -/
abbrev Initializer (κ 𝕜 : Type) := κ → List Nat → Tensor 𝕜

/-- `nnx.Param(init(ctx.make_rng("params"), shape, param_dtype))` (nnx/nn/linear.py:90-93, 95-96, 206-207, 211-212,
359-361; nnx/nn/normalization.py:201-202, 207-208, 330-331, 336-337) -/
def initParam (P : RngPrims κ η) (c : Nat) (init : Initializer κ 𝕜) (shape : List Nat) (w : RngWorld κ) :
    RngWorld κ × Except Err (Tensor 𝕜) :=
  match makeRng P c (py! "params") w with
  | (w, .error e) => (w, .error e)
  | (w, .ok key) => (w, .ok (init key shape))

/-- `if use: self.p = nnx.Param(init(ctx.make_rng("params"), shape, param_dtype)) else: self.p = nnx.Param(None)`
(nnx/nn/linear.py:94-98, 209-214; nnx/nn/normalization.py:200-210, 329-339) -/
def initOptional (P : RngPrims κ η) (c : Nat) (use : Bool) (init : Initializer κ 𝕜) (shape : List Nat)
    (w : RngWorld κ) : RngWorld κ × Except Err (Option (Tensor 𝕜)) :=
  if use then
    match initParam P c init shape w with
    | (w, .error e) => (w, .error e)
    | (w, .ok t) => (w, .ok (some t))
  else (w, .ok none)

/-- The arguments of `nnx.Linear(...)` that matter here. -/
structure LinearArgs (κ 𝕜 : Type) where
  inFeatures : Nat
  outFeatures : Nat
  useBias : Bool := true
  kernelInit : Initializer κ 𝕜
  biasInit : Initializer κ 𝕜

/-- `Linear.__init__` (nnx/nn/linear.py:76-108) -/
def Linear.create (P : RngPrims κ η) (c : Nat) (a : LinearArgs κ 𝕜) (w : RngWorld κ) :
    RngWorld κ × Except Err (Linear 𝕜) :=
  match initParam P c a.kernelInit [a.inFeatures, a.outFeatures] w with
  | (w, .error e) => (w, .error e)
  | (w, .ok kernel) =>
    match initOptional P c a.useBias a.biasInit [a.outFeatures] w with
    | (w, .error e) => (w, .error e)
    | (w, .ok bias) => (w, .ok ⟨kernel, bias⟩)

/-- The `kernel_size` argument of `nnx.Conv`. -/
inductive KernelSize where
  | int (n : Int)
  | seq (sizes : List Nat)
deriving DecidableEq, Repr

/-- The arguments of `nnx.Conv(...)` that matter here. -/
structure ConvArgs (κ 𝕜 : Type) where
  inFeatures : Nat
  outFeatures : Nat
  kernelSize : KernelSize
  strides : PerDim := .int 1
  padding : Padding := .str (py! "SAME")
  inputDilation : PerDim := .int 1
  kernelDilation : PerDim := .int 1
  featureGroupCount : Nat := 1
  useBias : Bool := true
  maskFn : Option (Tensor 𝕜 → Tensor 𝕜) := none
  kernelInit : Initializer κ 𝕜
  biasInit : Initializer κ 𝕜

/-- `Conv.__init__` (nnx/nn/linear.py:172-231).  `feature_group_count = 0` raises `ZeroDivisionError`, which is not
one of the modelled exceptions. -/
def Conv.create (P : RngPrims κ η) (c : Nat) (a : ConvArgs κ 𝕜) (w : RngWorld κ) :
    RngWorld κ × Except Err (Conv 𝕜) :=
  match a.kernelSize with
  | .int _ => (w, .error .typeError)
  | .seq kernelSize =>
    if a.featureGroupCount = 0 then (w, .error .unmodelled)
    else
      match initParam P c a.kernelInit (kernelSize ++ [a.inFeatures / a.featureGroupCount, a.outFeatures]) w with
      | (w, .error e) => (w, .error e)
      | (w, .ok kernel) =>
        match initOptional P c a.useBias a.biasInit [a.outFeatures] w with
        | (w, .error e) => (w, .error e)
        | (w, .ok bias) =>
          (w, .ok { kernel := kernel, bias := bias, inFeatures := a.inFeatures, kernelSize := kernelSize,
                    strides := a.strides, padding := a.padding, inputDilation := a.inputDilation,
                    kernelDilation := a.kernelDilation, featureGroupCount := a.featureGroupCount,
                    useBias := a.useBias, maskFn := a.maskFn })

/-- The arguments of `nnx.Embed(...)` that matter here. -/
structure EmbedArgs (κ 𝕜 : Type) where
  numEmbeddings : Nat
  features : Nat
  embeddingInit : Initializer κ 𝕜

/-- `Embed.__init__` (nnx/nn/linear.py:349-367) -/
def Embed.create (P : RngPrims κ η) (c : Nat) (a : EmbedArgs κ 𝕜) (w : RngWorld κ) :
    RngWorld κ × Except Err (Embed 𝕜) :=
  match initParam P c a.embeddingInit [a.numEmbeddings, a.features] w with
  | (w, .error e) => (w, .error e)
  | (w, .ok t) => (w, .ok ⟨t⟩)

/-- The arguments of `nnx.BatchNorm(...)` that matter here (`axis_name` and `axis_index_groups` are `None`). -/
structure BatchNormArgs (κ 𝕜 : Type) where
  numFeatures : Nat
  useRunningAverage : Option Bool := none
  axis : List Int := [-1]
  momentum : 𝕜
  epsilon : 𝕜
  useBias : Bool := true
  useScale : Bool := true
  biasInit : Initializer κ 𝕜
  scaleInit : Initializer κ 𝕜

/-- `BatchNorm.__init__` (nnx/nn/normalization.py:178-224) -/
def BatchNorm.create [Zero 𝕜] [One 𝕜] (P : RngPrims κ η) (c : Nat) (a : BatchNormArgs κ 𝕜) (w : RngWorld κ) :
    RngWorld κ × Except Err (BatchNorm 𝕜) :=
  let featureShape := [a.numFeatures]
  match initOptional P c a.useScale a.scaleInit featureShape w with
  | (w, .error e) => (w, .error e)
  | (w, .ok scale) =>
    match initOptional P c a.useBias a.biasInit featureShape w with
    | (w, .error e) => (w, .error e)
    | (w, .ok bias) =>
      (w, .ok { mean := ⟨featureShape, fun _ => 0⟩, var := ⟨featureShape, fun _ => 1⟩, scale := scale, bias := bias,
                useRunningAverage := a.useRunningAverage, axis := a.axis, momentum := a.momentum,
                epsilon := a.epsilon })

/-- The arguments of `nnx.LayerNorm(...)` that matter here (`axis_name` and `axis_index_groups` are `None`). -/
structure LayerNormArgs (κ 𝕜 : Type) where
  numFeatures : Nat
  epsilon : 𝕜
  useBias : Bool := true
  useScale : Bool := true
  biasInit : Initializer κ 𝕜
  scaleInit : Initializer κ 𝕜
  reductionAxes : List Int := [-1]
  featureAxes : List Int := [-1]

/-- `LayerNorm.__init__` (nnx/nn/normalization.py:310-352) -/
def LayerNorm.create (P : RngPrims κ η) (c : Nat) (a : LayerNormArgs κ 𝕜) (w : RngWorld κ) :
    RngWorld κ × Except Err (LayerNorm 𝕜) :=
  let featureShape := [a.numFeatures]
  match initOptional P c a.useScale a.scaleInit featureShape w with
  | (w, .error e) => (w, .error e)
  | (w, .ok scale) =>
    match initOptional P c a.useBias a.biasInit featureShape w with
    | (w, .error e) => (w, .error e)
    | (w, .ok bias) =>
      (w, .ok { scale := scale, bias := bias, reductionAxes := a.reductionAxes, featureAxes := a.featureAxes,
                epsilon := a.epsilon })

/-! ### A sequence of layers -/

/-- A call of a constructor of a layer. -/
inductive LayerArgs (κ 𝕜 : Type) where
  | linear (a : LinearArgs κ 𝕜)
  | conv (a : ConvArgs κ 𝕜)
  | embed (a : EmbedArgs κ 𝕜)
  | batchNorm (a : BatchNormArgs κ 𝕜)
  | layerNorm (a : LayerNormArgs κ 𝕜)

/-- A layer. -/
inductive NnLayer (𝕜 : Type) where
  | linear (l : Linear 𝕜)
  | conv (l : Conv 𝕜)
  | embed (l : Embed 𝕜)
  | batchNorm (l : BatchNorm 𝕜)
  | layerNorm (l : LayerNorm 𝕜)

/-- The result of a constructor as a layer. -/
def asLayer {L : Type} (f : L → NnLayer 𝕜) : RngWorld κ × Except Err L → RngWorld κ × Except Err (NnLayer 𝕜)
  | (w, .error e) => (w, .error e)
  | (w, .ok l) => (w, .ok (f l))

/-- A call of a constructor with `ctx=c` (nnx/nn/linear.py:76-367, nnx/nn/normalization.py:178-352). -/
def LayerArgs.create [Zero 𝕜] [One 𝕜] (P : RngPrims κ η) (c : Nat) :
    LayerArgs κ 𝕜 → RngWorld κ → RngWorld κ × Except Err (NnLayer 𝕜)
  | .linear a, w => asLayer .linear (Linear.create P c a w)
  | .conv a, w => asLayer .conv (Conv.create P c a w)
  | .embed a, w => asLayer .embed (Embed.create P c a w)
  | .batchNorm a, w => asLayer .batchNorm (BatchNorm.create P c a w)
  | .layerNorm a, w => asLayer .layerNorm (LayerNorm.create P c a w)

end Nnx
