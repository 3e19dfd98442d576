import Verif.Model.Linear
import Verif.Spec.Nn

/-!
# What a convolution computes
-/

namespace Nnx

variable {𝕜 : Type} [Field 𝕜]

/-- One output entry of a convolution: the sum, over the kernel positions `k` and the input features `i` of the
output feature's group, of the input read at the positions `source k` times the kernel; where there is no position
(padding) the input counts as 0.  `read q c` is the input at spatial position `q`, feature `c`. -/
def convEntry (kernelSize : List Nat) (inF group : Nat) (source : List Nat → Option (List Nat))
    (read : List Nat → Nat → 𝕜) (kernel : Tensor 𝕜) (f : Nat) : 𝕜 :=
  ((indices kernelSize).map fun k => ((List.range inF).map fun i =>
    (match source k with
      | some q => read q (group * inF + i)
      | none => 0) * kernel.val (k ++ [i, f])).sum).sum

/-- The position read with periodic boundary conditions. -/
def SpatialDim.wrapSource (s : SpatialDim) (o k : Nat) : Nat :=
  (((o * s.stride + k * s.kDil : Nat) - s.lo) % (s.inLen : Int)).toNat

/-- The positions read with periodic boundary conditions. -/
def wrapSources : List SpatialDim → List Nat → List Nat → List Nat
  | s :: ss, o :: os, k :: ks => s.wrapSource o k :: wrapSources ss os ks
  | _, _, _ => []

omit [Field 𝕜] in
/-- What an argument that may be `None`, an int or a sequence says for each dimension: 1, the int, its own entry. -/
def PerDim.Says (x : PerDim) (l : List Nat) : Prop :=
  x = .none ∧ (∀ y ∈ l, y = 1) ∨ (∃ n, x = .int n ∧ ∀ y ∈ l, y = n) ∨ x = .seq l

omit [Field 𝕜] in
/-- The kernel a `Conv` convolves with: masked by `mask_fn` if there is one. -/
def Conv.usedKernel (cv : Conv 𝕜) : Tensor 𝕜 := cv.maskFn.elim cv.kernel (fun f => f cv.kernel)

/-- A `Conv` that fits inputs of shape `B ++ sd.map inLen ++ [groups * inF]`: its attributes give the geometry `sd`
(all but the padding), and its kernel has the shape the constructor gives it. -/
structure Conv.Fits (cv : Conv 𝕜) (sd : List SpatialDim) (inF outF : Nat) : Prop where
  kernelSize : cv.kernelSize = sd.map SpatialDim.kLen
  strides : cv.strides.Says (sd.map SpatialDim.stride)
  inDil : cv.inputDilation.Says (sd.map SpatialDim.inDil)
  kDil : cv.kernelDilation.Says (sd.map SpatialDim.kDil)
  kernelShape : cv.usedKernel.shape = sd.map SpatialDim.kLen ++ [inF, outF]
  groups : cv.featureGroupCount ≠ 0
  outGroups : outF % cv.featureGroupCount = 0
  inFeatures : cv.inFeatures = inF * cv.featureGroupCount
  bias : cv.useBias = true → ∃ b, cv.bias = some b ∧ b.shape = [outF]

/-- The bias of an output feature, 0 without one. -/
def Conv.biasAt (cv : Conv 𝕜) (f : Nat) : 𝕜 := if cv.useBias then vecAt cv.bias f 0 else 0

/-- The pair an element of a padding sequence stands for. -/
def PadElem.Pair (e : PadElem) (p : Int × Int) : Prop := e = .int p.1 ∧ p.2 = p.1 ∨ e = .tuple [p.1, p.2]

/-- The padding 'CAUSAL' gives a dimension: all of it before the input, one less than the length of the dilated
kernel. -/
def SpatialDim.Causal (s : SpatialDim) : Prop :=
  s.inDil = 1 ∧ s.lo = (s.kDil * (s.kLen - 1) : Nat) ∧ s.hi = 0

/-- The padding 'CIRCULAR' gives a dimension: one less than the length of the dilated kernel, half of it on each
side. -/
def SpatialDim.Circular (s : SpatialDim) : Prop :=
  s.inDil = 1 ∧ 0 < s.kLen ∧ 0 < s.inLen ∧ s.lo = ((s.kLen - 1) * s.kDil / 2 : Nat) ∧
    s.hi = (((s.kLen - 1) * s.kDil + 1) / 2 : Nat)

/-- The padding 'SAME' gives a dimension: as many zeros as the output length `inLen / stride`, rounded up, needs, half of them on each
side; an odd one comes after. -/
def SpatialDim.Same (s : SpatialDim) : Prop :=
  (s.lo = s.hi ∨ s.lo + 1 = s.hi) ∧
    s.lo + s.hi = max (((((s.inLen + s.stride - 1) / s.stride : Nat) : Int) - 1) * s.stride + dilated s.kLen s.kDil - s.inLen) 0

/-- The padding of the geometry `sd` is the one the layer's `padding` argument stands for. -/
def Conv.PaddedAs (cv : Conv 𝕜) (sd : List SpatialDim) : Prop :=
  (cv.padding = .str (py! "CIRCULAR") ∧ ∀ s ∈ sd, s.Circular) ∨
  (cv.padding = .str (py! "CAUSAL") ∧ ∃ s, sd = [s] ∧ s.Causal) ∨
  (cv.padding = .str (py! "VALID") ∧ ∀ s ∈ sd, s.lo = 0 ∧ s.hi = 0) ∨
  (cv.padding = .str (py! "SAME") ∧ ∀ s ∈ sd, s.Same) ∨
  (∃ p, cv.padding = .int p ∧ ∀ s ∈ sd, s.lo = p ∧ s.hi = p) ∨
  ∃ ps, cv.padding = .seq ps ∧ List.Forall₂ PadElem.Pair ps (sd.map fun s => (s.lo, s.hi))

/-- The input position a kernel position meets, for this layer's padding; none where it meets a zero. -/
def Conv.reads (cv : Conv 𝕜) (sd : List SpatialDim) (o k : List Nat) : Option (List Nat) :=
  if cv.padding = .str (py! "CIRCULAR") then some (wrapSources sd o k) else sources sd o k

/-- The position moved by `r`, periodically in every dimension. -/
def cyclicShift : List Nat → List Nat → List Nat → List Nat
  | d :: ds, r :: rs, i :: is => (i + r) % d :: cyclicShift ds rs is
  | _, _, _ => []

end Nnx
