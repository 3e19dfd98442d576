import Verif.Model.Layers
import Verif.Spec.Context
import Verif.Spec.Nn

/-!
# What constructing layers should do
-/

namespace Nnx
variable {κ η 𝕜 : Type}

/-- The context `c` may be used now, and its stream "params" is the stream `s`, in state `st`. -/
structure ParamsStream (w : RngWorld κ) (c s : Nat) (st : RngStream κ) : Prop where
  ctx : ∃ ctx, usable w c = some ctx ∧ dget ctx.rngs (py! "params") = some s
  stream : w.streams[s]? = some st

/-- The key that the stream returns after `i` more calls. -/
def RngStream.keyNo (P : RngPrims κ η) (st : RngStream κ) (i : Nat) : κ :=
  P.foldIn st.key (P.hash (encodeCounts (st.path ++ [st.count + i])))

/-- The world in which `n` more keys were drawn from the stream `s`, and nothing else happened. -/
def drawn (w : RngWorld κ) (s n : Nat) : RngWorld κ :=
  { w with streams := w.streams.modify s fun st => { st with count := st.count + n } }

/-- The arrays that a constructor must initialise, in order: the initialiser and the shape. -/
def LayerArgs.requests : LayerArgs κ 𝕜 → List (Initializer κ 𝕜 × List Nat)
  | .linear a =>
    (a.kernelInit, [a.inFeatures, a.outFeatures]) :: (if a.useBias then [(a.biasInit, [a.outFeatures])] else [])
  | .conv a =>
    match a.kernelSize with
    | .int _ => []
    | .seq ks =>
      (a.kernelInit, ks ++ [a.inFeatures / a.featureGroupCount, a.outFeatures]) ::
        (if a.useBias then [(a.biasInit, [a.outFeatures])] else [])
  | .embed a => [(a.embeddingInit, [a.numEmbeddings, a.features])]
  | .batchNorm a =>
    (if a.useScale then [(a.scaleInit, [a.numFeatures])] else []) ++
      (if a.useBias then [(a.biasInit, [a.numFeatures])] else [])
  | .layerNorm a =>
    (if a.useScale then [(a.scaleInit, [a.numFeatures])] else []) ++
      (if a.useBias then [(a.biasInit, [a.numFeatures])] else [])

/-- Arguments that no constructor rejects: the kernel size of a `Conv` is a sequence, the number of groups is not 0. -/
def LayerArgs.Acceptable : LayerArgs κ 𝕜 → Prop
  | .conv a => (∃ ks, a.kernelSize = .seq ks) ∧ a.featureGroupCount ≠ 0
  | _ => True

/-- The parameters of a layer that are not `None`. -/
def NnLayer.params : NnLayer 𝕜 → List (Tensor 𝕜)
  | .linear l => l.kernel :: l.bias.toList
  | .conv l => l.kernel :: l.bias.toList
  | .embed l => [l.embedding]
  | .batchNorm l => l.scale.toList ++ l.bias.toList
  | .layerNorm l => l.scale.toList ++ l.bias.toList

/-- The arrays that the initialisers return for these keys. -/
def initialised (reqs : List (Initializer κ 𝕜 × List Nat)) (keys : List κ) : List (Tensor 𝕜) :=
  List.zipWith (fun r k => r.1 k r.2) reqs keys

/-- Layers constructed one after the other, each with its own context. -/
def createAll [Zero 𝕜] [One 𝕜] (P : RngPrims κ η) :
    List (Nat × LayerArgs κ 𝕜) → RngWorld κ → RngWorld κ × Except Err (List (NnLayer 𝕜))
  | [], w => (w, .ok [])
  | (c, a) :: rest, w =>
    match a.create P c w with
    | (w, .error e) => (w, .error e)
    | (w, .ok l) =>
      match createAll P rest w with
      | (w, .error e) => (w, .error e)
      | (w, .ok ls) => (w, .ok (l :: ls))

/-- An initialiser that returns arrays of the shape it is asked for. -/
def Initializer.Sized (init : Initializer κ 𝕜) : Prop := ∀ k shape, (init k shape).shape = shape

end Nnx
