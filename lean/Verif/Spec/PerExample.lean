import Verif.Spec.Conv
import Verif.Model.Normalization
/-
Evaluating a chain of layers on a batch.
-/
namespace Nnx
variable {𝕜 κ η : Type} [Field 𝕜] [LinearOrder 𝕜]

/-- A layer with the arguments it is called with besides its input: `use_running_average` and the flag of the context for
a `BatchNorm`, `deterministic` and the context for a `Dropout`. -/
inductive EvalLayer (𝕜 : Type) where
  | linear (l : Linear 𝕜)
  | conv (cv : Conv 𝕜)
  | layerNorm (ln : LayerNorm 𝕜)
  | batchNorm (bn : BatchNorm 𝕜) (arg flag : Option Bool)
  | dropout (d : Dropout 𝕜) (arg : Option Bool) (ctx : Option Nat)
  /-- an activation function -/
  | pointwise (f : 𝕜 → 𝕜)

/-- What the layer returns. -/
def EvalLayer.call (rsqrt : 𝕜 → 𝕜) (P : RngPrims κ η) (bernoulli : κ → 𝕜 → List Nat → List Nat → Bool) (w : RngWorld κ) :
    EvalLayer 𝕜 → Tensor 𝕜 → Except Err (Tensor 𝕜)
  | .linear l, x => l.call x
  | .conv cv, x => cv.call x
  | .layerNorm ln, x => ln.call rsqrt x
  | .batchNorm bn arg flag, x => (bn.call rsqrt x arg flag).2
  | .dropout d arg ctx, x => (d.call P bernoulli x arg ctx w).2
  | .pointwise f, x => .ok (x.map f)

/-- The layers one after the other. -/
def evalChain (rsqrt : 𝕜 → 𝕜) (P : RngPrims κ η) (bernoulli : κ → 𝕜 → List Nat → List Nat → Bool) (w : RngWorld κ) :
    List (EvalLayer 𝕜) → Tensor 𝕜 → Except Err (Tensor 𝕜)
  | [], x => .ok x
  | l :: ls, x =>
    match l.call rsqrt P bernoulli w x with
    | .error e => .error e
    | .ok y => evalChain rsqrt P bernoulli w ls y

/-- The layer is used for evaluation, on batches of examples of shape `s`, and makes examples of shape `t` of them. The
first axis is the axis of the batch: normalization is over other axes, or with the running averages. -/
def EvalLayer.Evaluates (w : RngWorld κ) (s t : List Nat) : EvalLayer 𝕜 → Prop
  | .linear l => ∃ B m n, s = B ++ [m] ∧ t = B ++ [n] ∧ l.kernel.shape = [m, n] ∧ ∀ b, l.bias = some b → b.shape = [n]
  | .conv cv => ∃ sd B inF outF, cv.Fits sd inF outF ∧ cv.PaddedAs sd ∧
      s = B ++ (sd.map SpatialDim.inLen ++ [inF * cv.featureGroupCount]) ∧ t = B ++ (sd.map SpatialDim.outLen ++ [outF])
  | .layerNorm ln => t = s ∧ ValidAxes (s.length + 1) ln.reductionAxes ∧ 0 ∉ ln.reductionAxes ∧
      -((s.length : Int) + 1) ∉ ln.reductionAxes ∧
      ∃ a n, NamesAxis ln.featureAxes (s.length + 1) (a + 1) ∧ s[a]? = some n ∧
        (∀ q, ln.scale = some q → q.shape = [n]) ∧ (∀ q, ln.bias = some q → q.shape = [n])
  | .batchNorm bn arg flag => t = s ∧ firstFrom [arg, bn.useRunningAverage, flag] = .ok true ∧
      ∃ a n, NamesAxis bn.axis (s.length + 1) (a + 1) ∧ s[a]? = some n ∧ bn.mean.shape = [n] ∧ bn.var.shape = [n] ∧
        (∀ q, bn.scale = some q → q.shape = [n]) ∧ (∀ q, bn.bias = some q → q.shape = [n])
  | .dropout d arg ctx => t = s ∧
      ∃ det, firstFrom [arg, d.deterministic, ctxFlag w ctx (py! "deterministic")] = .ok det ∧ (det = true ∨ d.rate = 0)
  | .pointwise _ => t = s

/-- Every layer of the chain is used for evaluation, on what the one before gives. -/
inductive ChainEvaluates (w : RngWorld κ) : List (EvalLayer 𝕜) → List Nat → List Nat → Prop
  | nil {s} : ChainEvaluates w [] s s
  | cons {l ls s t u} : l.Evaluates w s t → ChainEvaluates w ls t u → ChainEvaluates w (l :: ls) s u

omit [Field 𝕜] [LinearOrder 𝕜] in
/-- `x[sel]`: the batch of these examples of `x`, in this order. -/
def Tensor.rows (x : Tensor 𝕜) (sel : List Nat) : Tensor 𝕜 :=
  ⟨sel.length :: x.shape.tail, fun idx => x.val (sel.getD (idx.headD 0) 0 :: idx.tail)⟩

end Nnx
