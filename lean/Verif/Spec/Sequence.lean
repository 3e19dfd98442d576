import Verif.Spec.PerExample
/-
Chains of layers on sequences: arrays of shape `B ++ [time, features]`.
-/
namespace Nnx
variable {𝕜 κ η : Type} [Field 𝕜] [LinearOrder 𝕜]

/-- The layer is used for evaluation on arrays of this rank, whose last axis is the axis of the features and whose axis
before it is the time; it makes `n` features of `m` features, for sequences of any length. A convolution is causal, has
stride 1 and sees `r` times before the present one; every other layer treats the times separately. -/
def EvalLayer.OnSequences (w : RngWorld κ) (rank m n r : Nat) : EvalLayer 𝕜 → Prop
  | .linear l => r = 0 ∧ l.kernel.shape = [m, n] ∧ ∀ b, l.bias = some b → b.shape = [n]
  | .conv cv => ∃ s inF, cv.padding = .str (py! "CAUSAL") ∧ s.Causal ∧ s.stride = 1 ∧ 0 < s.kLen ∧ cv.Fits [s] inF n ∧
      m = inF * cv.featureGroupCount ∧ r = s.kDil * (s.kLen - 1)
  | .layerNorm ln => n = m ∧ r = 0 ∧ NamesAxis ln.reductionAxes rank (rank - 1) ∧ NamesAxis ln.featureAxes rank (rank - 1) ∧
      (∀ q, ln.scale = some q → q.shape = [m]) ∧ (∀ q, ln.bias = some q → q.shape = [m])
  | .batchNorm bn arg flag => n = m ∧ r = 0 ∧ firstFrom [arg, bn.useRunningAverage, flag] = .ok true ∧
      NamesAxis bn.axis rank (rank - 1) ∧ bn.mean.shape = [m] ∧ bn.var.shape = [m] ∧
      (∀ q, bn.scale = some q → q.shape = [m]) ∧ (∀ q, bn.bias = some q → q.shape = [m])
  | .dropout d arg ctx => n = m ∧ r = 0 ∧
      ∃ det, firstFrom [arg, d.deterministic, ctxFlag w ctx (py! "deterministic")] = .ok det ∧ (det = true ∨ d.rate = 0)
  | .pointwise _ => n = m ∧ r = 0

/-- Every layer of the chain is used like that; what the convolutions look back adds up. -/
inductive ChainOnSequences (w : RngWorld κ) (rank : Nat) : List (EvalLayer 𝕜) → Nat → Nat → Nat → Prop
  | nil {m} : ChainOnSequences w rank [] m m 0
  | cons {l ls m n k r q} : l.OnSequences w rank m n r → ChainOnSequences w rank ls n k q →
      ChainOnSequences w rank (l :: ls) m k (r + q)

omit [Field 𝕜] [LinearOrder 𝕜] in
/-- `x[..., d:d+L, :]`: the `L` times from time `d` on. -/
def Tensor.times (x : Tensor 𝕜) (d L : Nat) : Tensor 𝕜 :=
  ⟨x.shape.take (x.shape.length - 2) ++ [L, x.shape.getLastD 0],
    fun idx => x.val (idx.take (idx.length - 2) ++ [idx.getD (idx.length - 2) 0 + d, idx.getLastD 0])⟩

end Nnx
