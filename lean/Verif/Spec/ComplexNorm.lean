import Verif.Model.ComplexNorm
import Verif.Spec.Nn

/-! What normalization of complex arrays should do. -/

namespace Nnx

/-- The variance of a complex sample: the mean of the squared distances from its mean. -/
noncomputable def spread (l : List ℂ) : ℝ := avg (l.map fun z => Complex.normSq (z - avg l))

/-- A layer with real parameters, as a layer of complex arrays. -/
noncomputable def LayerNorm.ofReal (ln : LayerNorm ℝ) : LayerNorm ℂ :=
  ⟨ln.scale.map (Tensor.map Complex.ofReal), ln.bias.map (Tensor.map Complex.ofReal), ln.reductionAxes, ln.featureAxes, (ln.epsilon : ℂ)⟩

/-- A layer with real parameters and statistics, as a layer of complex arrays. -/
noncomputable def BatchNorm.ofReal (bn : BatchNorm ℝ) : BatchNorm ℂ :=
  ⟨bn.mean.map Complex.ofReal, bn.var.map Complex.ofReal, bn.scale.map (Tensor.map Complex.ofReal), bn.bias.map (Tensor.map Complex.ofReal),
    bn.useRunningAverage, bn.axis, (bn.momentum : ℂ), (bn.epsilon : ℂ)⟩

/-- The result of a call on real arrays, as complex arrays. -/
noncomputable def resultOfReal : Except Err (Tensor ℝ) → Except Err (Tensor ℂ)
  | .error e => .error e
  | .ok y => .ok (y.map Complex.ofReal)

end Nnx
