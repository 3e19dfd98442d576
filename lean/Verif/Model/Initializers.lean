import Verif.Model.Layers
/-
nnx/nn/initializers.py: the initialisers that the layers use by default for biases and scales.
-/
namespace Nnx
variable {κ 𝕜 : Type}

/-- `initializers.zeros()` (nnx/nn/initializers.py:37-47), the default `bias_init` of all layers (nnx/nn/linear.py:86, 189; nnx/nn/normalization.py:190, 319). -/
def Initializer.zeros [Zero 𝕜] : Initializer κ 𝕜 := fun _ shape => ⟨shape, fun _ => 0⟩

/-- `initializers.ones()` (nnx/nn/initializers.py:50-61), the default `scale_init` (nnx/nn/normalization.py:191, 320). -/
def Initializer.ones [One 𝕜] : Initializer κ 𝕜 := fun _ shape => ⟨shape, fun _ => 1⟩

end Nnx
