import Verif.Model.CrossDevice
import Verif.Spec.Nn

/-!
# Statistics across devices
-/

namespace Nnx
variable {𝕜 : Type}

/-- `g` are the devices, of `n`, whose statistics device `d` takes part in: all without `axis_index_groups`, else the
one group that has `d`. -/
def Involves (groups : Option (List (List Nat))) (n d : Nat) (g : List Nat) : Prop :=
  match groups with
  | none => g = List.range n
  | some gs => g ∈ gs ∧ d ∈ g ∧ (∀ g' ∈ gs, d ∈ g' → g' = g) ∧ ∀ e ∈ g, e < n

/-- The entries that the devices of a group have together: `sample x` are those that a device with input `x` has. -/
def together (xs : List (Tensor 𝕜)) (g : List Nat) (sample : Tensor 𝕜 → List 𝕜) : List 𝕜 :=
  (g.filterMap fun e => xs[e]?).flatMap sample

/-- The inputs of all devices as one array, with the device as first coordinate. -/
def wholeBatch [Zero 𝕜] (xs : List (Tensor 𝕜)) (shape : List Nat) : Tensor 𝕜 :=
  ⟨xs.length :: shape, fun idx =>
    match idx with
    | [] => 0
    | d :: r =>
      match xs[d]? with
      | none => 0
      | some x => x.val r⟩

end Nnx
