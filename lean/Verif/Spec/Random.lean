import Verif.Spec.Nn
/-
Expected values over finitely many outcomes.
-/
namespace Nnx
variable {𝕜 A κ : Type} [Field 𝕜]

/-- The expected value of `f`, over outcomes listed with their probabilities. -/
def expect (μ : List (𝕜 × A)) (f : A → 𝕜) : 𝕜 := (μ.map fun o => o.1 * f o.2).sum

/-- The probability of an event. -/
def prob (μ : List (𝕜 × A)) (e : A → Bool) : 𝕜 := expect μ fun a => if e a then 1 else 0

/-- Probabilities are not negative, and their sum is 1. -/
def IsDistribution [LinearOrder 𝕜] (μ : List (𝕜 × A)) : Prop := (∀ o ∈ μ, 0 ≤ o.1) ∧ expect μ (fun _ => 1) = 1

/-- In outcome `a`, `random.bernoulli(key, p, shape)` returns `draw a key p shape`. Every element of it is true with probability `p`. (Nothing is said about
dependence between elements or keys.) -/
def BernoulliDraws (μ : List (𝕜 × A)) (p : 𝕜) (draw : A → κ → 𝕜 → List Nat → List Nat → Bool) : Prop :=
  ∀ key shape idx, Within idx shape → prob μ (fun a => draw a key p shape idx) = p

end Nnx
