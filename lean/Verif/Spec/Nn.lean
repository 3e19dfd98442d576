import Verif.Model.Tensor

/-!
# What the layers of `nnx.nn` compute, in elementary terms
-/

namespace Nnx

/-- `idx` is a position of an array of this shape. -/
def Within (idx shape : List Nat) : Prop := List.Forall₂ (fun i d => i < d) idx shape

/-- The positions of an array that agree with `idx` on every axis satisfying `kept`. -/
def cell (shape : List Nat) (kept : Nat → Prop) [DecidablePred kept] (idx : List Nat) : List (List Nat) :=
  (indices shape).filter fun j => decide (∀ a, a < shape.length → kept a → j[a]? = idx[a]?)

/-- The axes are in range (negative ones counting from the end) and no axis is listed twice. -/
def ValidAxes (rank : Nat) (axes : List Int) : Prop :=
  (∀ a ∈ axes, -(rank : Int) ≤ a ∧ a < rank) ∧ (axes.map fun a : Int => if a < 0 then rank + a else a).Nodup

/-- The one listed axis is axis `a` of arrays of this rank, counted from the start or from the end. -/
def NamesAxis (axes : List Int) (rank a : Nat) : Prop :=
  a < rank ∧ (axes = [(a : Int)] ∨ axes = [(a : Int) - rank])

/-- The entries of an array whose coordinate on axis `a` is `f`. -/
def channel {V : Type} (x : Tensor V) (a f : Nat) : List V :=
  ((indices x.shape).filter fun j => decide (j[a]? = some f)).map x.val

variable {𝕜 : Type} [Field 𝕜]

/-- An optional parameter vector read at a feature. -/
def vecAt (p : Option (Tensor 𝕜)) (f : Nat) (dflt : 𝕜) : 𝕜 :=
  match p with
  | none => dflt
  | some p => p.val [f]

/-- The arithmetic mean of a sample. -/
def avg (l : List 𝕜) : 𝕜 := l.sum / (l.length : 𝕜)

/-- The variance of a sample: the mean squared deviation from its mean. -/
def variance (l : List 𝕜) : 𝕜 := avg (l.map fun v => (v - avg l) * (v - avg l))

/-- The exponential moving average of the samples, started at `m0`:
`m^n * m0 + (1 - m) * Σ_{i < n} m^(n-1-i) * sample_i`. -/
def movingAverage (m m0 : 𝕜) (samples : List 𝕜) : 𝕜 :=
  m ^ samples.length * m0 +
    (1 - m) * (samples.mapIdx fun i v => m ^ (samples.length - 1 - i) * v).sum

end Nnx
