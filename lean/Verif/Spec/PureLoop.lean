import Verif.Spec.Nested
import Verif.Model.PureCalls
/-
Programs that hand the whole model from step to step as a value (a `Pure`), as in examples/04_pure.py.
-/
namespace Nnx
variable {α κ L β : Type} [DecidableEq α]

/-- One step inside of `jax.jit` (its trace is `j`), in the world `u`: `model = pure.merge(); b = f(model); return b, model.partition()`. -/
def pureStep (J : Jax α κ L) (j : Nat) (f : Routine α κ L β) (u : World α) (p : Pure' α) : Except Err (β × Pure' α) :=
  (unlimited (fun fuel => insideTrace j none (p.apply fuel fun l w => f.run J [l] w)) u).2

/-- `for f in fs: b, pure = jax.jit(step)(pure)`: the results of the steps and the last Pure. Each step runs in some world. -/
def pureLoop (J : Jax α κ L) (j : Nat) : List (Routine α κ L β × World α) → Pure' α → Except Err (List β × Pure' α)
  | [], p => .ok ([], p)
  | (f, u) :: fs, p =>
    match pureStep J j f u p with
    | .error e => .error e
    | .ok (b, p) =>
      match pureLoop J j fs p with
      | .error e => .error e
      | .ok (bs, p) => .ok (b :: bs, p)

/-- `for f in fs: b = f(model)`: the functions are called on the Module `l` itself, without any transforms. -/
def objectLoop (J : Jax α κ L) (l : Loc) : List (Routine α κ L β) → World α → World α × Except Err (List β)
  | [], w => (w, .ok [])
  | f :: fs, w =>
    match f.plain J [l] w with
    | (w, .error e) => (w, .error e)
    | (w, .ok b) =>
      match objectLoop J l fs w with
      | (w, .error e) => (w, .error e)
      | (w, .ok bs) => (w, .ok (b :: bs))

/-- The functions have good operations, and the transforms *inside* of them can carry back the effects of what they call (`Carried`). What the
functions themselves do to the model is not restricted. -/
def GoodSteps (J : Jax α κ L) (l : Loc) : List (Routine α κ L β) → World α → Prop
  | [], _ => True
  | f :: fs, w => f.Good ∧ f.Carried J [l] w ∧ GoodSteps J l fs (f.plain J [l] w).1

end Nnx
