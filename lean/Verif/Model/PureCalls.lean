import Verif.Model.ModuleOps
/-
nnx/module.py:212-228: calling methods of the Module that a `Pure` stands for.
-/
namespace Nnx
namespace Pure'
variable {α β : Type} [DecidableEq α]

/-- `pure.apply.method(*args)` (nnx/module.py:212-217): `moduledef.apply` with the States of the Pure, without any of which an argument is
missing. `body` is the call of the method on the merged Module. -/
def apply (fuel : Nat) (p : Pure' α) (body : Loc → World α → World α × Except Err β) (w : World α) : World α × Except Err (β × Pure' α) :=
  match p.states.toList with
  | [] => (w, .error .typeError)
  | ss =>
    match applyDef fuel p.moduledef ss body w with
    | (w, .error e) => (w, .error e)
    | (w, .ok (out, s, d)) => (w, .ok (out, ⟨.one s, d⟩))

/-- `pure.call.method(*args)` (nnx/module.py:219-228): the method is called on the merged Module, which is then dropped. -/
def call (p : Pure' α) (body : Loc → World α → World α × Except Err β) (w : World α) : World α × Except Err β :=
  match p.merge w with
  | (w, .error e) => (w, .error e)
  | (w, .ok l) => body l w

end Pure'

variable {α : Type}

/-- `m.partition(*filters)` as the object it returns (nnx/module.py:541-557): a Pure with one State if there is at most one filter, else with
a tuple of States. -/
def modulePure (fuel : Nat) (h : Heap α) (l : Loc) (filters : List (Filter α)) : Except Err (Pure' α) :=
  match partitionModule fuel h l filters with
  | .error e => .error e
  | .ok (ss, d) => .ok ⟨Pure'.unpack ss, d⟩

end Nnx
