import Verif.Spec.Scan
import Verif.Model.ScanArgs
/-
The argument and the output of a scan: trees of arrays, with trees of axes.
-/
namespace Nnx
variable {α κ C : Type}

/-- The tree `axes` is a prefix of the values `us` and of `v`: these have its structure (None, tuples, dicts with the same keys), with trees in
place of the axes; and where it has axis `a`, `P a` holds of these trees. -/
inductive UpTo (P : Int → List (PyVal α) → PyVal α → Prop) : SpecTree Int → List (PyVal α) → PyVal α → Prop
  | none (n : Nat) : UpTo P .none (List.replicate n .none) .none
  | axis {a : Int} {us : List (PyVal α)} {v : PyVal α} : P a us v → UpTo P (.leaf a) us v
  | tupNil (n : Nat) : UpTo P (.tup []) (List.replicate n (.tup [])) (.tup [])
  | tupCons {t : SpecTree Int} {ts : List (SpecTree Int)} {us : List (PyVal α × List (PyVal α))} {v : PyVal α} {vs : List (PyVal α)} :
      UpTo P t (us.map (·.1)) v → UpTo P (.tup ts) (us.map (.tup ·.2)) (.tup vs) →
      UpTo P (.tup (t :: ts)) (us.map fun u => .tup (u.1 :: u.2)) (.tup (v :: vs))
  | dictNil (n : Nat) : UpTo P (.dict []) (List.replicate n (.dict [])) (.dict [])
  | dictCons {name : Str} {t : SpecTree Int} {ts : List (Str × SpecTree Int)} {us : List (PyVal α × List (Str × PyVal α))} {v : PyVal α}
      {vs : List (Str × PyVal α)} :
      UpTo P t (us.map (·.1)) v → UpTo P (.dict ts) (us.map (.dict ·.2)) (.dict vs) →
      UpTo P (.dict ((name, t) :: ts)) (us.map fun u => .dict ((name, u.1) :: u.2)) (.dict ((name, v) :: vs))

/-- `y` is slice `i` of the argument `x`: of each array along the axis that `in_axes` has for it. -/
def ArgSlice (R : Arrays α) (inAxes : SpecTree Int) (i : Nat) (x y : PyVal α) : Prop :=
  UpTo (fun a us v => ∃ u, us = [u] ∧ SliceVal R a i u v) inAxes [x] y

/-- `v` has the values `us` stacked: each array along the axis that `out_axes` has for it. -/
def OutStacked (R : Arrays α) (outAxes : SpecTree Int) (us : List (PyVal α)) (v : PyVal α) : Prop :=
  UpTo (StackedVal R) outAxes us v

/-- `in_axes` fits the argument, and all arrays in it have length `n` along their axis. -/
def ArgLength (R : Arrays α) (inAxes : SpecTree Int) (x : PyVal α) (n : Nat) : Prop :=
  UpTo (fun a us v => us = [v] ∧ AllArrays (fun y => R.size a y = some n) v) inAxes [x] x

/-- What `jnp.moveaxis` does, in terms of slices: moving an axis to the front keeps the slices along it, and moving the front axis of a stack
gives the stack along the other axis. -/
structure MoveLaws (R : Arrays α) (move : Int → Int → α → Option α) : Prop where
  front : ∀ a x y, move a 0 x = some y → R.size 0 y = R.size a x ∧ (R.size a x).isSome ∧ ∀ i, R.index 0 i y = R.index a i x
  there : ∀ a x, (R.size a x).isSome → (move a 0 x).isSome
  slices : ∀ a x n i, R.size a x = some n → i < n → (R.index a i x).isSome
  stack : ∀ a xs v, R.stack a xs = some v ↔ ∃ s, R.stack 0 xs = some s ∧ move 0 a s = some v

variable [DecidableEq α]

omit [DecidableEq α] in
/-- `n` is the length of the call: of all arrays in the entries of `variable_axes` along their axis, of all arrays of the argument along
theirs, and of `length`, if given; and one of them is given. -/
structure CallLength (R : Arrays α) (o : ScanOptions α) (inAxes : SpecTree Int) (s : State (PyVal α)) (arg : PyVal α) (n : Nat) : Prop where
  leaves : ∀ k x (g : Nat) f a, s.get k = some x → o.variableAxes[g]? = some (f, a) → FirstMatch o.filters k x g →
    AllArrays (fun y => R.size a y = some n) x
  args : ArgLength R inAxes arg n
  option : ∀ m, o.length = some m → m = n
  known : o.length = some n ∨ ¬ AllArrays (fun _ => False) arg ∨ ∃ k x g f a, s.get k = some x ∧ o.variableAxes[(g : Nat)]? = some (f, a) ∧
    FirstMatch o.filters k x g ∧ ¬ AllArrays (fun _ => False) x

omit [DecidableEq α] in
/-- The inputs of the loop for slices 0, ..., n-1: what to update the module with, the context and the slice of the argument. -/
def CallInputs (R : Arrays α) (o : ScanOptions α) (inAxes : SpecTree Int) (s : State (PyVal α)) (arg : PyVal α)
    (ctxs : Nat → Option (PureContext κ)) (n : Nat) (ins : List (State (PyVal α) × (Option (PureContext κ) × PyVal α))) : Prop :=
  ins.length = n ∧ ∀ (i : Nat) inp ctx x, ins[i]? = some (inp, (ctx, x)) → IsSlice R o s i inp ∧ ctx = ctxs i ∧ ArgSlice R inAxes i arg x

end Nnx
