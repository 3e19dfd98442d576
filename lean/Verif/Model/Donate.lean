import Verif.Model.Transforms
/-
nnx/transforms.py: `nnx.jit(f, donate_argnums=0)`. Argument 0 of the function that is compiled is the Pure of the Module
(nnx/transforms.py:44, 68, 113), so that the buffers of the Module's own arrays are handed over to the compiled program.
An array is modelled as its content together with the number of the buffer that holds it.
-/
namespace Nnx
variable {α β : Type}

mutual
/-- The buffers of the array leaves of a value, in the order of `jax.tree_util.tree_leaves`; `none` if a leaf is not an array, which
`jax.jit` rejects. Not modelled: Pytree objects. -/
def PyVal.buffers : PyVal (α × Nat) → Option (List Nat)
  | .none => some []
  | .data _ a => some [a.2]
  | .tup xs => buffersL xs
  | .cont _ v _ => v.buffers
  | .dict items => buffersM items
  | .str _ => none
  | .cmeta _ _ => none
  | .tree _ _ => none
def buffersL : List (PyVal (α × Nat)) → Option (List Nat)
  | [] => some []
  | x :: xs =>
    match x.buffers, buffersL xs with
    | some a, some b => some (a ++ b)
    | _, _ => none
def buffersM : List (Str × PyVal (α × Nat)) → Option (List Nat)
  | [] => some []
  | (_, x) :: xs =>
    match x.buffers, buffersM xs with
    | some a, some b => some (a ++ b)
    | _, _ => none
end

mutual
/-- A value returned by a compiled program: its arrays have new buffers, numbered from `k` on. Returns the next unused number. `none` if
there is a leaf that is not an array. -/
def PyVal.output : PyVal (α × Nat) → Nat → Option (PyVal (α × Nat) × Nat)
  | .none, k => some (.none, k)
  | .data c a, k => some (.data c (a.1, k), k + 1)
  | .tup xs, k => (outputL xs k).map fun r => (.tup r.1, r.2)
  | .cont c v m, k => (v.output k).map fun r => (.cont c r.1 m, r.2)
  | .dict items, k => (outputM items k).map fun r => (.dict r.1, r.2)
  | .str _, _ => none
  | .cmeta _ _, _ => none
  | .tree _ _, _ => none
def outputL : List (PyVal (α × Nat)) → Nat → Option (List (PyVal (α × Nat)) × Nat)
  | [], k => some ([], k)
  | x :: xs, k =>
    match x.output k with
    | none => none
    | some (y, k) => (outputL xs k).map fun r => (y :: r.1, r.2)
def outputM : List (Str × PyVal (α × Nat)) → Nat → Option (List (Str × PyVal (α × Nat)) × Nat)
  | [], k => some ([], k)
  | (n, x) :: xs, k =>
    match x.output k with
    | none => none
    | some (y, k) => (outputM xs k).map fun r => ((n, y) :: r.1, r.2)
end

/-- The memory of the devices: the buffers that were donated, and the next unused number. -/
structure Memory where
  gone : List Nat
  next : Nat
deriving DecidableEq, Repr

/-- `JitTransform.__call__` with `donate_argnums=0` (nnx/transforms.py:43-73, 113). `j` and `t` as in `jitCall`. What `jax.jit` does with
donated arguments: a donated buffer cannot be used again, an argument whose buffer was donated earlier is rejected, and so is an
argument list that has a buffer twice (a `RuntimeError` or `ValueError` of the runtime, here `.valueError`); the function is traced before
anything is run, so that nothing is donated if it raises; every array returned has a new buffer. Simplifications: the arrays in `out` are
not looked at; the arguments after the Module are not donated; the order of the two failures is not modelled (a rejected argument is
detected before tracing here, and neither changes an existing Module). -/
def jitDonating [DecidableEq α] (fuel : Nat) (stateful : Bool) (j t : Nat) (l : Loc)
    (body : Loc → World (α × Nat) → World (α × Nat) × Except Err β) (mem : Memory) (w : World (α × Nat)) :
    World (α × Nat) × Memory × Except Err β :=
  match partitionModule fuel w.heap l [] with
  | .error e => (w, mem, .error e)
  | .ok (ss, d) =>
    match buffersM (ss.flatMap (·.items)) with
    | none => (w, mem, .error .typeError)
    | some given =>
      if given.Nodup ∧ (∀ b ∈ given, b ∉ mem.gone) then
        match insideTrace j (some t) (mergeAndRun d ss body) w with
        | (w, .error e) => (w, mem, .error e)
        | (w, .ok (l', out)) =>
          if stateful then
            match getState fuel w.heap l' with
            | none => (w, mem, .error .recursionError)
            | some updates =>
              match outputM updates.items mem.next with
              | none => (w, mem, .error .typeError)
              | some (items, next) =>
                match updateState fuel l [⟨items⟩] w with
                | (w, some e) => (w, ⟨given ++ mem.gone, next⟩, .error e)
                | (w, none) => (w, ⟨given ++ mem.gone, next⟩, .ok out)
          else (w, ⟨given ++ mem.gone, mem.next⟩, .ok out)
      else (w, mem, .error .valueError)

end Nnx
