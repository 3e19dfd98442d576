import Verif.Model.Donate
import Verif.Model.Scan
import Verif.Spec.Programs
/-
Vocabulary for donated arrays.
-/
namespace Nnx
variable {α β : Type}

/-- Attribute `n` of the Module `a` is one of the nodes (arrays or Variables) of the tree below `l`. -/
structure NodeAt (w : World (α × Nat)) (l a : Loc) (n : Str) (v : PyVal (α × Nat)) : Prop where
  below : Reaches w.heap l a
  attr : attrAt w.heap a n = some (.val v)
  node : v.isNode = true

/-- An array of the tree below `l` is in buffer `b`. -/
def Uses (w : World (α × Nat)) (l : Loc) (b : Nat) : Prop :=
  ∃ a n v bs, NodeAt w l a n v ∧ v.buffers = some bs ∧ b ∈ bs

/-- The Module `l` can be given to a function that donates it: its nodes hold arrays, no buffer occurs twice, and none is gone. -/
structure Ready (w : World (α × Nat)) (l : Loc) (mem : Memory) : Prop where
  arrays : ∀ a n v, NodeAt w l a n v → ∃ bs, v.buffers = some bs ∧ bs.Nodup
  once : ∀ a n v bs a' n' v' bs' b, NodeAt w l a n v → NodeAt w l a' n' v' → v.buffers = some bs → v'.buffers = some bs' →
    b ∈ bs → b ∈ bs' → a = a' ∧ n = n'
  alive : ∀ b, Uses w l b → b ∉ mem.gone
  old : ∀ b, Uses w l b → b < mem.next
  goneOld : ∀ b ∈ mem.gone, b < mem.next

/-- Two values are the same but for the buffers their arrays are in. -/
def SameContents (v v' : PyVal (α × Nat)) : Prop :=
  ∃ x, v.mapLeaves (fun a => some (a.1, 0)) = some x ∧ v'.mapLeaves (fun a => some (a.1, 0)) = some x

/-- Two attributes are the same, but for the buffers of nodes. -/
def SameAttr : Option (Attr (α × Nat)) → Option (Attr (α × Nat)) → Prop
  | some (.val v), some (.val v') => v = v' ∨ (v.isNode = true ∧ SameContents v v')
  | x, y => x = y

variable [DecidableEq α]

/-- `nnx.jit(f, donate_argnums=0)(m)` returns `out`, if the recursion limit is large enough. -/
def Donates (j t : Nat) (l : Loc) (f : Prog (α × Nat) β) (mem : Memory) (w : World (α × Nat)) (out : β) (mem' : Memory)
    (w' : World (α × Nat)) : Prop :=
  ∃ limit, ∀ fuel, limit < fuel → jitDonating fuel true j t l f.call mem w = (w', mem', .ok out)

/-- A training loop: one donating call after the other, on the same Module. -/
inductive Trains (j t : Nat) (l : Loc) : List (Prog (α × Nat) β) → Memory → World (α × Nat) → List β → Memory → World (α × Nat) → Prop
  | nil {mem w} : Trains j t l [] mem w [] mem w
  | cons {f fs mem w out mem' w' outs mem'' w''} : Donates j t l f mem w out mem' w' → Trains j t l fs mem' w' outs mem'' w'' →
      Trains j t l (f :: fs) mem w (out :: outs) mem'' w''

/-- Each function of a training loop would return if it were called directly at its turn, with node writes as its net effect and arrays in
the nodes. -/
inductive FineSteps (j t : Nat) (l : Loc) : List (Prog (α × Nat) β) → Memory → World (α × Nat) → Prop
  | nil {mem w} : FineSteps j t l [] mem w
  | cons {f fs mem w out wd} : f.Good → f.call l w = (wd, .ok out) → NodeWrites w wd l →
      (∀ a n v, NodeAt wd l a n v → ∃ bs, v.buffers = some bs) →
      (∀ out mem' w', Donates j t l f mem w out mem' w' → FineSteps j t l fs mem' w') → FineSteps j t l (f :: fs) mem w

end Nnx
