import Verif.Spec.Programs
import Verif.Spec.History
import Verif.Model.JitInterrupt
/-
C138: programs that are interrupted.
-/
namespace Nnx
variable {α β : Type}

/-- The program in which `kbd` is raised after `n` steps, unless it has ended before. -/
def Prog.upTo (kbd : Err) : Prog α β → Nat → Prog α β
  | _, 0 => .fail kbd
  | .ret b, _ + 1 => .ret b
  | .fail e, _ + 1 => .fail e
  | .get m a k, n + 1 => .get m a fun x => (k x).upTo kbd n
  | .same m m' k, n + 1 => .same m m' fun x => (k x).upTo kbd n
  | .set m a v k, n + 1 => .set m a v fun x => (k x).upTo kbd n
  | .link m a m' k, n + 1 => .link m a m' fun x => (k x).upTo kbd n
  | .del m a k, n + 1 => .del m a fun x => (k x).upTo kbd n
  | .new c k, n + 1 => .new c (k.upTo kbd n)
  | .state m k, n + 1 => .state m fun x => (k x).upTo kbd n

/-- `x n`, the world after `n` assignments, lies between `w` and `wd` on the Modules of `w`: every attribute is as in one of them, and nothing else of these Modules, nor the traces, is
different from `w`. At first they are as in `w`; from some number of assignments on, they are as in `wd`. In between the Module `l` can be used as
before: the world is well formed, the difference is node writes, and what can be reached may be modified. -/
structure Between (l : Loc) (w wd : World α) (x : Nat → World α) : Prop where
  attr : ∀ (n : Nat) (a : Loc) (k : Str), a < w.heap.length → attrAt (x n).heap a k = attrAt w.heap a k ∨ attrAt (x n).heap a k = attrAt wd.heap a k
  info : ∀ (n : Nat) (a : Loc), a < w.heap.length →
    ((x n).heap[a]?).map (fun o => (o.cls, o.uid, o.isInit, o.trace)) = (w.heap[a]?).map (fun o => (o.cls, o.uid, o.isInit, o.trace))
  len : ∀ n, w.heap.length ≤ (x n).heap.length
  traces : ∀ n, (x n).jaxTrace = w.jaxTrace ∧ (x n).nnxStack = w.nnxStack
  start : ∀ a : Loc, a < w.heap.length → (x 0).heap[a]? = w.heap[a]?
  wf : ∀ n, WFWorld (x n)
  writes : ∀ n, NodeWrites w (x n) l
  valid : ∀ n, AllValid (x n) l
  done : ∃ N, ∀ n, N ≤ n → AgreeOn w.heap.length wd (x n)

/-- The worlds that any number of jitted calls on the Module `l` can lead to: calls that return, that raise, and that are interrupted. The functions and everything else may be
different from call to call; what a direct call would do to the Module, if it returns, is node writes. -/
inductive JitHistory [DecidableEq α] (l : Loc) (w : World α) : World α → Prop
  | start : JitHistory l w w
  | called {x y : World α} {β : Type} {f : Prog α β} {fuel j t : Nat} {r : Except Err β} : JitHistory l w x → f.Good →
      (∀ xd out, f.call l x = (xd, .ok out) → NodeWrites x xd l) → jitCall fuel true j t l f.call x = (y, r) → JitHistory l w y
  | interrupted {x y : World α} {β : Type} {f : Prog α β} {kbd : Err} {n fuel j t : Nat} {r : Except Err β} : JitHistory l w x → f.Good →
      (∀ xd out, f.call l x = (xd, .ok out) → NodeWrites x xd l) → jitInterrupted kbd n fuel j t l f.call x = (y, r) → JitHistory l w y

/-- The graph of the Module `l` is the same, up to node writes: in `y` the Modules of `w` are the same objects, linked in the same way, those outside of the graph are unchanged, and
`l` can be used as before. -/
structure SameUpToNodes (l : Loc) (w y : World α) : Prop where
  wf : WFWorld y
  len : w.heap.length ≤ y.heap.length
  info : ∀ a : Loc, a < w.heap.length → (y.heap[a]?).map (fun o => (o.cls, o.uid, o.isInit, o.trace)) = (w.heap[a]?).map (fun o => (o.cls, o.uid, o.isInit, o.trace))
  writes : NodeWrites w y l
  outside : ∀ (a : Loc) (k : Str), a < w.heap.length → ¬ Reaches w.heap l a → attrAt y.heap a k = attrAt w.heap a k
  walks : ∀ p b, Walk y.heap l p b ↔ Walk w.heap l p b
  valid : AllValid y l
  traces : y.jaxTrace = w.jaxTrace ∧ y.nnxStack = w.nnxStack

end Nnx
