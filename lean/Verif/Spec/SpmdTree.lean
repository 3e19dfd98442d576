import Verif.Spec.Tree
import Verif.Spec.Spmd
/-
Trees in which Nodes are taken as a whole: which they are, and what it means that only they and the leaves were replaced.
-/
namespace Nnx
variable {α : Type}

/-- `isinstance(x, Node)` -/
def NodeObj (x : PyVal α) : Prop := ∃ c v m, x = .cont c v m ∧ c.isSub cNode = true

/-- `x`, at the path `p` of `v`, is a Node that is not inside another Node, or a leaf that is not inside a Node. -/
def OuterAt (v : PyVal α) (p : List TreeKey) (x : PyVal α) : Prop :=
  Sub v p x ∧ (NodeObj x ∨ TreeLeaf x) ∧ ∀ q r z, p = q ++ r → r ≠ [] → Sub v q z → ¬ NodeObj z

/-- `w` is `v` with each outermost Node, and each leaf outside of Nodes, `x` replaced by some `y` with `R x y`, and nothing else changed. -/
inductive NodesMapped (R : PyVal α → PyVal α → Prop) : PyVal α → PyVal α → Prop
  | node {x y : PyVal α} (h : NodeObj x) (r : R x y) : NodesMapped R x y
  | leaf {x y : PyVal α} (h : TreeLeaf x) (r : R x y) : NodesMapped R x y
  | none : NodesMapped R .none .none
  | tup {xs ys : List (PyVal α)} (len : ys.length = xs.length)
      (items : ∀ (i : Nat) x y, xs[i]? = some x → ys[i]? = some y → NodesMapped R x y) : NodesMapped R (.tup xs) (.tup ys)
  | dict {m n : Md α} (nodup : DNodup n) (dom : ∀ k, k ∈ dkeys n ↔ k ∈ dkeys m)
      (entries : ∀ k x y, dget m k = some x → dget n k = some y → NodesMapped R x y) : NodesMapped R (.dict m) (.dict n)
  | cont {c : Cls} {v w : PyVal α} {m : Md α} (node : c.isSub cNodeBase = true) (other : c.isSub cNode = false) (h : NodesMapped R v w) :
      NodesMapped R (.cont c v m) (.cont c w m)
  | static {v : PyVal α} {m : Md α} : NodesMapped R (.cont cStatic v m) (.cont cStatic v m)
  | tree {c : Cls} {m n : Md α} (nodup : DNodup n) (dom : ∀ k, k ∈ dkeys n ↔ k ∈ dkeys m)
      (nodes : ∀ k x y, dget m k = some x → x.isNode = true → dget n k = some y → NodesMapped R x y)
      (others : ∀ k x, dget m k = some x → x.isNode = false → dget n k = some x) : NodesMapped R (.tree c m) (.tree c n)

/-- `x` is a Node with the sharding `xs`. -/
def HasShard (x : PyVal α) (xs : List (PyVal α)) : Prop :=
  ∃ c v m, x = .cont c v m ∧ c.isSub cNode = true ∧ dget m (py! "sharding") = some (.tup xs)

/-- `y` is `x` with `name` inserted at position `i` of its sharding; `x` itself if it is no Node with a sharding. -/
def ShardAdded (i : Nat) (name : PyVal α) (x y : PyVal α) : Prop :=
  (∀ xs, HasShard x xs → y = withSharding x (grow i name xs)) ∧ ((∀ xs, ¬ HasShard x xs) → y = x)

/-- `y` is `x` without entry `i` of its sharding, which was `name`; `x` itself if it is no Node with a sharding. -/
def ShardRemoved (i : Nat) (name : PyVal α) (x y : PyVal α) : Prop :=
  (∀ xs, HasShard x xs → xs[i]? = some name ∧ y = withSharding x (xs.eraseIdx i)) ∧ ((∀ xs, ¬ HasShard x xs) → y = x)

/-- `y` is the PartitionSpec (made by `mk`) for `x`: for a Node with a sharding that is not empty, that sharding; for another Node whose value has
a shape, and for another value with a shape, the empty one; otherwise None. -/
def SpecFor (hasShape : PyVal α → Bool) (mk : List (PyVal α) → PyVal α) (x y : PyVal α) : Prop :=
  (∀ xs, HasShard x xs → xs ≠ [] → y = mk xs) ∧
  (∀ c v m, x = .cont c v m → c.isSub cNode = true → (∀ xs, HasShard x xs → xs = []) → y = if hasShape v then mk [] else .none) ∧
  (¬ NodeObj x → y = if hasShape x then mk [] else .none)

/-- The classes of all containers in the tree, down to the outermost Nodes, are as Python's classes: a Node is a container that jax looks into. -/
def NodeClasses (v : PyVal α) : Prop := ∀ p c w m, Sub v p (.cont c w m) → c.isSub cNode = true → c.isSub cNodeBase = true

end Nnx
