import Verif.Model.Tree
import Verif.Spec.Containers
import Verif.Spec.Pytree
/-
Trees of values: what is at a path, which values are leaves, and what it means that a tree is another one with its leaves replaced.
-/
namespace Nnx
variable {α : Type}

/-- jax does not look inside these: strings, arrays, numbers and other objects, `ContainerMetadata`, and containers that are neither
nodes nor `Static`. -/
def TreeLeaf : PyVal α → Prop
  | .str _ => True
  | .data _ _ => True
  | .cmeta _ _ => True
  | .cont c _ _ => c.isSub cNodeBase = false ∧ c ≠ cStatic
  | _ => False

/-- The value at a path: items of tuples, entries of dicts, the value of a container that is a node, the fields of a Pytree that are nodes. -/
inductive Sub : PyVal α → List TreeKey → PyVal α → Prop
  | here (v : PyVal α) : Sub v [] v
  | item {xs : List (PyVal α)} {i : Nat} {x y : PyVal α} {p : List TreeKey} (h : xs[i]? = some x) (s : Sub x p y) : Sub (.tup xs) (.item i :: p) y
  | key {items : List (Str × PyVal α)} {k : Str} {x y : PyVal α} {p : List TreeKey} (h : dget items k = some x) (s : Sub x p y) :
      Sub (.dict items) (.key k :: p) y
  | value {c : Cls} {v y : PyVal α} {m : Md α} {p : List TreeKey} (node : c.isSub cNodeBase = true) (s : Sub v p y) :
      Sub (.cont c v m) (.attr (py! "value") :: p) y
  | field {c : Cls} {vars : Md α} {f : Str} {x y : PyVal α} {p : List TreeKey} (h : dget vars f = some x) (node : x.isNode = true)
      (s : Sub x p y) : Sub (.tree c vars) (.attr f :: p) y

/-- `w` is `v` with each leaf `x`, at a path `p`, replaced by some `y` with `R p x y`, and nothing else changed: tuples have the same
length, dicts the same keys, containers the same class and metadata, `Static` containers are the same; Pytrees have the same class and the same
fields, and those that are not nodes hold the same values. -/
inductive Mapped : (List TreeKey → PyVal α → PyVal α → Prop) → PyVal α → PyVal α → Prop
  | leaf {R : List TreeKey → PyVal α → PyVal α → Prop} {x y : PyVal α} (h : TreeLeaf x) (r : R [] x y) : Mapped R x y
  | none {R : List TreeKey → PyVal α → PyVal α → Prop} : Mapped R .none .none
  | tup {R : List TreeKey → PyVal α → PyVal α → Prop} {xs ys : List (PyVal α)} (len : ys.length = xs.length)
      (items : ∀ i x y, xs[i]? = some x → ys[i]? = some y → Mapped (fun p => R (.item i :: p)) x y) : Mapped R (.tup xs) (.tup ys)
  | dict {R : List TreeKey → PyVal α → PyVal α → Prop} {m n : Md α} (nodup : DNodup n) (dom : ∀ k, k ∈ dkeys n ↔ k ∈ dkeys m)
      (entries : ∀ k x y, dget m k = some x → dget n k = some y → Mapped (fun p => R (.key k :: p)) x y) : Mapped R (.dict m) (.dict n)
  | cont {R : List TreeKey → PyVal α → PyVal α → Prop} {c : Cls} {v w : PyVal α} {m : Md α} (node : c.isSub cNodeBase = true)
      (h : Mapped (fun p => R (.attr (py! "value") :: p)) v w) : Mapped R (.cont c v m) (.cont c w m)
  | static {R : List TreeKey → PyVal α → PyVal α → Prop} {v : PyVal α} {m : Md α} : Mapped R (.cont cStatic v m) (.cont cStatic v m)
  | tree {R : List TreeKey → PyVal α → PyVal α → Prop} {c : Cls} {m n : Md α} (nodup : DNodup n) (dom : ∀ k, k ∈ dkeys n ↔ k ∈ dkeys m)
      (nodes : ∀ k x y, dget m k = some x → x.isNode = true → dget n k = some y → Mapped (fun p => R (.attr k :: p)) x y)
      (others : ∀ k x, dget m k = some x → x.isNode = false → dget n k = some x) : Mapped R (.tree c m) (.tree c n)

/-- The same value, up to the order of entries in dicts and in the `vars` of Pytrees. -/
def SameValue (v w : PyVal α) : Prop := Mapped (fun _ x y => y = x) v w

/-- Trees as the library makes them: containers around values that are not containers, Pytree objects after construction, dicts with
distinct keys; all the way down. -/
inductive GoodTree : PyVal α → Prop
  | leaf {v : PyVal α} (h : TreeLeaf v) : GoodTree v
  | none : GoodTree .none
  | tup {xs : List (PyVal α)} (h : ∀ x ∈ xs, GoodTree x) : GoodTree (.tup xs)
  | dict {m : Md α} (nodup : DNodup m) (h : ∀ k x, dget m k = some x → GoodTree x) : GoodTree (.dict m)
  | cont {c : Cls} {v : PyVal α} {m : Md α} (wf : WFContainer (.cont c v m)) (h : GoodTree v) : GoodTree (.cont c v m)
  | tree {c : Cls} {m : Md α} (wf : WFPytree m) (h : ∀ k x, dget m k = some x → x.isNode = true → GoodTree x) : GoodTree (.tree c m)

/-- `r` has the structure of `v` above the leaves of `v`, as `jax.tree_map(f, v, r)` requires: where `v` has a leaf, `r` may have anything;
elsewhere they have nodes of the same type, with the same number of items, the same keys, the same metadata, the same field names with the same static
values. -/
inductive Fits : PyVal α → PyVal α → Prop
  | leaf {v r : PyVal α} (h : TreeLeaf v) : Fits v r
  | none : Fits .none .none
  | tup {xs ys : List (PyVal α)} (len : ys.length = xs.length) (items : ∀ (i : Nat) x y, xs[i]? = some x → ys[i]? = some y → Fits x y) :
      Fits (.tup xs) (.tup ys)
  | dict {m n : Md α} (dom : ∀ k, k ∈ dkeys n ↔ k ∈ dkeys m) (entries : ∀ k x y, dget m k = some x → dget n k = some y → Fits x y) :
      Fits (.dict m) (.dict n)
  | cont {c : Cls} {v w : PyVal α} {m n : Md α} (node : c.isSub cNodeBase = true) (same : MdSame m n) (h : Fits v w) :
      Fits (.cont c v m) (.cont c w n)
  | static {v : PyVal α} {m n : Md α} : Fits (.cont cStatic v m) (.cont cStatic v n)
  | tree {c : Cls} {m n : Md α} (dom : ∀ k, k ∈ dkeys n ↔ k ∈ dkeys m)
      (nodes : ∀ k x y, dget m k = some x → dget n k = some y → y.isNode = x.isNode)
      (entries : ∀ k x y, dget m k = some x → x.isNode = true → dget n k = some y → Fits x y)
      (others : ∀ k x, dget m k = some x → x.isNode = false → dget n k = some x) : Fits (.tree c m) (.tree c n)

/-- `zs` are the subtrees of the trees `rest` at one path. -/
def Others (rest : List (PyVal α)) (p : List TreeKey) (zs : List (PyVal α)) : Prop :=
  zs.length = rest.length ∧ ∀ (j : Nat) r z, rest[j]? = some r → zs[j]? = some z → Sub r p z

/-- `y` is what `f` returns for the leaf `x` at the path `p` and the subtrees of `rest` at the same path. -/
def LeafApplied (f : List (PyVal α) → Except Err (PyVal α)) (rest : List (PyVal α)) (p : List TreeKey) (x y : PyVal α) : Prop :=
  ∃ zs, Others rest p zs ∧ f (x :: zs) = .ok y

/-- `zs` are the values of the States `rest` under one path, and there the subtrees at `p`. -/
def StateOthers (rest : List (State (PyVal α))) (k : Str) (p : List TreeKey) (zs : List (PyVal α)) : Prop :=
  zs.length = rest.length ∧ ∀ (j : Nat) r z, rest[j]? = some r → zs[j]? = some z → ∃ u, r.get k = some u ∧ Sub u p z

/-- `f` never puts a container inside another container: for a leaf that is not a container it does not return a container. -/
def KeepsPlain (f : List (PyVal α) → Except Err (PyVal α)) : Prop := ∀ x zs y, f (x :: zs) = .ok y → x.Plain → y.Plain

/-- A State whose paths are distinct, as in every dict, and whose values are good trees. -/
structure TreeState (s : State (PyVal α)) : Prop where
  nodup : DNodup s.mapping
  good : ∀ k x, s.get k = some x → GoodTree x

/-- The State `r` has the paths of `s`, and its values fit those of `s`. -/
structure FitsState (s r : State (PyVal α)) : Prop where
  keys : r.keys = s.keys
  fits : ∀ k x u, s.get k = some x → r.get k = some u → Fits x u

end Nnx
