import Verif.Spec.Pytree
/-
Independent specification vocabulary for state dicts of nested Pytree objects.
-/
namespace Nnx
variable {α : Type} [DecidableEq α]

/-- A Pytree object, as constructors leave it, whose fields may hold further such objects, to any depth (objects inside containers are
not looked at). -/
inductive Built (env : PEnv α) : PyVal α → Prop
  | part {v : PyVal α} (h : v.Leaf ∨ ∃ c w m, v = .cont c w m) : Built env v
  | tree {c : Cls} {vars : Md α} (wf : WFPytree vars)
      (decl : ∀ fs fr, (env c).dataclass = some (fs, fr) → Declared fs vars)
      (fields : ∀ k v, dget vars k = some v → v.isNode = true → Built env v) : Built env (.tree c vars)

/-- `s` could be a state dict for `v`: it has a dict wherever it has an entry for a nested object, the keys of a dict are distinct, and
the other entries are not containers. Nothing is said about which keys it has. -/
inductive StateFor : PyVal α → PyVal α → Prop
  | part {v s : PyVal α} (h : v.Leaf ∨ ∃ c w m, v = .cont c w m) (hs : s.Plain) : StateFor v s
  | tree {c : Cls} {vars st : Md α} (nodup : DNodup st)
      (fields : ∀ k v s, dget vars k = some v → v.isNode = true → dget st k = some s → StateFor v s) : StateFor (.tree c vars) (.dict st)

/-- The keys of `s` are exactly the node fields of `v`, and so on in every nested object. -/
inductive KeysFit : PyVal α → PyVal α → Prop
  | part {v s : PyVal α} (h : v.Leaf ∨ ∃ c w m, v = .cont c w m) : KeysFit v s
  | tree {c : Cls} {vars st : Md α} (keys : ∀ k, k ∈ dkeys st ↔ ∃ v, dget vars k = some v ∧ v.isNode = true)
      (fields : ∀ k v s, dget vars k = some v → v.isNode = true → dget st k = some s → KeysFit v s) : KeysFit (.tree c vars) (.dict st)

/-- `q` is `v` with the values of the state dict `s` in its node fields: an array is replaced, a container keeps its class and metadata and
takes the value, a nested object is restored from its part of the state dict, and every other field is as it was. -/
inductive RestoredTo : PyVal α → PyVal α → PyVal α → Prop
  | leaf {v s : PyVal α} (h : v.Leaf) : RestoredTo v s s
  | box {c : Cls} {w s : PyVal α} {m : Md α} : RestoredTo (.cont c w m) s (.cont c s m)
  | tree {c : Cls} {vars st vars' : Md α}
      (others : ∀ k, (∀ v, dget vars k = some v → v.isNode = false) → dget vars' k = dget vars k)
      (present : ∀ k v, dget vars k = some v → v.isNode = true → ∃ s q, dget st k = some s ∧ dget vars' k = some q)
      (fields : ∀ k v s q, dget vars k = some v → v.isNode = true → dget st k = some s → dget vars' k = some q → RestoredTo v s q) :
      RestoredTo (.tree c vars) (.dict st) (.tree c vars')

/-- Equal up to the order of the entries of dicts, at every depth. -/
inductive DictSame : PyVal α → PyVal α → Prop
  | refl (v : PyVal α) : DictSame v v
  | dict {m n : Md α} (dom : ∀ k, dget m k = none ↔ dget n k = none)
      (vals : ∀ k v w, dget m k = some v → dget n k = some w → DictSame v w) : DictSame (.dict m) (.dict n)

/-- The entries of `s` for arrays of `v` are arrays, and those for containers have no Pytree in them: what a saved state has. -/
inductive SavedArrays : PyVal α → PyVal α → Prop
  | leaf {v s : PyVal α} (h : v.Leaf) (hs : s.Leaf) (hn : s.isNode = true) : SavedArrays v s
  | box {c : Cls} {w s : PyVal α} {m : Md α} (hs : ∀ d n, s ≠ .tree d n) : SavedArrays (.cont c w m) s
  | tree {c : Cls} {vars st : Md α}
      (fields : ∀ k v s, dget vars k = some v → v.isNode = true → dget st k = some s → SavedArrays v s) : SavedArrays (.tree c vars) (.dict st)

end Nnx
